import Verif.Spec.Nesting
import Verif.Spec.Grammar
import Verif.Proof.Prefix
import Mathlib.Data.Finset.Card
import Mathlib.Data.Finset.Dedup

/-!
# How long viable prefixes are

All facts here are about the specification (no model function occurs).
-/

set_option linter.unusedSectionVars false
set_option autoImplicit false

namespace Verif.Spec

open Relation

variable {T L A : Type} {P : List (Rule T L)} {first : List (Node T L) → AugTok T → Prop} {m : A → T → Prop}

theorem UsesAfter.uses {l l' : L} (h : UsesAfter P l l') : Uses P l l' := by
  obtain ⟨r, h1, h2, a, b, -, h3⟩ := h
  exact ⟨r, h1, h2, by rw [h3]; simp⟩

theorem rhs_le_longest {r : Rule T L} (h : r ∈ P) : (rhs r).length ≤ longest P := by
  unfold longest
  induction P with
  | nil => cases h
  | cons q P ih =>
    rw [List.map_cons, List.foldr_cons]
    rcases List.mem_cons.mp h with rfl | h
    · exact Nat.le_max_left ..
    · exact (ih h).trans (Nat.le_max_right ..)

/-- A way to see it: levels of labels that never go up, and go down after the first symbol of a rule. -/
theorem leftOnly_of_levels [DecidableEq L] (level : L → Nat)
    (h1 : ∀ r ∈ P, ∀ n ∈ rhs r, (match n with | .production l => decide (level l ≤ level r.symbol) | _ => true) = true)
    (h2 : ∀ r ∈ P, ∀ n ∈ (rhs r).tail, (match n with | .production l => decide (level l < level r.symbol) | _ => true) = true) :
    LeftOnly P := by
  rintro l l' ⟨r, hr, rfl, a, b, ha, e⟩ hs
  have hlt : level l' < level r.symbol := by
    refine of_decide_eq_true (h2 r hr (.production l') ?_)
    cases a with
    | nil => exact absurd rfl ha
    | cons x a => rw [e]; simp
  have hle : ∀ {x y}, ReflTransGen (Uses P) x y → level y ≤ level x := by
    intro x y h
    induction h with
    | refl => exact Nat.le_refl _
    | tail _ h ih =>
      obtain ⟨q, hq, rfl, hm⟩ := h
      exact (of_decide_eq_true (h1 q hq _ hm)).trans ih
  have := hle hs
  omega

namespace Nesting

/-- `b` is used below a use after something, itself below `a`. -/
def Below (P : List (Rule T L)) (a b : L) : Prop :=
  ∃ c d, ReflTransGen (Uses P) a c ∧ UsesAfter P c d ∧ ReflTransGen (Uses P) d b

theorem Below.irrefl (hl : LeftOnly P) (a : L) : ¬ Below P a a := fun ⟨_, _, h1, h2, h3⟩ =>
  hl _ _ h2 (h3.trans h1)

theorem Below.uses {a a' b : L} (h : Uses P a a') (h' : Below P a' b) : Below P a b := by
  obtain ⟨c, d, h1, h2, h3⟩ := h'
  exact ⟨c, d, .head h h1, h2, h3⟩

open Classical in
/-- How many labels are below. -/
noncomputable def rank (P : List (Rule T L)) (a : L) : Nat :=
  ((P.map Rule.symbol).toFinset.filter (Below P a)).card

theorem rank_uses {a a' : L} (h : Uses P a a') : rank P a' ≤ rank P a := by
  classical
  refine Finset.card_le_card fun b hb => ?_
  rw [Finset.mem_filter] at hb ⊢
  exact ⟨hb.1, hb.2.uses h⟩

theorem rank_after (hl : LeftOnly P) {a : L} {r' : Rule T L} (hr : r' ∈ P) (h : UsesAfter P a r'.symbol) :
    rank P r'.symbol < rank P a := by
  classical
  refine Finset.card_lt_card ⟨fun b hb => ?_, fun hs => ?_⟩
  · rw [Finset.mem_filter] at hb ⊢
    exact ⟨hb.1, hb.2.uses h.uses⟩
  · have := @hs r'.symbol (by
      rw [Finset.mem_filter, List.mem_toFinset]
      exact ⟨List.mem_map_of_mem hr, _, _, .refl, h, .refl⟩)
    rw [Finset.mem_filter] at this
    exact Below.irrefl hl _ this.2

open Classical in
theorem rank_lt' (hl : LeftOnly P) {r : Rule T L} (hr : r ∈ P) : rank P r.symbol < labelCount P := by
  unfold labelCount
  rw [← List.card_toFinset]
  refine Finset.card_lt_card ⟨fun b hb => (Finset.mem_filter.mp hb).1, fun hs => ?_⟩
  have := @hs r.symbol (by rw [List.mem_toFinset]; exact List.mem_map_of_mem hr)
  rw [Finset.mem_filter] at this
  exact Below.irrefl hl _ this.2

theorem rank_lt [inst : DecidableEq L] (hl : LeftOnly P) {r : Rule T L} (hr : r ∈ P) :
    rank P r.symbol < labelCount P := by
  cases (Subsingleton.elim _ _ : inst = fun a b => Classical.propDecidable (a = b))
  exact rank_lt' hl hr

theorem valid_rule {root : Rule T L} (hroot : P[0]? = some root) {γ : List (Node T L)} {i d : Nat}
    (h : Valid P γ i d) : ∃ r, P[i]? = some r ∧ d ≤ (rhs r).length := by
  induction h with
  | root => exact ⟨_, hroot, Nat.zero_le _⟩
  | close _ _ _ h4 _ => exact ⟨_, h4, Nat.zero_le _⟩
  | @move γ i d r X β _ h2 h3 _ =>
    refine ⟨r, h2, Nat.succ_le_of_lt (Nat.lt_of_not_le fun hn => ?_)⟩
    rw [List.drop_eq_nil_of_le hn] at h3
    cases h3

/-- A viable prefix grows only by going down. -/
theorem valid_rank (hl : LeftOnly P) {root : Rule T L} (hroot : P[0]? = some root) {γ : List (Node T L)} {i d : Nat}
    (h : Valid P γ i d) : ∀ {r : Rule T L}, P[i]? = some r → rank P r.symbol ≤ rank P root.symbol ∧
      γ.length ≤ longest P * (rank P root.symbol - rank P r.symbol) + d := by
  induction h with
  | root =>
    intro r hr
    rw [hroot] at hr
    cases hr
    exact ⟨Nat.le_refl _, by simp⟩
  | @close γ i d j q r' β h1 h2 h3 h4 ih =>
    intro r hr
    rw [h4] at hr
    cases hr
    obtain ⟨h5, h6⟩ := ih h2
    have hq := List.mem_of_getElem? h2
    have hmem : Node.production r'.symbol ∈ rhs q :=
      List.mem_of_mem_drop (i := d) (by rw [h3]; exact List.mem_cons_self)
    have hu := rank_uses (P := P) ⟨q, hq, rfl, hmem⟩
    refine ⟨hu.trans h5, ?_⟩
    rw [Nat.add_zero]
    cases d with
    | zero =>
      refine h6.trans ?_
      rw [Nat.add_zero]
      exact Nat.mul_le_mul_left _ (by omega)
    | succ d =>
      have hsplit : rhs q = (rhs q).take (d + 1) ++ .production r'.symbol :: β := by
        rw [← h3, List.take_append_drop]
      have hlen : d + 1 ≤ (rhs q).length := by
        obtain ⟨q', h7, h8⟩ := valid_rule hroot h1
        rw [h2] at h7
        cases h7
        exact h8
      have hne : (rhs q).take (d + 1) ≠ [] := by
        intro e
        have := congrArg List.length e
        rw [List.length_take] at this
        simp only [List.length_nil] at this
        omega
      have hlt := rank_after hl (List.mem_of_getElem? h4) ⟨q, hq, rfl, _, _, hne, hsplit⟩
      have hm := hlen.trans (rhs_le_longest hq)
      calc γ.length ≤ longest P * (rank P root.symbol - rank P q.symbol) + longest P := by omega
        _ = longest P * (rank P root.symbol - rank P q.symbol + 1) := by rw [Nat.mul_add, Nat.mul_one]
        _ ≤ _ := Nat.mul_le_mul_left _ (by omega)
  | @move γ i d q X β h1 h2 h3 ih =>
    intro r hr
    obtain ⟨h5, h6⟩ := ih hr
    refine ⟨h5, ?_⟩
    rw [List.length_append, List.length_singleton]
    omega

/-- **Viable prefixes are short.** -/
theorem valid_length [DecidableEq L] (hl : LeftOnly P) {root : Rule T L} (hroot : P[0]? = some root)
    {γ : List (Node T L)} {i d : Nat} (h : Valid P γ i d) : γ.length ≤ longest P * labelCount P := by
  obtain ⟨r, hr, hd⟩ := valid_rule hroot h
  obtain ⟨-, h2⟩ := valid_rank hl hroot h hr
  have h3 := rank_lt hl (List.mem_of_getElem? hroot)
  have h4 := rhs_le_longest (List.mem_of_getElem? hr)
  calc γ.length ≤ longest P * (rank P root.symbol - rank P r.symbol) + longest P := by omega
    _ = longest P * (rank P root.symbol - rank P r.symbol + 1) := by rw [Nat.mul_add, Nat.mul_one]
    _ ≤ _ := Nat.mul_le_mul_left _ (by omega)

/-! ### Other recursion makes them long -/

/-- After `γ`, every rule of `l` may begin. -/
def Open (P : List (Rule T L)) (γ : List (Node T L)) (l : L) : Prop :=
  ∀ j r, P[j]? = some r → r.symbol = l → Valid P γ j 0

theorem Open.down {γ : List (Node T L)} {r : Rule T L} {l' : L} {a b : List (Node T L)} (h : Open P γ r.symbol)
    (hr : r ∈ P) (e : rhs r = a ++ .production l' :: b) : Open P (γ ++ a) l' := by
  obtain ⟨i, hi⟩ := List.mem_iff_getElem?.mp hr
  have hv := (h i r hi rfl).extend (α := a) (β := .production l' :: b) hi (by simpa using e)
  rintro j r' hj rfl
  refine .close (β := b) hv hi ?_ hj
  rw [Nat.zero_add, e, List.drop_left]

theorem Open.uses {γ : List (Node T L)} {l l' : L} (h : Open P γ l) (hu : Uses P l l') :
    ∃ δ, Open P (γ ++ δ) l' := by
  obtain ⟨r, hr, rfl, hm⟩ := hu
  obtain ⟨a, b, e⟩ := List.append_of_mem hm
  exact ⟨a, h.down hr e⟩

theorem Open.star {γ : List (Node T L)} {l l' : L} (h : Open P γ l) (hu : ReflTransGen (Uses P) l l') :
    ∃ δ, Open P (γ ++ δ) l' := by
  induction hu with
  | refl => exact ⟨[], by simpa using h⟩
  | tail _ h2 ih =>
    obtain ⟨δ, h3⟩ := ih
    obtain ⟨δ', h4⟩ := h3.uses h2
    exact ⟨δ ++ δ', by simpa using h4⟩

theorem Open.reach (ho : RootOnce P) {root : Rule T L} (hroot : P[0]? = some root) {l : L}
    (h : Reachable P root.symbol l) : ∃ γ, Open P γ l := by
  induction h with
  | root =>
    refine ⟨[], fun j r hj e => ?_⟩
    cases ho j root r hroot hj e
    exact .root
  | @step r l _ hr hm ih =>
    obtain ⟨γ, h⟩ := ih
    obtain ⟨δ, h'⟩ := h.uses ⟨r, hr, rfl, List.mem_filter.mpr ⟨hm, rfl⟩⟩
    exact ⟨_, h'⟩

/-- **There are viable prefixes of any length.** -/
theorem valid_pump (ho : RootOnce P) {root : Rule T L} (hroot : P[0]? = some root)
    (hr : ∀ r ∈ P, Reachable P root.symbol r.symbol) (hl : ¬ LeftOnly P) (n : Nat) :
    ∃ γ i d, n ≤ γ.length ∧ Valid P γ i d := by
  unfold LeftOnly at hl
  push Not at hl
  obtain ⟨l, l', h1, h2⟩ := hl
  obtain ⟨r, h3, rfl, a, b, h4, h5⟩ := h1
  have key : ∀ n : Nat, ∃ γ, n ≤ γ.length ∧ Open P γ r.symbol := by
    intro n
    induction n with
    | zero =>
      obtain ⟨γ, h⟩ := Open.reach ho hroot (hr r h3)
      exact ⟨γ, Nat.zero_le _, h⟩
    | succ n ih =>
      obtain ⟨γ, h6, h7⟩ := ih
      obtain ⟨δ, h8⟩ := (h7.down h3 h5).star h2
      refine ⟨_, ?_, h8⟩
      have := List.length_pos_iff.mpr h4
      simp only [List.length_append]
      omega
  obtain ⟨γ, h6, h7⟩ := key n
  obtain ⟨i, hi⟩ := List.mem_iff_getElem?.mp h3
  exact ⟨γ, i, 0, h6, h7 i r hi rfl⟩

/-- Every viable prefix is the stack of the parser at some point of reading some sentence. -/
theorem valid_reached (hp : ProductiveM P m) (hf : FirstClosed P first) (hu : RootOk P) {root : Rule T L}
    (hroot : P[0]? = some root) {γ : List (Node T L)} {i d : Nat} (h : Valid P γ i d) :
    ∃ z x, Look m z x ∧ ValidLook P first γ i d x ∧
      ∀ {r : Rule T L} {f : Forest A} {v : List A}, P[i]? = some r → ParsesM P m f ((rhs r).drop d) v →
        ∃ u ts tr f', Steps P first m (.start (u ++ v ++ z)) ⟨γ, ts, v ++ z⟩ tr ∧
          ParsesM P m f' [.production root.symbol] (u ++ v ++ z) := by
  induction h with
  | root =>
    refine ⟨[], .eos, .eos, .root, fun {r f v} hr h => ⟨[], [], [], .node 0 f .nil, ?_, ?_⟩⟩
    · simpa [Config.start] using Steps.refl (P := P) (first := first) (m := m) (Config.start v)
    · rw [hroot] at hr
      cases hr
      have h3 : ParsesM P m f root.rule v := ParsesM.strip_iff.mp (by simpa [rhs_def] using h)
      simpa using ParsesM.prod hroot h3 .nil
  | @close γ i d j q r' β h1 h2 h3 h4 ih =>
    obtain ⟨z, x, hz, hx, k⟩ := ih
    obtain ⟨fb, b, hb⟩ := hp.all (List.mem_of_getElem? h2) β fun n hn =>
      List.mem_of_mem_drop (l := rhs q) (i := d) (by rw [h3]; exact List.mem_cons_of_mem _ hn)
    have hβ : strip β = β := strip_of_drop (drop_succ_of_drop h3)
    obtain ⟨hb1, hb2⟩ := hf.parses hb []
    rw [hβ, List.append_nil] at hb1 hb2
    obtain ⟨y, hy, hfy⟩ : ∃ y, Look m (b ++ z) y ∧ MayFollow P first γ i d β y := by
      cases b with
      | nil => exact ⟨x, hz, .inr ⟨hb1 _ rfl hf.nil, hx⟩⟩
      | cons a b =>
        obtain ⟨t, h5, h6⟩ := hb2 a b rfl
        exact ⟨_, .tok h5, .inl h6⟩
    refine ⟨b ++ z, y, hy, hfy.close hy.ne_eps h1 h2 h3 h4, fun {r f v} hr h => ?_⟩
    rw [h4] at hr
    cases hr
    have h8 : ParsesM P m (.node j f fb) ((rhs q).drop d) (v ++ b) := by
      rw [h3]
      exact .prod h4 (ParsesM.strip_iff.mp (by simpa [rhs_def] using h)) hb
    obtain ⟨u, ts, tr, f', h9, h10⟩ := k h2 h8
    exact ⟨u, ts, tr, f', by simpa using h9, by simpa using h10⟩
  | @move γ i d q X β h1 h2 h3 ih =>
    obtain ⟨z, x, hz, hx, k⟩ := ih
    refine ⟨z, x, hz, .move hx h2 h3, fun {r f v} hr h => ?_⟩
    rw [h2] at hr
    cases hr
    have hX : X ∈ rhs q := List.mem_of_mem_drop (i := d) (by rw [h3]; exact List.mem_cons_self)
    obtain ⟨fX, wX, hwX⟩ := hp q (List.mem_of_getElem? h2) X hX
    rw [drop_succ_of_drop h3] at h
    obtain ⟨f2, h9⟩ := hwX.cons_append h
    rw [← h3] at h9
    obtain ⟨u, ts, tr, f', h10, h11⟩ := k h2 h9
    have hsX : strip [X] = [X] := strip_eq_self (by
      intro hm
      cases List.mem_singleton.mp hm
      exact not_eps_of_mem_strip hX)
    have hβ : strip β = β := strip_of_drop (drop_succ_of_drop h3)
    obtain ⟨hb1, hb2⟩ := hf.parses h []
    rw [hβ, List.append_nil] at hb1 hb2
    obtain ⟨y, hy, hfy⟩ : ∃ y, Look m (v ++ z) y ∧ MayFollow P first γ i d β y := by
      cases v with
      | nil => exact ⟨x, hz, .inr ⟨hb1 _ rfl hf.nil, hx⟩⟩
      | cons a v =>
        obtain ⟨t, h5, h6⟩ := hb2 a v rfl
        exact ⟨_, .tok h5, .inl h6⟩
    obtain ⟨tr', h12⟩ := ParsesM.steps hf hu hwX (ts := ts) h1 h2 (by rw [hsX]; exact h3) hy hfy
    rw [hsX] at h12
    refine ⟨u ++ wX, ts ++ fX.trees, tr ++ tr', f', ?_, by simpa using h11⟩
    have h13 : Steps P first m (.start (u ++ (wX ++ v) ++ z)) ⟨γ, ts, wX ++ (v ++ z)⟩ tr := by simpa using h10
    simpa using h13.trans h12

/-- If not all recursion is left recursion, sentences fill any stack. -/
theorem deep (hp : ProductiveM P m) (hf : FirstClosed P first) (hu : RootOk P) {root : Rule T L}
    (hroot : P[0]? = some root) {γ : List (Node T L)} {i d : Nat} (h : Valid P γ i d) :
    ∃ w ts z tr f, Steps P first m (.start w) ⟨γ, ts, z⟩ tr ∧ ParsesM P m f [.production root.symbol] w := by
  obtain ⟨r, hr, -⟩ := valid_rule hroot h
  obtain ⟨z, x, -, -, k⟩ := valid_reached hp hf hu hroot h
  obtain ⟨f, v, hv⟩ := hp.all (List.mem_of_getElem? hr) ((rhs r).drop d) fun n hn => List.mem_of_mem_drop hn
  obtain ⟨u, ts, tr, f', h1, h2⟩ := k hr hv
  exact ⟨_, ts, _, tr, f', h1, h2⟩

end Nesting

end Verif.Spec
