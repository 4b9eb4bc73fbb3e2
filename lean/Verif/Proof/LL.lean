import Verif.Proof.KnuthExact
import Verif.Spec.LL

/-!
# LL(1) grammars have no LR(1) conflicts

For what has been read and the next token, the items that can go on with this token form one chain: one item with
something read, and then the beginnings of rules, each predicted by the token. So only one of them, the last, can
demand an action.
-/

set_option linter.unusedSectionVars false
set_option autoImplicit false

namespace Verif.LL
open Spec

section
variable {T L : Type} {P : List (Rule T L)}

/-! ### Where labels occur -/

/-- `α` is part of something the root can be rewritten to. -/
def Occ (P : List (Rule T L)) (α : List (Node T L)) : Prop :=
  ∃ root x y, P[0]? = some root ∧ Rewrites P [.production root.symbol] (x ++ α ++ y)

theorem strip_split {α : List (Node T L)} : ∀ {d : Nat} {X : Node T L} {β : List (Node T L)},
    (strip α).drop d = X :: β → ∃ a b, α = a ++ X :: b ∧ strip b = β := by
  induction α with
  | nil => intro d X β h; simp at h
  | cons n α ih =>
    intro d X β h
    have step : strip (n :: α) = n :: strip α → ∃ a b, n :: α = a ++ X :: b ∧ strip b = β := by
      intro e
      rw [e] at h
      cases d with
      | zero =>
        simp only [List.drop_zero, List.cons.injEq] at h
        obtain ⟨rfl, rfl⟩ := h
        exact ⟨[], α, rfl, rfl⟩
      | succ d =>
        obtain ⟨a, b, rfl, hb⟩ := ih (d := d) (by simpa using h)
        exact ⟨n :: a, b, rfl, hb⟩
    match n with
    | .terminal .epsilon =>
      rw [strip_eps] at h
      obtain ⟨a, b, rfl, hb⟩ := ih h
      exact ⟨_ :: a, b, rfl, hb⟩
    | .terminal (.token k) => exact step rfl
    | .terminal .eos => exact step rfl
    | .production l => exact step rfl

theorem Occ.of_rule {r : Rule T L} (h : Occ P [.production r.symbol]) (hr : r ∈ P) : Occ P r.rule := by
  obtain ⟨root, x, y, h0, h⟩ := h
  refine ⟨root, x, y, h0, h.trans (.step ?_ (.refl _))⟩
  have := Rewrite.mk x y r hr
  simpa using this

theorem Occ.sub {α : List (Node T L)} (a b : List (Node T L)) (h : Occ P (a ++ α ++ b)) : Occ P α := by
  obtain ⟨root, x, y, h0, h⟩ := h
  exact ⟨root, x ++ a, b ++ y, h0, by simpa using h⟩

theorem _root_.Verif.Spec.Follow.occ {l : L} {t : AugTok T} (h : Follow P l t) : Occ P [.production l] := by
  obtain ⟨root, x, y, h0, h, -⟩ := h
  exact ⟨root, x, y, h0, by simpa using h⟩

/-- What begins the rest of a rule may follow a label in the rule. -/
theorem follow_first {l : L} {t : AugTok T} {α : List (Node T L)} (h : Occ P (.production l :: α)) (ht : t ≠ .epsilon)
    (hf : First P α t) : Follow P l t := by
  obtain ⟨root, x, y, h0, h⟩ := h
  refine ⟨root, x, α ++ y, h0, by simpa using h, .inr ⟨ht, first_iff.mp (First.append.mpr (.inl ⟨hf, ht⟩))⟩⟩

theorem follow_rule_first {r : Rule T L} {l : L} {t : AugTok T} {d : Nat} {β : List (Node T L)}
    (h : Occ P [.production r.symbol]) (hr : r ∈ P) (hd : (rhs r).drop d = .production l :: β) (ht : t ≠ .epsilon)
    (hf : First P β t) : Follow P l t := by
  obtain ⟨a, b, hab, rfl⟩ := strip_split hd
  have := h.of_rule hr
  rw [hab] at this
  exact follow_first (Occ.sub a [] (by simpa using this)) ht (first_strip.mp hf)

/-- What may follow a rule may follow a label in it, if the rest can vanish. -/
theorem follow_rule_pass {r : Rule T L} {l : L} {t : AugTok T} {d : Nat} {β : List (Node T L)}
    (h : Follow P r.symbol t) (hr : r ∈ P) (hd : (rhs r).drop d = .production l :: β) (hf : First P β .epsilon) :
    Follow P l t := by
  obtain ⟨a, b, hab, rfl⟩ := strip_split hd
  obtain ⟨root, x, y, h0, h, hy⟩ := h
  have hb := first_strip.mp hf
  refine ⟨root, x ++ a, b ++ y, h0, h.trans (.step ?_ (.refl _)), ?_⟩
  · have := Rewrite.mk x y r hr
    rw [hab] at this
    simpa using this
  · rcases hy with ⟨ht, hy⟩ | ⟨ht, hy⟩
    · exact .inl ⟨ht, first_iff.mp (First.append.mpr (.inr ⟨hb, first_iff.mpr hy⟩))⟩
    · exact .inr ⟨ht, first_iff.mp (First.append.mpr (.inr ⟨hb, first_iff.mpr hy⟩))⟩

theorem occ_of_valid {γ : List (Node T L)} {i d : Nat} (h : Valid P γ i d) :
    ∀ {r : Rule T L}, P[i]? = some r → Occ P [.production r.symbol] := by
  induction h with
  | root => intro r hr; exact ⟨r, [], [], hr, by simpa using Rewrites.refl _⟩
  | @close γ i d j r1 r2 β _ h1 h2 h3 ih =>
    intro r hr
    rw [h3] at hr
    cases hr
    obtain ⟨a, b, hab, -⟩ := strip_split h2
    have := (ih h1).of_rule (List.mem_of_getElem? h1)
    rw [hab] at this
    exact Occ.sub a b (by simpa using this)
  | move _ _ _ ih => exact ih

theorem follow_of_validLook {γ : List (Node T L)} {i d : Nat} {t : AugTok T} (h : ValidLook P (InFirst P) γ i d t) :
    ∀ {r : Rule T L}, P[i]? = some r → Follow P r.symbol t := by
  induction h with
  | root => intro r hr; exact ⟨r, [], [], hr, by simpa using Rewrites.refl _, .inl ⟨rfl, inFirst_nil⟩⟩
  | @closeFirst γ i d j r1 r2 β t h0 h1 h2 h3 h4 h5 =>
    intro r hr
    rw [h3] at hr
    cases hr
    exact follow_rule_first (occ_of_valid h0 h1) (List.mem_of_getElem? h1) h2 h4 (first_iff.mpr h5)
  | @closePass γ i d j r1 r2 β t h0 h1 h2 h3 h4 ih =>
    intro r hr
    rw [h3] at hr
    cases hr
    exact follow_rule_pass (ih h1) (List.mem_of_getElem? h1) h2 (first_iff.mpr h4)
  | move _ _ _ ih => exact ih

theorem validLook_ne {γ : List (Node T L)} {i d : Nat} {t : AugTok T} (h : ValidLook P (InFirst P) γ i d t) :
    t ≠ .epsilon := by
  induction h with
  | root => simp
  | closeFirst _ _ _ _ h _ => exact h
  | closePass _ _ _ _ _ ih => exact ih
  | move _ _ _ ih => exact ih

/-! ### Predictions that go round in a circle -/

/-- The rule that `t` predicts for `l` begins with `l'`. -/
def Next (P : List (Rule T L)) (t : AugTok T) (l l' : L) : Prop :=
  ∃ (j : Nat) (r : Rule T L) (β : List (Node T L)), P[j]? = some r ∧ r.symbol = l ∧ Predicts P r t ∧
    rhs r = .production l' :: β

theorem next_head {t : AugTok T} {m l : L} (h : Relation.TransGen (Next P t) m l) (hl : Relation.TransGen (Next P t) l l) :
    ∃ m', Next P t m m' ∧ Relation.TransGen (Next P t) m' l := by
  induction h using Relation.TransGen.head_induction_on with
  | single h => exact ⟨l, h, hl⟩
  | head h1 h2 _ => exact ⟨_, h1, h2⟩

/-- A label on such a circle cannot vanish before `t`. -/
theorem circle_epsilon (hll : LL1 P) {t : AugTok T} (ht : t ≠ .epsilon) {l : L} (hl : Relation.TransGen (Next P t) l l)
    {α : List (Node T L)} {e : AugTok T} (h : First P α e) : e = .epsilon → ∀ {m : L} {β : List (Node T L)},
      strip α = .production m :: β → Relation.TransGen (Next P t) m l → Follow P m t → False := by
  induction h with
  | nil => intro _ m β h; simp at h
  | eps _ ih => intro he m β h; exact ih he (by simpa using h)
  | term hne => intro he; exact absurd he hne
  | take _ _ hne => intro he; exact absurd he hne
  | @skip r α e hr h1 h2 ih1 _ =>
    intro he m β h hc hf
    simp only [strip_prod, List.cons.injEq, Node.production.injEq] at h
    obtain ⟨rfl, -⟩ := h
    obtain ⟨k, hk⟩ := List.mem_iff_getElem?.mp hr
    obtain ⟨m', ⟨j, r', β', hj, hs, hp, hd⟩, hc'⟩ := next_head hc hl
    have := hll k j r r' t hk hj hs.symm ⟨ht, .inr ⟨first_iff.mp h1, hf⟩⟩ hp
    subst this
    rw [hk] at hj
    cases hj
    refine ih1 rfl hd hc' (follow_rule_pass (d := 0) hf hr (by simpa using hd) ?_)
    have h3 := first_strip.mpr h1
    rw [← rhs_def, hd] at h3
    cases h3 with
    | skip _ _ h => exact h
    | take _ _ h => exact absurd rfl h

/-- And it does not begin with `t`. -/
theorem circle_first (hll : LL1 P) {t : AugTok T} (ht : t ≠ .epsilon) {l : L} (hl : Relation.TransGen (Next P t) l l)
    {α : List (Node T L)} {t' : AugTok T} (h : First P α t') : t' = t → ∀ {m : L} {β : List (Node T L)},
      strip α = .production m :: β → Relation.TransGen (Next P t) m l → Occ P α → False := by
  induction h with
  | nil => intro _ m β h; simp at h
  | eps _ ih =>
    intro he m β h hc ho
    exact ih he (by simpa using h) hc (Occ.sub [.terminal .epsilon] [] (by simpa using ho))
  | @term t' α hne =>
    intro he m β h
    cases t' <;> simp at h
    exact absurd rfl hne
  | @skip r α t' hr h1 h2 _ _ =>
    intro he m β h hc ho
    subst he
    simp only [strip_prod, List.cons.injEq, Node.production.injEq] at h
    obtain ⟨rfl, -⟩ := h
    exact circle_epsilon hll ht hl (First.skip hr h1 .nil) rfl rfl hc (follow_first ho ht h2)
  | @take r α t' hr h1 hne ih =>
    intro he m β h hc ho
    subst he
    simp only [strip_prod, List.cons.injEq, Node.production.injEq] at h
    obtain ⟨rfl, -⟩ := h
    obtain ⟨k, hk⟩ := List.mem_iff_getElem?.mp hr
    obtain ⟨m', ⟨j, r', β', hj, hs, hp, hd⟩, hc'⟩ := next_head hc hl
    have := hll k j r r' _ hk hj hs.symm ⟨ht, .inl (first_iff.mp h1)⟩ hp
    subst this
    rw [hk] at hj
    cases hj
    exact ih rfl hd hc' (Occ.of_rule (Occ.sub [] α (by simpa using ho)) hr)

/-! ### Items that can go on with a token -/

/-- The item is valid after `γ`, and `t` can come next. -/
def Compat (P : List (Rule T L)) (γ : List (Node T L)) (t : AugTok T) (x : Nat × Nat) : Prop :=
  Valid P γ x.1 x.2 ∧ ∃ r, P[x.1]? = some r ∧
    (First P ((rhs r).drop x.2) t ∨ (First P ((rhs r).drop x.2) .epsilon ∧ ValidLook P (InFirst P) γ x.1 x.2 t))

/-- The second item begins a rule for the label that stands next in the first. -/
def Step (P : List (Rule T L)) (γ : List (Node T L)) (t : AugTok T) (x y : Nat × Nat) : Prop :=
  ∃ r r' β, P[x.1]? = some r ∧ (rhs r).drop x.2 = .production r'.symbol :: β ∧ P[y.1]? = some r' ∧ y.2 = 0 ∧
    Compat P γ t y

/-- Something of the rule has been read, or nothing at all. -/
def Kern (γ : List (Node T L)) (x : Nat × Nat) : Prop := 0 < x.2 ∨ (γ = [] ∧ x = (0, 0))

theorem Compat.predicts {γ : List (Node T L)} {t : AugTok T} {j : Nat} {r : Rule T L} (ht : t ≠ .epsilon)
    (h : Compat P γ t (j, 0)) (hr : P[j]? = some r) : Predicts P r t := by
  obtain ⟨h1, r', hr', h2⟩ := h
  rw [hr] at hr'
  cases hr'
  simp only [List.drop_zero] at h2
  rcases h2 with h2 | ⟨h2, h3⟩
  · exact ⟨ht, .inl (first_iff.mp (first_strip.mp h2))⟩
  · exact ⟨ht, .inr ⟨first_iff.mp (first_strip.mp h2), follow_of_validLook h3 hr⟩⟩

theorem step_unique (hll : LL1 P) {γ : List (Node T L)} {t : AugTok T} (ht : t ≠ .epsilon) :
    Relator.RightUnique (Step P γ t) := by
  rintro x ⟨j, d⟩ ⟨j', d'⟩ ⟨r, r1, β, h1, h2, h3, h4, h5⟩ ⟨r', r1', β', h1', h2', h3', h4', h5'⟩
  cases h4
  cases h4'
  rw [h1] at h1'
  cases h1'
  rw [h2] at h2'
  simp only [List.cons.injEq, Node.production.injEq] at h2'
  rw [hll j j' r1 r1' t h3 h3' h2'.1 (h5.predicts ht h3) (h5'.predicts ht h3')]

/-- Every item that can go on with `t` is reached from one with something read. -/
theorem up_first {γ : List (Node T L)} {t : AugTok T} (ht : t ≠ .epsilon) {i d : Nat} (h : Valid P γ i d) :
    ∀ {r : Rule T L}, P[i]? = some r → First P ((rhs r).drop d) t →
      ∃ x, Kern γ x ∧ Compat P γ t x ∧ Relation.ReflTransGen (Step P γ t) x (i, d) := by
  induction h with
  | root => intro r hr hf; exact ⟨(0, 0), .inr ⟨rfl, rfl⟩, ⟨.root, r, hr, .inl hf⟩, .refl⟩
  | @move γ i d r1 X β h1 h2 h3 _ =>
    intro r hr hf
    exact ⟨(i, d + 1), .inl (Nat.succ_pos d), ⟨.move h1 h2 h3, r, hr, .inl hf⟩, .refl⟩
  | @close γ i d j r1 r2 β h0 h1 h2 h3 ih =>
    intro r hr hf
    rw [h3] at hr
    cases hr
    obtain ⟨x, k1, k2, k3⟩ := ih h1 (by
      rw [h2]
      exact .take (List.mem_of_getElem? h3) (first_strip.mp hf) ht)
    exact ⟨x, k1, k2, k3.tail ⟨r1, r2, β, h1, h2, h3, rfl, .close h0 h1 h2 h3, r2, h3, .inl hf⟩⟩

theorem up_look {γ : List (Node T L)} {t : AugTok T} {i d : Nat} (h : ValidLook P (InFirst P) γ i d t) :
    ∀ {r : Rule T L}, P[i]? = some r → First P ((rhs r).drop d) .epsilon →
      ∃ x, Kern γ x ∧ Compat P γ t x ∧ Relation.ReflTransGen (Step P γ t) x (i, d) := by
  induction h with
  | root => intro r hr hf; exact ⟨(0, 0), .inr ⟨rfl, rfl⟩, ⟨.root, r, hr, .inr ⟨hf, .root⟩⟩, .refl⟩
  | @move γ i d r1 X β t h1 h2 h3 _ =>
    intro r hr hf
    exact ⟨(i, d + 1), .inl (Nat.succ_pos d), ⟨.move h1.valid h2 h3, r, hr, .inr ⟨hf, .move h1 h2 h3⟩⟩, .refl⟩
  | @closeFirst γ i d j r1 r2 β t h0 h1 h2 h3 h4 h5 =>
    intro r hr hf
    rw [h3] at hr
    cases hr
    obtain ⟨x, k1, k2, k3⟩ := up_first h4 h0 h1 (by
      rw [h2]
      exact .skip (List.mem_of_getElem? h3) (first_strip.mp hf) (first_iff.mpr h5))
    exact ⟨x, k1, k2, k3.tail ⟨r1, r2, β, h1, h2, h3, rfl, .close h0 h1 h2 h3, r2, h3,
      .inr ⟨hf, .closeFirst h0 h1 h2 h3 h4 h5⟩⟩⟩
  | @closePass γ i d j r1 r2 β t h0 h1 h2 h3 h4 ih =>
    intro r hr hf
    rw [h3] at hr
    cases hr
    obtain ⟨x, k1, k2, k3⟩ := ih h1 (by
      rw [h2]
      exact .skip (List.mem_of_getElem? h3) (first_strip.mp hf) (first_iff.mpr h4))
    exact ⟨x, k1, k2, k3.tail ⟨r1, r2, β, h1, h2, h3, rfl, .close h0.valid h1 h2 h3, r2, h3,
      .inr ⟨hf, .closePass h0 h1 h2 h3 h4⟩⟩⟩

theorem Compat.up {γ : List (Node T L)} {t : AugTok T} (ht : t ≠ .epsilon) {y : Nat × Nat} (h : Compat P γ t y) :
    ∃ x, Kern γ x ∧ Compat P γ t x ∧ Relation.ReflTransGen (Step P γ t) x y := by
  obtain ⟨h1, r, hr, h2 | ⟨h2, h3⟩⟩ := h
  · exact up_first ht h1 hr h2
  · exact up_look h3 hr h2

/-- Only one item with something read can go on with `t`. -/
def OneKern (P : List (Rule T L)) (γ : List (Node T L)) : Prop :=
  ∀ (t : AugTok T) (x y : Nat × Nat), t ≠ .epsilon → Kern γ x → Kern γ y → Compat P γ t x → Compat P γ t y → x = y

/-- Of two items that can go on with `t`, one is reached from the other. -/
theorem OneKern.total (hll : LL1 P) {γ : List (Node T L)} (ho : OneKern P γ) {t : AugTok T} (ht : t ≠ .epsilon)
    {x y : Nat × Nat} (hx : Compat P γ t x) (hy : Compat P γ t y) :
    Relation.ReflTransGen (Step P γ t) x y ∨ Relation.ReflTransGen (Step P γ t) y x := by
  obtain ⟨k, h1, h2, h3⟩ := hx.up ht
  obtain ⟨k', h1', h2', h3'⟩ := hy.up ht
  cases ho t k k' ht h1 h1' h2 h2'
  exact Relation.ReflTransGen.total_of_right_unique (step_unique hll ht) h3 h3'

/-- No label stands next. -/
def Last (P : List (Rule T L)) (x : Nat × Nat) : Prop :=
  ∀ r l β, P[x.1]? = some r → (rhs r).drop x.2 ≠ .production l :: β

theorem Last.stop {γ : List (Node T L)} {t : AugTok T} {x y : Nat × Nat} (h : Last P x)
    (hs : Relation.ReflTransGen (Step P γ t) x y) : x = y := by
  rcases hs.cases_head with h1 | ⟨z, ⟨r, r', β, h1, h2, -⟩, -⟩
  · exact h1
  · exact absurd h2 (h r _ β h1)

theorem OneKern.last (hll : LL1 P) {γ : List (Node T L)} (ho : OneKern P γ) {t : AugTok T} (ht : t ≠ .epsilon)
    {x y : Nat × Nat} (hx : Compat P γ t x) (hy : Compat P γ t y) (lx : Last P x) (ly : Last P y) : x = y := by
  rcases ho.total hll ht hx hy with h | h
  · exact lx.stop h
  · exact (ly.stop h).symm

theorem next_of_steps {γ : List (Node T L)} {t : AugTok T} (ht : t ≠ .epsilon) {x y : Nat × Nat}
    (h : Relation.TransGen (Step P γ t) x y) : ∀ {r r' : Rule T L} {l l' : L} {β β' : List (Node T L)},
      P[x.1]? = some r → (rhs r).drop x.2 = .production l :: β → P[y.1]? = some r' →
      (rhs r').drop y.2 = .production l' :: β' → Relation.TransGen (Next P t) l l' := by
  have one : ∀ {x y : Nat × Nat}, Step P γ t x y → ∀ {r r' : Rule T L} {l l' : L} {β β' : List (Node T L)},
      P[x.1]? = some r → (rhs r).drop x.2 = .production l :: β → P[y.1]? = some r' →
      (rhs r').drop y.2 = .production l' :: β' → Next P t l l' := by
    rintro x ⟨j, d⟩ ⟨r1, r2, β1, h1, h2, h3, h4, h5⟩ r r' l l' β β' hr hl hr' hl'
    cases h4
    rw [h1] at hr
    cases hr
    rw [h3] at hr'
    cases hr'
    rw [h2] at hl
    cases hl
    exact ⟨j, r2, β', h3, rfl, h5.predicts ht h3, by simpa using hl'⟩
  induction h with
  | single h =>
    intro r r' l l' β β' hr hl hr' hl'
    exact .single (one h hr hl hr' hl')
  | @tail y z h1 h2 ih =>
    intro r r' l l' β β' hr hl hr' hl'
    obtain ⟨r1, r2, β1, k1, k2, -⟩ := id h2
    exact (ih hr hl k1 k2).tail (one h2 k1 k2 hr' hl')

theorem valid_kern {δ : List (Node T L)} {i d : Nat} (h : Valid P δ i d) (hd : 0 < d) :
    ∃ γ X r β e, δ = γ ++ [X] ∧ d = e + 1 ∧ Valid P γ i e ∧ P[i]? = some r ∧ (rhs r).drop e = X :: β := by
  cases h with
  | root => cases hd
  | close => cases hd
  | move h1 h2 h3 => exact ⟨_, _, _, _, _, rfl, rfl, h1, h2, h3⟩

theorem validLook_kern {γ : List (Node T L)} {X : Node T L} {i e : Nat} {t : AugTok T} {δ : List (Node T L)} {d : Nat}
    (h : ValidLook P (InFirst P) δ i d t) (hδ : δ = γ ++ [X]) (hd : d = e + 1) : ValidLook P (InFirst P) γ i e t := by
  cases h with
  | root => cases hd
  | closeFirst => cases hd
  | closePass => cases hd
  | move h1 h2 h3 =>
    cases hd
    obtain ⟨rfl, -⟩ := List.append_inj' hδ rfl
    exact h1

/-- What stands first in what `α` derives. -/
theorem first_of_derives {α : List (Node T L)} {w : List T} (h : Derives P α w) :
    (w = [] → First P α .epsilon) ∧ ∀ k v, w = k :: v → First P α (.token k) := by
  induction h with
  | nil => exact ⟨fun _ => .nil, by simp⟩
  | tok _ _ =>
    refine ⟨by simp, fun k v e => ?_⟩
    cases e
    exact .term (by simp)
  | eps _ ih => exact ⟨fun e => .eps (ih.1 e), fun k v e => .eps (ih.2 k v e)⟩
  | @prod r α u w hr _ _ ih1 ih2 =>
    refine ⟨fun e => ?_, fun k v e => ?_⟩
    · obtain ⟨rfl, rfl⟩ := List.append_eq_nil_iff.mp e
      exact .skip hr (ih1.1 rfl) (ih2.1 rfl)
    · cases u with
      | nil => exact .skip hr (ih1.1 rfl) (ih2.2 k v e)
      | cons a u =>
        cases e
        exact .take hr (ih1.2 _ _ rfl) (by simp)

theorem oneKern (hll : LL1 P) (hp : NodesProductive P) (γ : List (Node T L)) : OneKern P γ := by
  induction γ using List.reverseRecOn with
  | nil =>
    intro t x y ht hx hy cx cy
    have : ∀ {x : Nat × Nat}, Kern ([] : List (Node T L)) x → Compat P [] t x → x = (0, 0) := by
      intro x hx cx
      rcases hx with hx | ⟨-, hx⟩
      · obtain ⟨γ, X, r, β, e, h, -⟩ := valid_kern cx.1 hx
        simp at h
      · exact hx
    rw [this hx cx, this hy cy]
  | append_singleton γ X ih =>
    rintro t ⟨i, d⟩ ⟨i', d'⟩ ht hx hy cx cy
    have pos : ∀ {x : Nat × Nat}, Kern (γ ++ [X]) x → 0 < x.2 := by
      intro x hx
      rcases hx with hx | ⟨hx, -⟩
      · exact hx
      · simp at hx
    -- the item before `X` was read
    have back : ∀ {i d : Nat}, Compat P (γ ++ [X]) t (i, d) → 0 < d → ∃ r β e, d = e + 1 ∧ Valid P γ i e ∧
        P[i]? = some r ∧ (rhs r).drop e = X :: β ∧
        (First P β t ∨ (First P β .epsilon ∧ ValidLook P (InFirst P) γ i e t)) := by
      rintro i d ⟨c1, r, hr, c2⟩ hd
      obtain ⟨γ', X', r', β, e, h1, h2, h3, h4, h5⟩ := valid_kern c1 hd
      obtain ⟨rfl, hX⟩ := List.append_inj' h1 rfl
      cases hX
      change P[i]? = some r at hr
      rw [h4] at hr
      cases hr
      refine ⟨r, β, e, h2, h3, h4, h5, ?_⟩
      change d = e + 1 at h2
      simp only at c2
      rw [h2, drop_succ_of_drop h5] at c2
      rcases c2 with c2 | ⟨c2, c3⟩
      · exact .inl c2
      · exact .inr ⟨c2, validLook_kern c3 rfl rfl⟩
    obtain ⟨r, β, e, rfl, v, hr, hd, f⟩ := back cx (pos hx)
    obtain ⟨r', β', e', rfl, v', hr', hd', f'⟩ := back cy (pos hy)
    suffices h : (i, e) = (i', e') by cases h; rfl
    match X with
    | .terminal s =>
      have hs : s ≠ .epsilon := by
        rintro rfl
        have : (.terminal .epsilon : Node T L) ∈ (rhs r).drop e := by rw [hd]; simp
        exact not_eps_of_mem_strip (List.mem_of_mem_drop this)
      have last : ∀ {i e : Nat} {r : Rule T L} {β : List (Node T L)}, P[i]? = some r → (rhs r).drop e = .terminal s :: β →
          Last P (i, e) := by
        intro i e r β hr hd r1 l β1 hr1 h1
        change P[i]? = some r1 at hr1
        rw [hr] at hr1
        cases hr1
        change (rhs r).drop e = _ at h1
        rw [hd] at h1
        cases h1
      exact ih.last hll hs ⟨v, r, hr, .inl (by simpa only [hd] using First.term hs)⟩
        ⟨v', r', hr', .inl (by simpa only [hd'] using First.term hs)⟩ (last hr hd) (last hr' hd')
    | .production l =>
      -- a token with which both can go on
      have key : ∀ s : AugTok T, s ≠ .epsilon → Compat P γ s (i, e) → Compat P γ s (i', e') →
          (Relation.TransGen (Next P s) l l → False) → (i, e) = (i', e') := by
        intro s hs c c' hno
        rcases ih.total hll hs c c' with h | h
        · rcases Relation.reflTransGen_iff_eq_or_transGen.mp h with h | h
          · exact h.symm
          · exact (hno (next_of_steps hs h hr hd hr' hd')).elim
        · rcases Relation.reflTransGen_iff_eq_or_transGen.mp h with h | h
          · exact h
          · exact (hno (next_of_steps hs h hr' hd' hr hd)).elim
      obtain ⟨w, hw⟩ := hp r (List.mem_of_getElem? hr) (.production l)
        (List.mem_of_mem_drop (i := e) (by rw [hd]; simp))
      have hocc : Occ P [.production l] := by
        obtain ⟨a, b, hab, -⟩ := strip_split hd
        have := (occ_of_valid v hr).of_rule (List.mem_of_getElem? hr)
        rw [hab] at this
        exact Occ.sub a b (by simpa using this)
      have hf := first_of_derives hw
      cases w with
      | cons k w =>
        have h1 := hf.2 k w rfl
        have h2 : ∀ β : List (Node T L), First P (.production l :: β) (.token k) := fun β =>
          First.append (α := [.production l]).mpr (.inl ⟨h1, by simp⟩)
        exact key (.token k) (by simp) ⟨v, r, hr, .inl (by simpa only [hd] using h2 β)⟩
          ⟨v', r', hr', .inl (by simpa only [hd'] using h2 β')⟩
          fun hc => circle_first hll (by simp) hc h1 rfl rfl hc hocc
      | nil =>
        have h1 := hf.1 rfl
        have h2 : ∀ {s : AugTok T} {β : List (Node T L)}, First P β s → First P (.production l :: β) s := fun h =>
          First.append (α := [.production l]).mpr (.inr ⟨h1, h⟩)
        have comp : ∀ {i e : Nat} {r : Rule T L} {β : List (Node T L)}, Valid P γ i e → P[i]? = some r →
            (rhs r).drop e = .production l :: β → (First P β t ∨ (First P β .epsilon ∧ ValidLook P (InFirst P) γ i e t)) →
            Compat P γ t (i, e) := by
          intro i e r β v hr hd f
          refine ⟨v, r, hr, ?_⟩
          simp only [hd]
          rcases f with f | ⟨f, g⟩
          · exact .inl (h2 f)
          · exact .inr ⟨h2 f, g⟩
        refine key t ht (comp v hr hd f) (comp v' hr' hd' f') fun hc => circle_epsilon hll ht hc h1 rfl rfl hc ?_
        rcases f with f | ⟨f, g⟩
        · exact follow_rule_first (occ_of_valid v hr) (List.mem_of_getElem? hr) hd ht f
        · exact follow_rule_pass (follow_of_validLook g hr) (List.mem_of_getElem? hr) hd f

theorem validLook_zero (hu : RootUnused P) {γ : List (Node T L)} {i d : Nat} (h : Valid P γ i d) (hi : i = 0) :
    ValidLook P (InFirst P) γ i d .eos := by
  induction h with
  | root => exact .root
  | close _ h2 h3 h4 _ => exact absurd hi (hu.ne_zero h2 h3 h4)
  | move _ h2 h3 ih => exact .move (ih hi) h2 h3

/-- Rules that are LL(1) have no LR(1) conflict. -/
theorem noConflict (hll : LL1 P) (hp : NodesProductive P) (hu : RootUnused P) : NoConflict P (InFirst P) := by
  -- the item that demands an action
  have item : ∀ {γ : List (Node T L)} {t : AugTok T} {a : Act}, Demands P (InFirst P) γ t a → t ≠ .epsilon ∧
      ∃ x r, P[x.1]? = some r ∧ Compat P γ t x ∧ Last P x ∧
        ((a = .shift ∧ ∃ β, (rhs r).drop x.2 = .terminal t :: β) ∨ (a = endAct x.1 ∧ (rhs r).drop x.2 = [])) := by
    intro γ t a h
    have done : ∀ {i : Nat} {r : Rule T L}, P[i]? = some r → ValidLook P (InFirst P) γ i (rhs r).length t →
        Compat P γ t (i, (rhs r).length) ∧ Last P (i, (rhs r).length) := by
      intro i r hr h
      refine ⟨⟨h.valid, r, hr, .inr ⟨by simpa using First.nil, h⟩⟩, ?_⟩
      intro r1 l β hr1 h1
      change P[i]? = some r1 at hr1
      rw [hr] at hr1
      cases hr1
      simp at h1
    cases h with
    | @shift i d r β h1 h2 h3 =>
      have ht : t ≠ .epsilon := by
        rintro rfl
        have : (.terminal .epsilon : Node T L) ∈ (rhs r).drop d := by rw [h3]; simp
        exact not_eps_of_mem_strip (List.mem_of_mem_drop this)
      refine ⟨ht, (i, d), r, h2, ⟨h1, r, h2, .inl (by simpa only [h3] using First.term ht)⟩, ?_, .inl ⟨rfl, β, h3⟩⟩
      intro r1 l β hr1 h1
      change P[i]? = some r1 at hr1
      rw [h2] at hr1
      cases hr1
      change (rhs r).drop d = _ at h1
      rw [h3] at h1
      cases h1
    | @reduce i r h1 h2 h3 =>
      obtain ⟨k1, k2⟩ := done h1 h3
      exact ⟨validLook_ne h3, (i, _), r, h1, k1, k2, .inr ⟨by simp [endAct, h2], by simp⟩⟩
    | @accept r h1 h2 h3 =>
      subst h2
      obtain ⟨k1, k2⟩ := done h1 (validLook_zero hu h3 rfl)
      exact ⟨by simp, (0, _), r, h1, k1, k2, .inr ⟨rfl, by simp⟩⟩
  intro γ t a b ha hb
  obtain ⟨ht, x, r, h1, h2, h3, h4⟩ := item ha
  obtain ⟨-, y, r', h1', h2', h3', h4'⟩ := item hb
  cases (oneKern hll hp γ).last hll ht h2 h2' h3 h3'
  rw [h1] at h1'
  cases h1'
  rcases h4 with ⟨rfl, β, h4⟩ | ⟨rfl, h4⟩ <;> rcases h4' with ⟨rfl, β', h4'⟩ | ⟨rfl, h4'⟩
  · rfl
  · rw [h4] at h4'; cases h4'
  · rw [h4] at h4'; cases h4'
  · rfl

end
end Verif.LL
