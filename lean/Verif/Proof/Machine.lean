import Verif.Spec.Machine
import Verif.Proof.First

/-!
# The canonical LR(1) parser: soundness, completeness, determinism

All facts here are about the specification (no model function occurs).
-/

set_option linter.unusedSectionVars false
set_option autoImplicit false

namespace Verif.Spec

variable {T L A : Type} {P : List (Rule T L)} {first : List (Node T L) → AugTok T → Prop} {m : A → T → Prop}

/-! ### Forests -/

theorem Forest.trees_ofTrees (ts : List (Tree A)) : (Forest.ofTrees ts).trees = ts := by
  induction ts with
  | nil => rfl
  | cons t ts ih => cases t <;> simp [Forest.ofTrees, Forest.trees, ih]

theorem Forest.ofTrees_trees (f : Forest A) : Forest.ofTrees f.trees = f := by
  induction f with
  | nil => rfl
  | tok a f ih => simp [Forest.ofTrees, Forest.trees, ih]
  | node i c f _ ih => simp [Forest.ofTrees, Forest.trees, ih]

/-- Nodes other than epsilon. -/
def strip (α : List (Node T L)) : List (Node T L) :=
  α.filter fun n => match n with
    | .terminal .epsilon => false
    | _ => true

theorem rhs_def (r : Rule T L) : rhs r = strip r.rule := rfl

@[simp] theorem strip_nil : strip ([] : List (Node T L)) = [] := rfl
@[simp] theorem strip_eps (α : List (Node T L)) : strip (.terminal .epsilon :: α) = strip α := rfl
@[simp] theorem strip_tok (t : T) (α : List (Node T L)) :
    strip (.terminal (.token t) :: α) = .terminal (.token t) :: strip α := rfl
@[simp] theorem strip_eos (α : List (Node T L)) :
    strip (.terminal .eos :: α) = .terminal .eos :: strip α := rfl
@[simp] theorem strip_prod (l : L) (α : List (Node T L)) :
    strip (.production l :: α) = .production l :: strip α := rfl

theorem strip_append (α β : List (Node T L)) : strip (α ++ β) = strip α ++ strip β :=
  List.filter_append ..

theorem not_eps_of_mem_strip {α : List (Node T L)} : .terminal .epsilon ∉ strip α := by
  intro h
  have := (List.mem_filter.mp h).2
  simp at this

theorem strip_eq_self {α : List (Node T L)} (h : .terminal .epsilon ∉ α) : strip α = α := by
  unfold strip
  rw [List.filter_eq_self]
  intro n hn
  split
  · exact absurd hn h
  · rfl

theorem strip_rhs (r : Rule T L) : strip (rhs r) = rhs r := strip_eq_self not_eps_of_mem_strip

theorem strip_of_drop {r : Rule T L} {d : Nat} {α : List (Node T L)} (h : (rhs r).drop d = α) :
    strip α = α := by
  apply strip_eq_self
  intro hm
  rw [← h] at hm
  exact not_eps_of_mem_strip (List.mem_of_mem_drop hm)

theorem ParsesM.length {f : Forest A} {α : List (Node T L)} {w : List A} (h : ParsesM P m f α w) :
    f.trees.length = (strip α).length := by
  induction h with
  | nil => rfl
  | tok _ _ ih => simp [Forest.trees, ih]
  | eps _ ih => simpa using ih
  | prod _ _ _ _ ih => simp [Forest.trees, ih]

theorem ParsesM.strip_iff {f : Forest A} {α : List (Node T L)} {w : List A} :
    ParsesM P m f (strip α) w ↔ ParsesM P m f α w := by
  induction α generalizing f w with
  | nil => exact Iff.rfl
  | cons n α ih =>
    match n with
    | .terminal .epsilon =>
      rw [strip_eps, ih]
      exact ⟨.eps, fun h => by cases h; assumption⟩
    | .terminal (.token t) =>
      rw [strip_tok]
      constructor
      · intro h; cases h with | tok h1 h2 => exact .tok h1 (ih.mp h2)
      · intro h; cases h with | tok h1 h2 => exact .tok h1 (ih.mpr h2)
    | .terminal .eos =>
      rw [strip_eos]
      constructor <;> intro h <;> cases h
    | .production l =>
      rw [strip_prod]
      constructor
      · intro h; cases h with | prod h1 h2 h3 => exact .prod h1 h2 (ih.mp h3)
      · intro h; cases h with | prod h1 h2 h3 => exact .prod h1 h2 (ih.mpr h3)

theorem ParsesM.append {ts ts' : List (Tree A)} {α β : List (Node T L)} {u v : List A}
    (h : ParsesM P m (Forest.ofTrees ts) α u) (h' : ParsesM P m (Forest.ofTrees ts') β v) :
    ParsesM P m (Forest.ofTrees (ts ++ ts')) (α ++ β) (u ++ v) := by
  generalize hf : Forest.ofTrees ts = f at h
  induction h generalizing ts with
  | nil =>
    cases ts with
    | nil => exact h'
    | cons t ts => cases t <;> cases hf
  | tok h1 _ ih =>
    match ts, hf with
    | .leaf a :: ts, hf => cases hf; exact .tok h1 (ih rfl)
    | .node _ _ :: ts, hf => cases hf
    | [], hf => cases hf
  | eps _ ih => exact .eps (ih hf)
  | @prod i r c f α u w h1 h2 _ ih1 ih2 =>
    match ts, hf with
    | .leaf _ :: ts, hf => cases hf
    | .node i' c' :: ts, hf =>
      cases hf
      rw [List.append_assoc]
      exact .prod h1 h2 (ih2 rfl)
    | [], hf => cases hf

theorem ParsesM.append_inv {f : Forest A} {α β : List (Node T L)} {w : List A}
    (h : ParsesM P m f (α ++ β) w) :
    ∃ ts ts' u v, f = Forest.ofTrees (ts ++ ts') ∧ w = u ++ v ∧ ts.length = (strip α).length ∧
      ParsesM P m (Forest.ofTrees ts) α u ∧ ParsesM P m (Forest.ofTrees ts') β v := by
  generalize hγ : α ++ β = γ at h
  induction h generalizing α with
  | nil =>
    rw [List.append_eq_nil_iff] at hγ
    obtain ⟨rfl, rfl⟩ := hγ
    exact ⟨[], [], [], [], rfl, rfl, rfl, .nil, .nil⟩
  | @tok t a f γ w h1 h2 ih =>
    cases α with
    | nil =>
      rw [List.nil_append] at hγ
      subst hγ
      exact ⟨[], (Forest.tok a f).trees, [], _, (Forest.ofTrees_trees _).symm, rfl, rfl, .nil,
        by rw [Forest.ofTrees_trees]; exact .tok h1 h2⟩
    | cons n α =>
      cases hγ
      obtain ⟨ts, ts', u, v, rfl, rfl, hl, h3, h4⟩ := ih rfl
      exact ⟨.leaf a :: ts, ts', a :: u, v, rfl, rfl, by simp [hl], .tok h1 h3, h4⟩
  | @eps f γ w h2 ih =>
    cases α with
    | nil =>
      rw [List.nil_append] at hγ
      subst hγ
      exact ⟨[], f.trees, [], _, (Forest.ofTrees_trees _).symm, rfl, rfl, .nil,
        by rw [Forest.ofTrees_trees]; exact .eps h2⟩
    | cons n α =>
      cases hγ
      obtain ⟨ts, ts', u, v, rfl, rfl, hl, h3, h4⟩ := ih rfl
      exact ⟨ts, ts', u, v, rfl, rfl, by simp [hl], .eps h3, h4⟩
  | @prod i r c f γ u w h1 h2 h3 _ ih =>
    cases α with
    | nil =>
      rw [List.nil_append] at hγ
      subst hγ
      exact ⟨[], (Forest.node i c f).trees, [], _, (Forest.ofTrees_trees _).symm, rfl, rfl, .nil,
        by rw [Forest.ofTrees_trees]; exact .prod h1 h2 h3⟩
    | cons n α =>
      cases hγ
      obtain ⟨ts, ts', u', v, rfl, rfl, hl, h3, h4⟩ := ih rfl
      exact ⟨.node i c :: ts, ts', u ++ u', v, rfl, by simp, by simp [hl], .prod h1 h2 h3, h4⟩

/-! ### Valid items -/

theorem take_succ_of_drop {α : Type} {l : List α} {d : Nat} {x : α} {β : List α} (h : l.drop d = x :: β) :
    l.take (d + 1) = l.take d ++ [x] := by
  have hd : d < l.length := by
    apply Nat.lt_of_not_le
    intro hn
    rw [List.drop_eq_nil_of_le hn] at h
    cases h
  have hx : l[d] = x := by
    have := List.getElem_cons_drop hd
    rw [h] at this
    exact (List.cons.inj this).1
  rw [List.take_add_one, List.getElem?_eq_getElem hd, hx]
  rfl

theorem drop_succ_of_drop {α : Type} {l : List α} {d : Nat} {x : α} {β : List α} (h : l.drop d = x :: β) :
    l.drop (d + 1) = β := by
  rw [← List.drop_drop, h]; rfl

/-- What has been read of the rule is on top of the stack. -/
theorem Valid.split {γ : List (Node T L)} {i d : Nat} (h : Valid P γ i d) :
    ∀ {r : Rule T L}, P[i]? = some r → ∃ γ', γ = γ' ++ (rhs r).take d ∧ Valid P γ' i 0 := by
  induction h with
  | root => intro r _; exact ⟨[], by simp, .root⟩
  | close h1 h2 h3 h4 _ => intro r _; exact ⟨_, by simp, .close h1 h2 h3 h4⟩
  | move _ h2 h3 ih =>
    intro r hr
    rw [h2] at hr
    cases hr
    obtain ⟨γ', rfl, h⟩ := ih h2
    exact ⟨γ', by rw [take_succ_of_drop h3]; simp, h⟩

theorem ValidLook.split {γ : List (Node T L)} {i d : Nat} {t : AugTok T} (h : ValidLook P first γ i d t) :
    ∀ {r : Rule T L}, P[i]? = some r → ∃ γ', γ = γ' ++ (rhs r).take d ∧ ValidLook P first γ' i 0 t := by
  induction h with
  | root => intro r _; exact ⟨[], by simp, .root⟩
  | closeFirst h1 h2 h3 h4 h5 h6 => intro r _; exact ⟨_, by simp, .closeFirst h1 h2 h3 h4 h5 h6⟩
  | closePass h1 h2 h3 h4 h5 _ => intro r _; exact ⟨_, by simp, .closePass h1 h2 h3 h4 h5⟩
  | move _ h2 h3 ih =>
    intro r hr
    rw [h2] at hr
    cases hr
    obtain ⟨γ', rfl, h⟩ := ih h2
    exact ⟨γ', by rw [take_succ_of_drop h3]; simp, h⟩

theorem Valid.extend {γ : List (Node T L)} {i d : Nat} {r : Rule T L} {α β : List (Node T L)}
    (h : Valid P γ i d) (hr : P[i]? = some r) (hd : (rhs r).drop d = α ++ β) :
    Valid P (γ ++ α) i (d + α.length) := by
  induction α generalizing γ d with
  | nil => simpa using h
  | cons X α ih =>
    have := ih (Valid.move h hr hd) (drop_succ_of_drop hd)
    simpa [Nat.add_assoc, Nat.add_comm 1] using this

theorem ValidLook.extend {γ : List (Node T L)} {i d : Nat} {t : AugTok T} {r : Rule T L}
    {α β : List (Node T L)} (h : ValidLook P first γ i d t) (hr : P[i]? = some r)
    (hd : (rhs r).drop d = α ++ β) : ValidLook P first (γ ++ α) i (d + α.length) t := by
  induction α generalizing γ d with
  | nil => simpa using h
  | cons X α ih =>
    have := ih (ValidLook.move h hr hd) (drop_succ_of_drop hd)
    simpa [Nat.add_assoc, Nat.add_comm 1] using this

theorem drop_add_of_drop {α : Type} {l : List α} {d : Nat} {a b : List α} (h : l.drop d = a ++ b) :
    l.drop (d + a.length) = b := by
  rw [← List.drop_drop, h]; simp

/-- The root label does not occur in rules. -/
def RootUnused (P : List (Rule T L)) : Prop :=
  ∀ r0, P[0]? = some r0 → ∀ r ∈ P, .production r0.symbol ∉ r.rule

/-- Only rule 0 defines the root label. -/
def RootOnce (P : List (Rule T L)) : Prop :=
  ∀ i r0 r, P[0]? = some r0 → P[i]? = some r → r.symbol = r0.symbol → i = 0

theorem RootUnused.ne_zero (h : RootUnused P) {i d j : Nat} {r r' : Rule T L} {β : List (Node T L)}
    (hr : P[i]? = some r) (hd : (rhs r).drop d = .production r'.symbol :: β) (hj : P[j]? = some r') :
    j ≠ 0 := by
  rintro rfl
  refine h r' hj r (List.mem_of_getElem? hr) ?_
  have : Node.production r'.symbol ∈ (rhs r).drop d := by rw [hd]; simp
  exact (List.mem_filter.mp (List.mem_of_mem_drop this)).1

theorem Valid.zero (hu : RootUnused P) {γ : List (Node T L)} {i d : Nat} (h : Valid P γ i d) (hi : i = 0)
    (hd : d = 0) : γ = [] := by
  cases h with
  | root => rfl
  | close h1 h2 h3 h4 => exact absurd hi (hu.ne_zero h2 h3 h4)
  | move _ _ _ => cases hd

/-- Only rule 0 defines the root label, and it mentions it: there is no parse tree for the root. -/
def RootDead (P : List (Rule T L)) : Prop :=
  RootOnce P ∧ ∃ r0, P[0]? = some r0 ∧ .production r0.symbol ∈ r0.rule

/-- The root label is used by no rule, or only by its own. -/
def RootOk (P : List (Rule T L)) : Prop := RootUnused P ∨ RootDead P

theorem RootDead.parses (hd : RootDead P) {f : Forest A} {α : List (Node T L)} {w : List A}
    (h : ParsesM P m f α w) : ∀ r0, P[0]? = some r0 → .production r0.symbol ∉ α := by
  intro r0 h0
  induction h with
  | nil => simp
  | tok _ _ ih => simpa using ih
  | eps _ ih => simpa using ih
  | @prod i r c f α u w hr _ _ ih1 ih2 =>
    intro hm
    rcases List.mem_cons.mp hm with e | hm
    · injection e with e
      have := hd.1 i r0 r h0 hr e.symm
      subst this
      obtain ⟨r1, h1, h2⟩ := hd.2
      rw [h0] at h1 hr
      cases h1
      cases hr
      exact ih1 h2
    · exact ih2 hm

theorem RootOk.ne_zero (h : RootOk P) {i d j : Nat} {r r' : Rule T L} {β : List (Node T L)}
    (hr : P[i]? = some r) (hd : (rhs r).drop d = .production r'.symbol :: β) (hj : P[j]? = some r')
    {c : Forest A} {u : List A} (hc : ParsesM P m c r'.rule u) : j ≠ 0 := by
  rcases h with h | h
  · exact h.ne_zero hr hd hj
  · rintro rfl
    obtain ⟨r1, h1, h2⟩ := h.2
    rw [hj] at h1
    cases h1
    exact h.parses hc _ hj h2

/-- The stack of an accepting parser. -/
theorem Demands.accept_stack (hu : RootUnused P) {γ : List (Node T L)} {x : AugTok T}
    (h : Demands P first γ x .accept) : ∃ r, P[0]? = some r ∧ γ = rhs r := by
  cases h with
  | @accept r h1 h2 h3 =>
    obtain ⟨γ', rfl, h⟩ := h3.split h1
    exact ⟨r, h1, by rw [h.zero hu rfl rfl]; simp⟩

/-- A demanded reduction can be carried out. -/
theorem Demands.reduce_stack {γ : List (Node T L)} {x : AugTok T} {i : Nat}
    (h : Demands P first γ x (.reduce i)) :
    i ≠ 0 ∧ ∃ r γ', P[i]? = some r ∧ γ = γ' ++ rhs r ∧ Valid P γ' i 0 := by
  cases h with
  | @reduce _ r h1 h2 h3 =>
    obtain ⟨γ', rfl, h⟩ := h3.split h1
    exact ⟨h2, r, γ', h1, by simp, h.valid⟩

/-- After a reduction some item is valid. -/
theorem Valid.goto {γ : List (Node T L)} {i : Nat} {r : Rule T L} (h : Valid P γ i 0)
    (hr : P[i]? = some r) (hi : i ≠ 0) :
    ∃ j d r' β, Valid P γ j d ∧ P[j]? = some r' ∧ (rhs r').drop d = .production r.symbol :: β := by
  generalize hd : 0 = d at h
  cases h with
  | root => exact absurd rfl hi
  | close h1 h2 h3 h4 => rw [hr] at h4; cases h4; exact ⟨_, _, _, _, h1, h2, h3⟩
  | move _ _ _ => cases hd

/-! ### Lookahead and determinism -/

/-- Every token matches at most one terminal. -/
def Unique (m : A → T → Prop) : Prop := ∀ a t t', m a t → m a t' → t = t'

theorem Look.det (hm : Unique m) {z : List A} {x y : AugTok T} (h : Look m z x) (h' : Look m z y) :
    x = y := by
  cases h with
  | eos => cases h'; rfl
  | tok h =>
    cases h' with
    | tok h' => rw [hm _ _ _ h h']

theorem Look.ne_eps {z : List A} {x : AugTok T} (h : Look m z x) : x ≠ .epsilon := by
  cases h <;> simp

theorem Steps.trans {c c' c'' : Config T L A} {tr tr' : List Nat} (h : Steps P first m c c' tr)
    (h' : Steps P first m c' c'' tr') : Steps P first m c c'' (tr ++ tr') := by
  induction h with
  | refl => exact h'
  | step h1 _ ih => rw [List.append_assoc]; exact .step h1 (ih h')

theorem Steps.one {c c' : Config T L A} {o : Option Nat} (h : Step P first m c c' o) :
    Steps P first m c c' o.toList := by
  have := Steps.step h (.refl c')
  rwa [List.append_nil] at this

theorem Steps.snoc {c c' c'' : Config T L A} {tr : List Nat} {o : Option Nat} (h : Steps P first m c c' tr)
    (h' : Step P first m c' c'' o) : Steps P first m c c'' (tr ++ o.toList) := h.trans (.one h')

/-- What the configuration is about to do. -/
inductive Will (P : List (Rule T L)) (first : List (Node T L) → AugTok T → Prop) (m : A → T → Prop)
    (c : Config T L A) : Act → Prop
  | mk {x : AugTok T} {a : Act} : Look m c.input x → Demands P first c.stack x a → Will P first m c a

theorem Will.det (hn : NoConflict P first) (hm : Unique m) {c : Config T L A} {a b : Act}
    (h : Will P first m c a) (h' : Will P first m c b) : a = b := by
  cases h with
  | mk h1 h2 =>
    cases h' with
    | mk h3 h4 => rw [h1.det hm h3] at h2; exact hn _ _ _ _ h2 h4

/-- The action of a step. -/
def stepAct : Option Nat → Act
  | none => .shift
  | some i => .reduce i

theorem Step.will {c c' : Config T L A} {o : Option Nat} (h : Step P first m c c' o) :
    Will P first m c (stepAct o) := by
  cases h with
  | shift h1 h2 => exact .mk (.tok h1) h2
  | reduce h1 h2 h3 => exact .mk h2 h3

theorem accepting_iff {c : Config T L A} : Accepting P first m c ↔ Will P first m c .accept :=
  ⟨fun ⟨_, h1, h2⟩ => .mk h1 h2, fun h => by cases h with | mk h1 h2 => exact ⟨_, h1, h2⟩⟩

theorem stuck_iff {c : Config T L A} : Stuck P first m c ↔ ∀ a, ¬ Will P first m c a :=
  ⟨fun h a hw => by cases hw with | mk h1 h2 => exact h _ _ h1 h2, fun h x a h1 h2 => h a (.mk h1 h2)⟩

theorem Step.det (hn : NoConflict P first) (hm : Unique m) {c c' c'' : Config T L A} {o o' : Option Nat}
    (h : Step P first m c c' o) (h' : Step P first m c c'' o') : c' = c'' ∧ o = o' := by
  have hw := h.will.det hn hm h'.will
  generalize hc : c = c1 at h'
  cases h with
  | @shift γ ts a z t h1 h2 =>
    cases h' with
    | @shift γ' ts' a' z' t' h3 h4 =>
      cases hc
      rw [hm _ _ _ h1 h3]
      exact ⟨rfl, rfl⟩
    | reduce => cases hw
  | @reduce γ ts z x i r h1 h2 h3 =>
    cases h' with
    | shift => cases hw
    | @reduce γ' ts' z' x' i' r' h1' h2' h3' =>
      cases hw
      rw [h1] at h1'
      cases h1'
      obtain ⟨e1, rfl, rfl⟩ := (Config.mk.injEq ..).mp hc
      rw [List.append_cancel_right e1]
      exact ⟨rfl, rfl⟩

/-- A finished parser does not move. -/
theorem Step.not_accepting (hn : NoConflict P first) (hm : Unique m) {c c' : Config T L A} {o : Option Nat}
    (h : Step P first m c c' o) : ¬ Accepting P first m c := by
  intro ha
  have := h.will.det hn hm (accepting_iff.mp ha)
  cases o <;> cases this

theorem Step.not_stuck {c c' : Config T L A} {o : Option Nat}
    (h : Step P first m c c' o) : ¬ Stuck P first m c := fun hs => stuck_iff.mp hs _ h.will

/-- Accepting or stuck. -/
def Final (P : List (Rule T L)) (first : List (Node T L) → AugTok T → Prop)
    (m : A → T → Prop) (c : Config T L A) : Prop :=
  Accepting P first m c ∨ Stuck P first m c

theorem Step.not_final (hn : NoConflict P first) (hm : Unique m) {c c' : Config T L A} {o : Option Nat}
    (h : Step P first m c c' o) : ¬ Final P first m c := by
  rintro (h1 | h1)
  · exact h.not_accepting hn hm h1
  · exact h.not_stuck h1

/-- Two runs of the same parser: one continues the other. -/
theorem Steps.linear (hn : NoConflict P first) (hm : Unique m) {c c' c'' : Config T L A} {tr tr' : List Nat}
    (h : Steps P first m c c' tr) (h' : Steps P first m c c'' tr') :
    (∃ tr2, Steps P first m c' c'' tr2 ∧ tr' = tr ++ tr2) ∨
      (∃ tr2, Steps P first m c'' c' tr2 ∧ tr = tr' ++ tr2) := by
  induction h generalizing c'' tr' with
  | refl c => exact .inl ⟨_, h', rfl⟩
  | @step c c1 c' o tr h1 h2 ih =>
    cases h' with
    | refl => exact .inr ⟨_, .step h1 h2, rfl⟩
    | @step _ c2 _ o' tr' h3 h4 =>
      obtain ⟨rfl, rfl⟩ := h1.det hn hm h3
      rcases ih h4 with ⟨tr2, h5, rfl⟩ | ⟨tr2, h5, rfl⟩
      · exact .inl ⟨tr2, h5, by rw [List.append_assoc]⟩
      · exact .inr ⟨tr2, h5, by rw [List.append_assoc]⟩

theorem Steps.final_eq (hn : NoConflict P first) (hm : Unique m) {c c' : Config T L A} {tr : List Nat}
    (h : Steps P first m c c' tr) (hf : Final P first m c) : c = c' ∧ tr = [] := by
  cases h with
  | refl => exact ⟨rfl, rfl⟩
  | step h1 _ => exact absurd hf (h1.not_final hn hm)

/-- The run of the parser is unique. -/
theorem Steps.unique (hn : NoConflict P first) (hm : Unique m) {c c' c'' : Config T L A} {tr tr' : List Nat}
    (h : Steps P first m c c' tr) (hf : Final P first m c') (h' : Steps P first m c c'' tr')
    (hf' : Final P first m c'') : c' = c'' ∧ tr = tr' := by
  rcases h.linear hn hm h' with ⟨tr2, h5, rfl⟩ | ⟨tr2, h5, rfl⟩
  · obtain ⟨rfl, rfl⟩ := h5.final_eq hn hm hf
    simp
  · obtain ⟨rfl, rfl⟩ := h5.final_eq hn hm hf'
    simp

/-! ### Soundness -/

/-- The stack spells a viable prefix and its trees derive the consumed input. -/
structure Sane (P : List (Rule T L)) (m : A → T → Prop) (w : List A) (c : Config T L A) : Prop where
  viable : ∃ i d, Valid P c.stack i d
  parses : ∃ u, ParsesM P m (Forest.ofTrees c.trees) c.stack u ∧ w = u ++ c.input
  clean : strip c.stack = c.stack

theorem Sane.start {w : List A} : Sane P m w (Config.start w : Config T L A) :=
  ⟨⟨0, 0, .root⟩, ⟨[], .nil, rfl⟩, rfl⟩

theorem Sane.length {w : List A} {c : Config T L A} (h : Sane P m w c) : c.trees.length = c.stack.length := by
  obtain ⟨u, hu, -⟩ := h.parses
  have := hu.length
  rw [Forest.trees_ofTrees, h.clean] at this
  exact this

theorem reduceTrees_append {i k : Nat} {ts ts' : List (Tree A)} (h : ts'.length = k) :
    reduceTrees i k (ts ++ ts') = ts ++ [.node i (Forest.ofTrees ts')] := by
  subst h
  simp [reduceTrees]

theorem Sane.step {w : List A} {c c' : Config T L A} {o : Option Nat} (h : Sane P m w c)
    (hs : Step P first m c c' o) : Sane P m w c' := by
  cases hs with
  | @shift γ ts a z t h1 h2 =>
    obtain ⟨u, hu, rfl⟩ := h.parses
    refine ⟨?_, ⟨u ++ [a], ?_, by simp⟩, ?_⟩
    · cases h2 with
      | shift h3 h4 h5 => exact ⟨_, _, .move h3 h4 h5⟩
    · exact hu.append (ts' := [.leaf a]) (.tok h1 .nil)
    · rw [strip_append, h.clean]; rfl
  | @reduce γ ts z x i r h1 h2 h3 =>
    obtain ⟨u, hu, rfl⟩ := h.parses
    obtain ⟨hi, r', γ', hr, e, hv⟩ := h3.reduce_stack
    rw [h1] at hr
    cases hr
    cases List.append_cancel_right e
    obtain ⟨ts1, ts2, u1, u2, e1, rfl, hl, h4, h5⟩ := hu.append_inv
    have hcl := h.clean
    simp only [strip_append, strip_rhs] at hcl
    have hcl := List.append_cancel_right hcl
    have e2 := congrArg Forest.trees e1
    simp only [Forest.trees_ofTrees] at e2
    subst e2
    have hl2 : ts2.length = (rhs r).length := by
      have := h5.length
      rwa [Forest.trees_ofTrees, strip_rhs] at this
    refine ⟨?_, ⟨u1 ++ u2, ?_, rfl⟩, ?_⟩
    · obtain ⟨j, d, r', β, h6, h7, h8⟩ := hv.goto h1 hi
      exact ⟨_, _, .move h6 h7 h8⟩
    · rw [reduceTrees_append hl2]
      refine h4.append ?_
      rw [← List.append_nil u2]
      exact .prod h1 (ParsesM.strip_iff.mp h5) .nil
    · simp only [strip_append, hcl, strip_prod, strip_nil]

theorem Sane.steps {w : List A} {c c' : Config T L A} {tr : List Nat} (h : Sane P m w c)
    (hs : Steps P first m c c' tr) : Sane P m w c' := by
  induction hs with
  | refl => exact h
  | step h1 _ ih => exact ih (h.step h1)

/-- **Soundness**: what is accepted has the parse tree that was built. -/
theorem Steps.sound (hu : RootOk P) {w : List A} {c : Config T L A} {tr : List Nat}
    (h : Steps P first m (.start w) c tr) (ha : Accepting P first m c) :
    c.input = [] ∧ ∃ r, P[0]? = some r ∧ c.stack = rhs r ∧
      ParsesM P m (.node 0 (Forest.ofTrees c.trees) .nil) [.production r.symbol] w := by
  obtain ⟨x, h1, h2⟩ := ha
  have hs := Sane.start.steps h
  obtain ⟨r, h3, h4⟩ : ∃ r, P[0]? = some r ∧ c.stack = rhs r := by
    rcases hu with hu | hu
    · exact h2.accept_stack hu
    · cases h2 with
      | @accept r h3 _ h4 =>
        obtain ⟨γ', h5, -⟩ := h4.split h3
        obtain ⟨u, h6, -⟩ := hs.parses
        obtain ⟨r1, h7, h8⟩ := hu.2
        rw [h3] at h7
        cases h7
        refine absurd ?_ (hu.parses h6 _ h3)
        rw [h5, List.take_length]
        exact List.mem_append_right _ (List.mem_filter.mpr ⟨h8, by simp⟩)
  obtain ⟨u, h5, rfl⟩ := hs.parses
  have hz : c.input = [] := by
    cases h2 with
    | accept _ hx _ =>
      subst hx
      generalize c.input = z at h1
      cases h1
      rfl
  refine ⟨hz, r, h3, h4, ?_⟩
  rw [hz]
  rw [h4, rhs_def] at h5
  exact .prod h3 (ParsesM.strip_iff.mp h5) .nil

/-! ### Completeness -/

theorem first_strip {α : List (Node T L)} {t : AugTok T} : First P (strip α) t ↔ First P α t := by
  induction α generalizing t with
  | nil => exact Iff.rfl
  | cons n α ih =>
    have h : First P (strip (n :: α)) t ↔ First P (strip [n] ++ strip α) t := by
      rw [← strip_append]; exact Iff.rfl
    rw [h, show (n :: α) = [n] ++ α from rfl, First.append, First.append, ih]
    match n with
    | .terminal .epsilon =>
      have h1 : First P (strip [(.terminal .epsilon : Node T L)]) .epsilon := .nil
      have h2 : First P [(.terminal .epsilon : Node T L)] .epsilon := .eps .nil
      have h3 : ∀ {t}, First P (strip [(.terminal .epsilon : Node T L)]) t → t = .epsilon := fun h => by
        cases (show First P [] _ from h); rfl
      have h4 : ∀ {t}, First P [(.terminal .epsilon : Node T L)] t → t = .epsilon := fun h => by
        cases h with
        | eps h => cases h; rfl
        | term h => exact absurd rfl h
      constructor
      · rintro (⟨h, hne⟩ | ⟨-, h⟩)
        · exact absurd (h3 h) hne
        · exact .inr ⟨h2, h⟩
      · rintro (⟨h, hne⟩ | ⟨-, h⟩)
        · exact absurd (h4 h) hne
        · exact .inr ⟨h1, h⟩
    | .terminal (.token k) => exact Iff.rfl
    | .terminal .eos => exact Iff.rfl
    | .production l => exact Iff.rfl

/-- `first` contains what a sequence may begin with. -/
structure FirstClosed (P : List (Rule T L)) (first : List (Node T L) → AugTok T → Prop) : Prop where
  nil : first [] .epsilon
  tok : ∀ t α, first (.terminal (.token t) :: α) (.token t)
  prod : ∀ r ∈ P, ∀ α t, first (rhs r ++ α) t → first (.production r.symbol :: α) t

theorem FirstClosed.parses (hf : FirstClosed P first) {f : Forest A} {α : List (Node T L)} {w : List A}
    (h : ParsesM P m f α w) (β : List (Node T L)) :
    (∀ t, w = [] → first β t → first (strip α ++ β) t) ∧
    (∀ a w', w = a :: w' → ∃ t, m a t ∧ first (strip α ++ β) (.token t)) := by
  induction h generalizing β with
  | nil => exact ⟨fun t _ h => h, fun a w' h => by cases h⟩
  | @tok t a f α w h1 _ _ =>
    refine ⟨fun t h => (by cases h), fun a' w' h => ?_⟩
    cases h
    exact ⟨t, h1, hf.tok _ _⟩
  | eps _ ih => exact ih β
  | @prod i r c f α u w h1 _ _ ih1 ih2 =>
    rw [strip_prod]
    have hr := List.mem_of_getElem? h1
    refine ⟨fun t h hb => ?_, fun a w' h => ?_⟩
    · rw [List.append_eq_nil_iff] at h
      exact hf.prod r hr _ _ ((ih1 _).1 t h.1 ((ih2 β).1 t h.2 hb))
    · cases u with
      | nil =>
        obtain ⟨t, h2, h3⟩ := (ih2 β).2 a w' h
        exact ⟨t, h2, hf.prod r hr _ _ ((ih1 _).1 _ rfl h3)⟩
      | cons a' u =>
        cases h
        obtain ⟨t, h2, h3⟩ := (ih1 (strip α ++ β)).2 _ u rfl
        exact ⟨t, h2, hf.prod r hr _ _ h3⟩

/-- `x` may follow an item of which `β` remains to be read. -/
def MayFollow (P : List (Rule T L)) (first : List (Node T L) → AugTok T → Prop) (γ : List (Node T L))
    (i d : Nat) (β : List (Node T L)) (x : AugTok T) : Prop :=
  first β x ∨ (first β .epsilon ∧ ValidLook P first γ i d x)

theorem MayFollow.close {γ : List (Node T L)} {i d j : Nat} {r r' : Rule T L} {β : List (Node T L)}
    {x : AugTok T} (h : MayFollow P first γ i d β x) (hx : x ≠ .epsilon) (hv : Valid P γ i d)
    (hr : P[i]? = some r) (hd : (rhs r).drop d = .production r'.symbol :: β) (hj : P[j]? = some r') :
    ValidLook P first γ j 0 x := by
  rcases h with h | ⟨h1, h2⟩
  · exact .closeFirst hv hr hd hj hx h
  · exact .closePass h2 hr hd hj h1

theorem MayFollow.extend {γ : List (Node T L)} {i d : Nat} {r : Rule T L} {α α' β : List (Node T L)}
    {x : AugTok T} (h : MayFollow P first γ i d β x) (hr : P[i]? = some r)
    (hd : (rhs r).drop d = α ++ α') : MayFollow P first (γ ++ α) i (d + α.length) β x := by
  rcases h with h | ⟨h1, h2⟩
  · exact .inl h
  · exact .inr ⟨h1, h2.extend hr hd⟩

/-- **Completeness**: the parser reads what `α` derives, wherever `α` may be read. -/
theorem ParsesM.steps (hf : FirstClosed P first) (hu : RootOk P) {f : Forest A}
    {α : List (Node T L)} {w : List A} (h : ParsesM P m f α w) :
    ∀ {γ : List (Node T L)} {ts : List (Tree A)} {z : List A} {i d : Nat} {r : Rule T L}
      {β : List (Node T L)} {x : AugTok T},
      Valid P γ i d → P[i]? = some r → (rhs r).drop d = strip α ++ β → Look m z x →
      MayFollow P first γ i d β x →
      ∃ tr, Steps P first m ⟨γ, ts, w ++ z⟩ ⟨γ ++ strip α, ts ++ f.trees, z⟩ tr := by
  induction h with
  | nil =>
    intro γ ts z i d r β x _ _ _ _ _
    simp only [strip_nil, List.append_nil, Forest.trees, List.nil_append]
    exact ⟨_, .refl _⟩
  | @tok t a f α w h1 _ ih =>
    intro γ ts z i d r β x hv hr hd hl hfol
    have hd' : (rhs r).drop d = .terminal (.token t) :: (strip α ++ β) := hd
    have hs : Step P first m ⟨γ, ts, a :: w ++ z⟩ ⟨γ ++ [.terminal (.token t)], ts ++ [.leaf a], w ++ z⟩ none :=
      .shift h1 (.shift hv hr hd')
    obtain ⟨tr, h⟩ := ih (ts := ts ++ [.leaf a]) (.move hv hr hd') hr (drop_succ_of_drop hd') hl
      (hfol.extend (α := [_]) hr hd')
    refine ⟨_, .step hs (tr := tr) ?_⟩
    simpa [Forest.trees] using h
  | eps _ ih =>
    intro γ ts z i d r β x hv hr hd hl hfol
    exact ih hv hr hd hl hfol
  | @prod j r' c f α u w h1 hc hpf ih1 ih2 =>
    intro γ ts z i d r β x hv hr hd hl hfol
    have hd' : (rhs r).drop d = .production r'.symbol :: (strip α ++ β) := hd
    have hj := hu.ne_zero hr hd' h1 hc
    -- the lookahead after the first tree
    obtain ⟨y, hy, hfy⟩ : ∃ y, Look m (w ++ z) y ∧ MayFollow P first γ i d (strip α ++ β) y := by
      obtain ⟨hp1, hp2⟩ := hf.parses hpf β
      cases w with
      | nil =>
        refine ⟨x, hl, ?_⟩
        rcases hfol with h | ⟨h, h'⟩
        · exact .inl (hp1 x rfl h)
        · exact .inr ⟨hp1 _ rfl h, h'⟩
      | cons a w =>
        obtain ⟨t, h2, h3⟩ := hp2 a w rfl
        exact ⟨_, .tok h2, .inl h3⟩
    have hlook : ValidLook P first γ j 0 y := hfy.close hy.ne_eps hv hr hd' h1
    obtain ⟨tr1, hs1⟩ := ih1 (ts := ts) (β := []) (Valid.close hv hr hd' h1) h1 (by simp [rhs_def]) hy
      (.inr ⟨hf.nil, hlook⟩)
    rw [← rhs_def] at hs1
    have hdem : Demands P first (γ ++ rhs r') y (.reduce j) :=
      .reduce h1 hj (by simpa using hlook.extend (α := rhs r') (β := []) h1 (by simp))
    have hs2 : Step P first m ⟨γ ++ rhs r', ts ++ c.trees, w ++ z⟩
        ⟨γ ++ [.production r'.symbol], reduceTrees j (rhs r').length (ts ++ c.trees), w ++ z⟩ (some j) :=
      .reduce h1 hy hdem
    rw [reduceTrees_append (by rw [hc.length]; rfl), Forest.ofTrees_trees] at hs2
    obtain ⟨tr2, hs3⟩ := ih2 (ts := ts ++ [.node j c]) (.move hv hr hd') hr (drop_succ_of_drop hd') hl
      (hfol.extend (α := [_]) hr hd')
    refine ⟨tr1 ++ ([j] ++ tr2), ?_⟩
    rw [List.append_assoc]
    refine hs1.trans (.step (o := some j) hs2 ?_)
    simpa [Forest.trees] using hs3

/-- Only FIRST of what follows a label in a rule matters. -/
theorem ValidLook.mono {first' : List (Node T L) → AugTok T → Prop}
    (hf : ∀ r ∈ P, ∀ (d : Nat) (l : L) (β : List (Node T L)), (rhs r).drop d = .production l :: β →
      ∀ t, first β t → first' β t)
    {γ : List (Node T L)} {i d : Nat} {t : AugTok T} (h : ValidLook P first γ i d t) : ValidLook P first' γ i d t := by
  induction h with
  | root => exact .root
  | closeFirst h1 h2 h3 h4 h5 h6 => exact .closeFirst h1 h2 h3 h4 h5 (hf _ (List.mem_of_getElem? h2) _ _ _ h3 _ h6)
  | closePass _ h2 h3 h4 h5 ih => exact .closePass ih h2 h3 h4 (hf _ (List.mem_of_getElem? h2) _ _ _ h3 _ h5)
  | move _ h2 h3 ih => exact .move ih h2 h3

theorem Demands.mono {first' : List (Node T L) → AugTok T → Prop}
    (hf : ∀ r ∈ P, ∀ (d : Nat) (l : L) (β : List (Node T L)), (rhs r).drop d = .production l :: β →
      ∀ t, first β t → first' β t)
    {γ : List (Node T L)} {t : AugTok T} {a : Act} (h : Demands P first γ t a) : Demands P first' γ t a := by
  cases h with
  | shift h1 h2 h3 => exact .shift h1 h2 h3
  | reduce h1 h2 h3 => exact .reduce h1 h2 (h3.mono hf)
  | accept h1 h2 h3 => exact .accept h1 h2 h3

/-- The true FIRST sets. -/
theorem firstClosed_true : FirstClosed P (InFirst P) where
  nil := first_iff.mp .nil
  tok _ _ := first_iff.mp (.term (by simp))
  prod r hr α t h := by
    rw [← first_iff, First.append, rhs_def, first_strip, first_strip] at h
    rw [← first_iff]
    rcases h with ⟨h1, h2⟩ | ⟨h1, h2⟩
    · exact .take hr h1 h2
    · exact .skip hr h1 h2

/-- With `first` the parser has every action that it has with the true FIRST sets. -/
def Covers (P : List (Rule T L)) (first : List (Node T L) → AugTok T → Prop) : Prop :=
  ∀ γ x a, Demands P (InFirst P) γ x a → Demands P first γ x a

section
variable {first' : List (Node T L) → AugTok T → Prop}
  (hd : ∀ γ x a, Demands P first γ x a → Demands P first' γ x a)
include hd

theorem Step.mono {c c' : Config T L A} {o : Option Nat} (h : Step P first m c c' o) : Step P first' m c c' o := by
  cases h with
  | shift h1 h2 => exact .shift h1 (hd _ _ _ h2)
  | reduce h1 h2 h3 => exact .reduce h1 h2 (hd _ _ _ h3)

theorem Steps.mono {c c' : Config T L A} {tr : List Nat} (h : Steps P first m c c' tr) : Steps P first' m c c' tr := by
  induction h with
  | refl => exact .refl _
  | step h1 _ ih => exact .step (h1.mono hd) ih

theorem Accepting.mono {c : Config T L A} (h : Accepting P first m c) : Accepting P first' m c := by
  obtain ⟨x, h1, h2⟩ := h
  exact ⟨x, h1, hd _ _ _ h2⟩

end

/-- **Completeness**: a word with a parse tree is accepted and that tree is built. -/
theorem ParsesM.accepted (hf : Covers P first) (hu : RootOk P) (ho : RootOnce P) {f : Forest A}
    {r : Rule T L} {w : List A} (hr : P[0]? = some r) (h : ParsesM P m f [.production r.symbol] w) :
    ∃ c tr, Steps P first m (.start w) ⟨rhs r, c.trees, []⟩ tr ∧ f = .node 0 c .nil ∧
      Accepting P first m ⟨rhs r, c.trees, ([] : List A)⟩ := by
  generalize hα : ([Node.production r.symbol] : List (Node T L)) = α at h
  cases h with
  | nil => cases hα
  | tok => cases hα
  | eps => cases hα
  | @prod i r' c f' α u v h1 h2 h3 =>
    obtain ⟨e1, rfl⟩ := (List.cons.injEq ..).mp hα
    injection e1 with e1
    have := ho i r r' hr h1 e1.symm
    subst this
    rw [hr] at h1
    cases h1
    cases h3
    obtain ⟨tr, hs⟩ := h2.steps firstClosed_true hu (γ := []) (ts := []) (z := []) (i := 0) (d := 0) (β := [])
      (x := .eos) .root hr (by simp [rhs_def]) .eos (.inr ⟨firstClosed_true.nil, .root⟩)
    refine ⟨c, tr, by simpa [Config.start, rhs_def] using hs.mono hf, rfl, .eos, .eos, .accept hr rfl ?_⟩
    simpa using Valid.root.extend (P := P) (α := rhs r) (β := []) hr (by simp)

/-- **Unambiguity**: with every action and no conflicts, a word has at most one parse tree. -/
theorem ParsesM.unique (hf : Covers P first) (hu : RootOk P) (ho : RootOnce P)
    (hn : NoConflict P first) (hm : Unique m) {f f' : Forest A} {r : Rule T L} {w : List A}
    (hr : P[0]? = some r) (h : ParsesM P m f [.production r.symbol] w)
    (h' : ParsesM P m f' [.production r.symbol] w) : f = f' := by
  obtain ⟨c, tr, h1, rfl, h2⟩ := h.accepted hf hu ho hr
  obtain ⟨c', tr', h1', rfl, h2'⟩ := h'.accepted hf hu ho hr
  have := (h1.unique hn hm (.inl h2) h1' (.inl h2')).1
  have e : c.trees = c'.trees := by injection this
  rw [← Forest.ofTrees_trees c, e, Forest.ofTrees_trees]

/-! ### The same actions -/

section
variable {first' : List (Node T L) → AugTok T → Prop} (hd : Demands P first = Demands P first')
include hd

theorem Step.congr {c c' : Config T L A} {o : Option Nat} : Step P first m c c' o ↔ Step P first' m c c' o :=
  ⟨fun h => h.mono fun γ x a => by rw [hd]; exact id, fun h => h.mono fun γ x a => by rw [hd]; exact id⟩

theorem Steps.congr {c c' : Config T L A} {tr : List Nat} : Steps P first m c c' tr ↔ Steps P first' m c c' tr :=
  ⟨fun h => h.mono fun γ x a => by rw [hd]; exact id, fun h => h.mono fun γ x a => by rw [hd]; exact id⟩

theorem Accepting.congr {c : Config T L A} : Accepting P first m c ↔ Accepting P first' m c := by
  unfold Accepting; rw [hd]

theorem Stuck.congr {c : Config T L A} : Stuck P first m c ↔ Stuck P first' m c := by
  unfold Stuck; rw [hd]

end

end Verif.Spec
