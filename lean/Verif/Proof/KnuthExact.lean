import Verif.Proof.Knuth
import Verif.Proof.Mixed

/-!
# A grammar without conflicts is LR(1) in Knuth's sense

The items that are valid after a part of a rightmost sentential form, and what they demand there.
-/

set_option linter.unusedSectionVars false
set_option autoImplicit false

namespace Verif
open Spec

section
variable {T L : Type} {P : List (Rule T L)}

/-- `t` may come next if `τ` is all that is left. -/
def Follows (P : List (Rule T L)) (τ : List (Node T L)) (t : AugTok T) : Prop :=
  (t = .eos ∧ InFirst P τ .epsilon) ∨ (t ≠ .epsilon ∧ InFirst P τ t)

/-- What comes next if the tokens `y` are left. -/
def lookOf : List T → AugTok T
  | [] => .eos
  | k :: _ => .token k

theorem inFirst_nil : InFirst P ([] : List (Node T L)) .epsilon :=
  .inl ⟨rfl, [], .refl _, by simp [AllEpsilon]⟩

theorem inFirst_term {t : AugTok T} {α : List (Node T L)} (ht : t ≠ .epsilon) :
    InFirst P (.terminal t :: α) t :=
  .inr ⟨ht, _, .refl _, [], α, rfl, by simp [AllEpsilon]⟩

theorem follows_lookOf (y : List T) : Follows P (tokNodes y) (lookOf y) := by
  cases y with
  | nil => exact .inl ⟨rfl, inFirst_nil⟩
  | cons k y => exact .inr ⟨by simp [lookOf], inFirst_term (by simp)⟩

theorem Follows.append {α β : List (Node T L)} {t : AugTok T} (h : Follows P (α ++ β) t) :
    (t ≠ .epsilon ∧ InFirst P α t) ∨ (InFirst P α .epsilon ∧ Follows P β t) := by
  rcases h with ⟨rfl, h⟩ | ⟨ht, h⟩
  · rcases inFirst_append.mp h with ⟨-, h⟩ | ⟨h1, h2⟩
    · exact absurd rfl h
    · exact .inr ⟨h1, .inl ⟨rfl, h2⟩⟩
  · rcases inFirst_append.mp h with ⟨h, -⟩ | ⟨h1, h2⟩
    · exact .inl ⟨ht, h⟩
    · exact .inr ⟨h1, .inr ⟨ht, h2⟩⟩

theorem inFirst_unstep {z y : List (Node T L)} {r : Rule T L} {t : AugTok T} (hr : r ∈ P)
    (h : InFirst P (z ++ (rhs r ++ y)) t) : InFirst P (z ++ .production r.symbol :: y) t := by
  rcases inFirst_append.mp h with h | ⟨h1, h2⟩
  · exact inFirst_append.mpr (.inl h)
  · exact inFirst_append.mpr (.inr ⟨h1, inFirst_prod hr (inFirst_append.mp h2)⟩)

theorem Follows.unstep {z y : List (Node T L)} {r : Rule T L} {t : AugTok T} (hr : r ∈ P)
    (h : Follows P (z ++ (rhs r ++ y)) t) : Follows P (z ++ .production r.symbol :: y) t := by
  rcases h with ⟨ht, h⟩ | ⟨ht, h⟩
  · exact .inl ⟨ht, inFirst_unstep hr h⟩
  · exact .inr ⟨ht, inFirst_unstep hr h⟩

/-- Wherever a label stands in `α`, the items at the beginning of its rules are valid, with what may come next. -/
def ItemsThere (P : List (Rule T L)) (α : List (Node T L)) : Prop :=
  ∀ (x τ : List (Node T L)) (j : Nat) (r : Rule T L), P[j]? = some r → α = x ++ .production r.symbol :: τ →
    Valid P x j 0 ∧ ∀ t, Follows P τ t → ValidLook P (InFirst P) x j 0 t

theorem itemsThere_root (ho : RootOnce P) {root : Rule T L} (h0 : P[0]? = some root) :
    ItemsThere P [.production root.symbol] := by
  intro x τ j r hj e
  cases x with
  | cons a x => cases x <;> simp at e
  | nil =>
    simp only [List.nil_append, List.cons.injEq, Node.production.injEq] at e
    obtain ⟨e, rfl⟩ := e
    cases ho j root r h0 hj e.symm
    refine ⟨.root, fun t ht => ?_⟩
    rcases ht with ⟨rfl, -⟩ | ⟨h1, h2⟩
    · exact .root
    · rcases h2 with ⟨h2, -⟩ | ⟨-, β, h2, h3⟩
      · exact absurd h2 h1
      · have : ∀ {α β : List (Node T L)}, Rewrites P α β → α = [] → β = [] := by
          intro α β h
          induction h with
          | refl => exact id
          | step h _ ih => intro e; cases h with | mk x y r _ => simp at e
        rw [this h2 rfl] at h3
        obtain ⟨e, rest, h4, -⟩ := h3
        simp at h4

theorem production_not_tok {l : L} {a τ : List (Node T L)} {y : List T} (h : tokNodes y = a ++ .production l :: τ) :
    False := by
  have : Node.production l ∈ (tokNodes y : List (Node T L)) := by rw [h]; simp
  simp [tokNodes] at this

theorem ItemsThere.step {i : Nat} {α β : List (Node T L)} (h : ItemsThere P α) (hs : RmStep P i α β) :
    ItemsThere P β := by
  cases hs with
  | @mk x1 y1 r1 hr1 =>
    intro x τ j r hj e
    obtain ⟨hv, hl⟩ := h x1 (tokNodes y1) i r1 hr1 rfl
    -- the label is a symbol of the rule
    have inside : ∀ p c, x = x1 ++ p → rhs r1 = p ++ .production r.symbol :: c → τ = c ++ tokNodes y1 →
        Valid P x j 0 ∧ ∀ t, Follows P τ t → ValidLook P (InFirst P) x j 0 t := by
      rintro p c rfl hp rfl
      have hd : (rhs r1).drop 0 = p ++ .production r.symbol :: c := by simpa using hp
      have hd' := drop_add_of_drop hd
      have hv' := hv.extend hr1 hd
      refine ⟨.close hv' hr1 hd' hj, fun t ht => ?_⟩
      rcases ht.append with ⟨h1, h2⟩ | ⟨h1, h2⟩
      · exact .closeFirst hv' hr1 hd' hj h1 h2
      · exact .closePass ((hl t h2).extend hr1 hd) hr1 hd' hj h1
    -- the label stands before the rule
    have before : ∀ q, x1 = x ++ .production r.symbol :: q → τ = q ++ (rhs r1 ++ tokNodes y1) →
        Valid P x j 0 ∧ ∀ t, Follows P τ t → ValidLook P (InFirst P) x j 0 t := by
      rintro q rfl rfl
      obtain ⟨k1, k2⟩ := h x (q ++ .production r1.symbol :: tokNodes y1) j r hj (by simp)
      exact ⟨k1, fun t ht => k2 t (ht.unstep (List.mem_of_getElem? hr1))⟩
    rw [List.append_assoc] at e
    rcases List.append_eq_append_iff.mp e with ⟨a, rfl, e2⟩ | ⟨c, rfl, e2⟩
    · rcases List.append_eq_append_iff.mp e2 with ⟨b, rfl, e3⟩ | ⟨c, e3, e4⟩
      · exact (production_not_tok e3).elim
      · cases c with
        | nil => exact (production_not_tok (a := []) e4.symm).elim
        | cons n c =>
          simp only [List.cons_append, List.cons.injEq] at e4
          obtain ⟨rfl, rfl⟩ := e4
          exact inside a c rfl e3 rfl
    · cases c with
      | nil =>
        simp only [List.nil_append] at e2
        cases hq : rhs r1 with
        | nil => rw [hq] at e2; exact (production_not_tok (a := []) e2.symm).elim
        | cons n c =>
          rw [hq] at e2
          simp only [List.cons_append, List.cons.injEq] at e2
          obtain ⟨rfl, rfl⟩ := e2
          exact inside [] c (by simp) hq rfl
      | cons n c =>
        simp only [List.cons_append, List.cons.injEq] at e2
        obtain ⟨rfl, rfl⟩ := e2
        exact before c rfl rfl

theorem ItemsThere.steps {is : List Nat} {α β : List (Node T L)} (hs : RmSteps P is α β) (h : ItemsThere P α) :
    ItemsThere P β := by
  induction hs with
  | refl => exact h
  | step h1 _ ih => exact ih (h.step h1)

/-- Before the last rule of a rightmost derivation is read, its first item is valid; when it is read, its last. -/
theorem _root_.Verif.Spec.Handle.valid (ho : RootOnce P) {i : Nat} {x : List (Node T L)} {y : List T} {r : Rule T L}
    (h : Handle P i x y) (hr : P[i]? = some r) : ValidLook P (InFirst P) x i 0 (lookOf y) := by
  obtain ⟨root, r1, is, h0, h1, h2⟩ := h
  rw [hr] at h1
  cases h1
  exact ((itemsThere_root ho h0).steps h2 x (tokNodes y) i r hr rfl).2 _ (follows_lookOf y)

theorem _root_.Verif.Spec.ValidLook.zero_eos (hu : RootUnused P) {first : List (Node T L) → AugTok T → Prop}
    {γ : List (Node T L)} {i d : Nat} {t : AugTok T} (h : ValidLook P first γ i d t) (hi : i = 0) : t = .eos := by
  induction h with
  | root => rfl
  | closeFirst _ h2 h3 h4 _ _ => exact absurd hi (hu.ne_zero h2 h3 h4)
  | closePass _ h2 h3 h4 _ _ => exact absurd hi (hu.ne_zero h2 h3 h4)
  | move _ _ _ ih => exact ih hi

/-- A handle is demanded. -/
theorem _root_.Verif.Spec.Handle.demands (hu : RootUnused P) (ho : RootOnce P) {i : Nat} {x : List (Node T L)}
    {y : List T} {r : Rule T L} (h : Handle P i x y) (hr : P[i]? = some r) :
    Demands P (InFirst P) (x ++ rhs r) (lookOf y) (endAct i) := by
  have hv := h.valid ho hr
  have hv' := hv.extend hr (α := rhs r) (β := []) (by simp)
  rw [Nat.zero_add] at hv'
  unfold endAct
  by_cases hi : i = 0
  · rw [if_pos hi]
    subst hi
    exact .accept hr (hv.zero_eos hu rfl) hv'.valid
  · rw [if_neg hi]
    exact .reduce hr hi hv'

/-- What has been read before a symbol: an item that has this symbol next was valid. -/
theorem _root_.Verif.Spec.Valid.before {δ : List (Node T L)} {i d : Nat} (h : Valid P δ i d) :
    ∀ (γ : List (Node T L)) (X : Node T L) (ε : List (Node T L)), δ = γ ++ X :: ε →
      ∃ i' d' r β, Valid P γ i' d' ∧ P[i']? = some r ∧ (rhs r).drop d' = X :: β := by
  induction h with
  | root => intro γ X ε e; simp at e
  | close _ _ _ _ ih => exact ih
  | @move δ i d r Y β h1 h2 h3 ih =>
    intro γ X ε e
    rcases List.eq_nil_or_concat ε with rfl | ⟨ε', Z, rfl⟩
    · obtain ⟨rfl, e'⟩ := List.append_inj' e rfl
      cases e'
      exact ⟨i, d, r, β, h1, h2, h3⟩
    · rw [List.concat_eq_append, ← List.cons_append, ← List.append_assoc] at e
      obtain ⟨rfl, -⟩ := List.append_inj' e rfl
      exact ih γ X ε' rfl

theorem shift_before {δ γ : List (Node T L)} {i d : Nat} {k : T} {z : List T} (h : Valid P δ i d)
    (e : δ = γ ++ tokNodes (k :: z)) : Demands P (InFirst P) γ (.token k) .shift := by
  rw [tokNodes_cons] at e
  obtain ⟨i', d', r, β, h1, h2, h3⟩ := h.before γ _ _ e
  exact .shift h1 h2 h3

theorem shift_ne_endAct {i : Nat} : Act.shift ≠ endAct i := by
  unfold endAct; split <;> simp

theorem endAct_inj {i j : Nat} (h : endAct i = endAct j) : i = j := by
  unfold endAct at h; split at h <;> split at h <;> simp_all

theorem lookOf_head {w y : List T} (h : w.head? = y.head?) : lookOf w = lookOf y := by
  cases w <;> cases y <;> simp_all [lookOf]

theorem tokNodes_inj {u v : List T} (h : (tokNodes u : List (Node T L)) = tokNodes v) : u = v := by
  refine List.map_injective_iff.mpr ?_ h
  intro a b h
  simpa using h

/-- Sequences that continue with tokens: one begins with the other. -/
theorem append_tokNodes {α β : List (Node T L)} {u v : List T} (h : α ++ tokNodes u = β ++ tokNodes v) :
    (∃ z, α = β ++ tokNodes z ∧ v = z ++ u) ∨ ∃ k z, β = α ++ tokNodes (k :: z) ∧ u = k :: z ++ v := by
  have split : ∀ (a : List (Node T L)) (b : List T) (c : List (Node T L)), tokNodes b = a ++ c →
      ∃ z z', a = tokNodes z ∧ c = tokNodes z' ∧ b = z ++ z' := by
    intro a
    induction a with
    | nil => intro b c e; exact ⟨[], b, rfl, e.symm, rfl⟩
    | cons n a ih =>
      intro b c e
      cases b with
      | nil => simp [tokNodes] at e
      | cons k b =>
        rw [tokNodes_cons, List.cons_append, List.cons.injEq] at e
        obtain ⟨rfl, e⟩ := e
        obtain ⟨z, z', rfl, rfl, rfl⟩ := ih b c e
        exact ⟨k :: z, z', tokNodes_cons.symm, rfl, rfl⟩
  rcases List.append_eq_append_iff.mp h with ⟨a, rfl, e⟩ | ⟨c, rfl, e⟩
  · obtain ⟨z, z', rfl, e', rfl⟩ := split a u _ e
    cases tokNodes_inj e'
    cases z with
    | nil => exact .inl ⟨[], by simp [tokNodes], rfl⟩
    | cons k z => exact .inr ⟨k, z, rfl, rfl⟩
  · obtain ⟨z, z', rfl, e', rfl⟩ := split c v _ e
    cases tokNodes_inj e'
    exact .inl ⟨z, rfl, rfl⟩

/-- **A grammar without conflicts is LR(1).** -/
theorem lr1_of_noConflict (hu : RootUnused P) (ho : RootOnce P) (hn : NoConflict P (InFirst P)) : ¬ NotLR1 P := by
  rintro ⟨γ, i, r, x, w, j, r', x', w', y, hi, hj, h1, h2, rfl, e, hw, hne⟩
  have d1 := h1.demands hu ho hi
  have d2 := h2.demands hu ho hj
  have v1 : Valid P (x ++ rhs r) i (0 + (rhs r).length) := ((h1.valid ho hi).extend hi (α := rhs r) (β := []) (by simp)).valid
  have v2 : Valid P (x' ++ rhs r') j (0 + (rhs r').length) :=
    ((h2.valid ho hj).extend hj (α := rhs r') (β := []) (by simp)).valid
  rcases append_tokNodes e with ⟨z, e1, e2⟩ | ⟨k, z, e1, e2⟩
  · cases z with
    | nil =>
      simp only [tokNodes, List.map_nil, List.append_nil, List.nil_append] at e1 e2
      subst e2
      rw [← e1, ← lookOf_head hw] at d2
      rcases hne with h | h
      · exact h (endAct_inj (hn _ _ _ _ d1 d2))
      · exact h rfl
    | cons k z =>
      rw [e2] at d2
      exact shift_ne_endAct (hn _ _ _ _ (shift_before v1 e1) d2)
  · rw [lookOf_head hw, e2] at d1
    exact shift_ne_endAct (hn _ _ _ _ (shift_before v2 e1) d1)

end
end Verif
