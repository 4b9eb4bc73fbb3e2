import Verif.Spec.Prefixed
import Verif.Proof.Brackets

/-!
# Something after any number of prefix operators: lemmas
-/

set_option linter.unusedSectionVars false
set_option autoImplicit false

namespace Verif

open Spec

variable {T L : Type} {P P' : List (Rule T L)} {ρ : Nat → Nat} {s l S X : L} {o : T}

theorem _root_.Verif.Spec.Prefixed.notBelow (h : Prefixed S X l o P) : ¬ Reachable P l X :=
  fun hx => h.opens _ h.more hx (by simp)

theorem _root_.Verif.Spec.Prefixed.noX (h : Prefixed S X l o P) {is : List Nat} {β : List (Node T L)}
    (hs : RmSteps P is [.production l] β) : .production X ∉ β := fun hm =>
  h.notBelow (steps_reachable hs (by simp only [List.mem_singleton, Node.production.injEq, forall_eq]; exact .root) X hm)

theorem _root_.Verif.Spec.Prefixed.items (h : Prefixed S X l o P) : ∀ r ∈ P, r.symbol = X →
    rhs r = [.production l] ∨ rhs r = [.terminal (.token o), .production X] := by
  intro r hr hs
  rcases h.only r hr hs with e | e
  · exact .inl (by simp [rhs, e])
  · exact .inr (by simp [rhs, e])

theorem _root_.Verif.Spec.Prefixed.unique (h : Prefixed S X l o P) (i j : Nat) (r r' : Rule T L) (hi : P[i]? = some r)
    (hj : P[j]? = some r') (hs : r.symbol = X) (hs' : r'.symbol = X) (e : rhs r = rhs r') : i = j := by
  have : r = r' := by
    obtain ⟨a, b⟩ := r
    obtain ⟨a', b'⟩ := r'
    simp only at hs hs'
    subst hs hs'
    rcases h.only _ (List.mem_of_getElem? hi) rfl with e1 | e1 <;>
      rcases h.only _ (List.mem_of_getElem? hj) rfl with e2 | e2 <;> simp only at e1 e2 <;> subst e1 e2 <;> simp [rhs] at e ⊢
  subst this
  exact h.once i j r hi hj hs

/-- Where the last label of a sentential form is. -/
theorem _root_.Verif.Spec.Prefixed.last_label (h : Prefixed S X l o P) (n : Nat) :
    ∀ {is : List Nat} {x : List (Node T L)} {a : L} {w : List T}, is.length = n →
      RmSteps P is [.production X] (x ++ .production a :: tokNodes w) →
      (∃ m, a = X ∧ x = tokNodes (List.replicate m o) ∧ w = []) ∨
      ∃ m x1 js, x = tokNodes (List.replicate m o) ++ x1 ∧
        RmSteps P js [.production l] (x1 ++ .production a :: tokNodes w) := by
  induction n with
  | zero =>
    intro is x a w hl hs
    cases List.length_eq_zero_iff.mp hl
    generalize eα : ([.production X] : List (Node T L)) = α at hs
    generalize eβ : x ++ Node.production a :: tokNodes w = β at hs
    cases hs
    obtain ⟨rfl, rfl, rfl⟩ := single (eα.trans eβ.symm)
    exact .inl ⟨0, rfl, rfl, rfl⟩
  | succ n ih =>
    intro is x a w hl hs
    rcases hs.last with ⟨rfl, -⟩ | ⟨is', i, β, rfl, h1, h2⟩
    · simp at hl
    · generalize eγ : x ++ Node.production a :: tokNodes w = γ at h2
      cases h2 with
      | @mk x0 y0 r hr =>
        rcases ih (by simpa using hl) h1 with ⟨m, hX, rfl, rfl⟩ | ⟨m, x1, js, rfl, h3⟩
        · rcases h.items r (List.mem_of_getElem? hr) hX with e | e
          · rw [e] at eγ
            obtain ⟨x2, rfl, e2⟩ := tokens_prefix (u := List.replicate m o) (β := [.production l])
              (by rw [eγ]; simp [tokNodes])
            obtain ⟨rfl, rfl, rfl⟩ := single e2
            exact .inr ⟨m, [], [], rfl, by simpa [tokNodes] using RmSteps.refl _⟩
          · rw [e] at eγ
            obtain ⟨x2, rfl, e2⟩ := tokens_prefix (u := List.replicate (m + 1) o)
              (β := [.production X]) (x := x) (a := a) (γ := tokNodes w)
              (by rw [eγ]; rw [List.replicate_succ' (n := m) (a := o)]; simp [tokNodes])
            obtain ⟨rfl, rfl, rfl⟩ := single e2
            exact .inl ⟨m + 1, rfl, by simp, rfl⟩
        · have h5 : RmSteps P (js ++ [i]) [.production l] (x1 ++ rhs r ++ tokNodes y0) := rm_snoc hr h3
          obtain ⟨x2, rfl, e2⟩ := tokens_prefix (u := List.replicate m o)
            (β := x1 ++ rhs r ++ tokNodes y0) (x := x) (a := a) (γ := tokNodes w)
            (by rw [eγ]; simp)
          rw [e2] at h5
          exact .inr ⟨m, x2, _, rfl, h5⟩

/-- Where a handle can be. -/
theorem _root_.Verif.Spec.Prefixed.handle (h : Prefixed S X l o P) (ho : RootOnce P) {i : Nat} {x : List (Node T L)}
    {w : List T} {r : Rule T L} (hr : P[i]? = some r) (hh : Handle P i x w) :
    (i = 0 ∧ x = [] ∧ w = [] ∧ rhs r = [.production X]) ∨
    (∃ m, r.symbol = X ∧ x = tokNodes (List.replicate m o) ∧ w = []) ∨
    ∃ (m : Nat) (x1 : List (Node T L)) (js : List Nat), x = tokNodes (List.replicate m o) ++ x1 ∧
      RmSteps P js [.production l] (x1 ++ .production r.symbol :: tokNodes w) := by
  obtain ⟨root, r1, is, h0, h1, h2⟩ := hh
  rw [hr] at h1
  cases h1
  have h0' := h.root
  rw [h0] at h0'
  cases h0'
  generalize eα : ([.production S] : List (Node T L)) = α at h2
  generalize eβ : x ++ Node.production r.symbol :: tokNodes w = β at h2
  cases h2 with
  | refl =>
    subst eα
    obtain ⟨rfl, e, rfl⟩ := single eβ.symm
    have := ho i _ r h0 hr e.symm
    subst this
    rw [h0] at hr
    cases hr
    exact .inl ⟨rfl, rfl, rfl, by simp [rhs]⟩
  | step h3 h4 =>
    cases h3 with
    | @mk x1 y1 r1 hr1 =>
      obtain ⟨rfl, e, rfl⟩ := single eα
      have := ho _ _ r1 h0 hr1 e.symm
      subst this
      rw [h0] at hr1
      cases hr1
      have e1 : ([] ++ rhs (⟨S, [.production X]⟩ : Rule T L) ++ tokNodes []) = [.production X] := by simp [rhs, tokNodes]
      rw [e1, ← eβ] at h4
      exact .inr (h.last_label _ rfl h4)

/-- The kinds of handles: within the part, or not. -/
theorem _root_.Verif.Spec.Prefixed.kinds (h : Prefixed S X l o P) (ho : RootOnce P) {i : Nat} {x : List (Node T L)}
    {w : List T} {r : Rule T L} (hr : P[i]? = some r) (hh : Handle P i x w) :
    (i = 0 ∧ x = [] ∧ w = [] ∧ rhs r = [.production X]) ∨
    (∃ m, r.symbol = X ∧ x = tokNodes (List.replicate m o) ∧ w = [] ∧
      rhs r = [.terminal (.token o), .production X]) ∨
    ∃ (m : Nat) (x1 : List (Node T L)), x = tokNodes (List.replicate m o) ++ x1 ∧
      .terminal (.token o) ∉ x1 ++ rhs r ++ tokNodes w ∧
      .production X ∉ x1 ++ rhs r ∧ ((r.symbol = X ∧ x1 = [] ∧ w = [] ∧ rhs r = [.production l]) ∨
        ∃ js, RmSteps P js [.production l] (x1 ++ .production r.symbol :: tokNodes w)) := by
  have hlX : l ≠ X := by rintro rfl; exact h.notBelow .root
  rcases h.handle ho hr hh with h1 | ⟨m, hs, rfl, rfl⟩ | ⟨m, x1, js, rfl, hst⟩
  · exact .inl h1
  · rcases h.items r (List.mem_of_getElem? hr) hs with e | e
    · exact .inr (.inr ⟨m, [], by simp, by simp [e, tokNodes], by simp [e, Ne.symm hlX], .inl ⟨hs, rfl, rfl, e⟩⟩)
    · exact .inr (.inl ⟨m, hs, rfl, rfl, e⟩)
  · refine .inr (.inr ⟨m, x1, rfl, h.opens.form (rm_snoc hr hst), ?_, .inr ⟨js, hst⟩⟩)
    intro hm
    exact h.noX (rm_snoc hr hst) (List.mem_append_left _ hm)

/-- If the grammar of the part is LR(1), then so is the grammar with the operator. -/
theorem _root_.Verif.Spec.Prefixed.lr1 (h : Prefixed S X l o P) (ho : RootOnce P) (hr : RootedAt ρ s l P P')
    (hn : ¬ NotLR1 P') : ¬ NotLR1 P := by
  rintro ⟨γ, i, r, x, w, j, r', x', w', y, hi, hj, h1, h2, rfl, e, hw, hne⟩
  have key : ∀ {m : Nat} {x1 ψ : List (Node T L)} {v : List T}, .production X ∉ x1 ++ ψ →
      .production X ∉ (tokNodes (List.replicate m o) ++ x1) ++ ψ ++ tokNodes v := by
    intro m x1 ψ v hx hm
    simp only [List.mem_append] at hm hx
    rcases hm with ((hm | hm) | hm) | hm
    · exact production_not_tokNodes hm
    · exact hx (.inl hm)
    · exact hx (.inr hm)
    · exact production_not_tokNodes hm
  rcases h.kinds ho hi h1 with ⟨rfl, rfl, rfl, e1⟩ | ⟨m, hs, rfl, rfl, e1⟩ | ⟨m, x1, rfl, g1, g2, g3⟩
  · have hy : y = [] := by cases y <;> simp_all
    subst hy
    rw [e1] at e
    rcases h.kinds ho hj h2 with ⟨rfl, rfl, rfl, e2⟩ | ⟨m', hs', rfl, rfl, e2⟩ | ⟨m', x1', rfl, g1', g2', g3'⟩
    · simp at hne
    · rw [e2] at e
      cases m' <;> simp [tokNodes, List.replicate_succ] at e
    · exact key g2' (by rw [← e]; simp)
  · have hy : y = [] := by cases y <;> simp_all
    subst hy
    rw [e1] at e
    rcases h.kinds ho hj h2 with ⟨rfl, rfl, rfl, e2⟩ | ⟨m', hs', rfl, rfl, e2⟩ | ⟨m', x1', rfl, g1', g2', g3'⟩
    · rw [e2] at e
      cases m <;> simp [tokNodes, List.replicate_succ] at e
    · have hij := h.unique i j r r' hi hj hs hs' (by rw [e1, e2])
      rw [e2] at e
      obtain ⟨k1, -, -⟩ := label_at (u := List.replicate (m + 1) o) (v := List.replicate (m' + 1) o) (a := X) (b := X)
        (β := []) (γ := [])
        (by rw [List.replicate_succ', List.replicate_succ']; simpa [tokNodes] using e)
      simp_all
    · exact key g2' (by rw [← e]; simp)
  · rcases h.kinds ho hj h2 with ⟨rfl, rfl, rfl, e2⟩ | ⟨m', hs', rfl, rfl, e2⟩ | ⟨m', x1', rfl, g1', g2', g3'⟩
    · exact key g2 (v := y) (by rw [e, e2]; simp)
    · exact key g2 (v := y) (by rw [e, e2]; simp)
    · have hA : (x1 ++ rhs r ++ tokNodes y).head? ≠ some (.terminal (.token o)) := by
        simp only [List.mem_append, not_or] at g1
        intro hA
        cases hx : x1 ++ rhs r with
        | cons n α =>
          rw [hx] at hA
          simp only [List.cons_append, List.head?_cons, Option.some.injEq] at hA
          have : n ∈ x1 ++ rhs r := by rw [hx]; simp
          rw [hA] at this
          rcases List.mem_append.mp this with hm | hm
          · exact g1.1.1 hm
          · exact g1.1.2 hm
        | nil =>
          rw [hx] at hA
          cases y with
          | nil => simp [tokNodes] at hA
          | cons t y =>
            simp only [List.nil_append, tokNodes_cons, List.head?_cons, Option.some.injEq, Node.terminal.injEq,
              AugTok.token.injEq] at hA
            subst hA
            have hm : t ∈ w := List.mem_of_head? (by rw [hw]; rfl)
            exact g1.2 (List.mem_map.mpr ⟨t, hm, rfl⟩)
      have hB : (x1' ++ rhs r' ++ tokNodes w').head? ≠ some (.terminal (.token o)) := by
        intro hB
        exact g1' (List.mem_of_head? hB)
      obtain ⟨rfl, e'⟩ := opens_eq (by simpa [tokNodes] using e) hA hB
      have hz : Tail o ([] : List T) := .inl rfl
      rcases g3 with ⟨hs, rfl, rfl, e1⟩ | ⟨js, hst⟩ <;> rcases g3' with ⟨hs', rfl, rfl, e2⟩ | ⟨js', hst'⟩
      · have hij := h.unique i j r r' hi hj hs hs' (by rw [e1, e2])
        rw [e1, e2] at e'
        have e3 : tokNodes y = tokNodes (L := L) [] := by simpa [tokNodes] using e'
        have := tokNodes_inj e3
        simp_all
      · rw [e1] at e'
        exact item_second h.opens hr hn hj hst' hz hz (by simpa [tokNodes] using e') (by simpa using hw)
      · rw [e2] at e'
        exact item_first h.opens hr hn hi hst hz hz (by simpa [tokNodes] using e') (by simpa using hw)
      · exact same_item h.opens hr hn hi hj hst hz hst' hz (by simpa [tokNodes] using e') (by simpa using hw)
          (by simpa using hne)

theorem _root_.Verif.Spec.Prefixed.afterPrefixes (h : Prefixed S X l o P) (n : Nat) : ∀ {w : List T}, w.length = n →
    Derives P [.production X] w → AfterPrefixes P l o w := by
  induction n using Nat.strongRecOn with
  | ind n ih =>
    intro w hl hd
    obtain ⟨r, u, v, hr, hs, rfl, h1, h2⟩ := derives_prod_inv hd
    cases h2
    rw [List.append_nil] at hl ⊢
    rcases h.only r hr hs with e | e <;> rw [e] at h1
    · exact .one h1
    · cases h1 with
      | @tok _ _ w2 h1 => exact .more (ih w2.length (by simp at hl; omega) rfl h1)

theorem _root_.Verif.Spec.Prefixed.derives_iff (h : Prefixed S X l o P) (ho : RootOnce P) {w : List T} :
    Derives P [.production S] w ↔ AfterPrefixes P l o w := by
  constructor
  · intro hd
    obtain ⟨r, u, v, hr, hs, rfl, h1, h2⟩ := derives_prod_inv hd
    cases h2
    obtain ⟨i, hi⟩ := List.mem_iff_getElem?.mp hr
    have := ho i _ r h.root hi hs
    subst this
    rw [h.root] at hi
    cases hi
    rw [List.append_nil]
    exact h.afterPrefixes _ rfl h1
  · intro hb
    have hX : Derives P [.production X] w := by
      induction hb with
      | one hw => simpa using Derives.prod (w := []) h.one hw .nil
      | @more w _ ih => simpa using Derives.prod (w := []) h.more (.tok ih) .nil
    simpa using Derives.prod (w := []) (List.mem_of_getElem? h.root) hX .nil

end Verif
