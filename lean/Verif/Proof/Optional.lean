import Verif.Spec.Optional
import Verif.Proof.RightList

/-!
# Something optional: lemmas
-/

set_option linter.unusedSectionVars false
set_option autoImplicit false

namespace Verif

open Spec

variable {T L : Type} {P P' : List (Rule T L)} {ρ : Nat → Nat} {s l S X : L}

theorem null_all {α : List (Node T L)} (h : ∀ n ∈ α, n = .terminal .epsilon ∨ Derives P [n] []) : Derives P α [] := by
  induction α with
  | nil => exact .nil
  | cons n α ih =>
    have h2 := ih fun m hm => h m (by simp [hm])
    rcases h n (by simp) with rfl | h1
    · exact .eps h2
    · exact h1.append h2

theorem null_of_steps {is : List Nat} {α β : List (Node T L)} (hs : RmSteps P is α β) (hβ : ∀ n ∈ β, Derives P [n] []) :
    ∀ n ∈ α, Derives P [n] [] := by
  induction hs with
  | refl => exact hβ
  | step h1 _ ih =>
    cases h1 with
    | @mk x y r hr =>
      have h := ih hβ
      intro n hn
      simp only [List.mem_append, List.mem_cons] at hn h
      rcases hn with hn | rfl | hn
      · exact h n (.inl (.inl hn))
      · refine .prod (u := []) (w := []) (List.mem_of_getElem? hr) (null_all fun m hm => ?_) .nil
        by_cases e : m = .terminal .epsilon
        · exact .inl e
        · refine .inr (h m (.inl (.inr ?_)))
          simp only [rhs, List.mem_filter]
          refine ⟨hm, ?_⟩
          trivial
      · exact h n (.inr hn)

theorem _root_.Verif.Spec.Optional.items (h : Optional S X l P) : ∀ r ∈ P, r.symbol = X →
    rhs r = [] ∨ rhs r = [.production l] := by
  intro r hr hs
  rcases h.only r hr hs with e | e
  · exact .inl (by simp [rhs, e])
  · exact .inr (by simp [rhs, e])

theorem _root_.Verif.Spec.Optional.unique (h : Optional S X l P) (i j : Nat) (r r' : Rule T L) (hi : P[i]? = some r)
    (hj : P[j]? = some r') (hs : r.symbol = X) (hs' : r'.symbol = X) (e : rhs r = rhs r') : i = j := by
  have : r = r' := by
    obtain ⟨a, b⟩ := r
    obtain ⟨a', b'⟩ := r'
    simp only at hs hs'
    subst hs hs'
    rcases h.only _ (List.mem_of_getElem? hi) rfl with e1 | e1 <;>
      rcases h.only _ (List.mem_of_getElem? hj) rfl with e2 | e2 <;> simp only at e1 e2 <;> subst e1 e2 <;> simp [rhs] at e ⊢
  subst this
  exact h.once i j r hi hj hs

/-- Where a handle can be. -/
theorem _root_.Verif.Spec.Optional.handle (h : Optional S X l P) (ho : RootOnce P) {i : Nat} {x : List (Node T L)}
    {w : List T} {r : Rule T L} (hr : P[i]? = some r) (hh : Handle P i x w) :
    (i = 0 ∧ x = [] ∧ w = [] ∧ rhs r = [.production X]) ∨ (r.symbol = X ∧ x = [] ∧ w = []) ∨
    ∃ js : List Nat, RmSteps P js [.production l] (x ++ .production r.symbol :: tokNodes w) := by
  obtain ⟨root, r1, is, h0, h1, h2⟩ := hh
  rw [hr] at h1
  cases h1
  have h0' := h.root
  rw [h0] at h0'
  cases h0'
  generalize eα : ([.production S] : List (Node T L)) = α at h2
  generalize eβ : x ++ Node.production r.symbol :: tokNodes w = β at h2
  cases h2 with
  | refl =>
    subst eα
    obtain ⟨rfl, e, rfl⟩ := single eβ.symm
    have := ho i _ r h0 hr e.symm
    subst this
    rw [h0] at hr
    cases hr
    exact .inl ⟨rfl, rfl, rfl, by simp [rhs]⟩
  | step h3 h4 =>
    cases h3 with
    | @mk x1 y1 r1 hr1 =>
      obtain ⟨rfl, e, rfl⟩ := single eα
      have := ho _ _ r1 h0 hr1 e.symm
      subst this
      rw [h0] at hr1
      cases hr1
      have e1 : ([] ++ rhs (⟨S, [.production X]⟩ : Rule T L) ++ tokNodes []) = [.production X] := by simp [rhs, tokNodes]
      rw [e1] at h4
      clear e1
      generalize eγ : ([.production X] : List (Node T L)) = γ at h4
      cases h4 with
      | refl =>
        subst eγ
        obtain ⟨rfl, e, rfl⟩ := single eβ.symm
        exact .inr (.inl ⟨e.symm, rfl, rfl⟩)
      | step h5 h6 =>
        cases h5 with
        | @mk x2 y2 r2 hr2 =>
          obtain ⟨rfl, e2, rfl⟩ := single eγ
          rcases h.items r2 (List.mem_of_getElem? hr2) e2.symm with e3 | e3
          · exfalso
            simp only [e3, List.nil_append, tokNodes, List.map_nil] at h6
            generalize eδ : ([] : List (Node T L)) = δ at h6
            cases h6 with
            | refl => subst eδ; simp at eβ
            | step h7 _ => cases h7; simp at eδ
          · simp only [e3, List.nil_append, tokNodes, List.map_nil, List.append_nil] at h6
            exact .inr (.inr ⟨_, h6⟩)

theorem _root_.Verif.Spec.Optional.noX (h : Optional S X l P) {js : List Nat} {β : List (Node T L)}
    (hs : RmSteps P js [.production l] β) : .production X ∉ β := fun hm =>
  h.own (steps_reachable hs (by simp only [List.mem_singleton, Node.production.injEq, forall_eq]; exact .root) X hm)

/-- If the grammar of the label is LR(1) and the label does not derive the empty sequence, then the grammar in which it is
optional is LR(1). -/
theorem _root_.Verif.Spec.Optional.lr1 (h : Optional S X l P) (ho : RootOnce P) (hr : RootedAt ρ s l P P')
    (hn : ¬ NotLR1 P') (h0 : ¬ Derives P [.production l] []) : ¬ NotLR1 P := by
  rintro ⟨γ, i, r, x, w, j, r', x', w', y, hi, hj, h1, h2, rfl, e, hw, hne⟩
  have hlX : l ≠ X := by rintro rfl; exact h.own .root
  have hnull : ∀ {js : List Nat}, ¬ RmSteps P js [.production l] [] := fun hs =>
    h0 (null_of_steps hs (by simp) _ (by simp))
  rcases h.handle ho hi h1 with ⟨rfl, rfl, rfl, e1⟩ | ⟨hs, rfl, rfl⟩ | ⟨js, hst⟩
  · have hy : y = [] := by cases y <;> simp_all
    subst hy
    rw [e1] at e
    rcases h.handle ho hj h2 with ⟨rfl, rfl, rfl, e2⟩ | ⟨hs', rfl, rfl⟩ | ⟨js', hst'⟩
    · simp at hne
    · rcases h.items r' (List.mem_of_getElem? hj) hs' with e2 | e2 <;> rw [e2] at e <;> simp [tokNodes] at e
      exact hlX e.symm
    · exact h.noX (rm_snoc hj hst') (by rw [← e]; simp)
  · have hy : y = [] := by cases y <;> simp_all
    subst hy
    rcases h.handle ho hj h2 with ⟨rfl, rfl, rfl, e2⟩ | ⟨hs', rfl, rfl⟩ | ⟨js', hst'⟩
    · rw [e2] at e
      rcases h.items r (List.mem_of_getElem? hi) hs with e1 | e1 <;> rw [e1] at e <;> simp [tokNodes] at e
      exact hlX e
    · have := h.unique i j r r' hi hj hs hs' (by simpa [tokNodes] using e)
      simp_all
    · rcases h.items r (List.mem_of_getElem? hi) hs with e1 | e1 <;> rw [e1] at e
      · have := rm_snoc hj hst'
        rw [← e] at this
        exact hnull (by simpa [tokNodes] using this)
      · exact item_loop hr hn hj hst' (by rw [← e]; simp [tokNodes])
  · rcases h.handle ho hj h2 with ⟨rfl, rfl, rfl, e2⟩ | ⟨hs', rfl, rfl⟩ | ⟨js', hst'⟩
    · rw [e2] at e
      have hm : (.production X : Node T L) ∈ x ++ rhs r ++ tokNodes y := by rw [e]; simp
      rcases List.mem_append.mp hm with hm | hm
      · exact h.noX (rm_snoc hi hst) (List.mem_append_left _ hm)
      · exact production_not_tokNodes hm
    · rcases h.items r' (List.mem_of_getElem? hj) hs' with e2 | e2 <;> rw [e2] at e
      · have e3 : x ++ rhs r = [] ∧ tokNodes (L := L) y = [] := by
          have : x = [] ∧ rhs r = [] ∧ y = [] := by simpa [tokNodes] using e
          simp [this, tokNodes]
        have hy : y = [] := by simpa [tokNodes] using e3.2
        subst hy
        have hw' : w = [] := by cases w <;> simp_all
        subst hw'
        have := rm_snoc hi hst
        rw [e3.1] at this
        exact hnull (by simpa [tokNodes] using this)
      · have hy : y = [] := single_rest (z := x ++ rhs r) (a := l) (by rw [e]; simp [tokNodes])
        subst hy
        have hw' : w = [] := by cases w <;> simp_all
        subst hw'
        exact item_loop hr hn hi hst (by rw [e]; simp [tokNodes])
    · obtain ⟨i', k0, k1, k2, k3⟩ := hr.handle hi hst
      obtain ⟨j', l0, l1, l2, l3⟩ := hr.handle hj hst'
      refine hn ⟨x ++ rhs r, i', r, x, w, j', r', x', w', y, k2, l2, k3, l3, rfl, e, hw, ?_⟩
      rcases hne with hne | hne
      · exact .inl fun e => hne (by rw [← k1, ← l1, e])
      · exact .inr hne

/-- If the label derives the empty sequence, then the grammar in which it is optional is not LR(1). -/
theorem _root_.Verif.Spec.Optional.nullable (h : Optional S X l P) (h0 : Derives P [.production l] []) : NotLR1 P := by
  obtain ⟨is, hs⟩ := h0.rightmost [] []
  simp only [List.nil_append, tokNodes, List.map_nil, List.append_nil, strip_prod, strip_nil] at hs
  obtain ⟨i, hi⟩ := List.mem_iff_getElem?.mp h.empty
  obtain ⟨m, hm⟩ := List.mem_iff_getElem?.mp h.one
  have hX : ∃ js, RmSteps P js [.production S] [.production X] :=
    ⟨[0], .step (by have := RmStep.mk (x := []) (y := []) h.root; simpa [tokNodes, rhs] using this) (.refl _)⟩
  obtain ⟨js, hX⟩ := hX
  have hl : RmSteps P [m] [.production X] [.production l] :=
    .step (by have := RmStep.mk (x := []) (y := []) hm; simpa [tokNodes, rhs] using this) (.refl _)
  rcases hs.last with ⟨-, e⟩ | ⟨is', j, β, rfl, h1, h2⟩
  · cases e
  · generalize eγ : ([] : List (Node T L)) = γ at h2
    cases h2 with
    | @mk x y r hr =>
      have e : x = [] ∧ rhs r = [] ∧ y = [] := by simpa [tokNodes] using eγ.symm
      obtain ⟨rfl, er, rfl⟩ := e
      refine ⟨[], i, _, [], [], j, r, [], [], [], hi, hr, ⟨_, _, js, h.root, hi, by simpa [tokNodes] using hX⟩,
        ⟨_, _, _, h.root, hr, (hX.trans hl).trans h1⟩, by simp [rhs], by simp [er, tokNodes], rfl, .inl ?_⟩
      rintro rfl
      rw [hi] at hr
      cases hr
      exact h.noX h1 (by simp)

theorem _root_.Verif.Spec.Optional.derives_iff (h : Optional S X l P) (ho : RootOnce P) {w : List T} :
    Derives P [.production S] w ↔ w = [] ∨ Derives P [.production l] w := by
  constructor
  · intro hd
    obtain ⟨r, u, v, hr, hs, rfl, h1, h2⟩ := derives_prod_inv hd
    cases h2
    obtain ⟨i, hi⟩ := List.mem_iff_getElem?.mp hr
    have := ho i _ r h.root hi hs
    subst this
    rw [h.root] at hi
    cases hi
    rw [List.append_nil]
    obtain ⟨r1, u1, v1, hr1, hs1, rfl, h3, h4⟩ := derives_prod_inv h1
    cases h4
    rw [List.append_nil]
    rcases h.only r1 hr1 hs1 with e | e <;> rw [e] at h3
    · cases h3 with
      | eps h3 => cases h3; exact .inl rfl
    · exact .inr h3
  · intro hw
    have hX : Derives P [.production X] w := by
      rcases hw with rfl | hw
      · exact .prod (u := []) (w := []) h.empty (.eps .nil) .nil
      · simpa using Derives.prod (w := []) h.one hw .nil
    simpa using Derives.prod (w := []) (List.mem_of_getElem? h.root) hX .nil

end Verif
