import Verif.Spec.Postfixed
import Verif.Proof.Brackets

/-!
# Something before any number of postfix operators: lemmas
-/

set_option linter.unusedSectionVars false
set_option autoImplicit false

namespace Verif

open Spec

variable {T L : Type} {P P' : List (Rule T L)} {ρ : Nat → Nat} {s l S X : L} {k : T}

theorem _root_.Verif.Spec.Postfixed.notBelow (h : Postfixed S X l k P) : ¬ Reachable P l X :=
  fun hx => h.own _ h.more hx (by simp)

theorem _root_.Verif.Spec.Postfixed.noX (h : Postfixed S X l k P) {is : List Nat} {β : List (Node T L)}
    (hs : RmSteps P is [.production l] β) : .production X ∉ β := fun hm =>
  h.notBelow (steps_reachable hs (by simp only [List.mem_singleton, Node.production.injEq, forall_eq]; exact .root) X hm)

theorem _root_.Verif.Spec.Postfixed.items (h : Postfixed S X l k P) : ∀ r ∈ P, r.symbol = X →
    rhs r = [.production l] ∨ rhs r = [.production X, .terminal (.token k)] := by
  intro r hr hs
  rcases h.only r hr hs with e | e
  · exact .inl (by simp [rhs, e])
  · exact .inr (by simp [rhs, e])

theorem _root_.Verif.Spec.Postfixed.unique (h : Postfixed S X l k P) (i j : Nat) (r r' : Rule T L) (hi : P[i]? = some r)
    (hj : P[j]? = some r') (hs : r.symbol = X) (hs' : r'.symbol = X) (e : rhs r = rhs r') : i = j := by
  have : r = r' := by
    obtain ⟨a, b⟩ := r
    obtain ⟨a', b'⟩ := r'
    simp only at hs hs'
    subst hs hs'
    rcases h.only _ (List.mem_of_getElem? hi) rfl with e1 | e1 <;>
      rcases h.only _ (List.mem_of_getElem? hj) rfl with e2 | e2 <;> simp only at e1 e2 <;> subst e1 e2 <;> simp [rhs] at e ⊢
  subst this
  exact h.once i j r hi hj hs

/-- Where the last label of a sentential form is. -/
theorem _root_.Verif.Spec.Postfixed.last_label (h : Postfixed S X l k P) (n : Nat) :
    ∀ {is : List Nat} {x : List (Node T L)} {a : L} {w : List T}, is.length = n →
      RmSteps P is [.production X] (x ++ .production a :: tokNodes w) →
      (∃ m, a = X ∧ x = [] ∧ w = List.replicate m k) ∨
      ∃ m w1 js, w = w1 ++ List.replicate m k ∧
        RmSteps P js [.production l] (x ++ .production a :: tokNodes w1) := by
  induction n with
  | zero =>
    intro is x a w hl hs
    cases List.length_eq_zero_iff.mp hl
    generalize eα : ([.production X] : List (Node T L)) = α at hs
    generalize eβ : x ++ Node.production a :: tokNodes w = β at hs
    cases hs
    obtain ⟨rfl, rfl, rfl⟩ := single (eα.trans eβ.symm)
    exact .inl ⟨0, rfl, rfl, rfl⟩
  | succ n ih =>
    intro is x a w hl hs
    rcases hs.last with ⟨rfl, -⟩ | ⟨is', i, β, rfl, h1, h2⟩
    · simp at hl
    · generalize eγ : x ++ Node.production a :: tokNodes w = γ at h2
      cases h2 with
      | @mk x0 y0 r hr =>
        rcases ih (by simpa using hl) h1 with ⟨m, hX, rfl, rfl⟩ | ⟨m, w1, js, rfl, h3⟩
        · rcases h.items r (List.mem_of_getElem? hr) hX with e | e
          · rw [e] at eγ
            obtain ⟨w2, rfl, e3⟩ := below_form (x := x) (a := a) (w := w) (ψ := [.production l]) (z := List.replicate m k) (by rw [eγ]; simp)
            obtain ⟨rfl, rfl, rfl⟩ := single e3
            exact .inr ⟨m, [], [], rfl, by simpa [tokNodes] using RmSteps.refl _⟩
          · rw [e] at eγ
            obtain ⟨w2, rfl, e3⟩ := below_form (x := x) (a := a) (w := w) (ψ := [.production X]) (z := List.replicate (m + 1) k)
              (by rw [eγ]; rw [List.replicate_succ]; simp [tokNodes])
            obtain ⟨rfl, rfl, rfl⟩ := single e3
            exact .inl ⟨m + 1, rfl, rfl, by simp⟩
        · have h5 : RmSteps P (js ++ [i]) [.production l] (x0 ++ rhs r ++ tokNodes w1) := rm_snoc hr h3
          obtain ⟨w2, rfl, e3⟩ := below_form (x := x) (a := a) (w := w) (ψ := x0 ++ rhs r ++ tokNodes w1) (z := List.replicate m k)
            (by rw [eγ]; simp [tokNodes])
          rw [e3] at h5
          exact .inr ⟨m, w2, _, rfl, h5⟩

/-- Where a handle can be. -/
theorem _root_.Verif.Spec.Postfixed.handle (h : Postfixed S X l k P) (ho : RootOnce P) {i : Nat} {x : List (Node T L)}
    {w : List T} {r : Rule T L} (hr : P[i]? = some r) (hh : Handle P i x w) :
    (i = 0 ∧ x = [] ∧ w = [] ∧ rhs r = [.production X]) ∨
    (∃ m, r.symbol = X ∧ x = [] ∧ w = List.replicate m k) ∨
    ∃ (m : Nat) (w1 : List T) (js : List Nat), w = w1 ++ List.replicate m k ∧
      RmSteps P js [.production l] (x ++ .production r.symbol :: tokNodes w1) := by
  obtain ⟨root, r1, is, h0, h1, h2⟩ := hh
  rw [hr] at h1
  cases h1
  have h0' := h.root
  rw [h0] at h0'
  cases h0'
  generalize eα : ([.production S] : List (Node T L)) = α at h2
  generalize eβ : x ++ Node.production r.symbol :: tokNodes w = β at h2
  cases h2 with
  | refl =>
    subst eα
    obtain ⟨rfl, e, rfl⟩ := single eβ.symm
    have := ho i _ r h0 hr e.symm
    subst this
    rw [h0] at hr
    cases hr
    exact .inl ⟨rfl, rfl, rfl, by simp [rhs]⟩
  | step h3 h4 =>
    cases h3 with
    | @mk x1 y1 r1 hr1 =>
      obtain ⟨rfl, e, rfl⟩ := single eα
      have := ho _ _ r1 h0 hr1 e.symm
      subst this
      rw [h0] at hr1
      cases hr1
      have e1 : ([] ++ rhs (⟨S, [.production X]⟩ : Rule T L) ++ tokNodes []) = [.production X] := by simp [rhs, tokNodes]
      rw [e1, ← eβ] at h4
      exact .inr (h.last_label _ rfl h4)

/-- The kinds of handles: within the part, or not. -/
theorem _root_.Verif.Spec.Postfixed.kinds (h : Postfixed S X l k P) (ho : RootOnce P) {i : Nat} {x : List (Node T L)}
    {w : List T} {r : Rule T L} (hr : P[i]? = some r) (hh : Handle P i x w) :
    (i = 0 ∧ x = [] ∧ w = [] ∧ rhs r = [.production X]) ∨
    (∃ m, r.symbol = X ∧ x = [] ∧ w = List.replicate m k ∧ rhs r = [.production X, .terminal (.token k)]) ∨
    ∃ (m : Nat) (w1 : List T), w = w1 ++ List.replicate m k ∧
      .production X ∉ x ++ rhs r ∧ ((r.symbol = X ∧ x = [] ∧ w1 = [] ∧ rhs r = [.production l]) ∨
        ∃ js, RmSteps P js [.production l] (x ++ .production r.symbol :: tokNodes w1)) := by
  have hlX : l ≠ X := by rintro rfl; exact h.notBelow .root
  rcases h.handle ho hr hh with h1 | ⟨m, hs, rfl, rfl⟩ | ⟨m, w1, js, rfl, hst⟩
  · exact .inl h1
  · rcases h.items r (List.mem_of_getElem? hr) hs with e | e
    · exact .inr (.inr ⟨m, [], by simp, by simp [e, Ne.symm hlX], .inl ⟨hs, rfl, rfl, e⟩⟩)
    · exact .inr (.inl ⟨m, hs, rfl, rfl, e⟩)
  · refine .inr (.inr ⟨m, w1, rfl, ?_, .inr ⟨js, hst⟩⟩)
    intro hm
    exact h.noX (rm_snoc hr hst) (List.mem_append_left _ hm)

/-- If the grammar of the part is LR(1), then so is the grammar with the operator. -/
theorem _root_.Verif.Spec.Postfixed.lr1 (h : Postfixed S X l k P) (ho : RootOnce P) (hr : RootedAt ρ s l P P')
    (hn : ¬ NotLR1 P') : ¬ NotLR1 P := by
  rintro ⟨γ, i, r, x, w, j, r', x', w', y, hi, hj, h1, h2, rfl, e, hw, hne⟩
  have key : ∀ {ψ : List (Node T L)} {v : List T}, .production X ∉ ψ → .production X ∉ ψ ++ tokNodes v := by
    intro ψ v hx hm
    rcases List.mem_append.mp hm with hm | hm
    · exact hx hm
    · exact production_not_tokNodes hm
  rcases h.kinds ho hi h1 with ⟨rfl, rfl, rfl, e1⟩ | ⟨m, hs, rfl, rfl, e1⟩ | ⟨m, w1, rfl, g2, g3⟩
  · have hy : y = [] := by cases y <;> simp_all
    subst hy
    rw [e1] at e
    rcases h.kinds ho hj h2 with ⟨rfl, rfl, rfl, e2⟩ | ⟨m', hs', rfl, rfl, e2⟩ | ⟨m', w1', rfl, g2', g3'⟩
    · simp at hne
    · rw [e2] at e
      simp [tokNodes] at e
    · exact key g2' (by rw [← e]; simp)
  · rw [e1] at e
    rcases h.kinds ho hj h2 with ⟨rfl, rfl, rfl, e2⟩ | ⟨m', hs', rfl, rfl, e2⟩ | ⟨m', w1', rfl, g2', g3'⟩
    · rw [e2] at e
      simp [tokNodes] at e
    · have hij := h.unique i j r r' hi hj hs hs' (by rw [e1, e2])
      rw [e2] at e
      have := tokNodes_inj (List.append_cancel_left e)
      simp_all
    · exact key g2' (by rw [← e]; simp)
  · rcases h.kinds ho hj h2 with ⟨rfl, rfl, rfl, e2⟩ | ⟨m', hs', rfl, rfl, e2⟩ | ⟨m', w1', rfl, g2', g3'⟩
    · exact key g2 (v := y) (by rw [e, e2]; simp)
    · exact key g2 (v := y) (by rw [e, e2]; simp)
    · rcases g3 with ⟨hs, rfl, rfl, e1⟩ | ⟨js, hst⟩ <;> rcases g3' with ⟨hs', rfl, rfl, e2⟩ | ⟨js', hst'⟩
      · have hij := h.unique i j r r' hi hj hs hs' (by rw [e1, e2])
        rw [e1, e2] at e
        have := tokNodes_inj (List.append_cancel_left e)
        simp_all
      · rw [e1] at e
        exact item_second h.own hr hn hj hst' (tail_replicate m') (tail_replicate m) (by simpa [tokNodes] using e)
          (by simpa using hw)
      · rw [e2] at e
        exact item_first h.own hr hn hi hst (tail_replicate m) (tail_replicate m') (by simpa [tokNodes] using e) hw
      · exact same_item h.own hr hn hi hj hst (tail_replicate m) hst' (tail_replicate m') (by simpa [tokNodes] using e) hw
          (by simpa using hne)

theorem _root_.Verif.Spec.Postfixed.beforePostfixes (h : Postfixed S X l k P) (n : Nat) : ∀ {w : List T}, w.length = n →
    Derives P [.production X] w → BeforePostfixes P l k w := by
  induction n using Nat.strongRecOn with
  | ind n ih =>
    intro w hl hd
    obtain ⟨r, u, v, hr, hs, rfl, h1, h2⟩ := derives_prod_inv hd
    cases h2
    rw [List.append_nil] at hl ⊢
    rcases h.only r hr hs with e | e <;> rw [e] at h1
    · exact .one h1
    · obtain ⟨r1, u1, v1, hr1, hs1, rfl, h3, h4⟩ := derives_prod_inv h1
      cases h4 with
      | tok h4 =>
        cases h4
        have hX : Derives P [.production X] u1 := by
          have := Derives.prod (w := []) hr1 h3 .nil
          rwa [List.append_nil, hs1] at this
        exact .more (ih u1.length (by simp at hl; omega) rfl hX)

theorem _root_.Verif.Spec.Postfixed.derives_iff (h : Postfixed S X l k P) (ho : RootOnce P) {w : List T} :
    Derives P [.production S] w ↔ BeforePostfixes P l k w := by
  constructor
  · intro hd
    obtain ⟨r, u, v, hr, hs, rfl, h1, h2⟩ := derives_prod_inv hd
    cases h2
    obtain ⟨i, hi⟩ := List.mem_iff_getElem?.mp hr
    have := ho i _ r h.root hi hs
    subst this
    rw [h.root] at hi
    cases hi
    rw [List.append_nil]
    exact h.beforePostfixes _ rfl h1
  · intro hb
    have hX : Derives P [.production X] w := by
      induction hb with
      | one hw => simpa using Derives.prod (w := []) h.one hw .nil
      | @more w _ ih =>
        have h1 : Derives P [.terminal (.token k)] [k] := .tok .nil
        simpa using Derives.prod (w := []) h.more (ih.append h1) .nil
    simpa using Derives.prod (w := []) (List.mem_of_getElem? h.root) hX .nil

end Verif
