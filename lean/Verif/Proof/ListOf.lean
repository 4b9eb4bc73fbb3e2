import Verif.Spec.ListOf
import Verif.Proof.Forms

/-!
# Lists of items that are each closed by a token of their own: lemmas
-/

set_option linter.unusedSectionVars false
set_option autoImplicit false

namespace Verif

open Spec

variable {T L : Type} {P P' : List (Rule T L)} {ρ : Nat → Nat} {s l S X : L} {k : T}

theorem production_not_tokNodes {v : List T} {b : L} : (Node.production b : Node T L) ∉ tokNodes v := by
  intro h; simp [tokNodes] at h

theorem _root_.Verif.Spec.ListOf.items (h : ListOf S X l k P) : ∀ r ∈ P, r.symbol = X →
    rhs r = [] ∨ rhs r = [.production X, .production l, .terminal (.token k)] := by
  intro r hr hs
  rcases h.only r hr hs with e | e
  · exact .inl (by simp [rhs, e])
  · exact .inr (by simp [rhs, e])

theorem _root_.Verif.Spec.ListOf.unique (h : ListOf S X l k P) (i j : Nat) (r r' : Rule T L) (hi : P[i]? = some r)
    (hj : P[j]? = some r') (hs : r.symbol = X) (hs' : r'.symbol = X) (e : rhs r = rhs r') : i = j := by
  have : r = r' := by
    obtain ⟨a, b⟩ := r
    obtain ⟨a', b'⟩ := r'
    simp only at hs hs'
    subst hs hs'
    rcases h.only _ (List.mem_of_getElem? hi) rfl with e1 | e1 <;>
      rcases h.only _ (List.mem_of_getElem? hj) rfl with e2 | e2 <;> simp only at e1 e2 <;> subst e1 e2 <;> simp [rhs] at e ⊢
  subst this
  exact h.once i j r hi hj hs

/-- Where the last label of a sentential form of the list is. -/
theorem _root_.Verif.Spec.ListOf.last_label (h : ListOf S X l k P) (n : Nat) :
    ∀ {is : List Nat} {x : List (Node T L)} {a : L} {w : List T}, is.length = n →
      RmSteps P is [.production X] (x ++ .production a :: tokNodes w) →
      (a = X ∧ x = []) ∨ ∃ x1 w1 z js, x = .production X :: x1 ∧ w = w1 ++ k :: z ∧
        RmSteps P js [.production l] (x1 ++ .production a :: tokNodes w1) := by
  induction n with
  | zero =>
    intro is x a w hl hs
    cases List.length_eq_zero_iff.mp hl
    generalize eα : ([.production X] : List (Node T L)) = α at hs
    generalize eβ : x ++ Node.production a :: tokNodes w = β at hs
    cases hs
    obtain ⟨rfl, rfl, rfl⟩ := single (eα.trans eβ.symm)
    exact .inl ⟨rfl, rfl⟩
  | succ n ih =>
    intro is x a w hl hs
    rcases hs.last with ⟨rfl, -⟩ | ⟨is', i, β, rfl, h1, h2⟩
    · simp at hl
    · generalize eγ : x ++ Node.production a :: tokNodes w = γ at h2
      cases h2 with
      | @mk x0 y0 r hr =>
        rcases ih (by simpa using hl) h1 with ⟨hX, rfl⟩ | ⟨x1, w1, z, js, rfl, rfl, h3⟩
        · rcases h.items r (List.mem_of_getElem? hr) hX with e | e
          · rw [e] at eγ
            exact absurd (by rw [show (tokNodes y0 : List (Node T L)) = _ from eγ.symm]; simp)
              (production_not_tokNodes (v := y0) (b := a))
          · rw [e] at eγ
            rcases x with _ | ⟨b, _ | ⟨c, x⟩⟩
            · simp only [List.nil_append, List.cons_append, List.cons.injEq] at eγ
              exact absurd (by rw [eγ.2]; simp) (production_not_tokNodes (v := w) (b := l))
            · simp only [List.nil_append, List.cons_append, List.cons.injEq, Node.production.injEq] at eγ
              obtain ⟨rfl, rfl, e1⟩ := eγ
              refine .inr ⟨[], [], y0, [], rfl, ?_, by simpa [tokNodes] using RmSteps.refl _⟩
              exact tokNodes_inj (by rw [e1]; simp [tokNodes])
            · simp only [List.nil_append, List.cons_append, List.cons.injEq] at eγ
              have : (Node.production a : Node T L) ∈ tokNodes (k :: y0) := by
                have e2 : x ++ Node.production a :: tokNodes w = tokNodes (k :: y0) := by
                  rw [eγ.2.2]; simp [tokNodes]
                rw [← e2]; simp
              exact absurd this production_not_tokNodes
        · have h5 : RmSteps P (js ++ [i]) [.production l] (x1 ++ rhs r ++ tokNodes w1) := rm_snoc hr h3
          cases x with
          | nil =>
            simp only [List.nil_append, List.cons_append, List.cons.injEq, Node.production.injEq] at eγ
            exact .inl ⟨eγ.1, rfl⟩
          | cons b x =>
            simp only [List.cons_append, List.cons.injEq] at eγ
            obtain ⟨rfl, e2⟩ := eγ
            have e2 : x ++ (Node.production a :: tokNodes w) = (x1 ++ rhs r ++ tokNodes w1) ++ tokNodes (k :: z) := by
              rw [e2]; simp [tokNodes]
            rcases List.append_eq_append_iff.mp e2 with ⟨u, e3, e4⟩ | ⟨u, rfl, e3⟩
            · cases u with
              | nil =>
                simp only [List.nil_append] at e4
                exact absurd (by rw [← e4]; simp) (production_not_tokNodes (v := k :: z) (b := a))
              | cons n u =>
                simp only [List.cons_append, List.cons.injEq] at e4
                obtain ⟨rfl, e4⟩ := e4
                obtain ⟨w2, w3, rfl, rfl, e5⟩ := List.map_eq_append_iff.mp e4
                have := tokNodes_inj e5
                subst this
                refine .inr ⟨x, w2, z, js ++ [i], rfl, rfl, ?_⟩
                rw [e3] at h5
                exact h5
            · exact absurd (by rw [e3]; simp) (production_not_tokNodes (v := k :: z) (b := a))

/-- Where a handle can be. -/
theorem _root_.Verif.Spec.ListOf.handle (h : ListOf S X l k P) (ho : RootOnce P) {i : Nat} {x : List (Node T L)}
    {w : List T} {r : Rule T L} (hr : P[i]? = some r) (hh : Handle P i x w) :
    (i = 0 ∧ x = [] ∧ w = [] ∧ rhs r = [.production X]) ∨ (r.symbol = X ∧ x = []) ∨
    ∃ (x1 : List (Node T L)) (w1 z : List T) (js : List Nat), x = .production X :: x1 ∧ w = w1 ++ k :: z ∧
      RmSteps P js [.production l] (x1 ++ .production r.symbol :: tokNodes w1) := by
  obtain ⟨root, r1, is, h0, h1, h2⟩ := hh
  rw [hr] at h1
  cases h1
  have h0' := h.root
  rw [h0] at h0'
  cases h0'
  generalize eα : ([.production S] : List (Node T L)) = α at h2
  generalize eβ : x ++ Node.production r.symbol :: tokNodes w = β at h2
  cases h2 with
  | refl =>
    subst eα
    obtain ⟨rfl, e, rfl⟩ := single eβ.symm
    have := ho i _ r h0 hr e.symm
    subst this
    rw [h0] at hr
    cases hr
    exact .inl ⟨rfl, rfl, rfl, by simp [rhs]⟩
  | step h3 h4 =>
    cases h3 with
    | @mk x1 y1 r1 hr1 =>
      obtain ⟨rfl, e, rfl⟩ := single eα
      have := ho _ _ r1 h0 hr1 e.symm
      subst this
      rw [h0] at hr1
      cases hr1
      have e1 : ([] ++ rhs (⟨S, [.production X]⟩ : Rule T L) ++ tokNodes []) = [.production X] := by simp [rhs, tokNodes]
      rw [e1, ← eβ] at h4
      exact .inr (h.last_label _ rfl h4)

/-- If the grammar for the items is LR(1), then so is the grammar for the lists. -/
theorem _root_.Verif.Spec.ListOf.lr1 (h : ListOf S X l k P) (ho : RootOnce P) (hr : RootedAt ρ s l P P')
    (hn : ¬ NotLR1 P') : ¬ NotLR1 P := by
  rintro ⟨γ, i, r, x, w, j, r', x', w', y, hi, hj, h1, h2, rfl, e, hw, hne⟩
  have hX : ∀ {v : List T} {α : List (Node T L)}, (tokNodes v : List (Node T L)) ≠ .production X :: α := by
    intro v α e
    exact production_not_tokNodes (v := v) (b := X) (by rw [e]; simp)
  rcases h.handle ho hi h1 with ⟨rfl, rfl, rfl, e1⟩ | ⟨hs, rfl⟩ | ⟨x1, w1, z, js, rfl, rfl, hst⟩
  · have hy : y = [] := by cases y <;> simp_all
    subst hy
    rcases h.handle ho hj h2 with ⟨rfl, rfl, rfl, e2⟩ | ⟨hs', rfl⟩ | ⟨x1', w1', z', js', rfl, rfl, hst'⟩
    · simp at hne
    · rw [e1] at e
      rcases h.items r' (List.mem_of_getElem? hj) hs' with e2 | e2
      · rw [e2] at e
        exact absurd (by simpa [tokNodes] using e.symm) (hX (v := w') (α := []))
      · rw [e2] at e
        simp [tokNodes] at e
    · rw [e1] at e
      have := congrArg List.length e
      simp [tokNodes] at this
  · rcases h.items r (List.mem_of_getElem? hi) hs with e1 | e1
    · rw [e1] at e
      simp only [List.nil_append] at e
      rcases h.handle ho hj h2 with ⟨rfl, rfl, rfl, e2⟩ | ⟨hs', rfl⟩ | ⟨x1', w1', z', js', rfl, rfl, hst'⟩
      · rw [e2] at e
        exact absurd e (hX (v := y))
      · rcases h.items r' (List.mem_of_getElem? hj) hs' with e2 | e2
        · have := h.unique i j r r' hi hj hs hs' (e1.trans e2.symm)
          rw [e2] at e
          have := tokNodes_inj (e.trans (by simp) : (tokNodes y : List (Node T L)) = tokNodes w')
          simp_all
        · rw [e2] at e
          exact absurd e (hX (v := y))
      · exact absurd e (hX (v := y))
    · rw [e1] at e
      rcases h.handle ho hj h2 with ⟨rfl, rfl, rfl, e2⟩ | ⟨hs', rfl⟩ | ⟨x1', w1', z', js', rfl, rfl, hst'⟩
      · rw [e2] at e
        simp [tokNodes] at e
      · rcases h.items r' (List.mem_of_getElem? hj) hs' with e2 | e2
        · rw [e2] at e
          exact absurd e.symm (hX (v := w'))
        · have := h.unique i j r r' hi hj hs hs' (e1.trans e2.symm)
          rw [e2] at e
          have := tokNodes_inj (List.append_cancel_left e)
          simp_all
      · refine loop_second (post := .terminal (.token k) :: tokNodes y) (post' := .terminal (.token k) :: tokNodes y)
          hr hn hj hst' (.inr ⟨k, _, z', rfl, rfl, h.own⟩) (by simp) (fun k' rest e => ⟨_, e⟩) ?_
        simpa using e
  · have hf : ∀ z : List T, FollowedBy P l [.terminal (.token k)] (k :: z) := fun z => .inr ⟨k, [], z, rfl, rfl, h.own⟩
    rcases h.handle ho hj h2 with ⟨rfl, rfl, rfl, e2⟩ | ⟨hs', rfl⟩ | ⟨x1', w1', z', js', rfl, rfl, hst'⟩
    · rw [e2] at e
      have hy : y = [] := by
        have := congrArg List.length e
        simp [tokNodes] at this
        exact this.2.2
      subst hy
      cases w1 <;> simp at hw
    · rcases h.items r' (List.mem_of_getElem? hj) hs' with e2 | e2
      · rw [e2] at e
        exact absurd e.symm (hX (v := w'))
      · rw [e2] at e
        refine loop_first (post := .terminal (.token k) :: tokNodes w') hr hn hi hst
          (.inr ⟨k, _, z, rfl, rfl, h.own⟩) ?_ hw
        simpa using e
    · refine same_place hr hn hi hj hst (hf z) hst' (hf z') ?_ hw hne
      simpa using e

theorem derives_prod_inv {a : L} {α : List (Node T L)} {w : List T} (h : Derives P (.production a :: α) w) :
    ∃ r u v, r ∈ P ∧ r.symbol = a ∧ w = u ++ v ∧ Derives P r.rule u ∧ Derives P α v := by
  generalize e : Node.production a :: α = β at h
  cases h with
  | nil => cases e
  | tok => cases e
  | eps => cases e
  | prod hr h1 h2 => cases e; exact ⟨_, _, _, hr, rfl, rfl, h1, h2⟩

theorem _root_.Verif.Spec.ListOf.items_of_derives (h : ListOf S X l k P) (n : Nat) :
    ∀ {w : List T}, w.length = n → Derives P [.production X] w → Items P l k w := by
  induction n using Nat.strongRecOn with
  | ind n ih =>
    intro w hl hd
    obtain ⟨r, u, v, hr, hs, rfl, h1, h2⟩ := derives_prod_inv hd
    cases h2
    rw [List.append_nil] at hl ⊢
    rcases h.only r hr hs with e | e
    · rw [e] at h1
      cases h1 with | eps h1 => cases h1; exact .nil
    · rw [e] at h1
      obtain ⟨r1, u1, v1, hr1, hs1, rfl, h3, h4⟩ := derives_prod_inv h1
      obtain ⟨r2, u2, v2, hr2, hs2, rfl, h5, h6⟩ := derives_prod_inv h4
      cases h6 with
      | tok h6 =>
        cases h6
        have hX : Derives P [.production X] u1 := by
          have := Derives.prod (w := []) hr1 h3 .nil
          rwa [List.append_nil, hs1] at this
        have hL : Derives P [.production l] u2 := by
          have := Derives.prod (w := []) hr2 h5 .nil
          rwa [List.append_nil, hs2] at this
        have := Items.snoc (ih u1.length (by simp at hl; omega) rfl hX) hL
        simpa using this

/-- What the grammar derives. -/
theorem _root_.Verif.Spec.ListOf.derives_iff (h : ListOf S X l k P) (ho : RootOnce P) {w : List T} :
    Derives P [.production S] w ↔ Items P l k w := by
  constructor
  · intro hd
    obtain ⟨r, u, v, hr, hs, rfl, h1, h2⟩ := derives_prod_inv hd
    cases h2
    obtain ⟨i, hi⟩ := List.mem_iff_getElem?.mp hr
    have := ho i _ r h.root hi hs
    subst this
    rw [h.root] at hi
    cases hi
    rw [List.append_nil]
    exact h.items_of_derives _ rfl h1
  · intro hi
    have hX : Derives P [.production X] w := by
      induction hi with
      | nil => simpa using Derives.prod (u := []) (w := []) h.empty (.eps .nil) .nil
      | @snoc v u _ hu ih =>
        have := Derives.prod (u := v ++ u ++ [k]) (w := []) h.more (by
          have := ih.append (hu.append (.tok .nil : Derives P [.terminal (.token k)] [k]))
          simpa using this) .nil
        simpa using this
    have := Derives.prod (u := w) (w := []) (List.mem_of_getElem? h.root) hX .nil
    simpa using this

end Verif
