import Verif.Spec.Brackets
import Verif.Proof.RightList

/-!
# Something in any number of brackets: lemmas
-/

set_option linter.unusedSectionVars false
set_option autoImplicit false

namespace Verif

open Spec

variable {T L : Type} {P P' : List (Rule T L)} {ρ : Nat → Nat} {s l S X : L} {o c : T}

theorem label_at {u v : List T} {a b : L} {β γ : List (Node T L)}
    (e : tokNodes u ++ .production a :: β = tokNodes v ++ .production b :: γ) : u = v ∧ a = b ∧ β = γ := by
  induction u generalizing v with
  | nil =>
    cases v with
    | nil => simpa [tokNodes] using e
    | cons t v => simp [tokNodes] at e
  | cons t u ih =>
    cases v with
    | nil => simp [tokNodes] at e
    | cons t' v =>
      simp only [tokNodes_cons, List.cons_append, List.cons.injEq, Node.terminal.injEq, AugTok.token.injEq] at e
      obtain ⟨rfl, e⟩ := e
      obtain ⟨rfl, h⟩ := ih e
      exact ⟨rfl, h⟩

theorem tokens_prefix {u : List T} {β x γ : List (Node T L)} {a : L} (e : tokNodes u ++ β = x ++ .production a :: γ) :
    ∃ x2, x = tokNodes u ++ x2 ∧ β = x2 ++ .production a :: γ := by
  induction u generalizing x with
  | nil => exact ⟨x, rfl, by simpa [tokNodes] using e⟩
  | cons t u ih =>
    cases x with
    | nil => simp [tokNodes] at e
    | cons n x =>
      simp only [tokNodes_cons, List.cons_append, List.cons.injEq] at e
      obtain ⟨rfl, e⟩ := e
      obtain ⟨x2, rfl, e2⟩ := ih e
      exact ⟨x2, by simp [tokNodes_cons], e2⟩

/-- Sequences that do not begin with the token, after any number of it. -/
theorem opens_eq {n n' : Nat} {A B : List (Node T L)}
    (e : tokNodes (List.replicate n o) ++ A = tokNodes (List.replicate n' o) ++ B)
    (hA : A.head? ≠ some (.terminal (.token o))) (hB : B.head? ≠ some (.terminal (.token o))) : n = n' ∧ A = B := by
  induction n generalizing n' with
  | zero =>
    cases n' with
    | zero => exact ⟨rfl, by simpa [tokNodes] using e⟩
    | succ n' =>
      simp only [tokNodes, List.replicate_zero, List.map_nil, List.nil_append] at e
      rw [e] at hA
      simp [List.replicate_succ] at hA
  | succ n ih =>
    cases n' with
    | zero =>
      simp only [tokNodes, List.replicate_zero, List.map_nil, List.nil_append] at e
      rw [← e] at hB
      simp [List.replicate_succ] at hB
    | succ n' =>
      simp only [List.replicate_succ, tokNodes_cons, List.cons_append, List.cons.injEq, true_and] at e
      obtain ⟨rfl, h⟩ := ih e
      exact ⟨rfl, h⟩

theorem tail_replicate (n : Nat) : Tail c (List.replicate n c) := by
  cases n with
  | zero => exact .inl rfl
  | succ n => exact .inr ⟨_, List.replicate_succ⟩

theorem _root_.Verif.Spec.Brackets.notBelow (h : Brackets S X l o c P) : ¬ Reachable P l X :=
  fun hx => h.closes _ h.more hx (by simp)

theorem _root_.Verif.Spec.Brackets.noX (h : Brackets S X l o c P) {is : List Nat} {β : List (Node T L)}
    (hs : RmSteps P is [.production l] β) : .production X ∉ β := fun hm =>
  h.notBelow (steps_reachable hs (by simp only [List.mem_singleton, Node.production.injEq, forall_eq]; exact .root) X hm)

theorem _root_.Verif.Spec.Brackets.items (h : Brackets S X l o c P) : ∀ r ∈ P, r.symbol = X →
    rhs r = [.production l] ∨ rhs r = [.terminal (.token o), .production X, .terminal (.token c)] := by
  intro r hr hs
  rcases h.only r hr hs with e | e
  · exact .inl (by simp [rhs, e])
  · exact .inr (by simp [rhs, e])

theorem _root_.Verif.Spec.Brackets.unique (h : Brackets S X l o c P) (i j : Nat) (r r' : Rule T L) (hi : P[i]? = some r)
    (hj : P[j]? = some r') (hs : r.symbol = X) (hs' : r'.symbol = X) (e : rhs r = rhs r') : i = j := by
  have : r = r' := by
    obtain ⟨a, b⟩ := r
    obtain ⟨a', b'⟩ := r'
    simp only at hs hs'
    subst hs hs'
    rcases h.only _ (List.mem_of_getElem? hi) rfl with e1 | e1 <;>
      rcases h.only _ (List.mem_of_getElem? hj) rfl with e2 | e2 <;> simp only at e1 e2 <;> subst e1 e2 <;> simp [rhs] at e ⊢
  subst this
  exact h.once i j r hi hj hs

/-- Where the last label of a sentential form is. -/
theorem _root_.Verif.Spec.Brackets.last_label (h : Brackets S X l o c P) (n : Nat) :
    ∀ {is : List Nat} {x : List (Node T L)} {a : L} {w : List T}, is.length = n →
      RmSteps P is [.production X] (x ++ .production a :: tokNodes w) →
      (∃ m, a = X ∧ x = tokNodes (List.replicate m o) ∧ w = List.replicate m c) ∨
      ∃ m x1 w1 js, x = tokNodes (List.replicate m o) ++ x1 ∧ w = w1 ++ List.replicate m c ∧
        RmSteps P js [.production l] (x1 ++ .production a :: tokNodes w1) := by
  induction n with
  | zero =>
    intro is x a w hl hs
    cases List.length_eq_zero_iff.mp hl
    generalize eα : ([.production X] : List (Node T L)) = α at hs
    generalize eβ : x ++ Node.production a :: tokNodes w = β at hs
    cases hs
    obtain ⟨rfl, rfl, rfl⟩ := single (eα.trans eβ.symm)
    exact .inl ⟨0, rfl, rfl, rfl⟩
  | succ n ih =>
    intro is x a w hl hs
    rcases hs.last with ⟨rfl, -⟩ | ⟨is', i, β, rfl, h1, h2⟩
    · simp at hl
    · generalize eγ : x ++ Node.production a :: tokNodes w = γ at h2
      cases h2 with
      | @mk x0 y0 r hr =>
        rcases ih (by simpa using hl) h1 with ⟨m, hX, rfl, rfl⟩ | ⟨m, x1, w1, js, rfl, rfl, h3⟩
        · rcases h.items r (List.mem_of_getElem? hr) hX with e | e
          · rw [e] at eγ
            obtain ⟨x2, rfl, e2⟩ := tokens_prefix (u := List.replicate m o)
              (β := [.production l] ++ tokNodes (List.replicate m c)) (by rw [eγ]; simp)
            obtain ⟨w2, rfl, e3⟩ := below_form e2
            obtain ⟨rfl, rfl, rfl⟩ := single e3
            exact .inr ⟨m, [], [], [], rfl, rfl, by simpa [tokNodes] using RmSteps.refl _⟩
          · rw [e] at eγ
            obtain ⟨x2, rfl, e2⟩ := tokens_prefix (u := List.replicate (m + 1) o)
              (β := [.production X] ++ tokNodes (List.replicate (m + 1) c)) (x := x) (a := a) (γ := tokNodes w)
              (by rw [eγ]; rw [List.replicate_succ' (n := m) (a := o), List.replicate_succ (n := m) (a := c)]; simp [tokNodes])
            obtain ⟨w2, rfl, e3⟩ := below_form e2
            obtain ⟨rfl, rfl, rfl⟩ := single e3
            exact .inl ⟨m + 1, rfl, by simp, by simp⟩
        · have h5 : RmSteps P (js ++ [i]) [.production l] (x1 ++ rhs r ++ tokNodes w1) := rm_snoc hr h3
          obtain ⟨x2, rfl, e2⟩ := tokens_prefix (u := List.replicate m o)
            (β := (x1 ++ rhs r ++ tokNodes w1) ++ tokNodes (List.replicate m c)) (x := x) (a := a) (γ := tokNodes w)
            (by rw [eγ]; simp [tokNodes])
          obtain ⟨w2, rfl, e3⟩ := below_form e2
          rw [e3] at h5
          exact .inr ⟨m, x2, w2, _, rfl, rfl, h5⟩

/-- Where a handle can be. -/
theorem _root_.Verif.Spec.Brackets.handle (h : Brackets S X l o c P) (ho : RootOnce P) {i : Nat} {x : List (Node T L)}
    {w : List T} {r : Rule T L} (hr : P[i]? = some r) (hh : Handle P i x w) :
    (i = 0 ∧ x = [] ∧ w = [] ∧ rhs r = [.production X]) ∨
    (∃ m, r.symbol = X ∧ x = tokNodes (List.replicate m o) ∧ w = List.replicate m c) ∨
    ∃ (m : Nat) (x1 : List (Node T L)) (w1 : List T) (js : List Nat), x = tokNodes (List.replicate m o) ++ x1 ∧
      w = w1 ++ List.replicate m c ∧ RmSteps P js [.production l] (x1 ++ .production r.symbol :: tokNodes w1) := by
  obtain ⟨root, r1, is, h0, h1, h2⟩ := hh
  rw [hr] at h1
  cases h1
  have h0' := h.root
  rw [h0] at h0'
  cases h0'
  generalize eα : ([.production S] : List (Node T L)) = α at h2
  generalize eβ : x ++ Node.production r.symbol :: tokNodes w = β at h2
  cases h2 with
  | refl =>
    subst eα
    obtain ⟨rfl, e, rfl⟩ := single eβ.symm
    have := ho i _ r h0 hr e.symm
    subst this
    rw [h0] at hr
    cases hr
    exact .inl ⟨rfl, rfl, rfl, by simp [rhs]⟩
  | step h3 h4 =>
    cases h3 with
    | @mk x1 y1 r1 hr1 =>
      obtain ⟨rfl, e, rfl⟩ := single eα
      have := ho _ _ r1 h0 hr1 e.symm
      subst this
      rw [h0] at hr1
      cases hr1
      have e1 : ([] ++ rhs (⟨S, [.production X]⟩ : Rule T L) ++ tokNodes []) = [.production X] := by simp [rhs, tokNodes]
      rw [e1, ← eβ] at h4
      exact .inr (h.last_label _ rfl h4)

/-- The kinds of handles: within the part, or not. -/
theorem _root_.Verif.Spec.Brackets.kinds (h : Brackets S X l o c P) (ho : RootOnce P) {i : Nat} {x : List (Node T L)}
    {w : List T} {r : Rule T L} (hr : P[i]? = some r) (hh : Handle P i x w) :
    (i = 0 ∧ x = [] ∧ w = [] ∧ rhs r = [.production X]) ∨
    (∃ m, r.symbol = X ∧ x = tokNodes (List.replicate m o) ∧ w = List.replicate m c ∧
      rhs r = [.terminal (.token o), .production X, .terminal (.token c)]) ∨
    ∃ (m : Nat) (x1 : List (Node T L)) (w1 : List T), x = tokNodes (List.replicate m o) ++ x1 ∧
      w = w1 ++ List.replicate m c ∧ .terminal (.token o) ∉ x1 ++ rhs r ++ tokNodes w1 ∧
      .production X ∉ x1 ++ rhs r ∧ ((r.symbol = X ∧ x1 = [] ∧ w1 = [] ∧ rhs r = [.production l]) ∨
        ∃ js, RmSteps P js [.production l] (x1 ++ .production r.symbol :: tokNodes w1)) := by
  have hlX : l ≠ X := by rintro rfl; exact h.notBelow .root
  rcases h.handle ho hr hh with h1 | ⟨m, hs, rfl, rfl⟩ | ⟨m, x1, w1, js, rfl, rfl, hst⟩
  · exact .inl h1
  · rcases h.items r (List.mem_of_getElem? hr) hs with e | e
    · exact .inr (.inr ⟨m, [], [], by simp, by simp, by simp [e, tokNodes], by simp [e, Ne.symm hlX], .inl ⟨hs, rfl, rfl, e⟩⟩)
    · exact .inr (.inl ⟨m, hs, rfl, rfl, e⟩)
  · refine .inr (.inr ⟨m, x1, w1, rfl, rfl, h.opens.form (rm_snoc hr hst), ?_, .inr ⟨js, hst⟩⟩)
    intro hm
    exact h.noX (rm_snoc hr hst) (List.mem_append_left _ hm)

/-- If the grammar of the part is LR(1), then so is the grammar of the part in brackets. -/
theorem _root_.Verif.Spec.Brackets.lr1 (h : Brackets S X l o c P) (ho : RootOnce P) (hr : RootedAt ρ s l P P')
    (hn : ¬ NotLR1 P') : ¬ NotLR1 P := by
  rintro ⟨γ, i, r, x, w, j, r', x', w', y, hi, hj, h1, h2, rfl, e, hw, hne⟩
  have key : ∀ {m : Nat} {x1 ψ : List (Node T L)} {v : List T}, .production X ∉ x1 ++ ψ →
      .production X ∉ (tokNodes (List.replicate m o) ++ x1) ++ ψ ++ tokNodes v := by
    intro m x1 ψ v hx hm
    simp only [List.mem_append] at hm hx
    rcases hm with ((hm | hm) | hm) | hm
    · exact production_not_tokNodes hm
    · exact hx (.inl hm)
    · exact hx (.inr hm)
    · exact production_not_tokNodes hm
  rcases h.kinds ho hi h1 with ⟨rfl, rfl, rfl, e1⟩ | ⟨m, hs, rfl, rfl, e1⟩ | ⟨m, x1, w1, rfl, rfl, g1, g2, g3⟩
  · have hy : y = [] := by cases y <;> simp_all
    subst hy
    rw [e1] at e
    rcases h.kinds ho hj h2 with ⟨rfl, rfl, rfl, e2⟩ | ⟨m', hs', rfl, rfl, e2⟩ | ⟨m', x1', w1', rfl, rfl, g1', g2', g3'⟩
    · simp at hne
    · rw [e2] at e
      cases m' <;> simp [tokNodes, List.replicate_succ] at e
    · exact key g2' (by rw [← e]; simp)
  · rw [e1] at e
    rcases h.kinds ho hj h2 with ⟨rfl, rfl, rfl, e2⟩ | ⟨m', hs', rfl, rfl, e2⟩ | ⟨m', x1', w1', rfl, rfl, g1', g2', g3'⟩
    · rw [e2] at e
      cases m <;> simp [tokNodes, List.replicate_succ] at e
    · have hij := h.unique i j r r' hi hj hs hs' (by rw [e1, e2])
      rw [e2] at e
      obtain ⟨k1, -, k2⟩ := label_at (u := List.replicate (m + 1) o) (v := List.replicate (m' + 1) o) (a := X) (b := X)
        (β := tokNodes (c :: y)) (γ := tokNodes (c :: List.replicate m' c))
        (by rw [List.replicate_succ', List.replicate_succ']; simpa [tokNodes] using e)
      have := tokNodes_inj k2
      simp_all
    · exact key g2' (by rw [← e]; simp)
  · rcases h.kinds ho hj h2 with ⟨rfl, rfl, rfl, e2⟩ | ⟨m', hs', rfl, rfl, e2⟩ | ⟨m', x1', w1', rfl, rfl, g1', g2', g3'⟩
    · exact key g2 (v := y) (by rw [e, e2]; simp)
    · exact key g2 (v := y) (by rw [e, e2]; simp)
    · have hA : (x1 ++ rhs r ++ tokNodes y).head? ≠ some (.terminal (.token o)) := by
        simp only [List.mem_append, not_or] at g1
        intro hA
        cases hx : x1 ++ rhs r with
        | cons n α =>
          rw [hx] at hA
          simp only [List.cons_append, List.head?_cons, Option.some.injEq] at hA
          have : n ∈ x1 ++ rhs r := by rw [hx]; simp
          rw [hA] at this
          rcases List.mem_append.mp this with hm | hm
          · exact g1.1.1 hm
          · exact g1.1.2 hm
        | nil =>
          rw [hx] at hA
          cases y with
          | nil => simp [tokNodes] at hA
          | cons t y =>
            simp only [List.nil_append, tokNodes_cons, List.head?_cons, Option.some.injEq, Node.terminal.injEq,
              AugTok.token.injEq] at hA
            subst hA
            have hm : t ∈ w1 ++ List.replicate m c := List.mem_of_head? (by rw [hw]; rfl)
            rcases List.mem_append.mp hm with hm | hm
            · exact g1.2 (List.mem_map.mpr ⟨t, hm, rfl⟩)
            · exact h.apart (List.eq_of_mem_replicate hm)
      have hB : (x1' ++ rhs r' ++ tokNodes w1' ++ tokNodes (List.replicate m' c)).head? ≠ some (.terminal (.token o)) := by
        intro hB
        rcases List.mem_append.mp (List.mem_of_head? hB) with hm | hm
        · exact g1' hm
        · obtain ⟨t, hm', ht⟩ := List.mem_map.mp hm
          simp only [Node.terminal.injEq, AugTok.token.injEq] at ht
          subst ht
          exact h.apart (List.eq_of_mem_replicate hm')
      obtain ⟨rfl, e'⟩ := opens_eq (by simpa [tokNodes] using e) hA hB
      rcases g3 with ⟨hs, rfl, rfl, e1⟩ | ⟨js, hst⟩ <;> rcases g3' with ⟨hs', rfl, rfl, e2⟩ | ⟨js', hst'⟩
      · have hij := h.unique i j r r' hi hj hs hs' (by rw [e1, e2])
        rw [e1, e2] at e'
        have e3 : tokNodes y = tokNodes (L := L) (List.replicate m c) := by simpa [tokNodes] using e'
        have := tokNodes_inj e3
        simp_all
      · rw [e1] at e'
        exact item_second h.closes hr hn hj hst' (tail_replicate m) (tail_replicate m) (by simpa using e') (by simpa using hw)
      · rw [e2] at e'
        exact item_first h.closes hr hn hi hst (tail_replicate m) (tail_replicate m) (by simpa [tokNodes] using e') hw
      · exact same_item h.closes hr hn hi hj hst (tail_replicate m) hst' (tail_replicate m) e' hw (by simpa using hne)

theorem _root_.Verif.Spec.Brackets.bracketed (h : Brackets S X l o c P) (n : Nat) : ∀ {w : List T}, w.length = n →
    Derives P [.production X] w → Bracketed P l o c w := by
  induction n using Nat.strongRecOn with
  | ind n ih =>
    intro w hl hd
    obtain ⟨r, u, v, hr, hs, rfl, h1, h2⟩ := derives_prod_inv hd
    cases h2
    rw [List.append_nil] at hl ⊢
    rcases h.only r hr hs with e | e <;> rw [e] at h1
    · exact .one h1
    · cases h1 with
      | @tok _ _ w2 h1 =>
        obtain ⟨r1, u1, v1, hr1, hs1, rfl, h3, h4⟩ := derives_prod_inv h1
        cases h4 with
        | tok h4 =>
          cases h4
          have hX : Derives P [.production X] u1 := by
            have := Derives.prod (w := []) hr1 h3 .nil
            rwa [List.append_nil, hs1] at this
          exact .more (ih u1.length (by simp at hl; omega) rfl hX)

theorem _root_.Verif.Spec.Brackets.derives_iff (h : Brackets S X l o c P) (ho : RootOnce P) {w : List T} :
    Derives P [.production S] w ↔ Bracketed P l o c w := by
  constructor
  · intro hd
    obtain ⟨r, u, v, hr, hs, rfl, h1, h2⟩ := derives_prod_inv hd
    cases h2
    obtain ⟨i, hi⟩ := List.mem_iff_getElem?.mp hr
    have := ho i _ r h.root hi hs
    subst this
    rw [h.root] at hi
    cases hi
    rw [List.append_nil]
    exact h.bracketed _ rfl h1
  · intro hb
    have hX : Derives P [.production X] w := by
      induction hb with
      | one hw => simpa using Derives.prod (w := []) h.one hw .nil
      | @more w _ ih =>
        have h1 : Derives P [.terminal (.token c)] [c] := .tok .nil
        simpa using Derives.prod (w := []) h.more (.tok (ih.append h1)) .nil
    simpa using Derives.prod (w := []) (List.mem_of_getElem? h.root) hX .nil

end Verif
