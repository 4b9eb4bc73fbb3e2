import Verif.Spec.SepList
import Verif.Proof.ListOf

/-!
# Lists of items with a separating token: lemmas
-/

set_option linter.unusedSectionVars false
set_option autoImplicit false

namespace Verif

open Spec

variable {T L : Type} {P P' : List (Rule T L)} {ρ : Nat → Nat} {s l S X : L} {k : T}

/-- What can follow an item: nothing, or the separating token and something. -/
def Tail (k : T) (z : List T) : Prop := z = [] ∨ ∃ z', z = k :: z'

theorem sep_split {a b : List (Node T L)} {y z : List T} (e : a ++ tokNodes y = b ++ tokNodes z) (hz : Tail k z)
    (ha : .terminal (.token k) ∉ a) (hb : .terminal (.token k) ∉ b) :
    ∃ y1, y = y1 ++ z ∧ a ++ tokNodes y1 = b ∧ k ∉ y1 := by
  rcases hz with rfl | ⟨z', rfl⟩
  · simp only [tokNodes, List.map_nil, List.append_nil] at e
    refine ⟨y, by simp, e, fun hk => hb ?_⟩
    rw [← e]
    exact List.mem_append_right _ (List.mem_map.mpr ⟨k, hk, rfl⟩)
  · obtain ⟨y1, y2, rfl, h1, h2, h3⟩ := split_beyond (d := tokNodes z') (by simpa [tokNodes] using e) ha hb
    rw [tokNodes_inj h2]
    exact ⟨y1, rfl, h1, h3⟩

theorem head_sep {w y z z' : List T} (h : (w ++ z).head? = (y ++ z').head?) (hz : Tail k z) (hz' : Tail k z')
    (hw : k ∉ w) (hy : k ∉ y) : w.head? = y.head? := by
  rcases hz with rfl | ⟨z1, rfl⟩ <;> rcases hz' with rfl | ⟨z2, rfl⟩ <;> cases w <;> cases y <;> simp_all

/-- The labels in a sentential form of a label can be reached from it. -/
theorem steps_reachable {is : List Nat} {α β : List (Node T L)}
    (hs : RmSteps P is α β) (hα : ∀ a, .production a ∈ α → Reachable P l a) : ∀ a, .production a ∈ β → Reachable P l a := by
  induction hs with
  | refl => exact hα
  | step h1 _ ih =>
    cases h1 with
    | @mk x y r hr =>
      have hrl : Reachable P l r.symbol := hα _ (by simp)
      refine ih fun a ha => ?_
      simp only [List.mem_append, tokNodes, List.mem_map, reduceCtorEq, and_false, exists_false, or_false] at ha
      rcases ha with ha | ha
      · exact hα a (by simp [ha])
      · exact .step hrl (List.mem_of_getElem? hr) (List.mem_filter.mp ha).1

theorem below_form {ψ x : List (Node T L)} {a : L} {z w : List T}
    (e : ψ ++ tokNodes z = x ++ .production a :: tokNodes w) :
    ∃ w2, w = w2 ++ z ∧ ψ = x ++ .production a :: tokNodes w2 := by
  rcases List.append_eq_append_iff.mp e with ⟨u, rfl, e3⟩ | ⟨u, rfl, e4⟩
  · exact absurd (by rw [e3]; simp) (production_not_tokNodes (v := z) (b := a))
  · cases u with
    | nil =>
      simp only [List.nil_append] at e4
      exact absurd (by rw [← e4]; simp) (production_not_tokNodes (v := z) (b := a))
    | cons n u =>
      simp only [List.cons_append, List.cons.injEq] at e4
      obtain ⟨rfl, e4⟩ := e4
      obtain ⟨w2, w3, rfl, rfl, e5⟩ := List.map_eq_append_iff.mp e4
      have := tokNodes_inj e5
      subst this
      exact ⟨w2, rfl, rfl⟩

theorem _root_.Verif.Spec.SepList.notBelow (h : SepList S X l k P) : ¬ Reachable P l X :=
  fun hx => h.own _ h.more hx (by simp)

theorem _root_.Verif.Spec.SepList.no_list (h : SepList S X l k P) {is : List Nat} {β : List (Node T L)}
    (hs : RmSteps P is [.production l] β) : .production X ∉ β := fun hm =>
  h.notBelow (steps_reachable hs (by simp only [List.mem_singleton, Node.production.injEq, forall_eq]; exact .root) X hm)

theorem _root_.Verif.Spec.SepList.items (h : SepList S X l k P) : ∀ r ∈ P, r.symbol = X →
    rhs r = [.production l] ∨ rhs r = [.production X, .terminal (.token k), .production l] := by
  intro r hr hs
  rcases h.only r hr hs with e | e
  · exact .inl (by simp [rhs, e])
  · exact .inr (by simp [rhs, e])

theorem _root_.Verif.Spec.SepList.unique (h : SepList S X l k P) (i j : Nat) (r r' : Rule T L) (hi : P[i]? = some r)
    (hj : P[j]? = some r') (hs : r.symbol = X) (hs' : r'.symbol = X) (e : rhs r = rhs r') : i = j := by
  have : r = r' := by
    obtain ⟨a, b⟩ := r
    obtain ⟨a', b'⟩ := r'
    simp only at hs hs'
    subst hs hs'
    rcases h.only _ (List.mem_of_getElem? hi) rfl with e1 | e1 <;>
      rcases h.only _ (List.mem_of_getElem? hj) rfl with e2 | e2 <;> simp only at e1 e2 <;> subst e1 e2 <;> simp [rhs] at e ⊢
  subst this
  exact h.once i j r hi hj hs

/-- Where the last label of a sentential form of the list is. -/
theorem _root_.Verif.Spec.SepList.last_label (h : SepList S X l k P) (n : Nat) :
    ∀ {is : List Nat} {x : List (Node T L)} {a : L} {w : List T}, is.length = n →
      RmSteps P is [.production X] (x ++ .production a :: tokNodes w) →
      (a = X ∧ x = [] ∧ Tail k w) ∨ ∃ pre x1 w1 z js, (pre = [] ∨ pre = [.production X, .terminal (.token k)]) ∧
        x = pre ++ x1 ∧ w = w1 ++ z ∧ Tail k z ∧ RmSteps P js [.production l] (x1 ++ .production a :: tokNodes w1) := by
  induction n with
  | zero =>
    intro is x a w hl hs
    cases List.length_eq_zero_iff.mp hl
    generalize eα : ([.production X] : List (Node T L)) = α at hs
    generalize eβ : x ++ Node.production a :: tokNodes w = β at hs
    cases hs
    obtain ⟨rfl, rfl, rfl⟩ := single (eα.trans eβ.symm)
    exact .inl ⟨rfl, rfl, .inl rfl⟩
  | succ n ih =>
    intro is x a w hl hs
    rcases hs.last with ⟨rfl, -⟩ | ⟨is', i, β, rfl, h1, h2⟩
    · simp at hl
    · generalize eγ : x ++ Node.production a :: tokNodes w = γ at h2
      cases h2 with
      | @mk x0 y0 r hr =>
        rcases ih (by simpa using hl) h1 with ⟨hX, rfl, ht⟩ | ⟨pre, x1, w1, z, js, hpre, rfl, rfl, ht, h3⟩
        · rcases h.items r (List.mem_of_getElem? hr) hX with e | e
          · rw [e] at eγ
            obtain ⟨w2, rfl, e2⟩ := below_form (ψ := [.production l]) (z := y0) (by simpa using eγ.symm)
            obtain ⟨rfl, rfl, rfl⟩ := single e2
            exact .inr ⟨[], [], [], y0, [], .inl rfl, rfl, rfl, ht, by simpa [tokNodes] using RmSteps.refl _⟩
          · rw [e] at eγ
            obtain ⟨w2, rfl, e2⟩ := below_form (ψ := [.production X, .terminal (.token k), .production l]) (z := y0)
              (by simpa using eγ.symm)
            rcases x with _ | ⟨b, _ | ⟨c, _ | ⟨d, x⟩⟩⟩
            · simp only [List.nil_append, List.cons.injEq] at e2
              exact absurd (by rw [← e2.2]; simp) (production_not_tokNodes (v := w2) (b := l))
            · simp at e2
            · simp only [List.nil_append, List.cons_append, List.cons.injEq, Node.production.injEq] at e2
              obtain ⟨rfl, rfl, rfl, e3⟩ := e2
              cases w2 with
              | nil =>
                exact .inr ⟨_, [], [], y0, [], .inr rfl, by simp, rfl, ht, by simpa [tokNodes] using RmSteps.refl _⟩
              | cons => simp [tokNodes] at e3
            · have := congrArg List.length e2
              simp at this
        · have h5 : RmSteps P (js ++ [i]) [.production l] (x1 ++ rhs r ++ tokNodes w1) := rm_snoc hr h3
          rcases hpre with rfl | rfl
          · obtain ⟨w2, rfl, e2⟩ := below_form (ψ := x1 ++ rhs r ++ tokNodes w1) (z := z)
              (by rw [eγ]; simp [tokNodes])
            rw [e2] at h5
            exact .inr ⟨[], x, w2, z, _, .inl rfl, rfl, rfl, ht, h5⟩
          · rcases x with _ | ⟨b, _ | ⟨c, x⟩⟩
            · simp only [List.nil_append, List.cons_append, List.cons.injEq, Node.production.injEq] at eγ
              refine .inl ⟨eγ.1, rfl, ?_⟩
              cases w with
              | nil => exact .inl rfl
              | cons t w =>
                simp only [tokNodes, List.map_cons, List.cons.injEq, Node.terminal.injEq, AugTok.token.injEq] at eγ
                exact .inr ⟨w, by rw [eγ.2.1]⟩
            · simp at eγ
            · simp only [List.nil_append, List.cons_append, List.cons.injEq] at eγ
              obtain ⟨rfl, rfl, eγ⟩ := eγ
              obtain ⟨w2, rfl, e2⟩ := below_form (ψ := x1 ++ rhs r ++ tokNodes w1) (z := z)
                (by rw [eγ]; simp [tokNodes])
              rw [e2] at h5
              exact .inr ⟨_, x, w2, z, _, .inr rfl, by simp, rfl, ht, h5⟩

/-- Where a handle can be. -/
theorem _root_.Verif.Spec.SepList.handle (h : SepList S X l k P) (ho : RootOnce P) {i : Nat} {x : List (Node T L)}
    {w : List T} {r : Rule T L} (hr : P[i]? = some r) (hh : Handle P i x w) :
    (i = 0 ∧ x = [] ∧ w = [] ∧ rhs r = [.production X]) ∨ (r.symbol = X ∧ x = [] ∧ Tail k w) ∨
    ∃ (pre x1 : List (Node T L)) (w1 z : List T) (js : List Nat),
      (pre = [] ∨ pre = [.production X, .terminal (.token k)]) ∧ x = pre ++ x1 ∧ w = w1 ++ z ∧ Tail k z ∧
      RmSteps P js [.production l] (x1 ++ .production r.symbol :: tokNodes w1) := by
  obtain ⟨root, r1, is, h0, h1, h2⟩ := hh
  rw [hr] at h1
  cases h1
  have h0' := h.root
  rw [h0] at h0'
  cases h0'
  generalize eα : ([.production S] : List (Node T L)) = α at h2
  generalize eβ : x ++ Node.production r.symbol :: tokNodes w = β at h2
  cases h2 with
  | refl =>
    subst eα
    obtain ⟨rfl, e, rfl⟩ := single eβ.symm
    have := ho i _ r h0 hr e.symm
    subst this
    rw [h0] at hr
    cases hr
    exact .inl ⟨rfl, rfl, rfl, by simp [rhs]⟩
  | step h3 h4 =>
    cases h3 with
    | @mk x1 y1 r1 hr1 =>
      obtain ⟨rfl, e, rfl⟩ := single eα
      have := ho _ _ r1 h0 hr1 e.symm
      subst this
      rw [h0] at hr1
      cases hr1
      have e1 : ([] ++ rhs (⟨S, [.production X]⟩ : Rule T L) ++ tokNodes []) = [.production X] := by simp [rhs, tokNodes]
      rw [e1, ← eβ] at h4
      exact .inr (h.last_label _ rfl h4)

/-- Two handles below an item. -/
theorem same_item (hk : NotBelow P l k) (hr : RootedAt ρ s l P P') (hn : ¬ NotLR1 P') {i j : Nat} {r r' : Rule T L}
    (hi : P[i]? = some r) (hj : P[j]? = some r') {js js' : List Nat} {x1 x1' : List (Node T L)} {w1 w1' z z' y : List T}
    (hst : RmSteps P js [.production l] (x1 ++ .production r.symbol :: tokNodes w1)) (hz : Tail k z)
    (hst' : RmSteps P js' [.production l] (x1' ++ .production r'.symbol :: tokNodes w1')) (hz' : Tail k z')
    (e : (x1 ++ rhs r) ++ tokNodes y = (x1' ++ rhs r' ++ tokNodes w1') ++ tokNodes z') (hw : (w1 ++ z).head? = y.head?)
    (hne : i ≠ j ∨ w1' ++ z' ≠ y) : False := by
  obtain ⟨i', k0, k1, k2, k3⟩ := hr.handle hi hst
  obtain ⟨j', l0, l1, l2, l3⟩ := hr.handle hj hst'
  have f1 := hk.form (rm_snoc hi hst)
  have f2 := hk.form (rm_snoc hj hst')
  have f3 := hk.form hst
  simp only [List.mem_append, not_or, List.mem_cons] at f1 f3
  obtain ⟨y1, rfl, g1, g2⟩ := sep_split e hz' (by simp only [List.mem_append, not_or]; exact f1.1) f2
  refine hn ⟨x1 ++ rhs r, i', r, x1, w1, j', r', x1', w1', y1, k2, l2, k3, l3, rfl, g1,
    head_sep hw hz hz' (by have := f3.2.2; simpa [tokNodes] using this) g2, ?_⟩
  rcases hne with hne | hne
  · exact .inl fun e => hne (by rw [← k1, ← l1, e])
  · exact .inr fun e => hne (by rw [e])

theorem item_first (hk : NotBelow P l k) (hr : RootedAt ρ s l P P') (hn : ¬ NotLR1 P') {i : Nat} {r : Rule T L}
    (hi : P[i]? = some r) {js : List Nat} {x1 : List (Node T L)} {w1 z z' y : List T}
    (hs : RmSteps P js [.production l] (x1 ++ .production r.symbol :: tokNodes w1)) (hz : Tail k z) (hz' : Tail k z')
    (e : (x1 ++ rhs r) ++ tokNodes y = [.production l] ++ tokNodes z') (hw : (w1 ++ z).head? = y.head?) : False := by
  have f1 := hk.form (rm_snoc hi hs)
  have f3 := hk.form hs
  simp only [List.mem_append, not_or, List.mem_cons] at f1 f3
  obtain ⟨y1, rfl, g1, g2⟩ := sep_split e hz' (by simp only [List.mem_append, not_or]; exact f1.1) (by simp)
  have hw' := head_sep hw hz hz' (by have := f3.2.2; simpa [tokNodes] using this) g2
  have hy := single_rest g1
  subst hy
  have : w1 = [] := by cases w1 <;> simp_all
  subst this
  obtain ⟨i', k0, -, k2, k3⟩ := hr.handle hi hs
  refine hn ⟨x1 ++ rhs r, i', r, x1, [], 0, _, [], [], [], k2, hr.root, k3, hr.handle_zero, rfl, ?_, rfl, .inl k0⟩
  simpa [tokNodes, rhs] using g1

theorem item_second (hk : NotBelow P l k) (hr : RootedAt ρ s l P P') (hn : ¬ NotLR1 P') {j : Nat} {r : Rule T L}
    (hj : P[j]? = some r) {js : List Nat} {x1 : List (Node T L)} {w1 z z' y : List T}
    (hs : RmSteps P js [.production l] (x1 ++ .production r.symbol :: tokNodes w1)) (hz : Tail k z) (hz' : Tail k z')
    (e : [.production l] ++ tokNodes y = (x1 ++ rhs r ++ tokNodes w1) ++ tokNodes z) (hw : z'.head? = y.head?) :
    False := by
  obtain ⟨y1, rfl, g1, g2⟩ := sep_split e hz (by simp) (hk.form (rm_snoc hj hs))
  have hw' := head_sep (w := []) hw hz' hz (by simp) g2
  have : y1 = [] := by cases y1 <;> simp_all
  subst this
  obtain ⟨j', k0, -, k2, k3⟩ := hr.handle hj hs
  refine hn ⟨[.production l], 0, _, [], [], j', r, x1, w1, [], hr.root, k2, hr.handle_zero, k3, by simp [rhs], ?_, rfl,
    .inl (Ne.symm k0)⟩
  simpa [tokNodes] using g1

/-- If the grammar for the items is LR(1), then so is the grammar for the lists. -/
theorem _root_.Verif.Spec.SepList.lr1 (h : SepList S X l k P) (ho : RootOnce P) (hr : RootedAt ρ s l P P')
    (hn : ¬ NotLR1 P') : ¬ NotLR1 P := by
  rintro ⟨γ, i, r, x, w, j, r', x', w', y, hi, hj, h1, h2, rfl, e, hw, hne⟩
  have hlX : l ≠ X := by rintro rfl; exact h.notBelow .root
  -- what has become of an item does not begin with the list
  have noX : ∀ {q : Nat} {js : List Nat} {x1 : List (Node T L)} {rq : Rule T L} {w1 v : List T} {α : List (Node T L)}, P[q]? = some rq →
      RmSteps P js [.production l] (x1 ++ .production rq.symbol :: tokNodes w1) →
      x1 ++ rhs rq ++ tokNodes v ≠ .production X :: α := by
    intro q js x1 rq w1 v α hq hs e
    have : (Node.production X : Node T L) ∈ x1 ++ rhs rq ++ tokNodes v := by rw [e]; simp
    have hno := h.no_list (rm_snoc hq hs)
    simp only [List.mem_append, not_or] at this hno
    rcases this with (hm | hm) | hm
    · exact hno.1.1 hm
    · exact hno.1.2 hm
    · exact production_not_tokNodes hm
  rcases h.handle ho hi h1 with ⟨rfl, rfl, rfl, e1⟩ | ⟨hs, rfl, ht⟩ | ⟨pre, x1, w1, z, js, hpre, rfl, rfl, ht, hst⟩
  · have hy : y = [] := by cases y <;> simp_all
    subst hy
    rw [e1] at e
    rcases h.handle ho hj h2 with ⟨rfl, rfl, rfl, e2⟩ | ⟨hs', rfl, ht'⟩ | ⟨pre', x1', w1', z', js', hpre', rfl, rfl, ht', hst'⟩
    · simp at hne
    · rcases h.items r' (List.mem_of_getElem? hj) hs' with e2 | e2
      · rw [e2] at e
        simp only [List.nil_append, List.cons_append, List.cons.injEq, Node.production.injEq] at e
        exact hlX e.1.symm
      · rw [e2] at e
        simp [tokNodes] at e
    · rcases hpre' with rfl | rfl
      · exact noX hj hst' (by simpa using e.symm)
      · simp [tokNodes] at e
  · rcases h.items r (List.mem_of_getElem? hi) hs with e1 | e1
    · rw [e1] at e
      rcases h.handle ho hj h2 with ⟨rfl, rfl, rfl, e2⟩ | ⟨hs', rfl, ht'⟩ |
        ⟨pre', x1', w1', z', js', hpre', rfl, rfl, ht', hst'⟩
      · rw [e2] at e
        simp only [List.nil_append, List.cons_append, List.cons.injEq, Node.production.injEq] at e
        exact hlX e.1
      · rcases h.items r' (List.mem_of_getElem? hj) hs' with e2 | e2
        · have := h.unique i j r r' hi hj hs hs' (e1.trans e2.symm)
          rw [e2] at e
          have := tokNodes_inj (List.append_cancel_left e)
          simp_all
        · rw [e2] at e
          simp only [List.nil_append, List.cons_append, List.cons.injEq, Node.production.injEq] at e
          exact hlX e.1
      · rcases hpre' with rfl | rfl
        · exact item_second h.own hr hn hj hst' ht' ht (by simpa [tokNodes] using e) hw
        · simp only [List.nil_append, List.cons_append, List.cons.injEq, Node.production.injEq] at e
          exact hlX e.1
    · rw [e1] at e
      rcases h.handle ho hj h2 with ⟨rfl, rfl, rfl, e2⟩ | ⟨hs', rfl, ht'⟩ |
        ⟨pre', x1', w1', z', js', hpre', rfl, rfl, ht', hst'⟩
      · rw [e2] at e
        simp [tokNodes] at e
      · rcases h.items r' (List.mem_of_getElem? hj) hs' with e2 | e2
        · rw [e2] at e
          simp only [List.nil_append, List.cons_append, List.cons.injEq, Node.production.injEq] at e
          exact hlX e.1.symm
        · have := h.unique i j r r' hi hj hs hs' (e1.trans e2.symm)
          rw [e2] at e
          have := tokNodes_inj (List.append_cancel_left e)
          simp_all
      · rcases hpre' with rfl | rfl
        · exact noX hj hst' (by simpa using e.symm)
        · exact item_second h.own hr hn hj hst' ht' ht (by simpa [tokNodes] using e) hw
  · rcases h.handle ho hj h2 with ⟨rfl, rfl, rfl, e2⟩ | ⟨hs', rfl, ht'⟩ |
      ⟨pre', x1', w1', z', js', hpre', rfl, rfl, ht', hst'⟩
    · rw [e2] at e
      rcases hpre with rfl | rfl
      · exact noX hi hst (by simpa using e)
      · simp [tokNodes] at e
    · rcases h.items r' (List.mem_of_getElem? hj) hs' with e2 | e2
      · rw [e2] at e
        rcases hpre with rfl | rfl
        · exact item_first h.own hr hn hi hst ht ht' (by simpa using e) hw
        · simp only [List.nil_append, List.cons_append, List.cons.injEq, Node.production.injEq] at e
          exact hlX e.1.symm
      · rw [e2] at e
        rcases hpre with rfl | rfl
        · exact noX hi hst (by simpa using e)
        · exact item_first h.own hr hn hi hst ht ht' (by simpa using e) hw
    · rcases hpre with rfl | rfl <;> rcases hpre' with rfl | rfl
      · exact same_item h.own hr hn hi hj hst ht hst' ht' (by simpa [tokNodes] using e) hw hne
      · exact noX hi hst (by simpa using e)
      · exact noX hj hst' (by simpa using e.symm)
      · exact same_item h.own hr hn hi hj hst ht hst' ht' (by simpa [tokNodes] using e) hw hne

theorem _root_.Verif.Spec.SepList.items_of_derives (h : SepList S X l k P) (n : Nat) :
    ∀ {w : List T}, w.length = n → Derives P [.production X] w → SepItems P l k w := by
  induction n using Nat.strongRecOn with
  | ind n ih =>
    intro w hl hd
    obtain ⟨r, u, v, hr, hs, rfl, h1, h2⟩ := derives_prod_inv hd
    cases h2
    rw [List.append_nil] at hl ⊢
    rcases h.only r hr hs with e | e
    · rw [e] at h1
      exact .one h1
    · rw [e] at h1
      obtain ⟨r1, u1, v1, hr1, hs1, rfl, h3, h4⟩ := derives_prod_inv h1
      cases h4 with
      | tok h4 =>
        have hX : Derives P [.production X] u1 := by
          have := Derives.prod (w := []) hr1 h3 .nil
          rwa [List.append_nil, hs1] at this
        exact .snoc (ih u1.length (by simp at hl; omega) rfl hX) h4

/-- What the grammar derives. -/
theorem _root_.Verif.Spec.SepList.derives_iff (h : SepList S X l k P) (ho : RootOnce P) {w : List T} :
    Derives P [.production S] w ↔ SepItems P l k w := by
  constructor
  · intro hd
    obtain ⟨r, u, v, hr, hs, rfl, h1, h2⟩ := derives_prod_inv hd
    cases h2
    obtain ⟨i, hi⟩ := List.mem_iff_getElem?.mp hr
    have := ho i _ r h.root hi hs
    subst this
    rw [h.root] at hi
    cases hi
    rw [List.append_nil]
    exact h.items_of_derives _ rfl h1
  · intro hi
    have hX : Derives P [.production X] w := by
      induction hi with
      | one hu => simpa using Derives.prod (w := []) h.one hu .nil
      | @snoc v u _ hu ih =>
        have := Derives.prod (u := v ++ k :: u) (w := []) h.more (ih.append (.tok hu)) .nil
        simpa using this
    have := Derives.prod (u := w) (w := []) (List.mem_of_getElem? h.root) hX .nil
    simpa using this

end Verif
