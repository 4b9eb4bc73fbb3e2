import Verif.Spec.RightList
import Verif.Proof.SepList

/-!
# Lists with a separating token, with the label of the list on the right: lemmas
-/

set_option linter.unusedSectionVars false
set_option autoImplicit false

namespace Verif

open Spec

variable {T L : Type} {P P' : List (Rule T L)} {ρ : Nat → Nat} {s l S X : L} {k : T}

/-- `n` items, each followed by the separating token. -/
def pres (l : L) (k : T) : Nat → List (Node T L)
  | 0 => []
  | n + 1 => .production l :: .terminal (.token k) :: pres l k n

theorem pres_add (m n : Nat) : pres l k (m + n) = pres l k m ++ pres l k n := by
  induction m with
  | zero => simp [pres]
  | succ m ih => rw [Nat.add_right_comm]; simp [pres, ih]

theorem pres_cancel {n d : Nat} {α β : List (Node T L)} (e : pres l k n ++ α = pres l k (n + d) ++ β) :
    α = pres l k d ++ β := by
  rw [pres_add, List.append_assoc] at e
  exact List.append_cancel_left e

theorem pres_succ (n : Nat) : pres l k (n + 1) = pres l k n ++ [.production l, .terminal (.token k)] := by
  rw [pres_add]; simp [pres]

theorem not_pres {a : L} (h : l ≠ a) (n : Nat) : (.production a : Node T L) ∉ pres l k n := by
  induction n with
  | zero => simp [pres]
  | succ n ih => simp only [pres, List.mem_cons, Node.production.injEq, reduceCtorEq, false_or, not_or]; exact ⟨Ne.symm h, ih⟩

theorem last_single {α x : List (Node T L)} {a b : L} {w : List T}
    (e : α ++ [.production b] = x ++ .production a :: tokNodes w) : α = x ∧ b = a ∧ w = [] := by
  rcases List.eq_nil_or_concat w with rfl | ⟨w', t, rfl⟩
  · have := List.append_inj' e (by simp [tokNodes])
    simpa [tokNodes] using this
  · rw [List.concat_eq_append] at e
    have e' : α ++ [.production b] = (x ++ .production a :: tokNodes w') ++ [.terminal (.token t)] := by
      rw [e]; simp [tokNodes]
    have := (List.append_inj' e' rfl).2
    simp at this

theorem pres_last {n : Nat} {x : List (Node T L)} {a : L} {v : List T}
    (e : pres l k n = x ++ .production a :: tokNodes v) : ∃ m, n = m + 1 ∧ x = pres l k m ∧ a = l ∧ v = [k] := by
  cases n with
  | zero => simp [pres] at e
  | succ m =>
    rw [pres_succ] at e
    obtain ⟨w2, rfl, e2⟩ := below_form (ψ := pres l k m ++ [.production l]) (z := [k]) (by rw [← e]; simp [tokNodes])
    obtain ⟨rfl, rfl, rfl⟩ := last_single e2
    exact ⟨m, rfl, rfl, rfl, rfl⟩

theorem _root_.Verif.Spec.RightList.notBelow (h : RightList S X l k P) : ¬ Reachable P l X :=
  fun hx => h.own _ h.more hx (by simp)

theorem _root_.Verif.Spec.RightList.no_list (h : RightList S X l k P) {is : List Nat} {β : List (Node T L)}
    (hs : RmSteps P is [.production l] β) : .production X ∉ β := fun hm =>
  h.notBelow (steps_reachable hs (by simp only [List.mem_singleton, Node.production.injEq, forall_eq]; exact .root) X hm)

theorem _root_.Verif.Spec.RightList.items (h : RightList S X l k P) : ∀ r ∈ P, r.symbol = X →
    rhs r = [.production l] ∨ rhs r = [.production l, .terminal (.token k), .production X] := by
  intro r hr hs
  rcases h.only r hr hs with e | e
  · exact .inl (by simp [rhs, e])
  · exact .inr (by simp [rhs, e])

theorem _root_.Verif.Spec.RightList.unique (h : RightList S X l k P) (i j : Nat) (r r' : Rule T L) (hi : P[i]? = some r)
    (hj : P[j]? = some r') (hs : r.symbol = X) (hs' : r'.symbol = X) (e : rhs r = rhs r') : i = j := by
  have : r = r' := by
    obtain ⟨a, b⟩ := r
    obtain ⟨a', b'⟩ := r'
    simp only at hs hs'
    subst hs hs'
    rcases h.only _ (List.mem_of_getElem? hi) rfl with e1 | e1 <;>
      rcases h.only _ (List.mem_of_getElem? hj) rfl with e2 | e2 <;> simp only at e1 e2 <;> subst e1 e2 <;> simp [rhs] at e ⊢
  subst this
  exact h.once i j r hi hj hs

/-- Where the last label of a sentential form of the list is. -/
theorem _root_.Verif.Spec.RightList.last_label (h : RightList S X l k P) (n : Nat) :
    ∀ {is : List Nat} {x : List (Node T L)} {a : L} {w : List T}, is.length = n →
      RmSteps P is [.production X] (x ++ .production a :: tokNodes w) →
      (∃ m, a = X ∧ x = pres l k m ∧ w = []) ∨ ∃ m x1 w1 z js, x = pres l k m ++ x1 ∧ w = w1 ++ z ∧ Tail k z ∧
        RmSteps P js [.production l] (x1 ++ .production a :: tokNodes w1) := by
  induction n with
  | zero =>
    intro is x a w hl hs
    cases List.length_eq_zero_iff.mp hl
    generalize eα : ([.production X] : List (Node T L)) = α at hs
    generalize eβ : x ++ Node.production a :: tokNodes w = β at hs
    cases hs
    obtain ⟨rfl, rfl, rfl⟩ := single (eα.trans eβ.symm)
    exact .inl ⟨0, rfl, rfl, rfl⟩
  | succ n ih =>
    intro is x a w hl hs
    rcases hs.last with ⟨rfl, -⟩ | ⟨is', i, β, rfl, h1, h2⟩
    · simp at hl
    · generalize eγ : x ++ Node.production a :: tokNodes w = γ at h2
      cases h2 with
      | @mk x0 y0 r hr =>
        rcases ih (by simpa using hl) h1 with ⟨m, hX, rfl, rfl⟩ | ⟨m, x1, w1, z, js, rfl, rfl, ht, h3⟩
        · rcases h.items r (List.mem_of_getElem? hr) hX with e | e
          · rw [e] at eγ
            obtain ⟨rfl, rfl, rfl⟩ := last_single (α := pres l k m) (b := l) (by rw [eγ]; simp [tokNodes])
            exact .inr ⟨m, [], [], [], [], by simp, rfl, .inl rfl, by simpa [tokNodes] using RmSteps.refl _⟩
          · rw [e] at eγ
            obtain ⟨rfl, rfl, rfl⟩ := last_single (α := pres l k (m + 1)) (b := X) (by rw [eγ, pres_succ]; simp [tokNodes])
            exact .inl ⟨m + 1, rfl, rfl, rfl⟩
        · have h5 : RmSteps P (js ++ [i]) [.production l] (x1 ++ rhs r ++ tokNodes w1) := rm_snoc hr h3
          have e : pres l k m ++ ((x1 ++ rhs r ++ tokNodes w1) ++ tokNodes z) = x ++ (.production a :: tokNodes w) := by
            rw [eγ]; simp [tokNodes]
          rcases List.append_eq_append_iff.mp e with ⟨x2, rfl, e2⟩ | ⟨u, e1, e2⟩
          · obtain ⟨w2, rfl, e3⟩ := below_form e2
            rw [e3] at h5
            exact .inr ⟨m, x2, w2, z, _, rfl, rfl, ht, h5⟩
          · cases u with
            | nil =>
              simp only [List.nil_append] at e2
              simp only [List.append_nil] at e1
              obtain ⟨w2, rfl, e3⟩ := below_form (x := []) e2.symm
              rw [e3] at h5
              exact .inr ⟨m, [], w2, z, _, by simp [e1], rfl, ht, h5⟩
            | cons b u =>
              simp only [List.cons_append, List.cons.injEq] at e2
              obtain ⟨rfl, e2⟩ := e2
              obtain ⟨v, w3, rfl, rfl, -⟩ := List.map_eq_append_iff.mp e2
              obtain ⟨m', rfl, rfl, rfl, rfl⟩ := pres_last e1
              exact .inr ⟨m', [], [], k :: w3, [], by simp, rfl, .inr ⟨_, rfl⟩, by simpa [tokNodes] using RmSteps.refl _⟩

/-- Where a handle can be. -/
theorem _root_.Verif.Spec.RightList.handle (h : RightList S X l k P) (ho : RootOnce P) {i : Nat} {x : List (Node T L)}
    {w : List T} {r : Rule T L} (hr : P[i]? = some r) (hh : Handle P i x w) :
    (i = 0 ∧ x = [] ∧ w = [] ∧ rhs r = [.production X]) ∨ (∃ m, r.symbol = X ∧ x = pres l k m ∧ w = []) ∨
    ∃ (m : Nat) (x1 : List (Node T L)) (w1 z : List T) (js : List Nat), x = pres l k m ++ x1 ∧ w = w1 ++ z ∧ Tail k z ∧
      RmSteps P js [.production l] (x1 ++ .production r.symbol :: tokNodes w1) := by
  obtain ⟨root, r1, is, h0, h1, h2⟩ := hh
  rw [hr] at h1
  cases h1
  have h0' := h.root
  rw [h0] at h0'
  cases h0'
  generalize eα : ([.production S] : List (Node T L)) = α at h2
  generalize eβ : x ++ Node.production r.symbol :: tokNodes w = β at h2
  cases h2 with
  | refl =>
    subst eα
    obtain ⟨rfl, e, rfl⟩ := single eβ.symm
    have := ho i _ r h0 hr e.symm
    subst this
    rw [h0] at hr
    cases hr
    exact .inl ⟨rfl, rfl, rfl, by simp [rhs]⟩
  | step h3 h4 =>
    cases h3 with
    | @mk x1 y1 r1 hr1 =>
      obtain ⟨rfl, e, rfl⟩ := single eα
      have := ho _ _ r1 h0 hr1 e.symm
      subst this
      rw [h0] at hr1
      cases hr1
      have e1 : ([] ++ rhs (⟨S, [.production X]⟩ : Rule T L) ++ tokNodes []) = [.production X] := by simp [rhs, tokNodes]
      rw [e1, ← eβ] at h4
      exact .inr (h.last_label _ rfl h4)

/-- A label that derives itself is not LR(1). -/
theorem item_loop (hr : RootedAt ρ s l P P') (hn : ¬ NotLR1 P') {j : Nat} {r : Rule T L} (hj : P[j]? = some r)
    {js : List Nat} {x1 : List (Node T L)} {w1 : List T}
    (hs : RmSteps P js [.production l] (x1 ++ .production r.symbol :: tokNodes w1))
    (e : x1 ++ rhs r ++ tokNodes w1 = [.production l]) : False := by
  obtain ⟨j', k0, -, k2, k3⟩ := hr.handle hj hs
  refine hn ⟨[.production l], 0, _, [], [], j', r, x1, w1, [], hr.root, k2, hr.handle_zero, k3, by simp [rhs], ?_, rfl,
    .inl (Ne.symm k0)⟩
  simpa [tokNodes] using e.symm

/-- If the grammar for the items is LR(1), then so is the grammar for the lists. -/
theorem _root_.Verif.Spec.RightList.lr1 (h : RightList S X l k P) (ho : RootOnce P) (hr : RootedAt ρ s l P P')
    (hn : ¬ NotLR1 P') : ¬ NotLR1 P := by
  rintro ⟨γ, i, r, x, w, j, r', x', w', y, hi, hj, h1, h2, rfl, e, hw, hne⟩
  have hlX : l ≠ X := by rintro rfl; exact h.notBelow .root
  -- below items the list is not mentioned
  have noX : ∀ {q : Nat} {js : List Nat} {x1 : List (Node T L)} {rq : Rule T L} {w1 v : List T} (n : Nat), P[q]? = some rq →
      RmSteps P js [.production l] (x1 ++ .production rq.symbol :: tokNodes w1) →
      .production X ∉ pres l k n ++ x1 ++ rhs rq ++ tokNodes v := by
    intro q js x1 rq w1 v n hq hs hm
    have hno := h.no_list (rm_snoc hq hs)
    simp only [List.mem_append, not_or] at hm hno
    rcases hm with ((hm | hm) | hm) | hm
    · exact not_pres hlX n hm
    · exact hno.1.1 hm
    · exact hno.1.2 hm
    · exact production_not_tokNodes hm
  have noK : ∀ {q : Nat} {js : List Nat} {x1 : List (Node T L)} {rq : Rule T L} {w1 : List T}, P[q]? = some rq →
      RmSteps P js [.production l] (x1 ++ .production rq.symbol :: tokNodes w1) →
      .terminal (.token k) ∉ x1 ++ rhs rq := by
    intro q js x1 rq w1 hq hs
    have := h.own.form (rm_snoc hq hs)
    simp only [List.mem_append, not_or] at this ⊢
    exact this.1
  -- the rules of the list begin with an item
  have hd : ∀ {rq : Rule T L} (n : Nat), rq ∈ P → rq.symbol = X → ∀ α, pres l k n ++ rhs rq ++ α ≠ [.production X] := by
    intro rq n hq hs α e
    cases n with
    | zero =>
      rcases h.items rq hq hs with e2 | e2 <;> rw [e2] at e <;> simp [pres] at e
      exact hlX e.1
    | succ n =>
      have := congrArg List.length e
      simp [pres] at this
  rcases h.handle ho hi h1 with ⟨rfl, rfl, rfl, e1⟩ | ⟨n, hs, rfl, rfl⟩ | ⟨n, x1, w1, z, js, rfl, rfl, ht, hst⟩
  · have hy : y = [] := by cases y <;> simp_all
    subst hy
    rw [e1] at e
    rcases h.handle ho hj h2 with ⟨rfl, rfl, rfl, e2⟩ | ⟨n', hs', rfl, rfl⟩ | ⟨n', x1', w1', z', js', rfl, rfl, ht', hst'⟩
    · simp at hne
    · exact hd n' (List.mem_of_getElem? hj) hs' _ (by rw [← e]; simp [tokNodes])
    · exact noX n' hj hst' (by rw [← e]; simp)
  · have hy : y = [] := by cases y <;> simp_all
    subst hy
    rcases h.handle ho hj h2 with ⟨rfl, rfl, rfl, e2⟩ | ⟨n', hs', rfl, rfl⟩ | ⟨n', x1', w1', z', js', rfl, rfl, ht', hst'⟩
    · rw [e2] at e
      exact hd n (List.mem_of_getElem? hi) hs _ (by rw [e]; simp [tokNodes])
    · have : rhs r = rhs r' := by
        rcases h.items r (List.mem_of_getElem? hi) hs with e1 | e1 <;>
          rcases h.items r' (List.mem_of_getElem? hj) hs' with e2 | e2 <;> rw [e1, e2] at e ⊢
        · have := last_single (α := pres l k n) (b := l) (x := pres l k (n' + 1)) (a := X) (w := [])
            (by rw [pres_succ]; simpa [tokNodes] using e)
          exact absurd this.2.1 hlX
        · have := last_single (α := pres l k (n + 1)) (b := X) (x := pres l k n') (a := l) (w := [])
            (by rw [pres_succ]; simpa [tokNodes] using e)
          exact absurd this.2.1.symm hlX
      have := h.unique i j r r' hi hj hs hs' this
      simp_all
    · rcases h.items r (List.mem_of_getElem? hi) hs with e1 | e1
      · rw [e1] at e
        have e' : pres l k n' ++ ((x1' ++ rhs r' ++ tokNodes w1') ++ tokNodes z') = pres l k n ++ [.production l] := by
          rw [show pres l k n ++ [.production l] = pres l k n ++ [.production l] ++ tokNodes [] by simp [tokNodes], e]
          simp [tokNodes]
        rcases Nat.le_total n n' with hle | hle
        · obtain ⟨d, rfl⟩ := Nat.exists_eq_add_of_le hle
          have e' := (pres_cancel e'.symm).symm
          cases d with
          | zero =>
            simp only [pres, List.nil_append] at e'
            obtain ⟨w2, e2, e3⟩ := below_form (ψ := x1' ++ rhs r' ++ tokNodes w1') (z := z') (x := []) (a := l) (w := [])
              (by simpa [tokNodes] using e')
            have : w2 = [] := (List.append_eq_nil_iff.mp e2.symm).1
            subst this
            exact item_loop hr hn hj hst' (by simpa [tokNodes] using e3)
          | succ d =>
            have := congrArg List.length e'
            simp [pres] at this
        · obtain ⟨d, rfl⟩ := Nat.exists_eq_add_of_le hle
          have e' := pres_cancel e'
          obtain ⟨w2, e2, e3⟩ := below_form (ψ := x1' ++ rhs r' ++ tokNodes w1') (z := z') (x := pres l k d) (a := l) (w := [])
            (by simpa [tokNodes] using e')
          have : w2 = [] := (List.append_eq_nil_iff.mp e2.symm).1
          subst this
          cases d with
          | zero => exact item_loop hr hn hj hst' (by simpa [tokNodes, pres] using e3)
          | succ d => exact h.own.form (rm_snoc hj hst') (by rw [e3]; simp [pres])
      · rw [e1] at e
        exact noX n' hj hst' (v := w1' ++ z') (by rw [← e]; simp)
  · rcases h.handle ho hj h2 with ⟨rfl, rfl, rfl, e2⟩ | ⟨n', hs', rfl, rfl⟩ | ⟨n', x1', w1', z', js', rfl, rfl, ht', hst'⟩
    · rw [e2] at e
      exact noX n hi hst (by rw [e]; simp)
    · rcases h.items r' (List.mem_of_getElem? hj) hs' with e2 | e2
      · rw [e2] at e
        have e' : pres l k n ++ ((x1 ++ rhs r) ++ tokNodes y) = pres l k n' ++ [.production l] := by
          rw [show pres l k n' ++ [.production l] = pres l k n' ++ [.production l] ++ tokNodes [] by simp [tokNodes], ← e]
          simp
        rcases Nat.le_total n n' with hle | hle
        · obtain ⟨d, rfl⟩ := Nat.exists_eq_add_of_le hle
          have e' := pres_cancel e'
          cases d with
          | zero =>
            exact item_first h.own hr hn hi hst ht (.inl rfl) (by simpa [tokNodes, pres] using e') hw
          | succ d =>
            obtain ⟨w2, -, e3⟩ := below_form (ψ := x1 ++ rhs r) (z := y) (x := pres l k (d + 1)) (a := l) (w := [])
              (by simpa [tokNodes] using e')
            exact noK hi hst (by rw [e3]; simp [pres])
        · obtain ⟨d, rfl⟩ := Nat.exists_eq_add_of_le hle
          have e' := (pres_cancel e'.symm).symm
          cases d with
          | zero =>
            exact item_first h.own hr hn hi hst ht (.inl rfl) (by simpa [tokNodes, pres] using e') hw
          | succ d =>
            have := congrArg List.length e'
            simp [pres] at this
      · rw [e2] at e
        exact noX n hi hst (v := y) (by rw [e]; simp)
    · have e' : pres l k n ++ ((x1 ++ rhs r) ++ tokNodes y) =
          pres l k n' ++ ((x1' ++ rhs r' ++ tokNodes w1') ++ tokNodes z') := by
        rw [show pres l k n ++ ((x1 ++ rhs r) ++ tokNodes y) = pres l k n ++ x1 ++ rhs r ++ tokNodes y by simp, e]
        simp [tokNodes]
      rcases Nat.le_total n n' with hle | hle
      · obtain ⟨d, rfl⟩ := Nat.exists_eq_add_of_le hle
        have e' := pres_cancel e'
        cases d with
        | zero => exact same_item h.own hr hn hi hj hst ht hst' ht' (by simpa [pres] using e') hw hne
        | succ d =>
          obtain ⟨y1, y2, rfl, g1, g2, g3⟩ := split_beyond (a := x1 ++ rhs r) (b := [.production l])
            (by simpa [pres] using e') (noK hi hst) (by simp)
          have hy1 := single_rest g1
          subst hy1
          refine item_first h.own hr hn hi hst ht (z' := k :: y2) (.inr ⟨_, rfl⟩) ?_ hw
          simp only [tokNodes, List.map_nil, List.append_nil] at g1
          rw [g1]
          simp
      · obtain ⟨d, rfl⟩ := Nat.exists_eq_add_of_le hle
        have e' := (pres_cancel e'.symm).symm
        cases d with
        | zero => exact same_item h.own hr hn hi hj hst ht hst' ht' (by simpa [pres] using e') hw hne
        | succ d =>
          have hk := h.own.form (rm_snoc hj hst')
          rcases ht' with rfl | ⟨z2, rfl⟩
          · refine hk ?_
            have : x1' ++ rhs r' ++ tokNodes w1' = pres l k (d + 1) ++ (x1 ++ rhs r ++ tokNodes y) := by
              rw [e']; simp [tokNodes]
            rw [this]
            simp [pres]
          · have := first_split (n := Node.terminal (.token k)) (a := [.production l])
              (b := x1' ++ rhs r' ++ tokNodes w1') (d := tokNodes z2) (by simpa [pres, tokNodes] using e') (by simp) hk
            exact item_loop hr hn hj hst' this.1.symm

theorem _root_.Verif.Spec.RightList.items_of_derives (h : RightList S X l k P) (n : Nat) :
    ∀ {w : List T}, w.length = n → Derives P [.production X] w → ∀ v, SepItems P l k v → SepItems P l k (v ++ k :: w) := by
  induction n using Nat.strongRecOn with
  | ind n ih =>
    intro w hl hd v hv
    obtain ⟨r, u, v1, hr, hs, rfl, h1, h2⟩ := derives_prod_inv hd
    cases h2
    rw [List.append_nil] at hl ⊢
    rcases h.only r hr hs with e | e
    · rw [e] at h1
      exact .snoc hv h1
    · rw [e] at h1
      obtain ⟨r1, u1, v1, hr1, hs1, rfl, h3, h4⟩ := derives_prod_inv h1
      cases h4 with
      | @tok _ _ w2 h4 =>
        have hL : Derives P [.production l] u1 := by
          have := Derives.prod (w := []) hr1 h3 .nil
          rwa [List.append_nil, hs1] at this
        have := ih w2.length (by simp at hl; omega) rfl h4 _ (.snoc hv hL)
        simpa using this

/-- What the grammar derives: the same sequences as with the label of the list on the left. -/
theorem _root_.Verif.Spec.RightList.derives_iff (h : RightList S X l k P) (ho : RootOnce P) {w : List T} :
    Derives P [.production S] w ↔ SepItems P l k w := by
  constructor
  · intro hd
    obtain ⟨r, u, v, hr, hs, rfl, h1, h2⟩ := derives_prod_inv hd
    cases h2
    obtain ⟨i, hi⟩ := List.mem_iff_getElem?.mp hr
    have := ho i _ r h.root hi hs
    subst this
    rw [h.root] at hi
    cases hi
    rw [List.append_nil]
    obtain ⟨r1, u1, v1, hr1, hs1, rfl, h3, h4⟩ := derives_prod_inv h1
    cases h4
    rw [List.append_nil]
    rcases h.only r1 hr1 hs1 with e | e
    · rw [e] at h3
      exact .one h3
    · rw [e] at h3
      obtain ⟨r2, u2, v2, hr2, hs2, rfl, h5, h6⟩ := derives_prod_inv h3
      cases h6 with
      | @tok _ _ w2 h6 =>
        have hL : Derives P [.production l] u2 := by
          have := Derives.prod (w := []) hr2 h5 .nil
          rwa [List.append_nil, hs2] at this
        exact h.items_of_derives _ rfl h6 _ (.one hL)
  · intro hi
    have key : ∀ v, SepItems P l k v → (Derives P [.production X] v) ∧
        ∀ u, Derives P [.production X] u → Derives P [.production X] (v ++ k :: u) := by
      intro v hv
      have step : ∀ {a b : List T}, Derives P [.production l] a → Derives P [.production X] b →
          Derives P [.production X] (a ++ k :: b) := by
        intro a b ha hb
        have := Derives.prod (u := a ++ k :: b) (w := []) h.more (ha.append (.tok hb)) .nil
        simpa using this
      induction hv with
      | one hu => exact ⟨by simpa using Derives.prod (w := []) h.one hu .nil, fun u' hu' => step hu hu'⟩
      | @snoc v u _ hu ih =>
        refine ⟨ih.2 _ (by simpa using Derives.prod (w := []) h.one hu .nil), fun u' hu' => ?_⟩
        have := ih.2 _ (step hu hu')
        simpa using this
    have := Derives.prod (u := w) (w := []) (List.mem_of_getElem? h.root) (key w hi).1 .nil
    simpa using this

end Verif
