import Verif.Spec.Forms
import Verif.Proof.Dispatch

/-!
# Alternatives whose labels are each followed by a token of their own: lemmas
-/

set_option linter.unusedSectionVars false
set_option autoImplicit false

namespace Verif

open Spec

variable {T L : Type} {P P' : List (Rule T L)} {ρ : Nat → Nat} {s l S M : L}

/-- What follows a label in a rule, and what follows in a sentential form what has become of the label. -/
def FollowedBy (P : List (Rule T L)) (l : L) (post : List (Node T L)) (z : List T) : Prop :=
  (post = [] ∧ z = []) ∨ ∃ k rest z', post = .terminal (.token k) :: rest ∧ z = k :: z' ∧ NotBelow P l k

/-- In a sentential form of the label the token is not used. -/
theorem _root_.Verif.Spec.NotBelow.steps {k : T} (h : NotBelow P l k) {is : List Nat} {α β : List (Node T L)}
    (hs : RmSteps P is α β) (hα : ∀ a, .production a ∈ α → Reachable P l a) (hk : .terminal (.token k) ∉ α) :
    .terminal (.token k) ∉ β := by
  induction hs with
  | refl => exact hk
  | step h1 _ ih =>
    cases h1 with
    | @mk x y r hr =>
      have hrl : Reachable P l r.symbol := hα _ (by simp)
      refine ih (fun a ha => ?_) ?_
      · simp only [List.mem_append, tokNodes, List.mem_map, reduceCtorEq, and_false, exists_false, or_false] at ha
        rcases ha with ha | ha
        · exact hα a (by simp [ha])
        · exact .step hrl (List.mem_of_getElem? hr) (List.mem_filter.mp ha).1
      · simp only [List.mem_append, List.mem_cons, reduceCtorEq, false_or, not_or] at hk ⊢
        exact ⟨⟨hk.1, fun hm => h r (List.mem_of_getElem? hr) hrl (List.mem_filter.mp hm).1⟩, hk.2⟩

theorem _root_.Verif.Spec.NotBelow.form {k : T} (h : NotBelow P l k) {is : List Nat} {β : List (Node T L)}
    (hs : RmSteps P is [.production l] β) : .terminal (.token k) ∉ β :=
  h.steps hs (by simp only [List.mem_singleton, Node.production.injEq, forall_eq]; exact .root) (by simp)

/-- Sequences are the same up to the first occurrence of a node. -/
theorem first_split {α : Type} {n : α} {a b c d : List α} (e : a ++ n :: c = b ++ n :: d) (ha : n ∉ a) (hb : n ∉ b) :
    a = b ∧ c = d := by
  induction a generalizing b with
  | nil =>
    cases b with
    | nil => simpa using e
    | cons m b => simp only [List.nil_append, List.cons_append, List.cons.injEq] at e; simp [e.1] at hb
  | cons m a ih =>
    cases b with
    | nil => simp only [List.nil_append, List.cons_append, List.cons.injEq] at e; simp [e.1] at ha
    | cons m' b =>
      simp only [List.cons_append, List.cons.injEq] at e
      obtain ⟨h1, h2⟩ := ih e.2 (by simp_all) (by simp_all)
      exact ⟨by rw [e.1, h1], h2⟩

/-- The first occurrence is beyond `a`. -/
theorem split_beyond {k : T} {a b d : List (Node T L)} {y : List T}
    (e : a ++ tokNodes y = b ++ .terminal (.token k) :: d) (ha : .terminal (.token k) ∉ a) (hb : .terminal (.token k) ∉ b) :
    ∃ y1 y2, y = y1 ++ k :: y2 ∧ a ++ tokNodes y1 = b ∧ tokNodes y2 = d ∧ k ∉ y1 := by
  have hy : k ∈ y := by
    have : Node.terminal (.token k) ∈ a ++ tokNodes y := by rw [e]; simp
    rcases List.mem_append.mp this with h | h
    · exact absurd h ha
    · simpa [tokNodes] using h
  obtain ⟨y1, y2, rfl, hk⟩ := List.eq_append_cons_of_mem hy
  have e' : (a ++ tokNodes y1) ++ .terminal (.token k) :: tokNodes y2 = b ++ .terminal (.token k) :: d := by
    rw [← e]; simp [tokNodes]
  obtain ⟨h1, h2⟩ := first_split e' (by
    simp only [List.mem_append, not_or]
    exact ⟨ha, by simpa [tokNodes] using hk⟩) hb
  exact ⟨y1, y2, rfl, h1, h2, hk⟩

theorem head_beyond {k : T} {w1 y1 z z' : List T} (h : (w1 ++ k :: z).head? = (y1 ++ k :: z').head?) (hw : k ∉ w1)
    (hy : k ∉ y1) : w1.head? = y1.head? := by
  cases w1 <;> cases y1 <;> simp_all

/-- Where the last label of a sentential form of a rule is. -/
theorem last_label (α : List (Node T L))
    (hc : ∀ pre l post, α = pre ++ .production l :: post →
      post = [] ∨ ∃ k rest, post = .terminal (.token k) :: rest ∧ NotBelow P l k) (n : Nat) :
    ∀ {is : List Nat} {x : List (Node T L)} {a : L} {w : List T}, is.length = n →
      RmSteps P is α (x ++ .production a :: tokNodes w) →
      ∃ pre l post x1 w1 z js, α = pre ++ .production l :: post ∧ x = pre ++ x1 ∧ w = w1 ++ z ∧
        RmSteps P js [.production l] (x1 ++ .production a :: tokNodes w1) ∧ FollowedBy P l post z := by
  induction n with
  | zero =>
    intro is x a w hl hs
    cases List.length_eq_zero_iff.mp hl
    cases hs
    refine ⟨x, a, tokNodes w, [], [], w, [], rfl, by simp, rfl, by simpa [tokNodes] using RmSteps.refl _, ?_⟩
    rcases hc x a (tokNodes w) rfl with h | ⟨k, rest, h, hk⟩
    · exact .inl ⟨h, by simpa [tokNodes] using h⟩
    · cases w with
      | nil => simp [tokNodes] at h
      | cons k' w =>
        simp only [tokNodes, List.map_cons, List.cons.injEq, Node.terminal.injEq, AugTok.token.injEq] at h
        obtain ⟨rfl, -⟩ := h
        exact .inr ⟨k', tokNodes w, w, rfl, rfl, hk⟩
  | succ n ih =>
    intro is x a w hl hs
    rcases hs.last with ⟨rfl, -⟩ | ⟨is', i, β, rfl, h1, h2⟩
    · simp at hl
    · generalize eγ : x ++ Node.production a :: tokNodes w = γ at h2
      cases h2 with
      | @mk x0 y0 r hr =>
        obtain ⟨pre, l, post, x1, w1, z, js, rfl, rfl, rfl, h3, h4⟩ := ih (by simpa using hl) h1
        have h5 : RmSteps P (js ++ [i]) [.production l] (x1 ++ rhs r ++ tokNodes w1) := h3.trans (.step (.mk hr) (.refl _))
        have e : pre ++ ((x1 ++ rhs r ++ tokNodes w1) ++ tokNodes z) = x ++ (.production a :: tokNodes w) := by
          rw [eγ]; simp [tokNodes]
        have tok_no : ∀ {v : List T} {b : L}, (Node.production b : Node T L) ∉ tokNodes v := by
          intro v b h; simp [tokNodes] at h
        rcases List.append_eq_append_iff.mp e with ⟨x2, rfl, e2⟩ | ⟨u, rfl, e2⟩
        · -- below the same label
          rcases List.append_eq_append_iff.mp e2 with ⟨u, rfl, e3⟩ | ⟨u, e3, e4⟩
          · exact absurd (by rw [e3]; simp) (tok_no (v := z) (b := a))
          · cases u with
            | nil =>
              simp only [List.nil_append] at e4
              exact absurd (by rw [← e4]; simp) (tok_no (v := z) (b := a))
            | cons n u =>
              simp only [List.cons_append, List.cons.injEq] at e4
              obtain ⟨rfl, e4⟩ := e4
              obtain ⟨w2, w3, rfl, rfl, e5⟩ := List.map_eq_append_iff.mp e4
              have := List.map_injective_iff.mpr (fun a b h => by simpa using h :
                Function.Injective fun t : T => (Node.terminal (.token t) : Node T L)) e5
              subst this
              refine ⟨pre, l, post, x2, w2, w3, js ++ [i], rfl, rfl, rfl, ?_, h4⟩
              rw [e3] at h5
              exact h5
        · -- at an earlier label
          cases u with
          | nil =>
            simp only [List.nil_append] at e2
            rw [List.append_nil]
            -- the form begins with the label
            generalize eφ : x1 ++ rhs r ++ tokNodes w1 = φ at h5 e2
            cases φ with
            | nil =>
              simp only [List.nil_append] at e2
              exact absurd (by rw [← e2]; simp) (tok_no (v := z) (b := a))
            | cons n φ =>
              simp only [List.cons_append, List.cons.injEq] at e2
              obtain ⟨rfl, e4⟩ := e2
              obtain ⟨w2, w3, rfl, rfl, e5⟩ := List.map_eq_append_iff.mp e4
              have := List.map_injective_iff.mpr (fun a b h => by simpa using h :
                Function.Injective fun t : T => (Node.terminal (.token t) : Node T L)) e5
              subst this
              exact ⟨x, l, post, [], w2, w3, js ++ [i], rfl, by simp, rfl, h5, h4⟩
          | cons n u =>
            simp only [List.cons_append, List.cons.injEq] at e2
            obtain ⟨rfl, e4⟩ := e2
            obtain ⟨u', v', rfl, rfl, e5⟩ := List.map_eq_append_iff.mp e4
            have hα : x ++ Node.production a :: u'.map (fun t => .terminal (.token t)) ++ Node.production l :: post =
                x ++ .production a :: (u'.map (fun t => .terminal (.token t)) ++ Node.production l :: post) := by simp
            refine ⟨x, a, _, [], [], u' ++ v', [], hα, by simp, rfl, by simpa [tokNodes] using RmSteps.refl _, ?_⟩
            rcases hc x a _ hα with h | ⟨k, rest, h, hk⟩
            · simp at h
            · cases u' with
              | nil => simp at h
              | cons k' u' =>
                simp only [List.map_cons, List.cons_append, List.cons.injEq, Node.terminal.injEq,
                  AugTok.token.injEq] at h
                obtain ⟨rfl, h⟩ := h
                exact .inr ⟨k', _, u' ++ v', rfl, rfl, hk⟩

/-- Sentential forms below the rules of `M` do not mention `M`. -/
theorem _root_.Verif.Spec.Forms.no_mention (h : Forms S M P) (hu : RootUnused P) {is : List Nat}
    {α β : List (Node T L)} (hs : RmSteps P is α β) (hS : .production S ∉ α) (hM : .production M ∉ α) :
    .production M ∉ β := by
  induction hs with
  | refl => exact hM
  | @step i is α β γ h1 _ ih =>
    cases h1 with
    | @mk x y r hr =>
      have hi : i ≠ 0 := by
        rintro rfl
        rw [h.root] at hr
        cases hr
        simp at hS
      have hm1 : Node.production M ∉ rhs r := fun hm => h.once i r hi hr (List.mem_filter.mp hm).1
      have hm2 : Node.production S ∉ rhs r := fun hm => hu _ h.root r (List.mem_of_getElem? hr) (List.mem_filter.mp hm).1
      simp only [List.mem_append, List.mem_cons, not_or] at hS hM
      exact ih (by simp only [List.mem_append, not_or]; exact ⟨⟨hS.1, hm2⟩, hS.2.2⟩)
        (by simp only [List.mem_append, not_or]; exact ⟨⟨hM.1, hm1⟩, hM.2.2⟩)

/-- Where a handle can be. -/
theorem _root_.Verif.Spec.Forms.handle (h : Forms S M P) (ho : RootOnce P) {i : Nat} {x : List (Node T L)}
    {w : List T} {r : Rule T L} (hr : P[i]? = some r) (hh : Handle P i x w) :
    (i = 0 ∧ x = [] ∧ w = [] ∧ rhs r = [.production M]) ∨ (r.symbol = M ∧ x = [] ∧ w = []) ∨
    ∃ (m : Nat) (rm : Rule T L) (pre : List (Node T L)) (l : L) (post x1 : List (Node T L)) (w1 z : List T)
      (js : List Nat), P[m]? = some rm ∧ rm.symbol = M ∧ rhs rm = pre ++ .production l :: post ∧ x = pre ++ x1 ∧
        w = w1 ++ z ∧ RmSteps P js [.production l] (x1 ++ .production r.symbol :: tokNodes w1) ∧ FollowedBy P l post z := by
  obtain ⟨root, r1, is, h0, h1, h2⟩ := hh
  rw [hr] at h1
  cases h1
  have h0' := h.root
  rw [h0] at h0'
  cases h0'
  generalize eα : ([.production S] : List (Node T L)) = α at h2
  generalize eβ : x ++ Node.production r.symbol :: tokNodes w = β at h2
  cases h2 with
  | refl =>
    subst eα
    obtain ⟨rfl, e, rfl⟩ := single eβ.symm
    have := ho i _ r h0 hr e.symm
    subst this
    rw [h0] at hr
    cases hr
    exact .inl ⟨rfl, rfl, rfl, by simp [rhs]⟩
  | step h3 h4 =>
    cases h3 with
    | @mk x1 y1 r1 hr1 =>
      obtain ⟨rfl, e, rfl⟩ := single eα
      have := ho _ _ r1 h0 hr1 e.symm
      subst this
      rw [h0] at hr1
      cases hr1
      have e1 : ([] ++ rhs (⟨S, [.production M]⟩ : Rule T L) ++ tokNodes []) = [.production M] := by simp [rhs, tokNodes]
      rw [e1] at h4
      generalize eα' : ([.production M] : List (Node T L)) = α at h4
      cases h4 with
      | refl =>
        subst eα'
        obtain ⟨rfl, e, rfl⟩ := single eβ.symm
        exact .inr (.inl ⟨e.symm, rfl, rfl⟩)
      | step h5 h6 =>
        cases h5 with
        | @mk x2 y2 r2 hr2 =>
          obtain ⟨rfl, e, rfl⟩ := single eα'
          have e2 : ([] ++ rhs r2 ++ tokNodes []) = rhs r2 := by simp [tokNodes]
          rw [e2, ← eβ] at h6
          obtain ⟨pre, l, post, x1, w1, z, js, k1, k2, k3, k4, k5⟩ :=
            last_label (rhs r2) (h.closed r2 (List.mem_of_getElem? hr2) e.symm) _ rfl h6
          exact .inr (.inr ⟨_, r2, pre, l, post, x1, w1, z, js, hr2, e.symm, k1, k2, k3, k4, k5⟩)

theorem rm_snoc {is : List Nat} {α x : List (Node T L)} {w : List T} {i : Nat} {r : Rule T L} (hr : P[i]? = some r)
    (hs : RmSteps P is α (x ++ .production r.symbol :: tokNodes w)) :
    RmSteps P (is ++ [i]) α (x ++ rhs r ++ tokNodes w) := hs.trans (.step (.mk hr) (.refl _))

/-- A label that derives itself: the reduction comes first. -/
theorem loop_first (hr : RootedAt ρ s l P P') (hn : ¬ NotLR1 P') {i : Nat} {r : Rule T L} (hi : P[i]? = some r)
    {js : List Nat} {x1 : List (Node T L)} {w1 z y : List T} {post : List (Node T L)}
    (hs : RmSteps P js [.production l] (x1 ++ .production r.symbol :: tokNodes w1)) (hf : FollowedBy P l post z)
    (e : x1 ++ rhs r ++ tokNodes y = .production l :: post) (hw : (w1 ++ z).head? = y.head?) : False := by
  have key : x1 ++ rhs r = [.production l] → w1 = [] → False := by
    rintro e rfl
    obtain ⟨i', k0, -, k2, k3⟩ := hr.handle hi hs
    refine hn ⟨x1 ++ rhs r, i', r, x1, [], 0, _, [], [], [], k2, hr.root, k3, hr.handle_zero, rfl, ?_, rfl, .inl k0⟩
    simpa [tokNodes, rhs] using e
  rcases hf with ⟨rfl, rfl⟩ | ⟨k, rest, z', rfl, rfl, hk⟩
  · have hy := single_rest e
    subst hy
    exact key (by simpa [tokNodes] using e) (by cases w1 <;> simp_all)
  · have hform := hk.form (rm_snoc hi hs)
    have hform' := hk.form hs
    simp only [List.mem_append, not_or, List.mem_cons] at hform hform'
    obtain ⟨y1, y2, rfl, h1, -, h3⟩ := split_beyond (a := x1 ++ rhs r) (b := [.production l]) (by simpa using e)
      (by simp only [List.mem_append, not_or]; exact hform.1) (by simp)
    have hy := single_rest h1
    subst hy
    refine key (by simpa [tokNodes] using h1) ?_
    have := head_beyond hw (by have := hform'.2.2; simpa [tokNodes] using this) h3
    cases w1 <;> simp_all

/-- A label that derives itself: the reduction comes second. -/
theorem loop_second (hr : RootedAt ρ s l P P') (hn : ¬ NotLR1 P') {j : Nat} {r : Rule T L} (hj : P[j]? = some r)
    {js : List Nat} {x1 : List (Node T L)} {w1 z : List T} {post post' : List (Node T L)}
    (hs : RmSteps P js [.production l] (x1 ++ .production r.symbol :: tokNodes w1)) (hf : FollowedBy P l post z)
    (hp : post = [] → post' = []) (hp' : ∀ k rest, post = .terminal (.token k) :: rest → ∃ rest', post' = .terminal (.token k) :: rest')
    (e : .production l :: post' = x1 ++ rhs r ++ tokNodes (w1 ++ z)) : False := by
  have key : x1 ++ rhs r ++ tokNodes w1 = [.production l] → False := by
    intro e
    obtain ⟨j', k0, -, k2, k3⟩ := hr.handle hj hs
    refine hn ⟨[.production l], 0, _, [], [], j', r, x1, w1, [], hr.root, k2, hr.handle_zero, k3, by simp [rhs], ?_, rfl,
      .inl (Ne.symm k0)⟩
    simpa [tokNodes] using e.symm
  rcases hf with ⟨h1, rfl⟩ | ⟨k, rest, z', h1, rfl, hk⟩
  · rw [hp h1] at e
    exact key (by simpa using e.symm)
  · obtain ⟨rest', rfl⟩ := hp' k rest h1
    have := first_split (n := Node.terminal (.token k)) (a := [.production l]) (b := x1 ++ rhs r ++ tokNodes w1)
      (c := rest') (d := tokNodes z') (by simpa [tokNodes] using e) (by simp) (hk.form (rm_snoc hj hs))
    exact key this.1.symm

/-- Two handles below the same label. -/
theorem same_place (hr : RootedAt ρ s l P P') (hn : ¬ NotLR1 P') {i j : Nat} {r r' : Rule T L} (hi : P[i]? = some r)
    (hj : P[j]? = some r') {js js' : List Nat} {x1 x1' : List (Node T L)} {w1 w1' z z' y : List T} {post : List (Node T L)}
    (hst : RmSteps P js [.production l] (x1 ++ .production r.symbol :: tokNodes w1)) (hf : FollowedBy P l post z)
    (hst' : RmSteps P js' [.production l] (x1' ++ .production r'.symbol :: tokNodes w1')) (hf' : FollowedBy P l post z')
    (e' : x1 ++ rhs r ++ tokNodes y = x1' ++ rhs r' ++ tokNodes (w1' ++ z')) (hw : (w1 ++ z).head? = y.head?)
    (hne : i ≠ j ∨ w1' ++ z' ≠ y) : False := by
  obtain ⟨i', k0, k1, k2, k3⟩ := hr.handle hi hst
  obtain ⟨j', l0, l1, l2, l3⟩ := hr.handle hj hst'
  rcases hf with ⟨rfl, rfl⟩ | ⟨k, rest, z2, rfl, rfl, hk⟩
  · rcases hf' with ⟨-, rfl⟩ | ⟨k', rest', z2', h3, -⟩
    · simp only [List.append_nil] at e' hw hne
      refine hn ⟨x1 ++ rhs r, i', r, x1, w1, j', r', x1', w1', y, k2, l2, k3, l3, rfl, e', hw, ?_⟩
      rcases hne with hne | hne
      · exact .inl fun e => hne (by rw [← k1, ← l1, e])
      · exact .inr hne
    · cases h3
  · rcases hf' with ⟨h3, -⟩ | ⟨k', rest', z2', h3, rfl, hk'⟩
    · cases h3
    · cases h3
      have f1 := hk.form (rm_snoc hi hst)
      have f2 := hk.form (rm_snoc hj hst')
      have f3 := hk.form hst
      simp only [List.mem_append, not_or, List.mem_cons] at f1 f3
      obtain ⟨y1, y2, rfl, g1, g2, g3⟩ := split_beyond (a := x1 ++ rhs r) (b := x1' ++ rhs r' ++ tokNodes w1')
        (d := tokNodes z2') (by simpa [tokNodes] using e')
        (by simp only [List.mem_append, not_or]; exact f1.1) f2
      refine hn ⟨x1 ++ rhs r, i', r, x1, w1, j', r', x1', w1', y1, k2, l2, k3, l3, rfl, g1,
        head_beyond hw (by have := f3.2.2; simpa [tokNodes] using this) g3, ?_⟩
      rcases hne with hne | hne
      · exact .inl fun e => hne (by rw [← k1, ← l1, e])
      · refine .inr fun e => hne ?_
        have := List.map_injective_iff.mpr (fun a b h => by simpa using h :
          Function.Injective fun t : T => (Node.terminal (.token t) : Node T L)) g2
        rw [e, this]

/-- If the grammars for the labels in the rules of `M` are LR(1), then so is the whole grammar. -/
theorem _root_.Verif.Spec.Forms.lr1 (h : Forms S M P) (ho : RootOnce P) (hu : RootUnused P)
    (hl : ∀ r ∈ P, r.symbol = M → ∀ l, .production l ∈ r.rule → ∃ ρ s P', RootedAt ρ s l P P' ∧ ¬ NotLR1 P') :
    ¬ NotLR1 P := by
  rintro ⟨γ, i, r, x, w, j, r', x', w', y, hi, hj, h1, h2, rfl, e, hw, hne⟩
  -- a rule of `M` does not mention `M` or the root
  have noM : ∀ {m : Nat} {rm : Rule T L}, P[m]? = some rm → rm.symbol = M → .production M ∉ rhs rm := by
    intro m rm hm hs hmem
    refine h.once m rm ?_ hm (List.mem_filter.mp hmem).1
    rintro rfl
    rw [h.root] at hm
    cases hm
    exact h.ne hs
  have noS : ∀ {m : Nat} {rm : Rule T L}, P[m]? = some rm → .production S ∉ rhs rm := fun hm hmem =>
    hu _ h.root _ (List.mem_of_getElem? hm) (List.mem_filter.mp hmem).1
  have below : ∀ {m : Nat} {rm : Rule T L} {pre post ψ : List (Node T L)} {l : L} {js : List Nat}, P[m]? = some rm →
      rm.symbol = M → rhs rm = pre ++ .production l :: post → RmSteps P js [.production l] ψ →
      .production M ∉ pre ++ ψ := by
    intro m rm pre post ψ l js hm hs er hst hmem
    have h1 := noM hm hs
    have h2 := noS hm
    rw [er] at h1 h2
    simp only [List.mem_append, List.mem_cons, not_or] at h1 h2
    rcases List.mem_append.mp hmem with hmem | hmem
    · exact h1.1 hmem
    · exact h.no_mention hu hst (by simpa using h2.2.1) (by simpa using h1.2.1) hmem
  -- the rules of `M` are told apart by what comes first
  have same : ∀ {m m' : Nat} {rm rm' : Rule T L} {α β : List (Node T L)}, P[m]? = some rm → P[m']? = some rm' →
      rm.symbol = M → rm'.symbol = M → (∀ n, (rhs rm).head? = some (.terminal n) → α.head? = some (.terminal n)) →
      (∀ n, (rhs rm').head? = some (.terminal n) → β.head? = some (.terminal n)) → α = β → m = m' := by
    intro m m' rm rm' α β hm hm' hs hs' h1 h2 e
    by_contra hmm
    obtain ⟨k, k', k1, k2, k3⟩ := h.apart m m' rm rm' hm hm' hs hs' hmm
    have h1 := h1 _ k1
    rw [e, h2 _ k2] at h1
    simp only [Option.some.injEq, Node.terminal.injEq, AugTok.token.injEq] at h1
    exact k3 h1.symm
  have head : ∀ {rm : Rule T L} {pre post β : List (Node T L)} {l : L}, rhs rm = pre ++ .production l :: post →
      ∀ n, (rhs rm).head? = some (.terminal n) → (pre ++ β).head? = some (.terminal n) := by
    intro rm pre post β l er n hn
    rw [er] at hn
    cases pre with
    | nil => simp at hn
    | cons a pre => simpa using hn
  have mem : ∀ {rm : Rule T L} {pre post : List (Node T L)} {l : L}, rhs rm = pre ++ .production l :: post →
      .production l ∈ rm.rule := by
    intro rm pre post l er
    have : Node.production l ∈ rhs rm := by rw [er]; simp
    exact (List.mem_filter.mp this).1
  rcases h.handle ho hi h1 with ⟨rfl, rfl, rfl, e1⟩ | ⟨hs, rfl, rfl⟩ |
      ⟨m, rm, pre, l, post, x1, w1, z, js, hm, hms, er, rfl, rfl, hst, hf⟩
  · rw [e1] at e
    have hy : y = [] := by cases y <;> simp_all
    subst hy
    rcases h.handle ho hj h2 with ⟨rfl, rfl, rfl, e2⟩ | ⟨hs', rfl, rfl⟩ |
      ⟨m', rm', pre', l', post', x1', w1', z', js', hm', hms', er', rfl, rfl, hst', hf'⟩
    · simp at hne
    · exact noM hj hs' (by
        have : rhs r' = [.production M] := by simpa [tokNodes] using e.symm
        rw [this]; simp)
    · refine below hm' hms' er' (rm_snoc hj hst') ?_
      have : Node.production M ∈ [] ++ [.production M] ++ (tokNodes [] : List (Node T L)) := by simp
      rw [e] at this
      simp only [List.mem_append, tokNodes, List.map_append] at this ⊢
      rcases this with ((h | h) | h) | h | h
      · exact .inl h
      · exact .inr (.inl (.inl h))
      · exact .inr (.inl (.inr h))
      · exact .inr (.inr h)
      · simp at h
  · have hy : y = [] := by cases y <;> simp_all
    subst hy
    rcases h.handle ho hj h2 with ⟨rfl, rfl, rfl, e2⟩ | ⟨hs', rfl, rfl⟩ |
      ⟨m', rm', pre', l', post', x1', w1', z', js', hm', hms', er', rfl, rfl, hst', hf'⟩
    · rw [e2] at e
      exact noM hi hs (by
        have : rhs r = [.production M] := by simpa [tokNodes] using e
        rw [this]; simp)
    · have e' : rhs r = rhs r' := by simpa [tokNodes] using e
      have := same hi hj hs hs' (fun _ h => h) (fun _ h => h) e'
      subst this
      simp at hne
    · have e' : rhs r = pre' ++ (x1' ++ rhs r' ++ tokNodes (w1' ++ z')) := by
        have e := e
        simp only [tokNodes, List.nil_append, List.map_nil, List.append_nil, List.append_assoc] at e ⊢
        exact e
      have := same hi hm' hs hms' (fun _ h => h) (head er') e'
      subst this
      rw [hi] at hm'
      cases hm'
      rw [er'] at e'
      obtain ⟨ρ, s, P', hr, hn⟩ := hl r (List.mem_of_getElem? hi) hs l' (mem er')
      exact loop_second hr hn hj hst' hf' id (fun k rest e => ⟨rest, e⟩) (List.append_cancel_left e')
  · obtain ⟨ρ, s, P', hr, hn⟩ := hl rm (List.mem_of_getElem? hm) hms l (mem er)
    rcases h.handle ho hj h2 with ⟨rfl, rfl, rfl, e2⟩ | ⟨hs', rfl, rfl⟩ |
      ⟨m', rm', pre', l', post', x1', w1', z', js', hm', hms', er', rfl, rfl, hst', hf'⟩
    · rw [e2] at e
      refine below hm hms er (rm_snoc hi hst) ?_
      have : Node.production M ∈ [] ++ [.production M] ++ (tokNodes [] : List (Node T L)) := by simp
      rw [← e] at this
      simp only [List.mem_append] at this ⊢
      rcases this with ((h | h) | h) | h
      · exact .inl h
      · exact .inr (.inl (.inl h))
      · exact .inr (.inl (.inr h))
      · simp [tokNodes] at h
    · have e' : pre ++ (x1 ++ rhs r ++ tokNodes y) = rhs r' := by
        have e := e
        simp only [tokNodes, List.nil_append, List.map_nil, List.append_nil, List.append_assoc] at e ⊢
        exact e
      have := same hm hj hms hs' (head er) (fun _ h => h) e'
      subst this
      rw [hj] at hm
      cases hm
      rw [er] at e'
      exact loop_first hr hn hi hst hf (List.append_cancel_left e') hw
    · have e' : pre ++ (x1 ++ rhs r ++ tokNodes y) = pre' ++ (x1' ++ rhs r' ++ tokNodes (w1' ++ z')) := by
        have e := e
        simp only [List.append_assoc] at e ⊢
        exact e
      have := same hm hm' hms hms' (head er) (head er') e'
      subst this
      rw [hm] at hm'
      cases hm'
      have es := er.symm.trans er'
      have here : pre = pre' → l = l' → post = post' → False := by
        -- below the same label
        rintro rfl rfl rfl
        exact same_place hr hn hi hj hst hf hst' hf' (List.append_cancel_left e') hw hne
      rcases List.append_eq_append_iff.mp es with ⟨q, rfl, e3⟩ | ⟨q, rfl, e3⟩
      · cases q with
        | nil =>
          simp only [List.nil_append, List.cons.injEq, Node.production.injEq] at e3
          exact here (by simp) e3.1 e3.2
        | cons n q =>
          -- the first one is below an earlier label
          simp only [List.cons_append, List.cons.injEq] at e3
          obtain ⟨rfl, rfl⟩ := e3
          have e' := List.append_cancel_left (e'.trans (List.append_assoc ..))
          rcases hf with ⟨h3, rfl⟩ | ⟨k, rest, z2, h3, rfl, hk⟩
          · simp at h3
          · cases q with
            | nil => simp at h3
            | cons n q =>
              simp only [List.cons_append, List.cons.injEq] at h3
              obtain ⟨rfl, -⟩ := h3
              exact loop_first (z := k :: z2)
                (post := .terminal (.token k) :: (q ++ (x1' ++ rhs r' ++ tokNodes (w1' ++ z')))) hr hn hi hst
                (.inr ⟨k, _, z2, rfl, rfl, hk⟩) (by rw [e']; simp) hw
      · cases q with
        | nil =>
          simp only [List.nil_append, List.cons.injEq, Node.production.injEq] at e3
          exact here (by simp) e3.1.symm e3.2.symm
        | cons n q =>
          -- the second one is below an earlier label
          simp only [List.cons_append, List.cons.injEq] at e3
          obtain ⟨rfl, rfl⟩ := e3
          rw [List.append_assoc] at e'
          have e' := List.append_cancel_left e'
          obtain ⟨ρ', s', P'', hr', hn'⟩ := hl rm (List.mem_of_getElem? hm) hms l' (mem er')
          refine loop_second (post' := q ++ (x1 ++ rhs r ++ tokNodes y)) hr' hn' hj hst' hf' (by simp) ?_ (by rw [← e']; simp)
          intro k rest h3
          cases q with
          | nil => simp at h3
          | cons n q =>
            simp only [List.cons_append, List.cons.injEq] at h3
            obtain ⟨rfl, -⟩ := h3
            exact ⟨_, rfl⟩

end Verif
