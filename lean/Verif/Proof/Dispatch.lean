import Verif.Spec.Dispatch
import Verif.Proof.Label

/-!
# Alternatives told apart by their first token: lemmas
-/

set_option linter.unusedSectionVars false
set_option autoImplicit false

namespace Verif

open Spec

variable {T L : Type} {P P' : List (Rule T L)} {ρ : Nat → Nat} {s l S M : L}

/-- A rightmost derivation from what can be reached from the label, with the rules for the label. -/
theorem _root_.Verif.Spec.RootedAt.lower (h : RootedAt ρ s l P P') {is : List Nat} {α β : List (Node T L)}
    (hs : RmSteps P is α β) (hα : ∀ a, .production a ∈ α → Reachable P l a) :
    (∃ js, RmSteps P' js α β) ∧ ∀ a, .production a ∈ β → Reachable P l a := by
  induction hs with
  | refl => exact ⟨⟨[], .refl _⟩, hα⟩
  | step h1 _ ih =>
    cases h1 with
    | @mk x y r hr =>
      have hrl : Reachable P l r.symbol := hα _ (by simp)
      obtain ⟨i', -, -, hr'⟩ := h.all _ r hr hrl
      obtain ⟨⟨js, h2⟩, h3⟩ := ih fun a ha => by
        simp only [List.mem_append, tokNodes, List.mem_map, reduceCtorEq, and_false, exists_false, or_false] at ha
        rcases ha with ha | ha
        · exact hα a (by simp [ha])
        · exact .step hrl (List.mem_of_getElem? hr) (List.mem_filter.mp ha).1
      exact ⟨⟨i' :: js, .step (.mk hr') h2⟩, h3⟩

/-- A handle below the label is one of the grammar for the label. -/
theorem _root_.Verif.Spec.RootedAt.handle (h : RootedAt ρ s l P P') {is : List Nat} {i : Nat} {r : Rule T L}
    {x : List (Node T L)} {w : List T} (hr : P[i]? = some r)
    (hs : RmSteps P is [.production l] (x ++ .production r.symbol :: tokNodes w)) :
    ∃ i', i' ≠ 0 ∧ ρ i' = i ∧ P'[i']? = some r ∧ Handle P' i' x w := by
  obtain ⟨⟨js, h1⟩, h2⟩ := h.lower hs (by simp only [List.mem_singleton, Node.production.injEq, forall_eq]; exact .root)
  obtain ⟨i', h0, e, hr'⟩ := h.all i r hr (h2 _ (by simp))
  refine ⟨i', h0, e, hr', ⟨s, [.production l]⟩, r, 0 :: js, h.root, hr', .step ?_ h1⟩
  have := RmStep.mk (x := []) (y := []) h.root
  simpa [tokNodes, rhs] using this

theorem _root_.Verif.Spec.RootedAt.handle_zero (h : RootedAt ρ s l P P') : Handle P' 0 [] [] :=
  ⟨_, _, [], h.root, h.root, by simpa [tokNodes] using RmSteps.refl _⟩

theorem _root_.Verif.Spec.Dispatch.below (_ : Dispatch S M P) {k : T} {is : List Nat} {α β : List (Node T L)}
    (hs : RmSteps P is (.terminal (.token k) :: α) β) :
    ∃ β', β = .terminal (.token k) :: β' ∧ RmSteps P is α β' := by
  generalize e : Node.terminal (.token k) :: α = α0 at hs
  induction hs generalizing α with
  | refl => exact ⟨α, e.symm, .refl _⟩
  | step h1 _ ih =>
    cases h1 with
    | @mk x y r hr =>
      cases x with
      | nil => simp at e
      | cons n x =>
        simp only [List.cons_append, List.cons.injEq] at e
        obtain ⟨rfl, rfl⟩ := e
        obtain ⟨β', h2, h3⟩ := ih (α := x ++ rhs r ++ tokNodes y) (by simp)
        exact ⟨β', h2, .step (.mk hr) h3⟩

theorem single {x : List (Node T L)} {a b : L} {w : List T}
    (e : ([.production a] : List (Node T L)) = x ++ .production b :: tokNodes w) : x = [] ∧ a = b ∧ w = [] := by
  cases x with
  | nil =>
    simp only [List.nil_append, List.cons.injEq, Node.production.injEq] at e
    exact ⟨rfl, e.1, by simpa [tokNodes] using e.2.symm⟩
  | cons n x => cases x <;> simp at e

/-- Where a handle can be. -/
theorem _root_.Verif.Spec.Dispatch.handle (h : Dispatch S M P) (ho : RootOnce P) {i : Nat} {x : List (Node T L)}
    {w : List T} {r : Rule T L} (hr : P[i]? = some r) (hh : Handle P i x w) :
    (i = 0 ∧ x = [] ∧ w = [] ∧ rhs r = [.production M]) ∨
    (∃ (k : T) (l : L), r = ⟨M, [.terminal (.token k), .production l]⟩ ∧ x = [] ∧ w = []) ∨
    ∃ (m : Nat) (k : T) (l : L) (x' : List (Node T L)) (is : List Nat),
      P[m]? = some ⟨M, [.terminal (.token k), .production l]⟩ ∧ x = .terminal (.token k) :: x' ∧
      RmSteps P is [.production l] (x' ++ .production r.symbol :: tokNodes w) := by
  obtain ⟨root, r1, is, h0, h1, h2⟩ := hh
  rw [hr] at h1
  cases h1
  have h0' := h.root
  rw [h0] at h0'
  cases h0'
  generalize eα : ([.production S] : List (Node T L)) = α at h2
  generalize eβ : x ++ Node.production r.symbol :: tokNodes w = β at h2
  cases h2 with
  | refl =>
    subst eα
    obtain ⟨rfl, e, rfl⟩ := single eβ.symm
    have := ho i _ r h0 hr e.symm
    subst this
    rw [h0] at hr
    cases hr
    exact .inl ⟨rfl, rfl, rfl, by simp [rhs]⟩
  | step h3 h4 =>
    cases h3 with
    | @mk x1 y1 r1 hr1 =>
      obtain ⟨rfl, e, rfl⟩ := single eα
      have := ho _ _ r1 h0 hr1 e.symm
      subst this
      rw [h0] at hr1
      cases hr1
      have e1 : ([] ++ rhs (⟨S, [.production M]⟩ : Rule T L) ++ tokNodes []) = [.production M] := by simp [rhs, tokNodes]
      rw [e1] at h4
      generalize eα' : ([.production M] : List (Node T L)) = α at h4
      cases h4 with
      | refl =>
        subst eα'
        obtain ⟨rfl, e, rfl⟩ := single eβ.symm
        obtain ⟨k, l, hk⟩ := h.alt r (List.mem_of_getElem? hr) e.symm
        obtain ⟨sym, rule⟩ := r
        simp only at e hk
        subst e hk
        exact .inr (.inl ⟨k, l, rfl, rfl, rfl⟩)
      | step h5 h6 =>
        cases h5 with
        | @mk x2 y2 r2 hr2 =>
          obtain ⟨rfl, e, rfl⟩ := single eα'
          obtain ⟨k, l, hk⟩ := h.alt r2 (List.mem_of_getElem? hr2) e.symm
          obtain ⟨sym, rule⟩ := r2
          simp only at e hk
          subst e hk
          have e2 : ([] ++ rhs (⟨M, [.terminal (.token k), .production l]⟩ : Rule T L) ++ tokNodes []) =
              [.terminal (.token k), .production l] := by simp [rhs, tokNodes]
          rw [e2] at h6
          obtain ⟨β', rfl, h7⟩ := h.below h6
          cases x with
          | nil => simp at eβ
          | cons n x =>
            simp only [List.cons_append, List.cons.injEq] at eβ
            obtain ⟨rfl, rfl⟩ := eβ
            exact .inr (.inr ⟨_, k, l, x, _, hr2, rfl, h7⟩)

theorem single_rest {a : L} {z : List (Node T L)} {y : List T} (e : z ++ tokNodes y = [.production a]) : y = [] := by
  rcases List.eq_nil_or_concat y with hy | ⟨y', k, rfl⟩
  · exact hy
  · have e : (z ++ tokNodes y') ++ [Node.terminal (.token k)] = [] ++ [.production a] := by simpa [tokNodes] using e
    have := (List.append_inj' e rfl).2
    simp at this

/-- If the grammars for the alternatives are LR(1), then so is the whole grammar. -/
theorem _root_.Verif.Spec.Dispatch.lr1 (h : Dispatch S M P) (ho : RootOnce P)
    (hl : ∀ k l, ⟨M, [.terminal (.token k), .production l]⟩ ∈ P → ∃ ρ s P', RootedAt ρ s l P P' ∧ ¬ NotLR1 P') :
    ¬ NotLR1 P := by
  rintro ⟨γ, i, r, x, w, j, r', x', w', y, hi, hj, h1, h2, rfl, e, hw, hne⟩
  have rhsM : ∀ (k : T) (l : L), rhs (⟨M, [.terminal (.token k), .production l]⟩ : Rule T L) =
      [.terminal (.token k), .production l] := fun k l => by simp [rhs]
  rcases h.handle ho hi h1 with ⟨rfl, rfl, rfl, e1⟩ | ⟨k, l, rfl, rfl, rfl⟩ | ⟨m, k, l, x1, is, hm, rfl, hs⟩
  · rw [e1] at e
    have hy : y = [] := by cases y <;> simp_all
    subst hy
    rcases h.handle ho hj h2 with ⟨rfl, rfl, rfl, e2⟩ | ⟨k', l', rfl, rfl, rfl⟩ | ⟨m', k', l', x1', is', hm', rfl, hs'⟩
    · simp at hne
    · rw [rhsM] at e; simp at e
    · simp at e
  · rw [rhsM] at e
    have hy : y = [] := by cases y <;> simp_all
    subst hy
    rcases h.handle ho hj h2 with ⟨rfl, rfl, rfl, e2⟩ | ⟨k', l', rfl, rfl, rfl⟩ | ⟨m', k', l', x1', is', hm', rfl, hs'⟩
    · rw [e2] at e; simp at e
    · rw [rhsM] at e
      simp only [List.nil_append, List.cons_append, List.cons.injEq, Node.terminal.injEq, AugTok.token.injEq] at e
      obtain ⟨rfl, -⟩ := e
      have := h.apart i j k l l' hi hj
      subst this
      simp at hne
    · simp only [List.nil_append, List.cons_append, List.cons.injEq, Node.terminal.injEq, AugTok.token.injEq] at e
      obtain ⟨rfl, e⟩ := e
      have := h.apart i m' k l l' hi hm'
      subst this
      rw [hi] at hm'
      cases hm'
      obtain ⟨ρ, s, P', hr, hn⟩ := hl k l (List.mem_of_getElem? hi)
      obtain ⟨j', k0, -, k2, k3⟩ := hr.handle hj hs'
      refine hn ⟨[.production l], 0, _, [], [], j', r', x1', w', [], hr.root, k2, hr.handle_zero, k3, by simp [rhs], ?_,
        rfl, .inl (Ne.symm k0)⟩
      simpa [tokNodes] using e
  · obtain ⟨ρ, s, P', hr, hn⟩ := hl k l (List.mem_of_getElem? hm)
    obtain ⟨i', k0, k1, k2, k3⟩ := hr.handle hi hs
    rcases h.handle ho hj h2 with ⟨rfl, rfl, rfl, e2⟩ | ⟨k', l', rfl, rfl, rfl⟩ | ⟨m', k', l', x1', is', hm', rfl, hs'⟩
    · rw [e2] at e; simp at e
    · rw [rhsM] at e
      simp only [List.nil_append, List.cons_append, List.cons.injEq, Node.terminal.injEq, AugTok.token.injEq] at e
      obtain ⟨rfl, e⟩ := e
      have := h.apart m j k l l' hm hj
      subst this
      rw [hj] at hm
      cases hm
      refine hn ⟨x1 ++ rhs r, i', r, x1, w, 0, _, [], [], y, k2, hr.root, k3, hr.handle_zero, rfl, ?_, hw, .inl k0⟩
      simpa [tokNodes, rhs] using e
    · simp only [List.cons_append, List.cons.injEq, Node.terminal.injEq, AugTok.token.injEq] at e
      obtain ⟨rfl, e⟩ := e
      have := h.apart m m' k l l' hm hm'
      subst this
      rw [hm] at hm'
      cases hm'
      obtain ⟨j', l0, l1, l2, l3⟩ := hr.handle hj hs'
      refine hn ⟨x1 ++ rhs r, i', r, x1, w, j', r', x1', w', y, k2, l2, k3, l3, rfl, e, hw, ?_⟩
      rcases hne with hne | hne
      · exact .inl fun e => hne (by rw [← k1, ← l1, e])
      · exact .inr hne

/-- What the grammar derives. -/
theorem _root_.Verif.Spec.Dispatch.derives_iff (h : Dispatch S M P) (ho : RootOnce P) {w : List T} :
    Derives P [.production S] w ↔ ∃ k l v, ⟨M, [.terminal (.token k), .production l]⟩ ∈ P ∧ w = k :: v ∧
      Derives P [.production l] v := by
  constructor
  · intro hd
    generalize hα : [Node.production S] = α at hd
    cases hd with
    | nil => cases hα
    | tok => cases hα
    | eps => cases hα
    | @prod r α u w hr h1 h2 =>
      cases hα
      obtain ⟨i, hi⟩ := List.mem_iff_getElem?.mp hr
      have := ho i _ r h.root hi rfl
      subst this
      rw [h.root] at hi
      have e2 : r.rule = [.production M] := by
        injection hi with hi; rw [← hi]
      rw [e2] at h1
      cases h2
      generalize hβ : [Node.production M] = β at h1
      cases h1 with
      | nil => cases hβ
      | tok => cases hβ
      | eps => cases hβ
      | @prod r' β u w hr' h3 h4 =>
        injection hβ with hM hβ
        subst hβ
        injection hM with hM
        cases h4
        obtain ⟨k, l, hk⟩ := h.alt r' hr' hM.symm
        rw [hk] at h3
        cases h3 with
        | @tok _ _ v h5 =>
          refine ⟨k, l, v, ?_, by simp, h5⟩
          have : r' = ⟨M, [.terminal (.token k), .production l]⟩ := by
            obtain ⟨a, b⟩ := r'; simp only at hM hk; rw [hM, hk]
          exact this ▸ hr'
  · rintro ⟨k, l, v, hm, rfl, hd⟩
    have h1 : Derives P [.production M] (k :: v) := by
      have := Derives.prod (u := k :: v) (w := []) hm (.tok hd) .nil
      simpa using this
    have := Derives.prod (u := k :: v) (w := []) (List.mem_of_getElem? h.root) h1 .nil
    simpa using this

end Verif
