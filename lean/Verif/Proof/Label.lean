import Verif.Proof.KnuthExact
import Verif.Spec.Label

/-!
# Rightmost derivations of LR(1) grammars, and of their labels
-/

set_option linter.unusedSectionVars false
set_option autoImplicit false

namespace Verif
open Spec

section
variable {T L : Type} {P P' : List (Rule T L)}

/-- The last step of a derivation. -/
theorem _root_.Verif.Spec.RmSteps.last {is : List Nat} {α γ : List (Node T L)} (h : RmSteps P is α γ) :
    (is = [] ∧ α = γ) ∨ ∃ is' i β, is = is' ++ [i] ∧ RmSteps P is' α β ∧ RmStep P i β γ := by
  induction h with
  | refl => exact .inl ⟨rfl, rfl⟩
  | @step i is α β γ h1 h2 ih =>
    rcases ih with ⟨rfl, rfl⟩ | ⟨is', j, β', rfl, h3, h4⟩
    · exact .inr ⟨[], i, α, rfl, .refl _, h1⟩
    · exact .inr ⟨i :: is', j, β', rfl, .step h1 h3, h4⟩

/-- The root label does not come back. -/
theorem _root_.Verif.Spec.RmStep.no_root (hu : RootUnused P) {root : Rule T L} (h0 : P[0]? = some root) {i : Nat}
    {α β : List (Node T L)} (h : RmStep P i α β) (hα : α = [.production root.symbol] ∨ .production root.symbol ∉ α) :
    .production root.symbol ∉ β := by
  cases h with
  | @mk x y r hr =>
    have h1 : Node.production root.symbol ∉ rhs r := fun h =>
      hu root h0 r (List.mem_of_getElem? hr) (List.mem_filter.mp h).1
    have h2 : Node.production root.symbol ∉ (tokNodes y : List (Node T L)) := by simp [tokNodes]
    have h3 : Node.production root.symbol ∉ x := by
      rcases hα with e | h
      · have : x = [] := by
          cases x with
          | nil => rfl
          | cons a x => cases x <;> simp at e
        simp [this]
      · intro hx; exact h (by simp [hx])
    simp [h1, h2, h3]

theorem _root_.Verif.Spec.RmSteps.no_root (hu : RootUnused P) {root : Rule T L} (h0 : P[0]? = some root) {is : List Nat}
    {α β : List (Node T L)} (h : RmSteps P is α β) (hα : .production root.symbol ∉ α) :
    .production root.symbol ∉ β := by
  induction h with
  | refl => exact hα
  | step h1 _ ih => exact ih (h1.no_root hu h0 (.inr hα))

theorem _root_.Verif.Spec.RmSteps.root_again (hu : RootUnused P) {root : Rule T L} (h0 : P[0]? = some root) {is : List Nat}
    (h : RmSteps P is [.production root.symbol] [.production root.symbol]) : is = [] := by
  cases h with
  | refl => rfl
  | step h1 h2 => exact absurd (by simp) (h2.no_root hu h0 (h1.no_root hu h0 (.inl rfl)))

/-- In an LR(1) grammar every rightmost sentential form has one rightmost derivation. -/
theorem rm_unique (hu : RootUnused P) (hn : ¬ NotLR1 P) {root : Rule T L} (h0 : P[0]? = some root)
    (n : Nat) : ∀ {is js : List Nat} {α : List (Node T L)}, is.length = n → RmSteps P is [.production root.symbol] α →
    RmSteps P js [.production root.symbol] α → is = js := by
  induction n with
  | zero =>
    intro is js α hl h1 h2
    cases List.length_eq_zero_iff.mp hl
    cases h1
    exact (h2.root_again hu h0).symm
  | succ n ih =>
    intro is js α hl h1 h2
    rcases h1.last with ⟨rfl, rfl⟩ | ⟨is', i, β, rfl, k1, k2⟩
    · simp at hl
    rcases h2.last with ⟨rfl, rfl⟩ | ⟨js', j, β', rfl, l1, l2⟩
    · exact h1.root_again hu h0
    generalize hα : α = α' at k2 l2
    cases k2 with
    | @mk x y r hr =>
      generalize hα' : x ++ rhs r ++ tokNodes y = α'' at hα l2
      cases l2 with
      | @mk x' y' r' hr' =>
        by_cases hij : i = j ∧ y' = y
        · obtain ⟨rfl, rfl⟩ := hij
          rw [hr] at hr'
          cases hr'
          have e := List.append_cancel_right (List.append_cancel_right hα')
          subst e
          have := ih (js := js') (by simpa using hl) k1 l1
          rw [this]
        · refine absurd ⟨_, i, r, x, y, j, r', x', y', y, hr, hr', ⟨root, r, is', h0, hr, k1⟩,
            ⟨root, r', js', h0, hr', l1⟩, rfl, hα', rfl, ?_⟩ hn
          by_contra hc
          simp only [not_or, not_not] at hc
          exact hij hc

/-- A label that can be reached stands in some rightmost sentential form. -/
theorem reachable_form (hp : NodesProductive P) {root l : L} (h : Reachable P root l) :
    ∃ is δ z, RmSteps P is [.production root] (δ ++ .production l :: tokNodes z) := by
  induction h with
  | root => exact ⟨[], [], [], .refl _⟩
  | @step r l _ hr hl ih =>
    obtain ⟨is, δ, z, h⟩ := ih
    obtain ⟨i, hi⟩ := List.mem_iff_getElem?.mp hr
    have hl' : .production l ∈ rhs r := List.mem_filter.mpr ⟨hl, by simp⟩
    obtain ⟨p, q, hpq⟩ := List.append_of_mem hl'
    obtain ⟨v, hv⟩ := hp.all hr q (fun n hn => by rw [hpq]; simp [hn])
    obtain ⟨js, hjs⟩ := hv.rightmost (δ ++ p ++ [.production l]) z
    have hq : strip q = q := by
      have : (rhs r).drop (p.length + 1) = q := by rw [hpq]; simp
      exact strip_of_drop this
    rw [hq] at hjs
    refine ⟨is ++ i :: js, δ ++ p, v ++ z, h.trans (.step (.mk hi) ?_)⟩
    rw [hpq]
    simpa using hjs

end

section
variable {T L : Type} {P P' : List (Rule T L)} {ρ : Nat → Nat} {s l : L}

theorem _root_.Verif.Spec.RootedAt.reach_ne (h : RootedAt ρ s l P P') {r : Rule T L} {i : Nat} (hr : P'[i]? = some r) (hi : i ≠ 0) :
    r.symbol ≠ s := (h.fresh i r hi hr).1

theorem _root_.Verif.Spec.RootedAt.rootOnce (h : RootedAt ρ s l P P') : RootOnce P' := by
  intro i r0 r h0 hi e
  rw [h.root] at h0
  cases h0
  by_contra hne
  exact (h.fresh i r hne hi).1 e

/-- A rule for a reachable label. -/
theorem _root_.Verif.Spec.RootedAt.mem (h : RootedAt ρ s l P P') {r : Rule T L} (hr : r ∈ P) (hl : Reachable P l r.symbol) : r ∈ P' := by
  obtain ⟨j, hj⟩ := List.mem_iff_getElem?.mp hr
  obtain ⟨i, -, -, hi⟩ := h.all j r hj hl
  exact List.mem_of_getElem? hi

theorem _root_.Verif.Spec.RootedAt.rootUnused (h : RootedAt ρ s l P P') (hsl : s ≠ l) : RootUnused P' := by
  intro r0 h0 r hr hm
  rw [h.root] at h0
  cases h0
  obtain ⟨i, hi⟩ := List.mem_iff_getElem?.mp hr
  by_cases h0 : i = 0
  · subst h0
    rw [h.root] at hi
    cases hi
    simp at hm
    exact hsl hm
  · exact (h.fresh i r h0 hi).2 hm

/-- A derivation that does not use the new root rule is one of the old grammar, in any context. -/
theorem _root_.Verif.Spec.RootedAt.lift (h : RootedAt ρ s l P P') (δ : List (Node T L)) (z : List T) {is : List Nat} {α β : List (Node T L)}
    (hs : RmSteps P' is α β) (hi : ∀ i ∈ is, i ≠ 0) :
    RmSteps P (is.map ρ) (δ ++ α ++ tokNodes z) (δ ++ β ++ tokNodes z) := by
  induction hs with
  | refl => exact .refl _
  | @step i is α β γ h1 _ ih =>
    refine .step ?_ (ih fun i hi' => hi i (by simp [hi']))
    cases h1 with
    | @mk x y r hr =>
      have := RmStep.mk (x := δ ++ x) (y := y ++ z) (h.get i r (hi i (by simp)) hr)
      simpa [tokNodes] using this

theorem _root_.Verif.Spec.RmSteps.no_zero (hu : RootUnused P) {root : Rule T L} (h0 : P[0]? = some root) {is : List Nat}
    {α β : List (Node T L)} (hs : RmSteps P is α β) (hα : .production root.symbol ∉ α) : ∀ i ∈ is, i ≠ 0 := by
  induction hs with
  | refl => simp
  | @step i is α β γ h1 _ ih =>
    intro j hj
    rcases List.mem_cons.mp hj with rfl | hj
    · rintro rfl
      cases h1 with
      | @mk x y r hr =>
        rw [h0] at hr
        cases hr
        simp at hα
    · exact ih (h1.no_root hu h0 (.inr hα)) j hj

/-- A derivation from the new root begins with the new rule. -/
theorem _root_.Verif.Spec.RootedAt.first_step (h : RootedAt ρ s l P P') (hsl : s ≠ l) {is : List Nat} {α : List (Node T L)}
    (hs : RmSteps P' is [.production s] α) :
    (is = [] ∧ α = [.production s]) ∨ ∃ is', is = 0 :: is' ∧ RmSteps P' is' [.production l] α ∧ (∀ i ∈ is', i ≠ 0) ∧
      .production s ∉ α := by
  have hu := h.rootUnused hsl
  cases hs with
  | refl => exact .inl ⟨rfl, rfl⟩
  | @step i is' _ β _ h1 h2 =>
    refine .inr ?_
    generalize hα : [Node.production s] = α0 at h1
    cases h1 with
    | @mk x y r hr =>
      have hx : x = [] := by
        cases x with
        | nil => rfl
        | cons a x => cases x <;> simp at hα
      subst hx
      simp only [List.nil_append, List.cons.injEq, Node.production.injEq] at hα
      obtain ⟨e, hy⟩ := hα
      have hi := h.rootOnce i _ r h.root hr e.symm
      subst hi
      rw [h.root] at hr
      cases hr
      have hs : Node.production s ∉ ([.production l] : List (Node T L)) := by simpa using hsl
      have hr : rhs (⟨s, [.production l]⟩ : Rule T L) = [.production l] := by simp [rhs]
      rw [← hy, hr] at h2
      have h2 : RmSteps P' is' [.production l] α := by simpa using h2
      exact ⟨is', rfl, h2, h2.no_zero hu h.root hs, h2.no_root hu h.root hs⟩

/-- If the grammar for a label is not LR(1), the whole grammar is not. -/
theorem _root_.Verif.Spec.RootedAt.notLR1 (h : RootedAt ρ s l P P') (hsl : s ≠ l) (hu : RootUnused P) {root : Rule T L} (h0 : P[0]? = some root)
    {is : List Nat} {δ : List (Node T L)} {z : List T}
    (hc : RmSteps P is [.production root.symbol] (δ ++ .production l :: tokNodes z)) (hn : NotLR1 P') : NotLR1 P := by
  -- handles of the old grammar
  have lift : ∀ {i : Nat} {x : List (Node T L)} {y : List T} {r : Rule T L}, i ≠ 0 → P'[i]? = some r → Handle P' i x y →
      ∃ js, (∀ j ∈ js, j ≠ 0) ∧ RmSteps P' js [.production l] (x ++ .production r.symbol :: tokNodes y) ∧
        P[ρ i]? = some r ∧ Handle P (ρ i) (δ ++ x) (y ++ z) := by
    rintro i x y r hi hr ⟨root', r1, js, k0, k1, k2⟩
    rw [h.root] at k0
    cases k0
    rw [hr] at k1
    cases k1
    rcases h.first_step hsl k2 with ⟨-, e⟩ | ⟨js', rfl, k3, k4, -⟩
    · have : Node.production r.symbol ∈ ([.production s] : List (Node T L)) := by rw [← e]; simp
      simp only [List.mem_cons, Node.production.injEq, List.not_mem_nil, or_false] at this
      exact absurd this (h.fresh i r hi hr).1
    · refine ⟨js', k4, k3, h.get i r hi hr, root, r, is ++ js'.map ρ, h0, h.get i r hi hr, ?_⟩
      have := h.lift δ z k3 k4
      simp only [List.append_assoc, List.cons_append, ← tokNodes_append] at this ⊢
      exact hc.trans this
  -- the new rule
  have zero : ∀ {x : List (Node T L)} {y : List T}, Handle P' 0 x y → x = [] ∧ y = [] := by
    rintro x y ⟨root', r1, js, k0, k1, k2⟩
    rw [h.root] at k0 k1
    cases k0
    cases k1
    rcases h.first_step hsl k2 with ⟨-, e⟩ | ⟨-, -, -, -, e⟩
    · cases x with
      | nil =>
        cases y with
        | nil => exact ⟨rfl, rfl⟩
        | cons k y => simp [tokNodes] at e
      | cons a x => cases x <;> simp at e
    · simp at e
  -- a label that derives itself
  have loop : ∀ {i : Nat} {x : List (Node T L)} {y : List T} {r : Rule T L}, i ≠ 0 → P'[i]? = some r → Handle P' i x y →
      x ++ rhs r ++ tokNodes y = [.production l] → NotLR1 P := by
    intro i x y r hi hr hh e
    obtain ⟨js, k1, k2, k3, -⟩ := lift hi hr hh
    by_contra hn
    have hall : RmSteps P' (js ++ [i]) [.production l] [.production l] := by
      refine k2.trans ?_
      have := RmStep.mk (x := x) (y := y) hr
      rw [e] at this
      exact .step this (.refl _)
    have := h.lift δ z hall (by
      intro j hj
      rcases List.mem_append.mp hj with hj | hj
      · exact k1 j hj
      · simp at hj; exact hj ▸ hi)
    have hc' : RmSteps P is [.production root.symbol] (δ ++ [.production l] ++ tokNodes z) := by simpa using hc
    have := congrArg List.length (rm_unique hu hn h0 _ rfl hc' (hc'.trans this))
    simp at this
  obtain ⟨γ, i, r, x, w, j, r', x', w', y, hi, hj, h1, h2, rfl, e, hw, hne⟩ := hn
  have hrhs : rhs (⟨s, [.production l]⟩ : Rule T L) = [.production l] := by simp [rhs]
  by_cases hi0 : i = 0
  · subst hi0
    obtain ⟨rfl, rfl⟩ := zero h1
    rw [h.root] at hi
    cases hi
    have hy : y = [] := by cases y <;> simp_all
    subst hy
    by_cases hj0 : j = 0
    · subst hj0
      obtain ⟨rfl, rfl⟩ := zero h2
      simp at hne
    · refine loop hj0 hj h2 ?_
      rw [← e, hrhs]
      simp [tokNodes]
  · by_cases hj0 : j = 0
    · subst hj0
      obtain ⟨rfl, rfl⟩ := zero h2
      rw [h.root] at hj
      cases hj
      rw [hrhs] at e
      have hy : y = [] := by
        rcases List.eq_nil_or_concat y with hy | ⟨y', k, rfl⟩
        · exact hy
        · have e : (x ++ rhs r ++ tokNodes y') ++ [Node.terminal (.token k)] = [] ++ [.production l] := by
            simpa [tokNodes] using e
          have := (List.append_inj' e rfl).2
          simp at this
      subst hy
      have hw' : w = [] := by cases w <;> simp_all
      subst hw'
      refine loop hi0 hi h1 ?_
      simpa [tokNodes] using e
    · obtain ⟨-, -, -, k3, k4⟩ := lift hi0 hi h1
      obtain ⟨-, -, -, l3, l4⟩ := lift hj0 hj h2
      refine ⟨_, ρ i, r, δ ++ x, w ++ z, ρ j, r', δ ++ x', w' ++ z, y ++ z, k3, l3, k4, l4, rfl, ?_, ?_, ?_⟩
      · have := congrArg (fun q => δ ++ q ++ tokNodes z) e
        simpa [tokNodes_append] using this
      · cases w <;> cases y <;> simp_all
      · rcases hne with hne | hne
        · exact .inl fun e => hne (h.inj i j hi0 hj0 e)
        · exact .inr fun e => hne (List.append_cancel_right e)

/-- What the label derives. -/
theorem _root_.Verif.Spec.RootedAt.derives_old (h : RootedAt ρ s l P P') {α : List (Node T L)} {w : List T} (hα : .production s ∉ α)
    (hd : Derives P' α w) : Derives P α w := by
  induction hd with
  | nil => exact .nil
  | tok _ ih => exact .tok (ih (by simp at hα; exact hα))
  | eps _ ih => exact .eps (ih (by simp at hα; exact hα))
  | @prod r α u w hr _ _ ih1 ih2 =>
    simp only [List.mem_cons, Node.production.injEq, not_or] at hα
    obtain ⟨i, hi⟩ := List.mem_iff_getElem?.mp hr
    have h0 : i ≠ 0 := by
      rintro rfl
      rw [h.root] at hi
      cases hi
      exact hα.1 rfl
    exact .prod (List.mem_of_getElem? (h.get i r h0 hi)) (ih1 (h.fresh i r h0 hi).2) (ih2 hα.2)

theorem _root_.Verif.Spec.RootedAt.derives_new (h : RootedAt ρ s l P P') {α : List (Node T L)} {w : List T}
    (hα : ∀ a, .production a ∈ α → Reachable P l a) (hd : Derives P α w) : Derives P' α w := by
  induction hd with
  | nil => exact .nil
  | tok _ ih => exact .tok (ih fun a ha => hα a (by simp [ha]))
  | eps _ ih => exact .eps (ih fun a ha => hα a (by simp [ha]))
  | @prod r α u w hr _ _ ih1 ih2 =>
    have hr' := hα r.symbol (by simp)
    exact .prod (h.mem hr hr') (ih1 fun a ha => .step hr' hr ha) (ih2 fun a ha => hα a (by simp [ha]))

/-- The new grammar derives what the label derives. -/
theorem _root_.Verif.Spec.RootedAt.derives_iff (h : RootedAt ρ s l P P') (hsl : s ≠ l) {w : List T} :
    Derives P' [.production s] w ↔ Derives P [.production l] w := by
  constructor
  · intro hd
    generalize hα : [Node.production s] = α at hd
    cases hd with
    | nil => cases hα
    | tok => cases hα
    | eps => cases hα
    | @prod r α u w hr h1 h2 =>
      simp only [List.cons.injEq, Node.production.injEq] at hα
      obtain ⟨e, rfl⟩ := hα
      cases h2
      obtain ⟨i, hi⟩ := List.mem_iff_getElem?.mp hr
      cases h.rootOnce i _ r h.root hi e.symm
      rw [h.root] at hi
      cases hi
      simpa using h.derives_old (by simpa using hsl) h1
  · intro hd
    have := h.derives_new (fun a ha => by simp at ha; subst ha; exact .root) hd
    have := Derives.prod (w := []) (List.mem_of_getElem? h.root) this .nil
    simpa using this

theorem _root_.Verif.Spec.RootedAt.parses_old {A : Type} {m : A → T → Prop} (h : RootedAt ρ s l P P') {f : Forest A}
    {α : List (Node T L)} {w : List A} (hα : .production s ∉ α) (hd : ParsesM P' m f α w) :
    ParsesM P m (f.mapRules ρ) α w := by
  induction hd with
  | nil => exact .nil
  | tok hm _ ih => exact .tok hm (ih (by simp at hα; exact hα))
  | eps _ ih => exact .eps (ih (by simp at hα; exact hα))
  | @prod i r c f α u w hi _ _ ih1 ih2 =>
    simp only [List.mem_cons, Node.production.injEq, not_or] at hα
    have h0 : i ≠ 0 := by
      rintro rfl
      rw [h.root] at hi
      cases hi
      exact hα.1 rfl
    exact .prod (h.get i r h0 hi) (ih1 (h.fresh i r h0 hi).2) (ih2 hα.2)

theorem _root_.Verif.Spec.RootedAt.parses_new {A : Type} {m : A → T → Prop} (h : RootedAt ρ s l P P') {f : Forest A}
    {α : List (Node T L)} {w : List A} (hα : ∀ a, .production a ∈ α → Reachable P l a) (hd : ParsesM P m f α w) :
    ∃ f', ParsesM P' m f' α w ∧ f'.mapRules ρ = f := by
  induction hd with
  | nil => exact ⟨_, .nil, rfl⟩
  | @tok t a f α w hm _ ih =>
    obtain ⟨f', h1, rfl⟩ := ih fun a ha => hα a (by simp [ha])
    exact ⟨.tok a f', .tok hm h1, rfl⟩
  | eps _ ih =>
    obtain ⟨f', h1, rfl⟩ := ih fun a ha => hα a (by simp [ha])
    exact ⟨f', .eps h1, rfl⟩
  | @prod i r c f α u w hi _ _ ih1 ih2 =>
    have hr' := hα r.symbol (by simp)
    obtain ⟨c', h1, rfl⟩ := ih1 fun a ha => .step hr' (List.mem_of_getElem? hi) ha
    obtain ⟨f', h2, rfl⟩ := ih2 fun a ha => hα a (by simp [ha])
    obtain ⟨j, -, rfl, hj⟩ := h.all i r hi hr'
    exact ⟨.node j c' f', .prod hj h1 h2, rfl⟩

end
end Verif
