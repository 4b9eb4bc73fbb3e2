import Verif.Proof.LL

/-!
# A check that suffices for LL(1)

Given sets that are closed under the rules, disjoint predictions mean LL(1). (Used for the samples; the true sets are
the least closed ones.)
-/

set_option linter.unusedSectionVars false
set_option autoImplicit false

namespace Verif.LL
open Spec

section
variable {T L : Type} [DecidableEq T] [DecidableEq L] (null : L → Bool) (first follow : L → List (AugTok T))

/-- All nodes may vanish. -/
def van (α : List (Node T L)) : Bool := α.all (First.vanishes null)

/-- What a sequence may begin with. -/
def firsts : List (Node T L) → List (AugTok T)
  | [] => []
  | .terminal .epsilon :: α => firsts α
  | .terminal t :: _ => [t]
  | .production l :: α => first l ++ (if null l then firsts α else [])

/-- The sets are closed under one rule: what follows the labels in it. -/
def followsIn (lhs : L) : List (Node T L) → Bool
  | [] => true
  | .production l :: α => (firsts null first α).all (fun t => (follow l).contains t) &&
      (!(van null α) || (follow lhs).all fun t => (follow l).contains t) && followsIn lhs α
  | _ :: α => followsIn lhs α

/-- The tokens that predict a rule. -/
def predicted (r : Rule T L) : List (AugTok T) :=
  firsts null first r.rule ++ (if van null r.rule then follow r.symbol else [])

def closedCheck (P : List (Rule T L)) : Bool :=
  (P.all fun r => (!(van null r.rule) || null r.symbol) && (firsts null first r.rule).all (fun t => (first r.symbol).contains t) &&
    followsIn null first follow r.symbol r.rule) &&
  (match P with
    | [] => true
    | r :: _ => (follow r.symbol).contains .eos)

def check (P : List (Rule T L)) : Bool :=
  closedCheck null first follow P &&
  (List.range P.length).all fun i => (List.range P.length).all fun j =>
    match P[i]?, P[j]? with
    | some r, some r' => i == j || r.symbol != r'.symbol ||
        (predicted null first follow r).all fun t => !((predicted null first follow r').contains t)
    | _, _ => true

variable {null first follow} {P : List (Rule T L)}

theorem van_append {α β : List (Node T L)} : van null (α ++ β) = (van null α && van null β) := by simp [van]

theorem mem_firsts_append {α β : List (Node T L)} {t : AugTok T} :
    t ∈ firsts null first (α ++ β) ↔ t ∈ firsts null first α ∨ (van null α = true ∧ t ∈ firsts null first β) := by
  induction α with
  | nil => simp [firsts, van]
  | cons n α ih =>
    match n with
    | .terminal .epsilon => simpa [firsts, van, First.vanishes] using ih
    | .terminal (.token k) => simp [firsts, van, First.vanishes]
    | .terminal .eos => simp [firsts, van, First.vanishes]
    | .production l =>
      cases hl : null l <;> simp [firsts, van, First.vanishes, hl]
      rw [ih]
      simp only [van, List.all_eq_true]
      tauto

/-- What the check says of FIRST and of single rules. -/
structure Closed (null : L → Bool) (first follow : L → List (AugTok T)) (P : List (Rule T L)) : Prop where
  nul : ∀ r ∈ P, van null r.rule = true → null r.symbol = true
  fst : ∀ r ∈ P, ∀ t ∈ firsts null first r.rule, t ∈ first r.symbol
  inner : ∀ r ∈ P, ∀ a l b, r.rule = a ++ .production l :: b → (∀ t ∈ firsts null first b, t ∈ follow l) ∧
    (van null b = true → ∀ t ∈ follow r.symbol, t ∈ follow l)
  root : ∀ r, P[0]? = some r → .eos ∈ follow r.symbol

theorem followsIn_spec {lhs : L} : ∀ {α : List (Node T L)}, followsIn null first follow lhs α = true → ∀ a l b,
    α = a ++ .production l :: b → (∀ t ∈ firsts null first b, t ∈ follow l) ∧
      (van null b = true → ∀ t ∈ follow lhs, t ∈ follow l)
  | [], _, a, l, b, e => by simp at e
  | n :: α, h, a, l, b, e => by
    cases a with
    | nil =>
      simp only [List.nil_append, List.cons.injEq] at e
      obtain ⟨rfl, rfl⟩ := e
      simp only [followsIn, Bool.and_eq_true, List.all_eq_true, Bool.or_eq_true, Bool.not_eq_true',
        List.contains_iff_mem] at h
      exact ⟨h.1.1, fun hv => h.1.2.resolve_left (by simp [hv])⟩
    | cons c a =>
      simp only [List.cons_append, List.cons.injEq] at e
      obtain ⟨rfl, e⟩ := e
      refine followsIn_spec ?_ a l b e
      match n with
      | .terminal t => exact h
      | .production m =>
        simp only [followsIn, Bool.and_eq_true] at h
        exact h.2

theorem check_closed (h : closedCheck null first follow P = true) : Closed null first follow P := by
  simp only [closedCheck, Bool.and_eq_true, List.all_eq_true, Bool.or_eq_true, Bool.not_eq_true', List.contains_iff_mem] at h
  obtain ⟨h1, h2⟩ := h
  refine ⟨fun r hr hv => ((h1 r hr).1.1).resolve_left (by simp [hv]), fun r hr => (h1 r hr).1.2,
    fun r hr => followsIn_spec (h1 r hr).2, fun r hr => ?_⟩
  cases P with
  | nil => cases hr
  | cons r' P => cases hr; exact List.contains_iff_mem.mp h2

theorem Closed.van_of_first (h : Closed null first follow P) {α : List (Node T L)} (hf : First P α .epsilon) :
    van null α = true := by
  refine First.nullable_sub null ?_ hf rfl
  rw [List.all_eq_true]
  intro r hr
  by_cases hv : r.rule.all (First.vanishes null) = true
  · rw [h.nul r hr hv, Bool.or_true]
  · rw [Bool.not_eq_true] at hv
    rw [hv]
    rfl

theorem Closed.mem_of_first (h : Closed null first follow P) {α : List (Node T L)} {t : AugTok T} (hf : First P α t) :
    t ≠ .epsilon → t ∈ firsts null first α := by
  induction hf with
  | nil => intro ht; exact absurd rfl ht
  | eps _ ih => exact ih
  | @term t α ht => intro _; cases t <;> simp_all [firsts]
  | @skip r α t hr h1 h2 _ ih =>
    intro ht
    simp only [firsts, h.nul r hr (h.van_of_first h1), if_true, List.mem_append]
    exact .inr (ih ht)
  | @take r α t hr h1 ht ih =>
    intro _
    simp only [firsts, List.mem_append]
    exact .inl (h.fst r hr t (ih ht))

theorem Closed.step (h : Closed null first follow P) {α β : List (Node T L)} (hs : Rewrite P α β)
    (hi : ∀ x l y, α = x ++ .production l :: y → (∀ t ∈ firsts null first y, t ∈ follow l) ∧
      (van null y = true → .eos ∈ follow l)) :
    ∀ x l y, β = x ++ .production l :: y → (∀ t ∈ firsts null first y, t ∈ follow l) ∧
      (van null y = true → .eos ∈ follow l) := by
  obtain ⟨x1, y1, r, hr⟩ := hs
  have hi0 := hi x1 r.symbol y1 rfl
  intro x l y e
  -- in the rule
  have inside : ∀ a b, r.rule = a ++ .production l :: b → y = b ++ y1 → (∀ t ∈ firsts null first y, t ∈ follow l) ∧
      (van null y = true → .eos ∈ follow l) := by
    rintro a b e1 rfl
    obtain ⟨k1, k2⟩ := h.inner r hr a l b e1
    refine ⟨fun t ht => ?_, fun hv => ?_⟩
    · rcases mem_firsts_append.mp ht with ht | ⟨hv, ht⟩
      · exact k1 t ht
      · exact k2 hv t (hi0.1 t ht)
    · rw [van_append, Bool.and_eq_true] at hv
      exact k2 hv.1 _ (hi0.2 hv.2)
  -- before the rule
  have before : ∀ c, x1 = x ++ .production l :: c → y = c ++ (r.rule ++ y1) → (∀ t ∈ firsts null first y, t ∈ follow l) ∧
      (van null y = true → .eos ∈ follow l) := by
    rintro c rfl rfl
    obtain ⟨k1, k2⟩ := hi x l (c ++ .production r.symbol :: y1) (by simp)
    refine ⟨fun t ht => k1 t ?_, fun hv => k2 ?_⟩
    · rcases mem_firsts_append.mp ht with ht | ⟨hv, ht⟩
      · exact mem_firsts_append.mpr (.inl ht)
      · refine mem_firsts_append.mpr (.inr ⟨hv, ?_⟩)
        simp only [firsts, List.mem_append]
        rcases mem_firsts_append.mp ht with ht | ⟨hv, ht⟩
        · exact .inl (h.fst r hr t ht)
        · rw [h.nul r hr hv]
          exact .inr ht
    · rw [van_append, van_append, Bool.and_eq_true, Bool.and_eq_true] at hv
      rw [van_append, Bool.and_eq_true]
      refine ⟨hv.1, ?_⟩
      have := h.nul r hr hv.2.1
      have h2 := hv.2.2
      simp only [van] at h2 ⊢
      simp [First.vanishes, this, h2]
  rw [List.append_assoc] at e
  rcases List.append_eq_append_iff.mp e with ⟨a, rfl, e2⟩ | ⟨c, rfl, e2⟩
  · rcases List.append_eq_append_iff.mp e2 with ⟨b, rfl, e3⟩ | ⟨c, e3, e4⟩
    · exact hi (x1 ++ .production r.symbol :: b) l y (by rw [e3]; simp)
    · cases c with
      | nil => exact hi (x1 ++ [.production r.symbol]) l y (by rw [e4]; simp)
      | cons n c =>
        simp only [List.cons_append, List.cons.injEq] at e4
        obtain ⟨rfl, rfl⟩ := e4
        exact inside a c e3 rfl
  · cases c with
    | nil =>
      simp only [List.nil_append] at e2
      cases hq : r.rule with
      | nil =>
        rw [hq] at e2
        exact hi (x ++ [] ++ [.production r.symbol]) l y (by rw [show y1 = .production l :: y from e2.symm]; simp)
      | cons n c =>
        rw [hq] at e2
        simp only [List.cons_append, List.cons.injEq] at e2
        obtain ⟨rfl, rfl⟩ := e2
        exact inside [] c hq rfl
    | cons n c =>
      simp only [List.cons_append, List.cons.injEq] at e2
      obtain ⟨rfl, rfl⟩ := e2
      exact before c rfl rfl

theorem Closed.mem_of_follow (h : Closed null first follow P) {l : L} {t : AugTok T} (hf : Follow P l t) : t ∈ follow l := by
  obtain ⟨root, x, y, h0, hs, hy⟩ := hf
  have key : ∀ {α β : List (Node T L)}, Rewrites P α β →
      (∀ x l y, α = x ++ .production l :: y → (∀ t ∈ firsts null first y, t ∈ follow l) ∧ (van null y = true → .eos ∈ follow l)) →
      ∀ x l y, β = x ++ .production l :: y → (∀ t ∈ firsts null first y, t ∈ follow l) ∧ (van null y = true → .eos ∈ follow l) := by
    intro α β hs
    induction hs with
    | refl => exact id
    | step h1 _ ih => exact fun hi => ih (h.step h1 hi)
  obtain ⟨k1, k2⟩ := key hs (by
    intro x l y e
    cases x with
    | cons a x => cases x <;> simp at e
    | nil =>
      simp only [List.nil_append, List.cons.injEq, Node.production.injEq] at e
      obtain ⟨rfl, rfl⟩ := e
      exact ⟨by simp [firsts], fun _ => h.root root h0⟩) x l y rfl
  rcases hy with ⟨rfl, hy⟩ | ⟨ht, hy⟩
  · exact k2 (h.van_of_first (first_iff.mpr hy))
  · exact k1 t (h.mem_of_first (first_iff.mpr hy) ht)

theorem Closed.mem_of_predicts (h : Closed null first follow P) {r : Rule T L} {t : AugTok T} (hp : Predicts P r t) :
    t ∈ predicted null first follow r := by
  obtain ⟨ht, hp | ⟨hp, hf⟩⟩ := hp
  · exact List.mem_append.mpr (.inl (h.mem_of_first (first_iff.mpr hp) ht))
  · refine List.mem_append.mpr (.inr ?_)
    rw [if_pos (h.van_of_first (first_iff.mpr hp))]
    exact h.mem_of_follow hf

/-- The check suffices. -/
theorem ll1_of_check (h : check null first follow P = true) : LL1 P := by
  have hc := check_closed (Bool.and_eq_true_iff.mp h).1
  intro i j r r' t hi hj hs hp hp'
  simp only [check, Bool.and_eq_true] at h
  have h3 := h.2
  rw [List.all_eq_true] at h3
  have h4 := h3 i (List.mem_range.mpr (List.getElem?_eq_some_iff.mp hi).1)
  rw [List.all_eq_true] at h4
  have h5 := h4 j (List.mem_range.mpr (List.getElem?_eq_some_iff.mp hj).1)
  rw [hi, hj] at h5
  simp only [Bool.or_eq_true, beq_iff_eq, bne_iff_ne, List.all_eq_true, Bool.not_eq_true'] at h5
  rcases h5 with (h5 | h5) | h5
  · exact h5
  · exact absurd hs h5
  · have := h5 t (hc.mem_of_predicts hp)
    rw [List.contains_iff_mem.mpr (hc.mem_of_predicts hp')] at this
    cases this

end
end Verif.LL
