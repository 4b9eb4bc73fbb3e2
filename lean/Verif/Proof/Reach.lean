import Verif.Proof.Entry
import Mathlib.Data.Set.Finite.List
import Mathlib.Data.Set.Card
import Mathlib.Data.Multiset.Count
import Mathlib.Algebra.BigOperators.Group.Finset.Basic
import Mathlib.Algebra.Order.BigOperators.Group.Finset

/-!
# Reachable kernels of the automaton
-/

set_option linter.unusedSectionVars false
set_option autoImplicit false

namespace Verif

section
variable {T L : Type} [DecidableEq T] [DecidableEq L] {ig : IndexedGrammar T L} {F : FirstTable}
open EntryBuilder Partition

/-- The closure items of a kernel, as computed. -/
def ItemsOf (ig : IndexedGrammar T L) (F : FirstTable) (k : Kernel) (items : List Position) : Prop :=
  (closureItems k ig F : Outcome (LRTableError T L) _) = .ok items

/-- A set holding end of stream only. -/
def eosOnly (vocab : Nat) : VocabSet :=
  match (VocabSet.new vocab).insert .eos with
  | (.ok s : Outcome Unit VocabSet) => s
  | _ => VocabSet.new vocab

/-- The position at the start of the root rule. -/
def rootPosition (ig : IndexedGrammar T L) : Position := ⟨0, 0, eosOnly ig.vocab.size⟩

/-- The kernel of the initial state. -/
def rootKernel (ig : IndexedGrammar T L) : Kernel := ⟨[rootPosition ig]⟩

/-- Kernels reachable from the initial one. -/
inductive Reach (ig : IndexedGrammar T L) (F : FirstTable) : Kernel → Prop
  | root : Reach ig F (rootKernel ig)
  | step {k : Kernel} {items : List Position} {n : INode} {p : Position} : Reach ig F k →
      ItemsOf ig F k items → p ∈ items → p.cat ig = some n →
      Reach ig F (nextOf ig items (some n))

theorem eos_lt (ig : IndexedGrammar T L) : Label.id (AugTok.eos : AugTokId) < ig.vocab.size := by
  show 1 < _; simp [Vocab.size]

theorem eosOnly_spec {vocab : Nat} (hv : Label.id (AugTok.eos : AugTokId) < vocab) :
    (eosOnly vocab).WF vocab ∧ (∀ t, (eosOnly vocab).mem t = true ↔ t = .eos) ∧
      ∀ ε : Type, ((VocabSet.new vocab).insert .eos : Outcome ε VocabSet) = .ok (eosOnly vocab) := by
  obtain ⟨s, e, hs, hm⟩ := (VocabSet.new_WF vocab).insert_eq (ε := Unit) hv
  have : eosOnly vocab = s := by unfold eosOnly; rw [e]
  refine ⟨this ▸ hs, fun t => ?_, fun ε => ?_⟩
  · rw [this, hm]; simp
  · obtain ⟨s', e', hs', hm'⟩ := (VocabSet.new_WF vocab).insert_eq (ε := ε) hv
    rw [e', this]
    congr 1
    exact VocabSet.ext hs' hs fun t => by rw [hm', hm]

theorem rules_pos (hw : ig.WF) : 0 < ig.rules.length := by
  have hp : 0 < ig.ruleMetadata.length := hw.pos
  obtain ⟨h1, h2, -⟩ := hw.range 0 _ (List.getElem?_eq_getElem hp)
  omega

theorem rootPosition_OK (hw : ig.WF) : (rootPosition ig).OK ig := by
  obtain ⟨h1, h2, -⟩ := eosOnly_spec (eos_lt ig)
  refine ⟨rules_pos hw, by simp [rootPosition], h1, ?_⟩
  cases he : (rootPosition ig).followSet.mem .epsilon with
  | false => rfl
  | true => exact absurd ((h2 _).mp he) (by simp)

theorem itemsOf_spec (hw : ig.WF) (hF : F.WF ig.labelsCount ig.vocab.size) {k : Kernel}
    (hk : ∀ p ∈ k.positions, p.OK ig) {items : List Position} (h : ItemsOf ig F k items) :
    Items ig F k.positions items := by
  obtain ⟨items', e, hi⟩ := closureItems_spec (ε := LRTableError T L) hw hF k hk
  unfold ItemsOf at h
  rw [e] at h
  simp only [Outcome.ok.injEq] at h
  exact h ▸ hi

theorem adv_OK {p : Position} (hp : p.OK ig) (hc : p.cat ig ≠ none) : (adv p).OK ig :=
  (hp.advance_eq (ε := Unit) hc).2

theorem mem_nextOf {items : List Position} {c : Category} {q : Position} :
    q ∈ (nextOf ig items c).positions ↔ ∃ p ∈ items, p.cat ig = c ∧ adv p = q := by
  unfold nextOf next
  rw [Kernel.mem_new, List.mem_map]
  simp only [List.mem_filter, beq_iff_eq, and_assoc]

theorem Reach.ok (hw : ig.WF) (hF : F.WF ig.labelsCount ig.vocab.size) {k : Kernel}
    (h : Reach ig F k) : ∀ p ∈ k.positions, p.OK ig := by
  induction h with
  | root =>
    intro p hp
    simp only [rootKernel, List.mem_singleton] at hp
    subst hp
    exact rootPosition_OK hw
  | step _ hi hp hc ih =>
    intro q hq
    obtain ⟨p, hp, hc, rfl⟩ := mem_nextOf.mp hq
    exact adv_OK ((itemsOf_spec hw hF ih hi).ok p hp) (by rw [hc]; simp)

theorem Reach.items (hw : ig.WF) (hF : F.WF ig.labelsCount ig.vocab.size) {k : Kernel}
    (h : Reach ig F k) {items : List Position} (hi : ItemsOf ig F k items) :
    Items ig F k.positions items := itemsOf_spec hw hF (h.ok hw hF) hi

/-- Only the initial kernel has dots at the start. -/
theorem Reach.pos {k : Kernel} (h : Reach ig F k) :
    k = rootKernel ig ∨ ∀ p ∈ k.positions, 0 < p.position := by
  cases h with
  | root => exact .inl rfl
  | step _ _ _ _ =>
    right
    intro q hq
    obtain ⟨p, -, -, rfl⟩ := mem_nextOf.mp hq
    exact Nat.succ_pos _

/-- Successor kernels are never the initial one. -/
theorem nextOf_ne_root {items : List Position} {c : Category} {p : Position} (hp : p ∈ items)
    (hc : p.cat ig = c) : nextOf ig items c ≠ rootKernel ig := by
  intro h
  have : adv p ∈ (nextOf ig items c).positions := mem_nextOf.mpr ⟨p, hp, hc, rfl⟩
  rw [h] at this
  simp only [rootKernel, List.mem_singleton] at this
  have := congrArg Position.position this
  simp [adv, rootPosition] at this

/-- How often a (rule, dot) pair occurs. -/
def keyCount (l : List Position) (x : Nat × Nat) : Nat := l.countP fun p => p.key == x

theorem keyCount_next (items : List Position) (c : Category) (x : Nat × Nat) :
    keyCount (nextOf ig items c).positions x ≤
      if x.2 = 0 then 0 else keyCount items (x.1, x.2 - 1) := by
  unfold keyCount nextOf next Kernel.new
  rw [(Kernel.sortPositions_perm _).countP_eq, List.countP_map]
  split
  · rename_i h0
    rw [Nat.le_zero, List.countP_eq_zero]
    intro p _ hk
    simp only [Function.comp, adv, Position.key, beq_iff_eq] at hk
    subst hk
    simp at h0
  · rename_i h0
    refine (List.Sublist.countP_le List.filter_sublist).trans (List.countP_mono_left ?_)
    intro p _ hk
    simp only [Function.comp, adv, Position.key, beq_iff_eq] at hk ⊢
    subst hk
    simp

theorem keyCount_of_nodup {l : List Position} (h : (l.map Position.key).Nodup) (x : Nat × Nat) :
    keyCount l x ≤ 1 := by
  induction l with
  | nil => simp [keyCount]
  | cons p l ih =>
    rw [List.map_cons, List.nodup_cons] at h
    unfold keyCount at *
    rw [List.countP_cons]
    by_cases hk : p.key = x
    · have h0 : l.countP (fun p => p.key == x) = 0 := by
        rw [List.countP_eq_zero]
        intro q hq hqk
        simp only [beq_iff_eq] at hqk
        exact h.1 (List.mem_map.mpr ⟨q, hq, by rw [hqk, hk]⟩)
      simp [h0, hk]
    · have := ih h.2
      simp [hk]; exact this

/-- In a closure every (rule, dot) pair occurs at most twice; twice only if the root occurs again. -/
theorem items_keyCount {K items : List Position} (hi : Items ig F K items) {b : Nat}
    (hK : ∀ x, keyCount K x ≤ b) (hb : 1 ≤ b)
    (h0 : K = [rootPosition ig] ∨ ∀ p ∈ K, 0 < p.position) (x : Nat × Nat) :
    keyCount items x ≤ if K = [rootPosition ig] then 2 else b := by
  obtain ⟨ps, rfl, hnd, hp0⟩ := hi.added
  have h1 := keyCount_of_nodup hnd x
  have hsplit : keyCount (K ++ ps) x = keyCount K x + keyCount ps x := by
    simp [keyCount, List.countP_append]
  rw [hsplit]
  split
  · rename_i hK0
    have : keyCount K x ≤ 1 := by
      rw [hK0]; exact keyCount_of_nodup (by simp) x
    omega
  · rename_i hne
    rcases h0 with h0 | h0
    · exact absurd h0 hne
    · by_cases hx : x.2 = 0
      · have : keyCount K x = 0 := by
          unfold keyCount
          rw [List.countP_eq_zero]
          intro p hp hk
          simp only [Position.key, beq_iff_eq] at hk
          subst hk
          have := h0 p hp
          simp at hx
          omega
        omega
      · have : keyCount ps x = 0 := by
          unfold keyCount
          rw [List.countP_eq_zero]
          intro p hp hk
          simp only [Position.key, beq_iff_eq] at hk
          subst hk
          exact hx (hp0 p hp).1
        have := hK x
        omega

theorem Reach.keyCount (hw : ig.WF) (hF : F.WF ig.labelsCount ig.vocab.size) {k : Kernel}
    (h : Reach ig F k) (x : Nat × Nat) : keyCount k.positions x ≤ 2 := by
  induction h generalizing x with
  | root =>
    have : Verif.keyCount (rootKernel ig).positions x ≤ 1 := keyCount_of_nodup (by simp [rootKernel]) x
    omega
  | @step k items n p hr hi hp hc ih =>
    refine (keyCount_next items (some n) x).trans ?_
    split
    · omega
    · have hk0 : k.positions = [rootPosition ig] ∨ ∀ p ∈ k.positions, 0 < p.position := by
        rcases hr.pos with h | h
        · exact .inl (by rw [h]; rfl)
        · exact .inr h
      refine (items_keyCount (b := 2) (hr.items hw hF hi) ih (by omega) hk0 _).trans ?_
      split <;> omega

/-! ### Finitely many kernels -/

/-- Longest rule. -/
def maxLen (ig : IndexedGrammar T L) : Nat := (ig.rules.map fun r => r.nodes.length).foldr max 0

theorem le_maxLen {r : IRule} (h : r ∈ ig.rules) : r.nodes.length ≤ maxLen ig := by
  unfold maxLen
  generalize ig.rules = rs at h
  induction rs with
  | nil => cases h
  | cons a l ih =>
    simp only [List.map_cons, List.foldr_cons]
    rcases List.mem_cons.mp h with rfl | h
    · exact le_max_left _ _
    · exact (ih h).trans (le_max_right _ _)

theorem vocabSets_finite (n : Nat) : {s : VocabSet | s.WF n}.Finite := by
  refine Set.Finite.of_injOn (f := fun s => (Finset.range n).filter fun i => s.mem (AugTok.ofId i) = true)
    (t := ((Finset.range n).powerset : Set (Finset Nat))) ?_ ?_ (Finset.finite_toSet _)
  · intro s _
    simp only [Finset.coe_powerset, Set.mem_preimage, Set.mem_powerset_iff, Finset.coe_subset]
    exact Finset.filter_subset _ _
  · intro s hs s' hs' he
    refine VocabSet.ext hs hs' fun t => ?_
    by_cases ht : Label.id t < n
    · have := congrArg (fun S => Label.id t ∈ S) he
      simp only [Finset.mem_filter, Finset.mem_range, AugTok.ofId_id, eq_iff_iff, ht, true_and] at this
      exact Bool.eq_iff_iff.mpr this
    · have h1 : s.mem t = false := by
        cases h : s.mem t with
        | false => rfl
        | true => exact absurd (hs.lt h) ht
      have h2 : s'.mem t = false := by
        cases h : s'.mem t with
        | false => rfl
        | true => exact absurd (hs'.lt h) ht
      rw [h1, h2]

theorem positions_finite (ig : IndexedGrammar T L) : {p : Position | p.OK ig}.Finite := by
  refine Set.Finite.of_injOn (f := fun p : Position => ((p.rule, p.position), p.followSet))
    (t := ((Finset.range ig.rules.length ×ˢ Finset.range (maxLen ig + 1) : Finset _) : Set (Nat × Nat)) ×ˢ
      {s : VocabSet | s.WF ig.vocab.size}) ?_ ?_
    (Set.Finite.prod (Finset.finite_toSet _) (vocabSets_finite _))
  · intro p hp
    refine ⟨?_, hp.follow⟩
    simp only [Finset.coe_product, Set.mem_prod, Finset.mem_coe, Finset.mem_range]
    refine ⟨hp.rule, ?_⟩
    have := hp.pos
    have := le_maxLen (List.getElem_mem hp.rule)
    omega
  · intro p _ q _ he
    cases p; cases q
    simp only [Prod.mk.injEq] at he
    simp only [Position.mk.injEq]
    exact ⟨he.1.1, he.1.2, he.2⟩

theorem length_le_of_keyCount {l : List Position} (hl : ∀ p ∈ l, p.OK ig)
    (hc : ∀ x, keyCount l x ≤ 2) : l.length ≤ 2 * (ig.rules.length * (maxLen ig + 1)) := by
  have h1 : ∑ x ∈ (l.map Position.key).toFinset, keyCount l x = l.length := by
    have := List.sum_toFinset_count_eq_length (l.map Position.key)
    rw [List.length_map] at this
    rw [← this]
    refine Finset.sum_congr rfl fun x _ => ?_
    unfold List.count keyCount
    rw [List.countP_map]
    refine List.countP_congr fun p _ => ?_
    simp
  have h2 : (l.map Position.key).toFinset ⊆
      Finset.range ig.rules.length ×ˢ Finset.range (maxLen ig + 1) := by
    intro x hx
    obtain ⟨p, hp, rfl⟩ := List.mem_map.mp (List.mem_toFinset.mp hx)
    have hok := hl p hp
    simp only [Finset.mem_product, Finset.mem_range]
    refine ⟨hok.rule, ?_⟩
    have := hok.pos
    have := le_maxLen (List.getElem_mem hok.rule)
    show p.position < _
    omega
  have h3 := Finset.sum_le_card_nsmul (l.map Position.key).toFinset
    (fun x => keyCount l x) 2 (fun x _ => hc x)
  have h4 := Finset.card_le_card h2
  rw [Finset.card_product, Finset.card_range, Finset.card_range] at h4
  rw [h1] at h3
  simp only [nsmul_eq_mul, Nat.cast_id] at h3
  calc l.length ≤ _ * 2 := h3
    _ ≤ _ := by rw [Nat.mul_comm]; exact Nat.mul_le_mul_left 2 h4

theorem reach_finite (hw : ig.WF) (hF : F.WF ig.labelsCount ig.vocab.size) :
    {k | Reach ig F k}.Finite := by
  have hfin := positions_finite ig
  have : Finite {p : Position // p.OK ig} := hfin
  refine Set.Finite.subset (Set.Finite.image
    (fun l : List {p : Position // p.OK ig} => (⟨l.map (·.1)⟩ : Kernel))
    (List.finite_length_le {p : Position // p.OK ig} (2 * (ig.rules.length * (maxLen ig + 1))))) ?_
  intro k hk
  have hok := Reach.ok hw hF hk
  refine ⟨k.positions.attach.map fun p => ⟨p.1, hok p.1 p.2⟩, ?_, ?_⟩
  · simp only [Set.mem_ofPred_eq, List.length_map, List.length_attach]
    exact length_le_of_keyCount hok (Reach.keyCount hw hF hk)
  · cases k
    simp [List.map_map, Function.comp_def]

/-- A bound on the number of states. -/
noncomputable def stateBound (ig : IndexedGrammar T L) (F : FirstTable) : Nat :=
  Set.ncard {k | Reach ig F k}

theorem states_le_bound (hw : ig.WF) (hF : F.WF ig.labelsCount ig.vocab.size) {states : List Kernel}
    (hnd : states.Nodup) (h : ∀ k ∈ states, Reach ig F k) : states.length ≤ stateBound ig F := by
  rw [← List.toFinset_card_of_nodup hnd, ← Set.ncard_coe_finset]
  refine Set.ncard_le_ncard ?_ (reach_finite hw hF)
  intro k hk
  exact h k (List.mem_toFinset.mp hk)

end
end Verif
