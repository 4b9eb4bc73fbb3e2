import Mathlib.Data.Finset.Prod
import Mathlib.Data.Finset.Range
import Verif.Model.Outcome

/-!
# General lemmas: dictionaries numbering the elements of a list, counting
-/

namespace Verif

section Dict
variable {α : Type} [DecidableEq α]

theorem lookup_zipIdx {l : List α} (hl : l.Nodup) {x : α} {k i : Nat} :
    (l.zipIdx k).lookup x = some i ↔ k ≤ i ∧ l[i - k]? = some x := by
  induction l generalizing k with
  | nil => simp
  | cons a l ih =>
    rw [List.nodup_cons] at hl
    simp only [List.zipIdx_cons, List.lookup_cons]
    by_cases h : x = a
    · subst h
      simp only [beq_self_eq_true, Option.some.injEq]
      constructor
      · rintro rfl; simp
      · rintro ⟨h1, h2⟩
        by_cases h3 : i = k
        · exact h3.symm
        · exfalso
          rw [show i - k = (i - k - 1) + 1 by omega, List.getElem?_cons_succ] at h2
          exact hl.1 (List.mem_of_getElem? h2)
    · simp only [beq_eq_false_iff_ne.mpr h]
      rw [ih hl.2]
      constructor
      · rintro ⟨h1, h2⟩
        refine ⟨by omega, ?_⟩
        rw [show i - k = (i - (k + 1)) + 1 by omega, List.getElem?_cons_succ]; exact h2
      · rintro ⟨h1, h2⟩
        by_cases h3 : i = k
        · subst h3; simp at h2; exact absurd h2.symm h
        · refine ⟨by omega, ?_⟩
          rw [show i - k = (i - (k + 1)) + 1 by omega, List.getElem?_cons_succ] at h2; exact h2

theorem lookup_zipIdx_zero {l : List α} (hl : l.Nodup) {x : α} {i : Nat} :
    l.zipIdx.lookup x = some i ↔ l[i]? = some x := by
  rw [lookup_zipIdx hl]; simp

theorem lookup_zipIdx_none {l : List α} {x : α} {k : Nat} :
    (l.zipIdx k).lookup x = none ↔ x ∉ l := by
  induction l generalizing k with
  | nil => simp
  | cons a l ih =>
    simp only [List.zipIdx_cons, List.lookup_cons, List.mem_cons, not_or]
    by_cases h : x = a
    · simp [h]
    · simp only [beq_eq_false_iff_ne.mpr h]
      simp [h, ih]

omit [DecidableEq α] in
theorem zipIdx_snoc (l : List α) (x : α) : (l ++ [x]).zipIdx = l.zipIdx ++ [(x, l.length)] := by
  simp [List.zipIdx_append]

omit [DecidableEq α] in
theorem getElem?_inj_of_nodup {l : List α} (hl : l.Nodup) {i j : Nat} {x : α}
    (hi : l[i]? = some x) (hj : l[j]? = some x) : i = j := by
  rw [List.getElem?_eq_some_iff] at hi hj
  obtain ⟨hi, ei⟩ := hi
  obtain ⟨hj, ej⟩ := hj
  exact (List.Nodup.getElem_inj_iff hl).mp (ei.trans ej.symm)

end Dict

/-- Number of pairs below `N` and `M` satisfying a predicate. -/
def countPairs (N M : Nat) (f : Nat → Nat → Bool) : Nat :=
  ((Finset.range N ×ˢ Finset.range M).filter fun p => f p.1 p.2 = true).card

theorem countPairs_le (N M : Nat) (f : Nat → Nat → Bool) : countPairs N M f ≤ N * M := by
  unfold countPairs
  refine (Finset.card_filter_le _ _).trans ?_
  rw [Finset.card_product, Finset.card_range, Finset.card_range]

theorem countPairs_mono {N M : Nat} {f g : Nat → Nat → Bool}
    (h : ∀ i j, f i j = true → g i j = true) : countPairs N M f ≤ countPairs N M g := by
  unfold countPairs
  apply Finset.card_le_card
  intro p hp
  rw [Finset.mem_filter] at hp ⊢
  exact ⟨hp.1, h _ _ hp.2⟩

theorem countPairs_lt {N M : Nat} {f g : Nat → Nat → Bool}
    (h : ∀ i j, f i j = true → g i j = true) {i j : Nat} (hi : i < N) (hj : j < M)
    (hf : f i j = false) (hg : g i j = true) : countPairs N M f < countPairs N M g := by
  unfold countPairs
  apply Finset.card_lt_card
  rw [Finset.ssubset_iff_of_subset]
  · refine ⟨(i, j), ?_, ?_⟩
    · simp [hi, hj, hg]
    · simp [hf]
  · intro p hp
    rw [Finset.mem_filter] at hp ⊢
    exact ⟨hp.1, h _ _ hp.2⟩

/-- Number of numbers below `N` satisfying a predicate. -/
def countBelow (N : Nat) (f : Nat → Bool) : Nat := ((Finset.range N).filter fun i => f i = true).card

theorem countBelow_le (N : Nat) (f : Nat → Bool) : countBelow N f ≤ N := by
  unfold countBelow
  refine (Finset.card_filter_le _ _).trans ?_
  rw [Finset.card_range]

theorem countBelow_insert {N : Nat} {f g : Nat → Bool} {b : Nat} (hb : b < N) (hf : f b = false)
    (hg : ∀ c, g c = (f c || c == b)) : countBelow N g = countBelow N f + 1 := by
  unfold countBelow
  have : (Finset.range N).filter (fun i => g i = true)
      = insert b ((Finset.range N).filter fun i => f i = true) := by
    ext c
    simp only [Finset.mem_filter, Finset.mem_range, Finset.mem_insert, hg, Bool.or_eq_true,
      beq_iff_eq]
    constructor
    · rintro ⟨h1, h2 | h2⟩
      · exact .inr ⟨h1, h2⟩
      · exact .inl h2
    · rintro (h | h)
      · subst h; exact ⟨hb, .inr rfl⟩
      · exact ⟨h.1, .inl h.2⟩
  rw [this, Finset.card_insert_of_notMem]
  simp [hf]

theorem length_le_of_nodup_lt {l : List Nat} {n : Nat} (hl : l.Nodup) (h : ∀ x ∈ l, x < n) :
    l.length ≤ n := by
  rw [← List.toFinset_card_of_nodup hl]
  refine (Finset.card_le_card (t := Finset.range n) fun x hx => ?_).trans_eq (Finset.card_range n)
  rw [Finset.mem_range]
  exact h x (List.mem_toFinset.mp hx)

end Verif
