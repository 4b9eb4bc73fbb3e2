import Verif.Model.BitSet

/-!
# Lemmas about the bit set model
-/

namespace Verif
namespace BitSet
variable {ε : Type}

/-- Membership in the set of numbers a bit set stands for. -/
def mem (s : BitSet) (b : Nat) : Bool := (s.bits.getD (b / 64) 0#64).getLsbD (b % 64)

/-- Representation invariant: the right number of words, no bit at or above `len`. -/
structure WF (s : BitSet) : Prop where
  length : s.bits.length = (s.len + 63) / 64
  bound : ∀ b, s.mem b = true → b < s.len

theorem pos_eq (b : Nat) : pos b = (b / 64, b % 64) := by
  simp only [pos, Prod.mk.injEq, true_and]
  exact Nat.mod_mod_of_dvd b (by decide)

theorem getLsbD_one_shiftLeft (k i : Nat) (hk : k < 64) :
    (1#64 <<< k).getLsbD i = decide (i = k) := by
  simp [BitVec.getLsbD_shiftLeft]
  by_cases h : i = k
  · subst h; simp [hk]
  · simp [h]; omega

theorem and_shift_ne_zero (w : BitVec 64) (k : Nat) (hk : k < 64) :
    ((w &&& (1#64 <<< k)) != 0#64) = w.getLsbD k := by
  cases hw : w.getLsbD k
  · have : w &&& (1#64 <<< k) = 0#64 := by
      apply BitVec.eq_of_getLsbD_eq
      intro i hi
      rw [BitVec.getLsbD_and, getLsbD_one_shiftLeft _ _ hk]
      by_cases h : i = k
      · subst h; simp [hw]
      · simp [h]
    simp [this]
  · have : w &&& (1#64 <<< k) ≠ 0#64 := by
      intro h
      have := congrArg (fun v => v.getLsbD k) h
      simp [getLsbD_one_shiftLeft _ _ hk, hw] at this
    simp [this]

theorem WF.div_lt {s : BitSet} (h : s.WF) {b : Nat} (hb : b < s.len) :
    b / 64 < s.bits.length := by
  rw [h.length]; omega

theorem has_eq {s : BitSet} (h : s.WF) {b : Nat} (hb : b < s.len) :
    (s.has b : Outcome ε Bool) = .ok (s.mem b) := by
  have hi := h.div_lt hb
  simp only [has, hb, decide_true, Outcome.assert_true, Outcome.ok_bind, pos_eq,
    Outcome.index_of_lt hi, Outcome.pure_eq]
  rw [and_shift_ne_zero _ _ (Nat.mod_lt _ (by decide)), mem, List.getD_eq_getElem?_getD,
    List.getElem?_eq_getElem hi]
  rfl

theorem mem_ext_word {s t : BitSet} (hlen : s.bits.length = t.bits.length)
    (h : ∀ b, s.mem b = t.mem b) : s.bits = t.bits := by
  apply List.ext_getElem hlen
  intro i h1 h2
  apply BitVec.eq_of_getLsbD_eq
  intro j hj
  have := h (i * 64 + j)
  unfold mem at this
  rw [show (i * 64 + j) / 64 = i by omega, show (i * 64 + j) % 64 = j by omega] at this
  simpa [List.getD_eq_getElem?_getD, h1, h2] using this

/-- Two well-formed bit sets with the same length and the same members are equal. -/
theorem ext {s t : BitSet} (hs : s.WF) (ht : t.WF) (hlen : s.len = t.len)
    (h : ∀ b, s.mem b = t.mem b) : s = t := by
  have hb := mem_ext_word (s := s) (t := t) (by rw [hs.length, ht.length, hlen]) h
  cases s; cases t; simp_all

theorem mem_new (n b : Nat) : (new n).mem b = false := by
  unfold mem new
  rw [List.getD_eq_getElem?_getD, List.getElem?_replicate]
  split <;> simp

theorem new_WF (n : Nat) : (new n).WF :=
  ⟨by simp [new], by intro b h; simp [mem_new] at h⟩

@[simp] theorem new_len (n : Nat) : (new n).len = n := rfl

/-- Membership after replacing one word. -/
theorem mem_set_word (bits : List (BitVec 64)) (len i b : Nat) (w : BitVec 64)
    (hi : i < bits.length) :
    (BitSet.mem ⟨bits.set i w, len⟩ b) =
      if b / 64 = i then w.getLsbD (b % 64) else BitSet.mem ⟨bits, len⟩ b := by
  unfold mem
  simp only [List.getD_eq_getElem?_getD]
  by_cases h : b / 64 = i
  · subst h; simp [hi]
  · rw [List.getElem?_set_ne (Ne.symm h)]; simp [h]

theorem set_eq {s : BitSet} (h : s.WF) {b : Nat} (hb : b < s.len) :
    ∃ s', (s.set b : Outcome ε BitSet) = .ok s' ∧ s'.WF ∧ s'.len = s.len ∧
      ∀ c, s'.mem c = (s.mem c || c == b) := by
  have hi := h.div_lt hb
  let s' : BitSet :=
    { s with bits := s.bits.set (b / 64) (s.bits[b / 64] ||| (1#64 <<< (b % 64))) }
  have hmem : ∀ c, s'.mem c = (s.mem c || c == b) := by
    intro c
    show BitSet.mem ⟨_, s.len⟩ c = _
    rw [mem_set_word _ _ _ _ _ hi]
    split
    · rename_i hc
      rw [BitVec.getLsbD_or, getLsbD_one_shiftLeft _ _ (Nat.mod_lt _ (by decide))]
      have : (c == b) = decide (c % 64 = b % 64) := by
        rw [Bool.eq_iff_iff]; simp only [beq_iff_eq, decide_eq_true_eq]; omega
      rw [this]
      congr 1
      rw [mem, List.getD_eq_getElem?_getD, hc, List.getElem?_eq_getElem hi]
      rfl
    · rename_i hc
      have : (c == b) = false := by
        rw [beq_eq_false_iff_ne]; intro h; subst h; exact hc rfl
      rw [this, Bool.or_false]
  refine ⟨s', ?_, ⟨?_, ?_⟩, rfl, hmem⟩
  · simp only [set, hb, decide_true, Outcome.assert_true, Outcome.ok_bind, pos_eq,
      Outcome.index_of_lt hi, Outcome.pure_eq]
    rfl
  · simpa [s'] using h.length
  · intro c hc
    rw [hmem] at hc
    simp only [Bool.or_eq_true, beq_iff_eq] at hc
    rcases hc with hc | hc
    · exact h.bound c hc
    · subst hc; exact hb

theorem clear_eq {s : BitSet} (h : s.WF) {b : Nat} (hb : b < s.len) :
    ∃ s', (s.clear b : Outcome ε BitSet) = .ok s' ∧ s'.WF ∧ s'.len = s.len ∧
      ∀ c, s'.mem c = (s.mem c && c != b) := by
  have hi := h.div_lt hb
  let s' : BitSet :=
    { s with bits := s.bits.set (b / 64) (s.bits[b / 64] &&& ~~~(1#64 <<< (b % 64))) }
  have hmem : ∀ c, s'.mem c = (s.mem c && c != b) := by
    intro c
    show BitSet.mem ⟨_, s.len⟩ c = _
    rw [mem_set_word _ _ _ _ _ hi]
    have hlt : c % 64 < 64 := Nat.mod_lt _ (by decide)
    split
    · rename_i hc
      rw [BitVec.getLsbD_and, BitVec.getLsbD_not,
        getLsbD_one_shiftLeft _ _ (Nat.mod_lt _ (by decide))]
      have : (c != b) = !decide (c % 64 = b % 64) := by
        rw [Bool.eq_iff_iff]
        simp only [bne_iff_ne, Bool.not_eq_true', decide_eq_false_iff_not]; omega
      rw [this]
      simp only [hlt, decide_true, Bool.true_and]
      congr 1
      rw [mem, List.getD_eq_getElem?_getD, hc, List.getElem?_eq_getElem hi]
      rfl
    · rename_i hc
      have : (c != b) = true := by
        rw [bne_iff_ne]; intro h; subst h; exact hc rfl
      rw [this, Bool.and_true]
  refine ⟨s', ?_, ⟨?_, ?_⟩, rfl, hmem⟩
  · simp only [clear, hb, decide_true, Outcome.assert_true, Outcome.ok_bind, pos_eq,
      Outcome.index_of_lt hi, Outcome.pure_eq]
    rfl
  · simpa [s'] using h.length
  · intro c hc
    rw [hmem] at hc
    simp only [Bool.and_eq_true] at hc
    exact h.bound c hc.1

theorem mergeWords_length (a b : List (BitVec 64)) :
    (mergeWords a b).1.length = a.length := by
  induction a generalizing b with
  | nil => cases b <;> rfl
  | cons x xs ih =>
    cases b with
    | nil => rfl
    | cons y ys => simp [mergeWords, ih]

theorem mergeWords_getD (a b : List (BitVec 64)) (hl : a.length = b.length) (i : Nat) :
    (mergeWords a b).1.getD i 0#64 = a.getD i 0#64 ||| b.getD i 0#64 := by
  induction a generalizing b i with
  | nil =>
    cases b with
    | nil => simp [mergeWords]
    | cons => simp at hl
  | cons x xs ih =>
    cases b with
    | nil => simp at hl
    | cons y ys =>
      cases i with
      | zero => simp [mergeWords]
      | succ i =>
        have := ih ys (by simpa using hl) i
        simpa [mergeWords] using this

theorem mergeWords_modified (a b : List (BitVec 64)) :
    (mergeWords a b).2 = true ↔ (mergeWords a b).1 ≠ a := by
  induction a generalizing b with
  | nil => cases b <;> simp [mergeWords]
  | cons x xs ih =>
    cases b with
    | nil => simp [mergeWords]
    | cons y ys =>
      have := ih ys
      simp only [mergeWords, Bool.or_eq_true, bne_iff_ne, ne_eq, List.cons.injEq, not_and]
      rw [this]
      constructor
      · rintro (h | h) h'
        · exact absurd h' h
        · exact h
      · intro h
        by_cases hx : x ||| y = x
        · exact Or.inr (h hx)
        · exact Or.inl hx

theorem merge_len (s o : BitSet) : (s.merge o).1.len = s.len := rfl

theorem mem_merge {s o : BitSet} (hl : s.bits.length = o.bits.length) (b : Nat) :
    (s.merge o).1.mem b = (s.mem b || o.mem b) := by
  unfold mem merge
  simp only
  rw [mergeWords_getD _ _ hl, BitVec.getLsbD_or]

theorem merge_WF {s o : BitSet} (hs : s.WF) (ho : o.WF) (hl : s.len = o.len) :
    (s.merge o).1.WF := by
  have hb : s.bits.length = o.bits.length := by rw [hs.length, ho.length, hl]
  refine ⟨?_, ?_⟩
  · show (mergeWords s.bits o.bits).1.length = _
    rw [mergeWords_length]; exact hs.length
  · intro b h
    rw [mem_merge hb] at h
    rw [merge_len]
    simp only [Bool.or_eq_true] at h
    rcases h with h | h
    · exact hs.bound b h
    · rw [hl]; exact ho.bound b h

theorem merge_modified {s o : BitSet} : (s.merge o).2 = true ↔ (s.merge o).1 ≠ s := by
  unfold merge
  simp only
  rw [mergeWords_modified]
  cases s; simp

/-- `merge` reports a change exactly when a new member appeared. -/
theorem merge_modified_iff {s o : BitSet} (hs : s.WF) (ho : o.WF) (hl : s.len = o.len) :
    (s.merge o).2 = true ↔ ∃ b, o.mem b = true ∧ s.mem b = false := by
  have hb : s.bits.length = o.bits.length := by rw [hs.length, ho.length, hl]
  rw [merge_modified]
  constructor
  · intro h
    apply Classical.byContradiction
    intro hne
    apply h
    apply ext (merge_WF hs ho hl) hs rfl
    intro b
    rw [mem_merge hb]
    cases h1 : s.mem b <;> cases h2 : o.mem b <;> simp_all
  · rintro ⟨b, h1, h2⟩ h
    have := mem_merge hb b
    rw [h, h1, h2] at this
    simp at this

theorem mem_iterOnes (w : BitVec 64) (i : Nat) : i ∈ iterOnes w ↔ w.getLsbD i = true := by
  unfold iterOnes
  simp only [List.mem_filter, List.mem_range]
  constructor
  · exact fun h => h.2
  · intro h; exact ⟨BitVec.lt_of_getLsbD h, h⟩

theorem forEachFrom_eq (k : Nat) (ws : List (BitVec 64)) :
    forEachFrom k ws =
      (List.range' (k * 64) (ws.length * 64)).filter
        fun b => (ws.getD (b / 64 - k) 0#64).getLsbD (b % 64) := by
  induction ws generalizing k with
  | nil => simp [forEachFrom]
  | cons w ws ih =>
    rw [forEachFrom, ih (k + 1)]
    rw [List.length_cons, show (ws.length + 1) * 64 = 64 + ws.length * 64 by omega,
      ← List.range'_append_1, List.filter_append]
    congr 1
    · rw [iterOnes, List.range'_eq_map_range, List.filter_map]
      congr 1
      apply List.filter_congr
      intro i hi
      simp only [List.mem_range] at hi
      simp only [Function.comp]
      rw [show (k * 64 + i) / 64 - k = 0 by omega, show (k * 64 + i) % 64 = i by omega]
      simp
    · rw [show (k + 1) * 64 = k * 64 + 64 by omega]
      apply List.filter_congr
      intro i hi
      rw [List.mem_range'_1] at hi
      rw [show i / 64 - k = (i / 64 - (k + 1)) + 1 by omega]
      simp

/-- `for_each` enumerates the members in ascending order. -/
theorem forEach_eq {s : BitSet} (h : s.WF) :
    s.forEach = (List.range s.len).filter fun b => s.mem b := by
  unfold forEach
  rw [forEachFrom_eq]
  simp only [Nat.zero_mul, Nat.sub_zero, ← List.range_eq_range']
  have hle : s.len ≤ s.bits.length * 64 := by rw [h.length]; omega
  obtain ⟨d, hd⟩ := Nat.exists_eq_add_of_le hle
  rw [hd, List.range_add, List.filter_append]
  have : List.filter (fun b => (s.bits.getD (b / 64) 0#64).getLsbD (b % 64))
      (List.map (fun x => s.len + x) (List.range d)) = [] := by
    rw [List.filter_eq_nil_iff]
    intro a ha
    simp only [List.mem_map, List.mem_range] at ha
    obtain ⟨x, _, rfl⟩ := ha
    intro hc
    have := h.bound _ hc
    omega
  rw [this, List.append_nil]
  rfl

theorem mem_forEach {s : BitSet} (h : s.WF) (b : Nat) : b ∈ s.forEach ↔ s.mem b = true := by
  rw [forEach_eq h]
  simp only [List.mem_filter, List.mem_range]
  exact ⟨fun x => x.2, fun x => ⟨h.bound b x, x⟩⟩

theorem eq_allOnes_iff (w : BitVec 64) :
    (w == BitVec.allOnes 64) = true ↔ ∀ i, i < 64 → w.getLsbD i = true := by
  rw [beq_iff_eq]
  constructor
  · rintro rfl i hi
    rw [BitVec.getLsbD_allOnes]; simp [hi]
  · intro h; apply BitVec.eq_of_getLsbD_eq; intro i hi
    rw [BitVec.getLsbD_allOnes, h i hi]; simp [hi]

theorem getLsbD_mask (k i : Nat) (hk : k < 64) (hi : i < 64) :
    ((1#64 <<< k) - 1#64).getLsbD i = decide (i < k) := by
  have e : (1#64 <<< k) - 1#64 = BitVec.ofNat 64 (2 ^ k - 1) := by
    apply BitVec.eq_of_toNat_eq
    have h2 : 2 ^ k < 2 ^ 64 := Nat.pow_lt_pow_right (by decide) hk
    have h1 : 1 ≤ 2 ^ k := Nat.one_le_two_pow
    simp only [BitVec.toNat_sub, BitVec.toNat_shiftLeft, BitVec.toNat_ofNat]
    rw [show (1 % 2 ^ 64) = 1 by decide, Nat.shiftLeft_eq, Nat.one_mul, Nat.mod_eq_of_lt h2]
    rw [Nat.mod_eq_of_lt (show 2 ^ k - 1 < 2 ^ 64 by omega)]
    rw [show 2 ^ 64 - 1 + 2 ^ k = 2 ^ 64 + (2 ^ k - 1) by omega]
    rw [Nat.add_mod_left, Nat.mod_eq_of_lt (by omega)]
  rw [e, BitVec.getLsbD_ofNat, Nat.testBit_two_pow_sub_one]
  simp [hi]

theorem eq_mask_iff (w : BitVec 64) (k : Nat) (hk : k < 64)
    (hw : ∀ i, w.getLsbD i = true → i < k) :
    (w == (1#64 <<< k) - 1#64) = true ↔ ∀ i, i < k → w.getLsbD i = true := by
  rw [beq_iff_eq]
  constructor
  · intro e i hi
    rw [e, getLsbD_mask _ _ hk (by omega)]; simp [hi]
  · intro h
    apply BitVec.eq_of_getLsbD_eq
    intro i hi
    rw [getLsbD_mask _ _ hk hi]
    by_cases hik : i < k
    · simp [hik, h i hik]
    · have : w.getLsbD i = false := by
        cases hh : w.getLsbD i
        · rfl
        · exact absurd (hw i hh) hik
      simp [hik, this]

/-- `full` is true exactly when every number below the length is a member. -/
theorem full_eq {s : BitSet} (h : s.WF) :
    ∃ r, (s.full : Outcome ε Bool) = .ok r ∧ (r = true ↔ ∀ b, b < s.len → s.mem b = true) := by
  by_cases h64 : s.len % 64 = 0
  · refine ⟨_, by simp only [full, h64, if_true]; rfl, ?_⟩
    have hl : s.bits.length * 64 = s.len := by rw [h.length]; omega
    rw [List.all_eq_true]
    constructor
    · intro hall b hb
      have hi := h.div_lt hb
      have := hall _ (List.getElem_mem hi)
      rw [eq_allOnes_iff] at this
      rw [mem, List.getD_eq_getElem?_getD, List.getElem?_eq_getElem hi]
      exact this _ (Nat.mod_lt _ (by decide))
    · intro hall w hw
      rw [eq_allOnes_iff]
      obtain ⟨i, hi, rfl⟩ := List.mem_iff_getElem.mp hw
      intro j hj
      have := hall (i * 64 + j) (by omega)
      rw [mem, show (i * 64 + j) / 64 = i by omega, show (i * 64 + j) % 64 = j by omega,
        List.getD_eq_getElem?_getD, List.getElem?_eq_getElem hi] at this
      exact this
  · have hpos : 0 < s.bits.length := by rw [h.length]; omega
    have hne : s.bits ≠ [] := List.ne_nil_of_length_pos hpos
    have hlast : s.bits.getLast? = some (s.bits.getLast hne) := List.getLast?_eq_some_getLast hne
    refine ⟨_, by simp only [full, h64, if_false, hlast]; rfl, ?_⟩
    rw [show (s.len % 2 ^ 32) % 64 = s.len % 64 from Nat.mod_mod_of_dvd _ (by decide)]
    have hn : s.bits.length - 1 = s.len / 64 := by rw [h.length]; omega
    have hlt : s.len / 64 < s.bits.length := by omega
    have hget : s.bits.getLast hne = s.bits[s.len / 64] := by
      rw [List.getLast_eq_getElem]; simp [hn]
    have hmemlast : ∀ j, j < 64 → s.mem (s.len / 64 * 64 + j) = (s.bits[s.len / 64]).getLsbD j := by
      intro j hj
      rw [mem, show (s.len / 64 * 64 + j) / 64 = s.len / 64 by omega,
        show (s.len / 64 * 64 + j) % 64 = j by omega,
        List.getD_eq_getElem?_getD, List.getElem?_eq_getElem hlt]
      rfl
    rw [Bool.and_eq_true, hget, eq_mask_iff _ _ (Nat.mod_lt _ (by decide)), List.all_eq_true]
    · constructor
      · rintro ⟨h1, h2⟩ b hb
        have hi := h.div_lt hb
        by_cases hbl : b / 64 < s.len / 64
        · have hm : s.bits[b / 64] ∈ s.bits.dropLast := by
            rw [List.mem_iff_getElem]
            refine ⟨b / 64, by rw [List.length_dropLast]; omega, ?_⟩
            rw [List.getElem_dropLast]
          have := h1 _ hm
          rw [eq_allOnes_iff] at this
          rw [mem, List.getD_eq_getElem?_getD, List.getElem?_eq_getElem hi]
          exact this _ (Nat.mod_lt _ (by decide))
        · have := hmemlast (b % 64) (Nat.mod_lt _ (by decide))
          rw [show s.len / 64 * 64 + b % 64 = b by omega] at this
          rw [this]
          exact h2 _ (by omega)
      · intro hall
        constructor
        · intro w hw
          rw [eq_allOnes_iff]
          obtain ⟨i, hi, rfl⟩ := List.mem_iff_getElem.mp hw
          rw [List.length_dropLast] at hi
          intro j hj
          have := hall (i * 64 + j) (by omega)
          rw [mem, show (i * 64 + j) / 64 = i by omega, show (i * 64 + j) % 64 = j by omega,
            List.getD_eq_getElem?_getD, List.getElem?_eq_getElem (by omega)] at this
          rw [List.getElem_dropLast]
          exact this
        · intro i hi
          rw [← hmemlast i (by omega)]
          exact hall _ (by omega)
    · intro i hi
      have hi64 : i < 64 := BitVec.lt_of_getLsbD hi
      rw [← hmemlast i hi64] at hi
      have := h.bound _ hi
      omega

end BitSet
end Verif
