import Verif.Props.BitSet
import Verif.Props.SparseMap
import Verif.Model.DebugText

/-!
# C79: `FixedSizeSet` and `FixedSizeMap` are a set and a total map of labels
-/

set_option linter.unusedSectionVars false
set_option autoImplicit false

namespace Verif.C79

variable {ε L V σ : Type} [Label L]

/-! ### Sets -/

/-- Calls of `set`, from a new set; the first label is the last one added. -/
def addAll (capacity : Nat) : List L → Outcome ε (FixedSet L)
  | [] => pure (FixedSet.new capacity)
  | l :: ls => do (← addAll capacity ls).insert l

theorem addAll_ok {n : Nat} (ls : List L) (h : ∀ l ∈ ls, Label.id l < n) :
    ∃ s, (addAll n ls : Outcome ε _) = .ok s ∧ s.set.WF ∧ s.set.len = n ∧
      ∀ b, s.set.mem b = true ↔ ∃ l ∈ ls, Label.id l = b := by
  induction ls with
  | nil => exact ⟨_, rfl, BitSet.new_WF n, rfl, by simp [FixedSet.new, BitSet.mem_new]⟩
  | cons l ls ih =>
    obtain ⟨s, hs, hwf, hlen, hm⟩ := ih fun k hk => h k (List.mem_cons_of_mem _ hk)
    obtain ⟨s', hs', hwf', hlen', hm'⟩ := BitSet.set_eq (ε := ε) hwf (b := Label.id l)
      (hlen ▸ h l List.mem_cons_self)
    refine ⟨⟨s'⟩, by simp [addAll, hs, FixedSet.insert, hs'], hwf', hlen'.trans hlen, fun b => ?_⟩
    simp only [hm' b, Bool.or_eq_true, hm b, beq_iff_eq, List.mem_cons, exists_eq_or_imp]
    rw [or_comm, eq_comm]

/-- **C79 (sets).** After any calls of `set` with labels below the capacity: `has` tells which labels have been added,
`full` tells whether all numbers below the capacity are numbers of added labels. A label that is not below the capacity
is refused. -/
theorem set_is_finite_set (hinj : C30.Injective L) {n : Nat} (ls : List L) (h : ∀ l ∈ ls, Label.id l < n) :
    ∃ s, (addAll n ls : Outcome ε _) = .ok s ∧
      (∀ l, Label.id l < n → ∃ b, (s.has l : Outcome ε Bool) = .ok b ∧ (b = true ↔ l ∈ ls)) ∧
      (∀ l, n ≤ Label.id l → (s.has l : Outcome ε Bool) = .panic ∧ (s.insert l : Outcome ε _) = .panic) ∧
      ∃ b, (s.full : Outcome ε Bool) = .ok b ∧ (b = true ↔ ∀ i < n, ∃ l ∈ ls, Label.id l = i) := by
  obtain ⟨s, hs, hwf, hlen, hm⟩ := addAll_ok (ε := ε) ls h
  refine ⟨s, hs, fun l hl => ⟨_, BitSet.has_eq hwf (hlen ▸ hl), ?_⟩, fun l hl => ?_, ?_⟩
  · rw [hm]
    exact ⟨fun ⟨k, hk, e⟩ => hinj _ _ e ▸ hk, fun hl => ⟨l, hl, rfl⟩⟩
  · obtain ⟨h1, h2, -⟩ := C29.out_of_range_panics (ε := ε) s.set (Label.id l) (hlen ▸ hl)
    exact ⟨h1, by simp [FixedSet.insert, h2]⟩
  · obtain ⟨b, hb, hiff⟩ := BitSet.full_eq (ε := ε) hwf
    refine ⟨b, hb, hiff.trans ?_⟩
    rw [hlen]
    exact forall_congr' fun i => imp_congr Iff.rfl (hm i)

/-- The hypotheses are met: tokens in a set for three of them. -/
example : ∀ l ∈ ([.token 2, .epsilon, .token 2] : List AugTokId), Label.id l < 5 := by decide

/-! ### Maps -/

/-- Running a constructor `n` times: the values in order, and the state afterwards. -/
def runs (constructor : σ → V × σ) : Nat → σ → List V × σ
  | 0, s => ([], s)
  | n + 1, s =>
    let (vs, s') := runs constructor n s
    let (v, s'') := constructor s'
    (vs ++ [v], s'')

theorem runs_succ (c : σ → V × σ) (n : Nat) (s : σ) :
    runs c (n + 1) s = ((c s).1 :: (runs c n (c s).2).1, (runs c n (c s).2).2) := by
  induction n with
  | zero => rfl
  | succ n ih =>
    rw [runs, ih]
    rfl

theorem newWith_eq (c : σ → V × σ) (n : Nat) (s : σ) :
    (FixedMap.newWith c n s : FixedMap L V × σ) = (⟨(runs c n s).1⟩, (runs c n s).2) := by
  induction n generalizing s with
  | zero => rfl
  | succ n ih => simp only [runs_succ, FixedMap.newWith, ih]

theorem runs_length (c : σ → V × σ) (n : Nat) (s : σ) : (runs c n s).1.length = n := by
  induction n with
  | zero => rfl
  | succ n ih => simp [runs, ih]

/-- Changes through `get_mut`, the last one first. -/
def changes (m : FixedMap L V) : List (L × (V → V)) → Outcome ε (FixedMap L V)
  | [] => pure m
  | (l, f) :: cs => do (← changes m cs).modify l f

/-- Specification: what the changes make of the value `v` of `l`. -/
def after [DecidableEq L] (l : L) (v : V) : List (L × (V → V)) → V
  | [] => v
  | (k, f) :: cs => if k = l then f (after l v cs) else after l v cs

theorem changes_ok [DecidableEq L] (hinj : C30.Injective L) (m : FixedMap L V) (cs : List (L × (V → V)))
    (h : ∀ c ∈ cs, Label.id c.1 < m.map.length) :
    ∃ m', (changes m cs : Outcome ε _) = .ok m' ∧ m'.map.length = m.map.length ∧
      ∀ l : L, m'.map[Label.id l]? = (m.map[Label.id l]?).map fun v => after l v cs := by
  induction cs with
  | nil => exact ⟨m, rfl, rfl, fun l => by simp [after]⟩
  | cons c cs ih =>
    obtain ⟨k, f⟩ := c
    obtain ⟨m', hm', hlen, hget⟩ := ih fun c hc => h c (List.mem_cons_of_mem _ hc)
    have hk : Label.id k < m'.map.length := hlen ▸ h _ List.mem_cons_self
    have hv : (Outcome.index m'.map (Label.id k) : Outcome ε V) = .ok m'.map[Label.id k] :=
      Outcome.index_eq_ok.mpr (List.getElem?_eq_getElem hk)
    refine ⟨⟨m'.map.set (Label.id k) (f m'.map[Label.id k])⟩, by simp [changes, hm', FixedMap.modify, hv],
      by simp [hlen], fun l => ?_⟩
    simp only [List.getElem?_set, after]
    by_cases e : k = l
    · subst e
      have h1 := hget k
      rw [List.getElem?_eq_getElem hk] at h1
      obtain ⟨v, hv1, hv2⟩ := Option.map_eq_some_iff.mp h1.symm
      simp only [hk, hv1, ite_true, Option.map_some, hv2]
    · have : Label.id k ≠ Label.id l := fun h => e (hinj _ _ h)
      simp only [this, e, ite_false, hget l]

/-- **C79 (maps).** `new_with_constructor` calls the constructor once for each number below the capacity, in this
order. After any changes through `get_mut`, `get` returns for each label below the capacity what the changes for this
label make of its first value. Labels that are not below the capacity are refused. -/
theorem map_is_total_map [DecidableEq L] (hinj : C30.Injective L) (c : σ → V × σ) (n : Nat) (s0 : σ)
    (cs : List (L × (V → V))) (h : ∀ c ∈ cs, Label.id c.1 < n) :
    ∃ (m m' : FixedMap L V) (s1 : σ), FixedMap.newWith c n s0 = (m, s1) ∧ s1 = (runs c n s0).2 ∧
      (changes m cs : Outcome ε _) = .ok m' ∧
      (∀ l, Label.id l < n → ∃ v, (runs c n s0).1[Label.id l]? = some v ∧ (m.get l : Outcome ε V) = .ok v ∧
        (m'.get l : Outcome ε V) = .ok (after l v cs)) ∧
      ∀ l f, n ≤ Label.id l → (m'.get l : Outcome ε V) = .panic ∧ (m'.modify l f : Outcome ε _) = .panic := by
  have hlen := runs_length c n s0
  obtain ⟨m', hm', hlen', hget⟩ := changes_ok (ε := ε) hinj (⟨(runs c n s0).1⟩ : FixedMap L V) cs
    (by simpa [hlen] using h)
  refine ⟨_, m', _, newWith_eq c n s0, rfl, hm', fun l hl => ?_, fun l f hl => ?_⟩
  · have hl' : Label.id l < (runs c n s0).1.length := by omega
    refine ⟨_, List.getElem?_eq_getElem hl', Outcome.index_eq_ok.mpr (List.getElem?_eq_getElem hl'),
      Outcome.index_eq_ok.mpr ?_⟩
    rw [hget l]
    simp [List.getElem?_eq_getElem hl']
  · have : m'.map[Label.id l]? = none := by
      rw [List.getElem?_eq_none_iff, hlen', hlen]
      exact hl
    have hp : (Outcome.index m'.map (Label.id l) : Outcome ε V) = .panic := by simp [Outcome.index, this]
    exact ⟨hp, by simp [FixedMap.modify, hp]⟩

/-- The hypotheses are met: two changes of the first and one of the last entry of a map of three. -/
example : ∀ c ∈ [((0 : Nat), (· + 1)), (2, fun _ : Nat => 7), (0, (· * 2))], Label.id c.1 < 3 := by decide

/-! ### Debug -/

theorem entries_ok (m : FixedMap L V) : ∀ {is : List Nat}, (∀ i ∈ is, i < m.map.length) →
    (∀ i ∈ is, ∃ l : L, (Label.fromId i : Outcome ε L) = .ok l ∧ Label.id l = i) →
    ∃ es, (m.entries is : Outcome ε _) = .ok es ∧ es.map (fun e => Label.id e.1) = is ∧
      es.map (fun e => some e.2) = is.map (m.map[·]?)
  | [], _, _ => ⟨[], rfl, rfl, rfl⟩
  | i :: is, h1, h2 => by
    obtain ⟨es, he, h3, h4⟩ := entries_ok m (is := is) (fun j hj => h1 j (List.mem_cons_of_mem _ hj))
      (fun j hj => h2 j (List.mem_cons_of_mem _ hj))
    obtain ⟨l, hl, hid⟩ := h2 i List.mem_cons_self
    have hi := h1 i List.mem_cons_self
    have hv : (m.get l : Outcome ε V) = .ok m.map[i] := by
      rw [FixedMap.get, hid]
      exact Outcome.index_eq_ok.mpr (List.getElem?_eq_getElem hi)
    exact ⟨(l, m.map[i]) :: es, by simp [FixedMap.entries, hl, hv, he], by simp [hid, h3],
      by simp [h4, List.getElem?_eq_getElem hi]⟩

/-- **C79 (Debug), partial.** If each number below the capacity is the number of a label that `from_id` gives back, the
map is printed without a panic: all entries, in the order of the numbers. -/
theorem debug_prints_all_partial (label : L → List Char) (value : V → List Char) (m : FixedMap L V)
    (h : ∀ i < m.map.length, ∃ l : L, (Label.fromId i : Outcome ε L) = .ok l ∧ Label.id l = i) :
    ∃ es : List (L × V), (DebugText.fixedMap label value m : Outcome ε _) =
        .ok ('[' :: (ErrorText.joinComma (es.map fun e => label e.1 ++ ':' :: ' ' :: value e.2) ++ [']'])) ∧
      es.map (fun e => Label.id e.1) = List.range m.map.length ∧ es.map (·.2) = m.map := by
  obtain ⟨es, he, h1, h2⟩ := entries_ok (ε := ε) m (is := List.range m.map.length) (by simp) (by simpa using h)
  refine ⟨es, by simp [DebugText.fixedMap, he]; rfl, h1, ?_⟩
  have h3 : (List.range m.map.length).map (m.map[·]?) = m.map.map some := by
    apply List.ext_getElem?
    intro i
    by_cases hi : i < m.map.length
    · simp [hi]
    · simp [hi]
  rw [h3] at h2
  have h4 : (es.map (·.2)).map some = m.map.map some := by
    rw [← h2]
    simp
  have h5 := congrArg (List.filterMap id) h4
  simpa [List.filterMap_map] using h5

/-- **C79.** Debug of a `SparseFixedSizeMap`, after any calls: the entries that are present, in the order in which
their labels were first used, each with its current value. -/
theorem sparse_debug_prints_all [DecidableEq L] (hinj : C30.Injective L) {cap : Nat} (ops : List (C30.Op L V))
    (h : ∀ op ∈ ops, Label.id op.key < cap) (label : L → List Char) (value : V → List Char) :
    ∃ m, (C30.exec cap ops : Outcome ε (SparseMap L V)) = .ok m ∧
      DebugText.sparseMap label value m = '[' :: (ErrorText.joinComma ((C30.keys ops).filterMap fun k =>
        (C30.value ops k).map fun v => label k ++ ':' :: ' ' :: value v) ++ [']']) := by
  obtain ⟨m, hm, -, -, hk, -, hv⟩ := C30.sparse_map_is_partial_map (ε := ε) hinj ops h
  refine ⟨m, hm, ?_⟩
  rw [DebugText.sparseMap, ← hk]
  congr 3
  have key : ∀ l : List (L × V), (∀ e ∈ l, C30.value ops e.1 = some e.2) → l.map (DebugText.entry label value) =
      (l.map (·.1)).filterMap fun k => (C30.value ops k).map fun v => label k ++ ':' :: ' ' :: value v := by
    intro l
    induction l with
    | nil => intro _; rfl
    | cons e l ih =>
      intro hl
      rw [List.map_cons, List.map_cons, List.filterMap_cons, hl e (by simp), ih fun x hx => hl x (List.mem_cons_of_mem _ hx)]
      rfl
  exact key m.iter fun e he => (hv e.1 e.2).mp he

/-- Keys 5 and 1, in this order; the value of 5 was changed later. -/
example : ((do
    let m ← C30.exec 10 [.modify 5 0 (· + 1), .tryInsert 1 7, .tryInsert 5 2]
    pure (String.ofList (DebugText.sparseMap Display.decimal Display.decimal m))) : Outcome Unit String) =
    .ok "[5: 3, 1: 7]" := by decide +kernel

/-- The hypothesis holds for token ids and for `usize`, whatever the capacity. -/
theorem debug_ids (i : Nat) : (∃ l : AugTokId, (Label.fromId i : Outcome ε AugTokId) = .ok l ∧ Label.id l = i) ∧
    ∃ l : Nat, (Label.fromId i : Outcome ε Nat) = .ok l ∧ Label.id l = i := by
  refine ⟨?_, i, rfl, rfl⟩
  match i with
  | 0 => exact ⟨.epsilon, rfl, rfl⟩
  | 1 => exact ⟨.eos, rfl, rfl⟩
  | i + 2 => exact ⟨.token i, rfl, rfl⟩

theorem fromId_u8 {i : Nat} (h : i < 255) : (Label.fromId i : Outcome ε UInt8) = .ok (UInt8.ofNat i) := by
  simp [Label.fromId, h]

theorem entries_panics (m : FixedMap UInt8 V) (hm : m.map.length = 256) : ∀ {is : List Nat}, (∀ i ∈ is, i < 256) →
    255 ∈ is → (m.entries is : Outcome ε _) = .panic
  | [], _, h => by cases h
  | i :: is, h1, h2 => by
    by_cases hi : i = 255
    · subst hi; rfl
    · have h3 : i < 255 := by have := h1 i List.mem_cons_self; omega
      have h4 : 255 ∈ is := by
        rcases List.mem_cons.mp h2 with e | h
        · exact absurd e.symm hi
        · exact h
      have hid : Label.id (UInt8.ofNat i) = i := by
        simp only [Label.id, UInt8.toNat_ofNat']
        omega
      have hlt : i < m.map.length := by omega
      have hv : (m.get (UInt8.ofNat i) : Outcome ε V) = .ok m.map[i] := by
        rw [FixedMap.get, hid]
        exact Outcome.index_eq_ok.mpr (List.getElem?_eq_getElem hlt)
      rw [FixedMap.entries, fromId_u8 h3, Outcome.ok_bind, hv, Outcome.ok_bind,
        entries_panics m hm (fun j hj => h1 j (List.mem_cons_of_mem _ hj)) h4]
      rfl

/-- **C79 is false: Debug.** A map with an entry for each byte cannot be printed in a debug build (`from_id` refuses
255), although all its entries can be read. -/
theorem debug_refuted : ∃ m : FixedMap UInt8 Nat, m = FixedMap.new 256 ∧
    (∀ b : UInt8, (m.get b : Outcome ε Nat) = .ok 0) ∧
    ∀ label value, (DebugText.fixedMap label value m : Outcome ε _) = .panic := by
  have hm : (FixedMap.new 256 : FixedMap UInt8 Nat).map = List.replicate 256 0 := by decide +kernel
  have hl : (FixedMap.new 256 : FixedMap UInt8 Nat).map.length = 256 := by rw [hm, List.length_replicate]
  refine ⟨_, rfl, fun b => ?_, fun label value => ?_⟩
  · have hb : Label.id b < 256 := b.toNat_lt
    rw [FixedMap.get, hm]
    refine Outcome.index_eq_ok.mpr ?_
    rw [List.getElem?_replicate, if_pos hb]
  · rw [DebugText.fixedMap, hl, entries_panics _ hl (fun i hi => List.mem_range.mp hi) (List.mem_range.mpr (by decide))]
    rfl

end Verif.C79
