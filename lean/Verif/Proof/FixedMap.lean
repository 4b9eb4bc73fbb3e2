import Verif.Model.FixedMap
import Verif.Proof.BitSet

/-!
# Lemmas about the sparse map model
-/

namespace Verif
namespace SparseMap
variable {ε L V : Type} [Label L]

/-- The partial map a sparse map stands for. -/
def lookup (m : SparseMap L V) (k : L) : Option V :=
  (m.map.find? fun e => Label.id e.1 == Label.id k).map (·.2)

/-- Representation invariant: the index vector and the entries agree. -/
structure WF (m : SparseMap L V) (cap : Nat) : Prop where
  length : m.indexMap.length = cap
  fwd : ∀ j i, m.indexMap[j]? = some (some i) → ∃ e, m.map[i]? = some e ∧ Label.id e.1 = j
  bwd : ∀ i e, m.map[i]? = some e → m.indexMap[Label.id e.1]? = some (some i)

theorem new_WF (cap : Nat) : (new cap : SparseMap L V).WF cap := by
  refine ⟨by simp [new], ?_, ?_⟩
  · intro j i h
    simp only [new, List.getElem?_replicate] at h
    split at h <;> simp at h
  · intro i e h; simp [new] at h

theorem lookup_new (cap : Nat) (k : L) : (new cap : SparseMap L V).lookup k = none := rfl

variable {m : SparseMap L V} {cap : Nat}

theorem WF.id_lt (h : m.WF cap) {e : L × V} (he : e ∈ m.map) : Label.id e.1 < cap := by
  obtain ⟨i, hi, rfl⟩ := List.mem_iff_getElem.mp he
  have := h.bwd i _ (List.getElem?_eq_getElem hi)
  obtain ⟨hlt, -⟩ := List.getElem?_eq_some_iff.mp this
  rw [← h.length]; exact hlt

/-- Entries with the same id are the same entry. -/
theorem WF.index_inj (h : m.WF cap) {i j : Nat} {e f : L × V} (hi : m.map[i]? = some e)
    (hj : m.map[j]? = some f) (hid : Label.id e.1 = Label.id f.1) : i = j := by
  have h1 := h.bwd i e hi
  have h2 := h.bwd j f hj
  rw [hid, h2] at h1
  simpa using h1.symm

theorem WF.nodup_ids (h : m.WF cap) : (m.map.map fun e => Label.id e.1).Nodup := by
  rw [List.Nodup, List.pairwise_iff_getElem]
  intro i j hi hj hlt hij
  simp only [List.length_map] at hi hj
  simp only [List.getElem_map] at hij
  have := h.index_inj (List.getElem?_eq_getElem hi) (List.getElem?_eq_getElem hj) hij
  omega

theorem WF.lookup_eq_some (h : m.WF cap) {k : L} {v : V} :
    m.lookup k = some v ↔ ∃ l, (l, v) ∈ m.map ∧ Label.id l = Label.id k := by
  unfold lookup
  constructor
  · intro hf
    rw [Option.map_eq_some_iff] at hf
    obtain ⟨e, he, rfl⟩ := hf
    exact ⟨e.1, List.mem_of_find?_eq_some he, by simpa using List.find?_some he⟩
  · rintro ⟨l, hl, hid⟩
    cases hf : m.map.find? fun e => Label.id e.1 == Label.id k with
    | none =>
      rw [List.find?_eq_none] at hf
      exact absurd hid (by simpa using hf _ hl)
    | some e =>
      have he := List.mem_of_find?_eq_some hf
      have hide := List.find?_some hf
      simp only [beq_iff_eq] at hide
      obtain ⟨i, hi, hie⟩ := List.mem_iff_getElem.mp he
      obtain ⟨j, hj, hjl⟩ := List.mem_iff_getElem.mp hl
      have hi' : m.map[i]? = some e := by rw [List.getElem?_eq_getElem hi, hie]
      have hj' : m.map[j]? = some (l, v) := by rw [List.getElem?_eq_getElem hj, hjl]
      have := h.index_inj hi' hj' (by rw [hide, ← hid])
      subst this
      rw [hi'] at hj'
      simp only [Option.some.injEq] at hj'
      subst hj'
      rfl

theorem lookup_eq_none {k : L} :
    m.lookup k = none ↔ ∀ e ∈ m.map, Label.id e.1 ≠ Label.id k := by
  unfold lookup
  rw [Option.map_eq_none_iff, List.find?_eq_none]
  simp

theorem WF.maybeIndex_eq (h : m.WF cap) {k : L} (hk : Label.id k < cap) :
    ∃ o, (m.maybeIndex k : Outcome ε (Option Nat)) = .ok o ∧
      (∀ i, o = some i → ∃ e, m.map[i]? = some e ∧ Label.id e.1 = Label.id k ∧
        m.lookup k = some e.2) ∧
      (o = none → m.lookup k = none) := by
  have hlt : Label.id k < m.indexMap.length := by rw [h.length]; exact hk
  refine ⟨m.indexMap[Label.id k], ?_, ?_, ?_⟩
  · simp [maybeIndex, Outcome.index_of_lt hlt]
  · intro i hi
    have hi' : m.indexMap[Label.id k]? = some (some i) := by
      rw [List.getElem?_eq_getElem hlt, hi]
    obtain ⟨e, he, hid⟩ := h.fwd _ _ hi'
    refine ⟨e, he, hid, ?_⟩
    rw [h.lookup_eq_some]
    exact ⟨e.1, List.mem_of_getElem? he, hid⟩
  · intro hn
    rw [lookup_eq_none]
    intro e he hid
    obtain ⟨i, hi, rfl⟩ := List.mem_iff_getElem.mp he
    have := h.bwd i _ (List.getElem?_eq_getElem hi)
    rw [hid, List.getElem?_eq_getElem hlt, hn] at this
    simp at this

theorem WF.get_eq (h : m.WF cap) {k : L} (hk : Label.id k < cap) :
    (m.get k : Outcome ε (Option V)) = .ok (m.lookup k) := by
  obtain ⟨o, ho, hs, hn⟩ := h.maybeIndex_eq (ε := ε) hk
  unfold get
  rw [ho]
  cases o with
  | none => simp [hn rfl]
  | some i =>
    obtain ⟨e, he, -, hl⟩ := hs i rfl
    simp [Outcome.index, he, hl]

theorem WF.insert_eq (h : m.WF cap) {k : L} (hk : Label.id k < cap) (v : V)
    (hnone : m.lookup k = none) :
    ∃ m', (m.insert k v : Outcome ε (SparseMap L V)) = .ok m' ∧ m'.WF cap ∧
      m'.map = m.map ++ [(k, v)] := by
  have hlt : Label.id k < m.indexMap.length := by rw [h.length]; exact hk
  rw [lookup_eq_none] at hnone
  have hcur : m.indexMap[Label.id k] = none := by
    cases hc : m.indexMap[Label.id k] with
    | none => rfl
    | some i =>
      obtain ⟨e, he, hid⟩ := h.fwd (Label.id k) i (by rw [List.getElem?_eq_getElem hlt, hc])
      exact absurd hid (hnone e (List.mem_of_getElem? he))
  refine ⟨⟨m.indexMap.set (Label.id k) (some m.map.length), m.map ++ [(k, v)]⟩, ?_, ?_, rfl⟩
  · simp [insert, Outcome.index_of_lt hlt, hcur]
  · refine ⟨by simp [h.length], ?_, ?_⟩
    · intro j i hji
      simp only [List.getElem?_set] at hji
      by_cases hj : Label.id k = j
      · simp only [hj, if_true] at hji
        split at hji
        · simp only [Option.some.injEq] at hji
          subst hji
          exact ⟨(k, v), by simp, hj⟩
        · simp at hji
      · simp only [hj, if_false] at hji
        obtain ⟨e, he, hid⟩ := h.fwd j i hji
        refine ⟨e, ?_, hid⟩
        have : i < m.map.length := (List.getElem?_eq_some_iff.mp he).1
        simp only
        rw [List.getElem?_append_left this]
        exact he
    · intro i e he
      simp only at he ⊢
      by_cases hi : i < m.map.length
      · rw [List.getElem?_append_left hi] at he
        rw [List.getElem?_set_ne (Ne.symm (hnone e (List.mem_of_getElem? he)))]
        exact h.bwd i e he
      · have hlen : i < (m.map ++ [(k, v)]).length := (List.getElem?_eq_some_iff.mp he).1
        have hi' : i = m.map.length := by simp at hlen; omega
        subst hi'
        simp at he
        subst he
        simp [hlt]

/-- Looking a key up after appending an entry with a new key. -/
theorem lookup_append {m m' : SparseMap L V} {k : L} {v : V} (hm : m'.map = m.map ++ [(k, v)])
    (hnone : m.lookup k = none) (k' : L) :
    m'.lookup k' = if Label.id k' = Label.id k then some v else m.lookup k' := by
  unfold lookup
  rw [hm, List.find?_append]
  split
  · rename_i hid
    have : m.map.find? (fun e => Label.id e.1 == Label.id k') = none := by
      rw [List.find?_eq_none]
      intro e he
      rw [lookup_eq_none] at hnone
      simpa [hid] using hnone e he
    rw [this]; simp [hid]
  · rename_i hid
    have : [(k, v)].find? (fun e => Label.id e.1 == Label.id k') = none := by
      rw [List.find?_eq_none]
      intro e he
      simp only [List.mem_singleton] at he
      subst he
      simpa using fun h => hid h.symm
    rw [this, Option.or_none]

theorem WF.tryInsert_some (h : m.WF cap) {k : L} (hk : Label.id k < cap) (v old : V)
    (hl : m.lookup k = some old) :
    (m.tryInsert k v : Outcome ε (Except V (SparseMap L V))) = .ok (.error old) := by
  obtain ⟨o, ho, hs, hn⟩ := h.maybeIndex_eq (ε := ε) hk
  unfold tryInsert
  rw [ho]
  cases o with
  | none => simp [hn rfl] at hl
  | some i =>
    obtain ⟨e, he, -, hle⟩ := hs i rfl
    rw [hl] at hle
    simp only [Option.some.injEq] at hle
    simp [Outcome.index, he, hle]

theorem WF.tryInsert_none (h : m.WF cap) {k : L} (hk : Label.id k < cap) (v : V)
    (hl : m.lookup k = none) :
    ∃ m', (m.tryInsert k v : Outcome ε (Except V (SparseMap L V))) = .ok (.ok m') ∧ m'.WF cap ∧
      m'.map = m.map ++ [(k, v)] := by
  obtain ⟨o, ho, hs, hn⟩ := h.maybeIndex_eq (ε := ε) hk
  obtain ⟨m', hm', hwf, hmap⟩ := h.insert_eq (ε := ε) hk v hl
  refine ⟨m', ?_, hwf, hmap⟩
  unfold tryInsert
  rw [ho]
  cases o with
  | none => simp [hm']
  | some i =>
    obtain ⟨e, he, -, hle⟩ := hs i rfl
    rw [hl] at hle; simp at hle

/-- Replacing the value of the entry at an index. -/
theorem WF.setValue (h : m.WF cap) {i : Nat} {e : L × V} (he : m.map[i]? = some e) (v : V) :
    WF { m with map := m.map.set i (e.1, v) } cap := by
  have hlt : i < m.map.length := (List.getElem?_eq_some_iff.mp he).1
  refine ⟨h.length, ?_, ?_⟩
  · intro j i' hji
    obtain ⟨e', he', hid⟩ := h.fwd j i' hji
    simp only
    by_cases hii : i = i'
    · subst hii
      rw [he] at he'
      simp only [Option.some.injEq] at he'
      subst he'
      exact ⟨(e.1, v), by simp [hlt], hid⟩
    · exact ⟨e', by rw [List.getElem?_set_ne hii]; exact he', hid⟩
  · intro i' e' he'
    simp only at he' ⊢
    by_cases hii : i = i'
    · subst hii
      rw [List.getElem?_set_self hlt] at he'
      simp only [Option.some.injEq] at he'
      subst he'
      exact h.bwd i e he
    · rw [List.getElem?_set_ne hii] at he'
      exact h.bwd i' e' he'

theorem WF.lookup_setValue (h : m.WF cap) {i : Nat} {e : L × V} (he : m.map[i]? = some e) (v : V)
    (k' : L) :
    lookup { m with map := m.map.set i (e.1, v) } k' =
      if Label.id k' = Label.id e.1 then some v else m.lookup k' := by
  have hw := h.setValue he v
  have hlt : i < m.map.length := (List.getElem?_eq_some_iff.mp he).1
  split
  · rename_i hid
    rw [hw.lookup_eq_some]
    exact ⟨e.1, List.mem_iff_getElem?.mpr ⟨i, by simp [hlt]⟩, hid.symm⟩
  · rename_i hid
    apply Option.ext
    intro v'
    rw [hw.lookup_eq_some, h.lookup_eq_some]
    constructor
    · rintro ⟨l, hl, hidl⟩
      obtain ⟨j, hj⟩ := List.mem_iff_getElem?.mp hl
      simp only at hj
      by_cases hij : i = j
      · subst hij
        rw [List.getElem?_set_self hlt] at hj
        simp only [Option.some.injEq, Prod.mk.injEq] at hj
        exact absurd (by rw [← hidl, ← hj.1]) hid
      · rw [List.getElem?_set_ne hij] at hj
        exact ⟨l, List.mem_of_getElem? hj, hidl⟩
    · rintro ⟨l, hl, hidl⟩
      obtain ⟨j, hj⟩ := List.mem_iff_getElem?.mp hl
      by_cases hij : i = j
      · subst hij
        rw [he] at hj
        simp only [Option.some.injEq] at hj
        subst hj
        exact absurd hidl.symm hid
      · refine ⟨l, List.mem_iff_getElem?.mpr ⟨j, ?_⟩, hidl⟩
        simp only
        rw [List.getElem?_set_ne hij]
        exact hj

omit [Label L] in
theorem keys_setValue {i : Nat} {e : L × V} (he : m.map[i]? = some e) (v : V) :
    (m.map.set i (e.1, v)).map (·.1) = m.map.map (·.1) := by
  apply List.ext_getElem?
  intro j
  rw [List.getElem?_map, List.getElem?_map, List.getElem?_set]
  split
  · rename_i hij
    subst hij
    split <;> simp_all
  · rfl

/-- `get_mut_or_insert_with` followed by `f`: the key keeps or gets a value, everything else stays. -/
theorem WF.modifyOrInsert_eq (h : m.WF cap) {k : L} (hk : Label.id k < cap) (c : V) (f : V → V) :
    ∃ m' ins, (m.modifyOrInsert k c f : Outcome ε (SparseMap L V × Bool)) = .ok (m', ins) ∧
      m'.WF cap ∧
      (∀ k', m'.lookup k' = if Label.id k' = Label.id k then some (f ((m.lookup k).getD c))
        else m.lookup k') ∧
      (ins = true ↔ m.lookup k = none) ∧
      (ins = true → m'.map = m.map ++ [(k, f c)]) ∧
      (m'.map.map (·.1) = if ins then m.map.map (·.1) ++ [k] else m.map.map (·.1)) := by
  obtain ⟨o, ho, hs, hn⟩ := h.maybeIndex_eq (ε := ε) hk
  cases o with
  | none =>
    have hl := hn rfl
    obtain ⟨m', hm', hwf, hmap⟩ := h.insert_eq (ε := ε) hk (f c) hl
    refine ⟨m', true, ?_, hwf, ?_, by simp [hl], fun _ => hmap, by simp [hmap]⟩
    · unfold modifyOrInsert; rw [ho]; simp [hm']
    · intro k'
      rw [lookup_append hmap hl k', hl]; rfl
  | some i =>
    obtain ⟨e, he, hid, hl⟩ := hs i rfl
    refine ⟨{ m with map := m.map.set i (e.1, f e.2) }, false, ?_, h.setValue he _, ?_,
      by simp [hl], by simp, ?_⟩
    · unfold modifyOrInsert; rw [ho]
      simp [Outcome.index, he]
    · intro k'
      rw [h.lookup_setValue he, hid, hl]; rfl
    · simpa using keys_setValue he (f e.2)

end SparseMap
end Verif
