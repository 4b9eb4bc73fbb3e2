import Verif.Proof.FixedMap
import Verif.Proof.Vocabulary

/-!
# C30: the sparse map is a partial map with insertion-order iteration
# C32: label encodings round-trip
-/

namespace Verif.C30

variable {ε L V : Type} [Label L] [DecidableEq L]

/-- A mutating API call. -/
inductive Op (L V : Type) where
  /-- `try_insert(&k, v)` -/
  | tryInsert (k : L) (v : V)
  /-- `*get_mut_or_insert_with(&k, || c) = f(..)` -/
  | modify (k : L) (c : V) (f : V → V)

/-- The key of a call. -/
def Op.key : Op L V → L
  | .tryInsert k _ => k
  | .modify k _ _ => k

/-- Running a list of calls from the empty map. -/
def exec (cap : Nat) : List (Op L V) → Outcome ε (SparseMap L V)
  | [] => pure (SparseMap.new cap)
  | .tryInsert k v :: ops => do
    let m ← exec cap ops
    match ← m.tryInsert k v with
    | .ok m' => pure m'
    | .error _ => pure m
  | .modify k c f :: ops => do
    let m ← exec cap ops
    let (m', _) ← m.modifyOrInsert k c f
    pure m'

/-- Specification: the value of a key after the calls (last call first). -/
def value : List (Op L V) → L → Option V
  | [], _ => none
  | .tryInsert k v :: ops, l =>
    if l = k then some ((value ops k).getD v) else value ops l
  | .modify k c f :: ops, l =>
    if l = k then some (f ((value ops k).getD c)) else value ops l

/-- Specification: keys in the order of their first use (last call first). -/
def keys : List (Op L V) → List L
  | [] => []
  | op :: ops => if op.key ∈ keys ops then keys ops else keys ops ++ [op.key]

omit [Label L] in
theorem value_isSome (ops : List (Op L V)) (l : L) : (value ops l).isSome ↔ l ∈ keys ops := by
  induction ops with
  | nil => simp [value, keys]
  | cons op ops ih =>
    cases op with
    | tryInsert k v =>
      simp only [value, keys, Op.key]
      split
      · rename_i h; subst h
        by_cases hk : l ∈ keys ops <;> simp [hk]
      · rename_i h
        by_cases hk : k ∈ keys ops <;> simp [hk, ih, h]
    | modify k c f =>
      simp only [value, keys, Op.key]
      split
      · rename_i h; subst h
        by_cases hk : l ∈ keys ops <;> simp [hk]
      · rename_i h
        by_cases hk : k ∈ keys ops <;> simp [hk, ih, h]

/-- The `id` function of the label type is one-to-one. -/
abbrev Injective (L : Type) [Label L] : Prop := ∀ a b : L, Label.id a = Label.id b → a = b

theorem exec_ok (hinj : Injective L) {cap : Nat} (ops : List (Op L V))
    (h : ∀ op ∈ ops, Label.id op.key < cap) :
    ∃ m, (exec cap ops : Outcome ε (SparseMap L V)) = .ok m ∧ m.WF cap ∧
      (∀ k, m.lookup k = value ops k) ∧ m.map.map (·.1) = keys ops := by
  induction ops with
  | nil => exact ⟨_, rfl, SparseMap.new_WF cap, fun _ => rfl, rfl⟩
  | cons op ops ih =>
    obtain ⟨m, hm, hwf, hl, hk⟩ := ih fun o ho => h o (List.mem_cons_of_mem _ ho)
    have hlt := h op List.mem_cons_self
    have hidiff : ∀ a b : L, Label.id a = Label.id b ↔ a = b :=
      fun a b => ⟨hinj a b, fun e => e ▸ rfl⟩
    have hsome := fun k => value_isSome ops k
    cases op with
    | tryInsert k v =>
      simp only [Op.key] at hlt
      cases hv : m.lookup k with
      | none =>
        obtain ⟨m', hm', hwf', hmap⟩ := hwf.tryInsert_none (ε := ε) hlt v hv
        refine ⟨m', by simp [exec, hm, hm'], hwf', fun k' => ?_, ?_⟩
        · rw [SparseMap.lookup_append hmap hv]
          simp only [hidiff, value, ← hl, hv]; rfl
        · have : k ∉ keys ops := by rw [← hsome, ← hl, hv]; simp
          simp [hmap, keys, Op.key, this, hk]
      | some old =>
        refine ⟨m, by simp [exec, hm, hwf.tryInsert_some (ε := ε) hlt v old hv], hwf, fun k' => ?_, ?_⟩
        · simp only [value]
          split
          · rename_i e; subst e; rw [← hl, hv]; rfl
          · exact hl k'
        · have : k ∈ keys ops := by rw [← hsome, ← hl, hv]; simp
          simp [keys, Op.key, this, hk]
    | modify k c f =>
      simp only [Op.key] at hlt
      obtain ⟨m', ins, hm', hwf', hlook, hins, -, hkeys⟩ := hwf.modifyOrInsert_eq (ε := ε) hlt c f
      refine ⟨m', by simp [exec, hm, hm'], hwf', fun k' => ?_, ?_⟩
      · rw [hlook]; simp only [hidiff, value, hl]
      · rw [hkeys]
        cases ins with
        | true =>
          have : k ∉ keys ops := by rw [← hsome, ← hl, hins.mp rfl]; simp
          simp [keys, Op.key, this, hk]
        | false =>
          have : k ∈ keys ops := by
            rw [← hsome, ← hl]
            cases e : m.lookup k with
            | none => exact absurd (hins.mpr e) (by simp)
            | some _ => rfl
          simp [keys, Op.key, this, hk]

/-- **C30.** After any history of in-range calls: `get` is the partial function of the specification,
`try_insert` on a present key returns the present value and on an absent key succeeds, and iteration yields
each present key exactly once, in order of first insertion, with its value. -/
theorem sparse_map_is_partial_map (hinj : Injective L) {cap : Nat} (ops : List (Op L V))
    (h : ∀ op ∈ ops, Label.id op.key < cap) :
    ∃ m, (exec cap ops : Outcome ε (SparseMap L V)) = .ok m ∧
      (∀ k, Label.id k < cap → (m.get k : Outcome ε (Option V)) = .ok (value ops k)) ∧
      (∀ k v, Label.id k < cap →
        (∀ old, value ops k = some old →
          (m.tryInsert k v : Outcome ε (Except V (SparseMap L V))) = .ok (.error old)) ∧
        (value ops k = none →
          ∃ m', (m.tryInsert k v : Outcome ε (Except V (SparseMap L V))) = .ok (.ok m'))) ∧
      m.iter.map (·.1) = keys ops ∧ (keys ops).Nodup ∧
      (∀ k v, (k, v) ∈ m.iter ↔ value ops k = some v) := by
  obtain ⟨m, hm, hwf, hl, hk⟩ := exec_ok (ε := ε) hinj ops h
  refine ⟨m, hm, ?_, ?_, hk, ?_, ?_⟩
  · intro k hlt; rw [hwf.get_eq hlt, hl]
  · intro k v hlt
    refine ⟨fun old ho => hwf.tryInsert_some hlt v old (by rw [hl, ho]), fun hn => ?_⟩
    obtain ⟨m', hm', -⟩ := hwf.tryInsert_none (ε := ε) hlt v (by rw [hl, hn])
    exact ⟨m', hm'⟩
  · have := hwf.nodup_ids
    rw [← hk]
    rw [show (m.map.map fun e => Label.id e.1) = (m.map.map (·.1)).map Label.id by simp] at this
    exact (List.pairwise_map.mp this).imp fun hne e => hne (congrArg _ e)
  · intro k v
    rw [← hl, hwf.lookup_eq_some]
    constructor
    · exact fun hmem => ⟨k, hmem, rfl⟩
    · rintro ⟨l, hmem, hid⟩; exact hinj _ _ hid ▸ hmem

/-- The hypotheses are met: keys 5, 1, 5 again in a map of capacity 10. -/
example : Injective Nat ∧
    ∀ op ∈ [Op.modify 5 0 (· + 1), Op.tryInsert 1 7, Op.tryInsert 5 2], Label.id (Op.key op) < 10 :=
  ⟨fun _ _ h => h, by decide⟩

example : ((exec 10 [Op.modify 5 0 (· + 1), Op.tryInsert 1 7, Op.tryInsert 5 2] :
    Outcome Unit (SparseMap Nat Nat))) =
    .ok ⟨[none, some 1, none, none, none, some 0, none, none, none, none], [(5, 3), (1, 7)]⟩ := by
  simp [exec, SparseMap.new, SparseMap.tryInsert, SparseMap.maybeIndex, SparseMap.insert,
    SparseMap.modifyOrInsert, Outcome.index, List.replicate, Label.id]

end Verif.C30

namespace Verif.C32

variable {ε : Type}

/-- A label type whose `from_id` inverts `id` on the labels satisfying `p`. -/
def RoundTrips (L : Type) [Label L] (p : L → Prop) : Prop :=
  ∀ (ε : Type) (l : L), p l → (Label.fromId (Label.id l) : Outcome ε L) = .ok l

/-- **C32** for `usize`. -/
theorem usize_roundtrip : RoundTrips Nat fun _ => True := fun _ _ _ => rfl

/-- **C32** for augmented token ids. -/
theorem token_roundtrip : RoundTrips AugTokId fun _ => True := by
  intro ε l _
  cases l <;> simp [Label.id, Label.fromId]

/-- **C32** for `Option<L>`, given it for `L`. -/
theorem option_roundtrip (L : Type) [Label L] (p : L → Prop) (h : RoundTrips L p) :
    RoundTrips (Option L) fun o => ∀ l, o = some l → p l := by
  intro ε o ho
  cases o with
  | none => rfl
  | some l =>
    show (if Label.id l + 1 = 0 then Outcome.ok none else
      (Label.fromId (Label.id l + 1 - 1) : Outcome ε L) >>= fun l => pure (some l)) = _
    simp [h ε l (ho l rfl)]

/-- **C32** for `u8`, except the byte 255. -/
theorem u8_roundtrip_partial : RoundTrips UInt8 fun b => b ≠ 255 := by
  intro ε b hb
  have h1 : b.toNat < 255 := by
    have := b.toNat_lt
    have h2 : b.toNat ≠ 255 := fun h => hb (by apply UInt8.toNat_inj.mp; exact h)
    omega
  simp [Label.id, Label.fromId, h1]

/-- The `u8` instance's assertion `id < u8::MAX` is off by one: byte 255 does not round-trip, the debug
build panics. -/
theorem u8_255_panics : (Label.fromId (Label.id (255 : UInt8)) : Outcome ε UInt8) = .panic := rfl

/-- **C32.** Distinct labels have distinct ids, for every label type of the crate. -/
theorem ids_injective :
    C30.Injective Nat ∧ C30.Injective AugTokId ∧ C30.Injective UInt8 ∧
      (∀ (L : Type) [Label L], C30.Injective L → C30.Injective (Option L)) := by
  refine ⟨fun _ _ h => h, ?_, ?_, ?_⟩
  · intro a b h
    cases a <;> cases b <;> simp_all [Label.id]
  · intro a b h; exact UInt8.toNat_inj.mp h
  · intro L _ h a b hab
    cases a <;> cases b <;> simp_all [Label.id]
    exact h _ _ hab

end Verif.C32
