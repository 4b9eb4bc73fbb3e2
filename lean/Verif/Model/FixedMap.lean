import Verif.Model.BitSet

/-!
# Model of `lr_table/src/fixed_map.rs`
-/

namespace Verif

/-- fixed_map.rs:7-10 trait `Label`. -/
class Label (L : Type) where
  id : L → Nat
  /-- `from_id` may panic (debug assertion of the `u8` instance). -/
  fromId : {ε : Type} → Nat → Outcome ε L

/-- fixed_map.rs:12-21 `impl Label for u8` (`debug_assert!(id < u8::MAX as usize)`). -/
instance : Label UInt8 where
  id b := b.toNat
  fromId id := do
    Outcome.assert (id < 255)
    pure (UInt8.ofNat id)

/-- fixed_map.rs:23-31 `impl Label for usize`. -/
instance : Label Nat where
  id n := n
  fromId n := pure n

/-- fixed_map.rs:33-48 `impl Label for Option<L>`. -/
instance {L : Type} [Label L] : Label (Option L) where
  id
    | some l => Label.id l + 1
    | none => 0
  fromId id :=
    if id = 0 then pure none
    else do
      let l ← Label.fromId (id - 1)
      pure (some l)

/-- fixed_map.rs:50-53 `FixedSizeSet`. -/
structure FixedSet (L : Type) where
  set : BitSet
deriving Repr

namespace FixedSet
variable {ε L : Type} [Label L]

/-- fixed_map.rs:56-61 `new`. -/
def new (capacity : Nat) : FixedSet L := ⟨BitSet.new capacity⟩

/-- fixed_map.rs:63-65 `has`. -/
def has (s : FixedSet L) (label : L) : Outcome ε Bool := s.set.has (Label.id label)

/-- fixed_map.rs:67-69 `set`. -/
def insert (s : FixedSet L) (label : L) : Outcome ε (FixedSet L) := do
  let set ← s.set.set (Label.id label)
  pure ⟨set⟩

/-- fixed_map.rs:71-73 `full`. -/
def full (s : FixedSet L) : Outcome ε Bool := s.set.full

end FixedSet

/-- fixed_map.rs:76-79 `FixedSizeMap`. -/
structure FixedMap (L V : Type) where
  map : List V
deriving Repr

namespace FixedMap
variable {ε L V σ : Type} [Label L]

/-- fixed_map.rs:87-97 `new_with_constructor`: the constructor (an `FnMut` with the state `σ`) is called `capacity`
times. -/
def newWith (constructor : σ → V × σ) : Nat → σ → FixedMap L V × σ
  | 0, s => (⟨[]⟩, s)
  | capacity + 1, s =>
    let (v, s) := constructor s
    let (m, s) := newWith constructor capacity s
    (⟨v :: m.map⟩, s)

/-- fixed_map.rs:81-85 `new`. -/
def new [Inhabited V] (capacity : Nat) : FixedMap L V := (newWith (fun s : Unit => (default, s)) capacity ()).1

/-- fixed_map.rs:101-103 `get`. -/
def get (m : FixedMap L V) (label : L) : Outcome ε V := Outcome.index m.map (Label.id label)

/-- fixed_map.rs:105-107 `get_mut`, followed by applying `f` through the returned reference. -/
def modify (m : FixedMap L V) (label : L) (f : V → V) : Outcome ε (FixedMap L V) := do
  let v ← Outcome.index m.map (Label.id label)
  pure ⟨m.map.set (Label.id label) (f v)⟩

/-- fixed_map.rs:110-121 `Debug`, the entries that are printed; `from_id` may panic. -/
def entries (m : FixedMap L V) : List Nat → Outcome ε (List (L × V))
  | [] => pure []
  | i :: is => do
    let label ← Label.fromId i
    let v ← m.get label
    let rest ← entries m is
    pure ((label, v) :: rest)

end FixedMap

/-- fixed_map.rs:129-134 `SparseFixedSizeMap`. The sentinel `usize::MAX` of `index_map` is modelled by
`none` (a vector never has `usize::MAX` entries); the `label` stored in an entry is kept. -/
structure SparseMap (L V : Type) where
  indexMap : List (Option Nat)
  map : List (L × V)
deriving Repr

namespace SparseMap
variable {ε L V : Type} [Label L]

/-- fixed_map.rs:139-145 `new`. -/
def new (capacity : Nat) : SparseMap L V := ⟨List.replicate capacity none, []⟩

/-- fixed_map.rs:147-152 `maybe_index`. -/
def maybeIndex (m : SparseMap L V) (label : L) : Outcome ε (Option Nat) :=
  Outcome.index m.indexMap (Label.id label)

/-- fixed_map.rs:156-158 `get` (and :162-166 `get_mut` read through the reference). -/
def get (m : SparseMap L V) (label : L) : Outcome ε (Option V) := do
  match ← m.maybeIndex label with
  | none => pure none
  | some index =>
    let e ← Outcome.index m.map index
    pure (some e.2)

/-- fixed_map.rs:168-178 `insert` (private). -/
def insert (m : SparseMap L V) (label : L) (value : V) : Outcome ε (SparseMap L V) := do
  let cur ← Outcome.index m.indexMap (Label.id label)
  Outcome.assert cur.isNone
  let index := m.map.length
  pure ⟨m.indexMap.set (Label.id label) (some index), m.map ++ [(label, value)]⟩

/-- fixed_map.rs:180-188 `try_insert`: `Except.error v` is `Err(&v)` with the map unchanged. -/
def tryInsert (m : SparseMap L V) (label : L) (value : V) :
    Outcome ε (Except V (SparseMap L V)) := do
  match ← m.maybeIndex label with
  | some index =>
    let e ← Outcome.index m.map index
    pure (Except.error e.2)
  | none =>
    let m' ← m.insert label value
    pure (Except.ok m')

/-- fixed_map.rs:190-198 `get_mut_or_insert_with`, followed by applying `f` through the returned
reference. The second component tells whether `construct` was called (callers do bookkeeping there). -/
def modifyOrInsert (m : SparseMap L V) (label : L) (construct : V) (f : V → V) :
    Outcome ε (SparseMap L V × Bool) := do
  match ← m.maybeIndex label with
  | some index =>
    let e ← Outcome.index m.map index
    pure ({ m with map := m.map.set index (e.1, f e.2) }, false)
  | none =>
    let m' ← m.insert label (f construct)
    pure (m', true)

/-- fixed_map.rs:209-215 `iter` and :218-225 `into_iter`: entries in insertion order. -/
def iter (m : SparseMap L V) : List (L × V) := m.map

end SparseMap
end Verif
