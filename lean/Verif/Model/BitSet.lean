import Verif.Model.Outcome

/-!
# Model of `lr_table/src/bit_set.rs`
-/

namespace Verif

/-- bit_set.rs:3-7 `BitSet { bits: Vec<u64>, len: usize }`. -/
structure BitSet where
  bits : List (BitVec 64)
  len : Nat
deriving DecidableEq, Repr

namespace BitSet
variable {ε : Type}

/-- bit_set.rs:10-15 `BitSet::new`: `len.div_ceil(64)` zero words. -/
def new (len : Nat) : BitSet := ⟨List.replicate ((len + 63) / 64) 0#64, len⟩

/-- bit_set.rs:17-19 `BitSet::pos`: `(bit / 64, bit as u32 % 64)`; the cast truncates. -/
def pos (bit : Nat) : Nat × Nat := (bit / 64, (bit % 2 ^ 32) % 64)

/-- bit_set.rs:21-25 `BitSet::has`. -/
def has (s : BitSet) (bit : Nat) : Outcome ε Bool := do
  Outcome.assert (bit < s.len)
  let (index, shift) := pos bit
  let w ← Outcome.index s.bits index
  pure ((w &&& (1#64 <<< shift)) != 0#64)

/-- bit_set.rs:27-31 `BitSet::set`. -/
def set (s : BitSet) (bit : Nat) : Outcome ε BitSet := do
  Outcome.assert (bit < s.len)
  let (index, shift) := pos bit
  let w ← Outcome.index s.bits index
  pure { s with bits := s.bits.set index (w ||| (1#64 <<< shift)) }

/-- bit_set.rs:33-37 `BitSet::clear`. -/
def clear (s : BitSet) (bit : Nat) : Outcome ε BitSet := do
  Outcome.assert (bit < s.len)
  let (index, shift) := pos bit
  let w ← Outcome.index s.bits index
  pure { s with bits := s.bits.set index (w &&& ~~~(1#64 <<< shift)) }

/-- bit_set.rs:43-47, the loop of `merge` over the zipped words: the words of the destination beyond
the length of the source stay as they are. Returns the new words and `modified`. -/
def mergeWords : List (BitVec 64) → List (BitVec 64) → List (BitVec 64) × Bool
  | [], _ => ([], false)
  | dst, [] => (dst, false)
  | d :: dst, s :: src =>
    let d' := d ||| s
    let (rest, modified) := mergeWords dst src
    (d' :: rest, (d' != d) || modified)

/-- bit_set.rs:41-49 `BitSet::merge`; the second component is the returned `modified` flag (an `or`
over all words, so the order in which the loop accumulates it does not matter). -/
def merge (s other : BitSet) : BitSet × Bool :=
  let (bits, modified) := mergeWords s.bits other.bits
  ({ s with bits := bits }, modified)

/-- Positions of the one bits of a word in ascending order: `cknittel_util::iter_ones::IterOnes`
(external crate, trusted). -/
def iterOnes (w : BitVec 64) : List Nat := (List.range 64).filter fun i => w.getLsbD i

/-- bit_set.rs:51-57, the `enumerate().flat_map(..)` starting at word number `index`. -/
def forEachFrom (index : Nat) : List (BitVec 64) → List Nat
  | [] => []
  | w :: ws => (iterOnes w).map (fun bit => index * 64 + bit) ++ forEachFrom (index + 1) ws

/-- bit_set.rs:51-57 `BitSet::for_each`, the list of items the iterator yields. -/
def forEach (s : BitSet) : List Nat := forEachFrom 0 s.bits

/-- bit_set.rs:59-68 `BitSet::full`; `unreachable!` is a panic. -/
def full (s : BitSet) : Outcome ε Bool :=
  if s.len % 64 = 0 then
    pure (s.bits.all fun w => w == BitVec.allOnes 64)
  else
    match s.bits.getLast? with
    | some last =>
      pure ((s.bits.dropLast.all fun w => w == BitVec.allOnes 64)
        && last == (1#64 <<< ((s.len % 2 ^ 32) % 64)) - 1#64)
    | none => Outcome.panic

end BitSet
end Verif
