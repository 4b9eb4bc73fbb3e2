import Verif.Model.ErrorText
import Verif.Model.Position

/-!
# Model of the `Display` and `Debug` implementations for sets, items, kernels and maps
(`lr_table/src/vocabulary.rs`, `position.rs`, `kernel.rs`, `fixed_map.rs`)

Texts are lists of characters. `{:?}` of labels and values of maps are parameters.
-/

set_option autoImplicit false

namespace Verif.DebugText
open Display ErrorText

/-- `Itertools::join("/")`. -/
def joinSlash : List (List Char) → List Char
  | [] => []
  | [s] => s
  | s :: ss => s ++ '/' :: joinSlash ss

/-- vocabulary.rs:234-244 `Display` and `Debug for VocabSet`. -/
def vocabSet (s : VocabSet) : List Char := joinSlash (s.set.forEach.map decimal)

/-- position.rs:172-190 `Display` and `Debug for Position` (the two give the same text). -/
def position (p : Position) : List Char :=
  ruleId p.rule ++ (" at ".toList ++ (decimal p.position ++ (' ' :: '[' :: (vocabSet p.followSet ++ [']']))))

/-- kernel.rs:29-37 `Display for Kernel`. -/
def kernel (k : Kernel) : List Char := '{' :: (joinComma (k.positions.map position) ++ ['}'])

/-- `format!("{label:?}: {value:?}")`. -/
def entry {L V : Type} (label : L → List Char) (value : V → List Char) (e : L × V) : List Char :=
  label e.1 ++ ':' :: ' ' :: value e.2

/-- fixed_map.rs:110-121 `Debug for FixedSizeMap`. -/
def fixedMap {ε L V : Type} [Label L] (label : L → List Char) (value : V → List Char) (m : FixedMap L V) :
    Outcome ε (List Char) := do
  let es ← m.entries (List.range m.map.length)
  pure ('[' :: (joinComma (es.map (entry label value)) ++ [']']))

/-- fixed_map.rs:227-238 `Debug for SparseFixedSizeMap`. -/
def sparseMap {L V : Type} (label : L → List Char) (value : V → List Char) (m : SparseMap L V) : List Char :=
  '[' :: (joinComma (m.iter.map (entry label value)) ++ [']'])

end Verif.DebugText
