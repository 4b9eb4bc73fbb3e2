import Verif.Model.LRTable

/-!
# Model of the `Display` implementations for tables (`lr_table/src/lr_table.rs`, `vocabulary.rs`)

Texts are lists of characters. Errors of the formatter itself are not modelled. `format!(..).len()` counts bytes; it is
only applied to texts in ASCII, so that it is the number of characters.
-/

set_option autoImplicit false

namespace Verif.Display

/-- `format!("{n}")` for integers. -/
def decimal (n : Nat) : List Char := Nat.toDigits 10 n

/-- `format!("{s:width$}")` for strings: aligned to the left. -/
def padRight (width : Nat) (s : List Char) : List Char := s ++ List.replicate (width - s.length) ' '

/-- `format!("{s:>width$}")`. -/
def padLeft (width : Nat) (s : List Char) : List Char := List.replicate (width - s.length) ' ' ++ s

/-- lr_table.rs:48-56 `Display for Action`. -/
def action : Action → List Char
  | .shift n => 's' :: decimal n
  | .reduce r => 'r' :: decimal r
  | .accept => ['a', 'c', 'c']

/-- lr_table.rs:73-77 `Display for GotoAction`. -/
def goto (n : Nat) : List Char := 'G' :: 'O' :: '(' :: (decimal n ++ [')'])

/-- vocabulary.rs:18-22, 68-76 `Display for AugmentedTokenId`. -/
def tokenId : AugTokId → List Char
  | .token n => decimal n
  | .epsilon => ['ε']
  | .eos => ['$']

/-- `Itertools::join(" ")`. -/
def joinSpace : List (List Char) → List Char
  | [] => []
  | [s] => s
  | s :: ss => s ++ ' ' :: joinSpace ss

/-- The chunks of a list, given a bound for their number. -/
def chunksUpTo {α : Type} (size : Nat) : Nat → List α → List (List α)
  | 0, _ => []
  | _ + 1, [] => []
  | f + 1, a :: l => (a :: l).take size :: chunksUpTo size f ((a :: l).drop size)

section
variable {ε : Type}

/-- `Itertools::chunks`, which panics for size 0. -/
def chunks {α : Type} (size : Nat) (l : List α) : Outcome ε (List (List α)) :=
  if size = 0 then .panic else pure (chunksUpTo size l.length l)

/-- lr_table.rs:425-430, the loop over the actions of one state, starting at number `i`. -/
def markRow : Nat → List (Option Action) → BitSet × Nat → Outcome ε (BitSet × Nat)
  | _, [], acc => pure acc
  | i, none :: l, acc => markRow (i + 1) l acc
  | i, some a :: l, (vocab, width) => do
    let vocab ← vocab.set i
    markRow (i + 1) l (vocab, max width (action a).length)

/-- lr_table.rs:420-432, the fold over all states. -/
def markRows : List (List (Option Action)) → BitSet × Nat → Outcome ε (BitSet × Nat)
  | [], acc => pure acc
  | r :: rs, acc => do
    let acc ← markRow 0 r acc
    markRows rs acc

/-- lr_table.rs:433-446 `goto_print_width`. -/
def gotoWidth (rows : List (List (Option Nat))) : Nat :=
  ((rows.map fun r =>
    ((r.map fun | some g => (goto g).length | none => 0).max?).getD 0).max?).getD 1

/-- lr_table.rs:475-482: a cell with an action. -/
def actionCell (width : Nat) : Option Action → List Char
  | some a => padRight width (action a)
  | none => padRight width ['_']

/-- lr_table.rs:485-488: a cell with the target of a goto. -/
def gotoCell (width : Nat) : Option Nat → List Char
  | some g => padRight width (goto g)
  | none => padRight width ['_']

/-- lr_table.rs:473-482: the cells of the actions of a state; `action_set[i]` can panic. -/
def actionCells (width : Nat) (actions : List (Option Action)) : List Nat → Outcome ε (List (List Char))
  | [] => pure []
  | i :: is => do
    let a ← Outcome.index actions i
    let cells ← actionCells width actions is
    pure (actionCell width a :: cells)

/-- lr_table.rs:450-460: the header, without the end of the line. -/
def header (stateWidth width : Nat) (columns : List Nat) : List Char :=
  padRight stateWidth [] ++ ' ' :: ' ' :: columns.flatMap fun i => padRight width (tokenId (AugTok.ofId i)) ++ [' ']

/-- lr_table.rs:470-492: the line for a state. -/
def row (columns : List Nat) (width gotoWidth stateWidth state : Nat) (actions : List (Option Action))
    (gotos : List (Option Nat)) : Outcome ε (List Char) := do
  let cells ← actionCells width actions columns
  pure (padLeft stateWidth (decimal state) ++ ':' :: ' ' :: (joinSpace cells ++ ' ' :: ':' :: ' ' ::
    joinSpace (gotos.map (gotoCell gotoWidth))))

/-- lr_table.rs:466-497, the loop over all states; `next().unwrap()` can panic. -/
def rows (columns : List Nat) (width gotoWidth stateWidth numStates : Nat) :
    List Nat → List (List (Option Action)) → List (List (Option Nat)) → Outcome ε (List Char)
  | [], _, _ => pure []
  | s :: ss, a :: as, g :: gs => do
    let r ← row columns width gotoWidth stateWidth s a g
    let rest ← rows columns width gotoWidth stateWidth numStates ss as gs
    pure (r ++ (if s < numStates - 1 then ['\n'] else []) ++ rest)
  | _ :: _, _, _ => .panic

/-- lr_table.rs:415-499 `Display for LRTable`. -/
def table (t : LRTable) : Outcome ε (List Char) := do
  let vocabSize ← t.vocabSize
  let actions ← chunks vocabSize t.actionTable
  let (vocab, width) ← markRows actions (BitSet.new vocabSize, 1)
  let labels ← t.numLabels
  let gotos ← chunks labels t.gotoTable
  let stateWidth := (decimal t.numStates).length
  let columns := vocab.forEach
  let body ← rows columns width (gotoWidth gotos) stateWidth t.numStates (List.range t.numStates) actions gotos
  pure (header stateWidth width columns ++ '\n' :: body)

end
end Verif.Display
