import Verif.Model.LRTable

/-!
# Specification: reading a printed table

The first line names the columns: the numbers of tokens, `ε` and `$`. Each further line begins with the number of the
state and a colon; then come the actions, one for each column, a colon and the targets of gotos, one for each label.
-/

set_option autoImplicit false

namespace Verif.Spec.TableText

/-- The parts of a text between separators. -/
def split (sep : Char) : List Char → List (List Char)
  | [] => [[]]
  | c :: s =>
    if c = sep then [] :: split sep s
    else match split sep s with
      | [] => [[c]]
      | w :: ws => (c :: w) :: ws

/-- The words of a line. -/
def words (s : List Char) : List (List Char) := (split ' ' s).filter (· ≠ [])

/-- A decimal number. -/
def number (w : List Char) : Option Nat :=
  if w ≠ [] ∧ w.all Char.isDigit then some (Nat.ofDigitChars 10 w 0) else none

/-- The number of a column, as in the table. -/
def column (w : List Char) : Option Nat :=
  if w = ['ε'] then some 0 else if w = ['$'] then some 1 else (number w).map (· + 2)

/-- An action, or `_` for none. -/
def entry : List Char → Option (Option Action)
  | [] => none
  | c :: w =>
    if c = '_' ∧ w = [] then some none
    else if c = 'a' ∧ w = ['c', 'c'] then some (some .accept)
    else if c = 's' then (number w).map fun n => some (.shift n)
    else if c = 'r' then (number w).map fun n => some (.reduce n)
    else none

/-- The target of a goto, or `_` for none. -/
def target (w : List Char) : Option (Option Nat) :=
  if w = ['_'] then some none
  else if w.take 3 = ['G', 'O', '('] ∧ w.getLast? = some ')' then (number (w.drop 3).dropLast).map some
  else none

/-- The line of a state in a table with `size` columns, of which some are printed. -/
def readRow (size : Nat) (columns : List Nat) (state : Nat) (line : List Char) :
    Option (List (Option Action) × List (Option Nat)) :=
  match words line with
  | [] => none
  | first :: cells => do
    guard (first.getLast? = some ':' ∧ number first.dropLast = some state)
    let actions ← (cells.take columns.length).mapM entry
    guard (actions.length = columns.length ∧ cells[columns.length]? = some [':'])
    let gotos ← (cells.drop (columns.length + 1)).mapM target
    pure ((List.range size).map fun id => ((columns.zip actions).lookup id).join, gotos)

/-- The lines of all states, from a given one. -/
def readRows (size : Nat) (columns : List Nat) : Nat → List (List Char) →
    Option (List (Option Action) × List (Option Nat))
  | _, [] => pure ([], [])
  | state, l :: ls => do
    let (actions, gotos) ← readRow size columns state l
    let (actions', gotos') ← readRows size columns (state + 1) ls
    pure (actions ++ actions', gotos ++ gotos')

/-- A table with `size` columns. -/
def readTable (size : Nat) (text : List Char) : Option LRTable :=
  match split '\n' text with
  | [] => none
  | header :: lines => do
    let columns ← (words header).mapM column
    let (actions, gotos) ← readRows size columns 0 lines
    pure ⟨actions, gotos, lines.length⟩

end Verif.Spec.TableText
