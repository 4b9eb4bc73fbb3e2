import Verif.Model.Grammar

/-!
# Model of `Grammar::from_grammar_str` (`lr_table/src/grammar.rs:67-106`)

Strings are lists of characters. The functions of the standard library that it calls are modelled too.
-/

namespace Verif

/-- `char::is_whitespace` (the Unicode property `White_Space`). -/
def isSpace (c : Char) : Bool :=
  let n := c.toNat
  (9 ≤ n && n ≤ 13) || n == 0x20 || n == 0x85 || n == 0xa0 || n == 0x1680 || (0x2000 ≤ n && n ≤ 0x200a) ||
    n == 0x2028 || n == 0x2029 || n == 0x202f || n == 0x205f || n == 0x3000

/-- `u8::is_ascii_whitespace`. -/
def isAsciiSpace (c : Char) : Bool :=
  c == ' ' || c == '\t' || c == '\n' || c == '\x0c' || c == '\r'

/-- `char::is_ascii_uppercase`. -/
def isAsciiUpper (c : Char) : Bool := 'A' ≤ c && c ≤ 'Z'

namespace GrammarText

/-- `str::trim_start`. -/
def trimStart : List Char → List Char
  | [] => []
  | c :: s => if isSpace c then trimStart s else c :: s

/-- `str::trim`. -/
def trim (s : List Char) : List Char := (trimStart (trimStart s).reverse).reverse

/-- `str::split_once("->")`. -/
def splitArrow : List Char → Option (List Char × List Char)
  | [] => none
  | c :: s =>
    match c, s with
    | '-', '>' :: rest => some ([], rest)
    | c, s => (splitArrow s).map fun p => (c :: p.1, p.2)

/-- `str::split_ascii_whitespace`: the maximal pieces without white space. The first argument is the piece
being read, reversed. -/
def splitSpaces : List Char → List Char → List (List Char)
  | [], [] => []
  | cur, [] => [cur.reverse]
  | cur, c :: s =>
    if isAsciiSpace c then
      match cur with
      | [] => splitSpaces [] s
      | cur => cur.reverse :: splitSpaces [] s
    else splitSpaces (c :: cur) s

/-- `str::split_inclusive('\n')`. -/
def splitInclusive : List Char → List (List Char)
  | [] => []
  | c :: s =>
    if c = '\n' then [c] :: splitInclusive s
    else
      match splitInclusive s with
      | [] => [[c]]
      | l :: ls => (c :: l) :: ls

/-- The end of a line is not part of it. -/
def stripEnding (l : List Char) : List Char :=
  match l.reverse with
  | '\n' :: '\r' :: r => r.reverse
  | '\n' :: r => r.reverse
  | _ => l

/-- `str::lines`. -/
def lines (s : List Char) : List (List Char) := (splitInclusive s).map stripEnding

/-- The messages of `from_grammar_str`. -/
inductive Error where
  | missingArrow (line : List Char)
  | badLabel (label : List Char)
  | badNode (node : List Char)
deriving DecidableEq, Repr

/-- grammar.rs:87-100: one node. Terminals are bytes; those that get here are ASCII. -/
def parseNode (node : List Char) : Outcome Error (Node Nat String) :=
  if node = ['!'] then pure (.terminal .epsilon)
  else if node.all isAsciiUpper then pure (.production (String.ofList node))
  else
    match node with
    | [c] => if c.toNat < 128 then pure (.terminal (.token c.toNat)) else Outcome.err (.badNode node)
    | _ => Outcome.err (.badNode node)

/-- `iter.map(parse_node).collect::<Result<Vec<_>, _>>()`. -/
def parseNodes : List (List Char) → Outcome Error (List (Node Nat String))
  | [] => pure []
  | n :: ns => do
    let a ← parseNode n
    let as ← parseNodes ns
    pure (a :: as)

/-- grammar.rs:72-103: one line. -/
def parseLine (line : List Char) : Outcome Error (Rule Nat String) :=
  match splitArrow line with
  | none => Outcome.err (.missingArrow line)
  | some (production, rule) =>
    let production := trim production
    if !production.all isAsciiUpper then Outcome.err (.badLabel production)
    else do
      let nodes ← parseNodes (splitSpaces [] (trim rule))
      pure ⟨String.ofList production, nodes⟩

/-- `lines.map(parse_line).collect::<Result<Vec<_>, _>>()`. -/
def parseLines : List (List Char) → Outcome Error (List (Rule Nat String))
  | [] => pure []
  | l :: ls => do
    let r ← parseLine l
    let rs ← parseLines ls
    pure (r :: rs)

/-- grammar.rs:68-106 `from_grammar_str`. -/
def fromGrammarStr (s : String) : Outcome Error (Grammar Nat String) := do
  let rules ← parseLines (lines s.toList)
  pure ⟨rules⟩

end GrammarText
end Verif
