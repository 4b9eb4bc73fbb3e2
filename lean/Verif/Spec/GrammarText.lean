import Verif.Model.Grammar

/-!
# Specification: the textual form of grammars

One rule per line; a line is a label, an arrow and nodes, with white space around label and nodes. Labels and
references are words of capital letters, terminals are single ASCII characters, `!` is epsilon.
-/

namespace Verif.Spec

/-- White space of Unicode. -/
def whiteSpace : List Nat :=
  [0x9, 0xa, 0xb, 0xc, 0xd, 0x20, 0x85, 0xa0, 0x1680, 0x2000, 0x2001, 0x2002, 0x2003, 0x2004, 0x2005, 0x2006,
   0x2007, 0x2008, 0x2009, 0x200a, 0x2028, 0x2029, 0x202f, 0x205f, 0x3000]

/-- Only white space. -/
def Blank (s : List Char) : Prop := ∀ c ∈ s, c.toNat ∈ whiteSpace

/-- ASCII white space that separates nodes; at least one character. -/
def Gap (s : List Char) : Prop := s ≠ [] ∧ ∀ c ∈ s, c.toNat ∈ [0x9, 0xa, 0xc, 0xd, 0x20]

/-- Only capital letters. -/
def Capitals (s : List Char) : Prop := ∀ c ∈ s, 65 ≤ c.toNat ∧ c.toNat ≤ 90

/-- How nodes are written. White space, `!` and capital letters are not available as terminals. -/
inductive NodeText : List Char → Node Nat String → Prop
  | epsilon : NodeText ['!'] (.terminal .epsilon)
  | label {s : List Char} : s ≠ [] → Capitals s → NodeText s (.production (String.ofList s))
  | terminal {c : Char} : c.toNat < 128 → c ≠ '!' → ¬ (65 ≤ c.toNat ∧ c.toNat ≤ 90) →
      c.toNat ∉ [0x9, 0xa, 0xc, 0xd, 0x20] → NodeText [c] (.terminal (.token c.toNat))

/-- Nodes with gaps between them. -/
inductive NodesText : List Char → List (Node Nat String) → Prop
  | one {s : List Char} {n : Node Nat String} : NodeText s n → NodesText s [n]
  | more {s gap rest : List Char} {n : Node Nat String} {ns : List (Node Nat String)} :
      NodeText s n → Gap gap → NodesText rest ns → NodesText (s ++ gap ++ rest) (n :: ns)

/-- No white space at either end. -/
def Trimmed (s : List Char) : Prop :=
  (∀ c, s.head? = some c → c.toNat ∉ whiteSpace) ∧ ∀ c, s.getLast? = some c → c.toNat ∉ whiteSpace

/-- The right-hand side of a rule. (A vertical tab is white space but does not separate nodes: it is a terminal
unless it is the first or the last node.) -/
inductive BodyText : List Char → List (Node Nat String) → Prop
  | empty {s : List Char} : Blank s → BodyText s []
  | nodes {s t u : List Char} {ns : List (Node Nat String)} :
      Blank s → NodesText t ns → Trimmed t → Blank u → BodyText (s ++ t ++ u) ns

/-- How a rule is written. -/
inductive LineText : List Char → Rule Nat String → Prop
  | mk {s label t body : List Char} {ns : List (Node Nat String)} :
      Blank s → Capitals label → Blank t → BodyText body ns →
      LineText (s ++ label ++ t ++ ['-', '>'] ++ body) ⟨String.ofList label, ns⟩

/-- How grammars are written. The end of the last line may be missing. -/
inductive GrammarText : List Char → List (Rule Nat String) → Prop
  | nil : GrammarText [] []
  | last {line : List Char} {r : Rule Nat String} : '\n' ∉ line → LineText line r → GrammarText line [r]
  | line {line rest : List Char} {r : Rule Nat String} {rs : List (Rule Nat String)} :
      '\n' ∉ line → LineText line r → GrammarText rest rs → GrammarText (line ++ '\n' :: rest) (r :: rs)

end Verif.Spec
