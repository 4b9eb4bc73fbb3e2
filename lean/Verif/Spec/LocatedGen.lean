import Verif.Spec.Located
import Verif.Spec.Substitution

/-!
# Where errors in constructors should be
-/

set_option autoImplicit false

namespace Verif.Located

open Verif.Spec

variable {S : Type}

/-- All references in the tokens denote nodes of the rule. -/
def Fine (rule : List ANode) (t : TokenStream) : Prop := ∃ var out used, Replaced var rule t out used

/-- A literal that is a number of at most 64 bits. -/
def Number (text : String) (n : Nat) : Prop :=
  (Numeral text.toList n ∨ ∃ s, text.toList = '+' :: s ∧ Numeral s n) ∧ n < 2 ^ 64

/-- The first reference in the tokens (in reading order) that does not denote a node of the rule: what is wrong with it, and
the place of the name or number (of `#`, if it is followed by something else). -/
inductive BadRef (rule : List ANode) : LTokens S → MacroError → S → Prop
  | unknown {name : String} {a b : S} {rest : LTokens S} : .production name ∉ rule →
      BadRef rule (.punct '#' false a (.ident name b rest)) .unknownLabel b
  | ambiguous {name : String} {i j : Nat} {a b : S} {rest : LTokens S} : i ≠ j →
      rule[i]? = some (.production name) → rule[j]? = some (.production name) →
      BadRef rule (.punct '#' false a (.ident name b rest)) .ambiguousLabel b
  | number {text : String} {a b : S} {rest : LTokens S} : (∀ n, ¬ Number text n) →
      BadRef rule (.punct '#' false a (.literal text b rest)) .badIndex b
  | range {text : String} {n : Nat} {a b : S} {rest : LTokens S} : Number text n → rule.length ≤ n →
      BadRef rule (.punct '#' false a (.literal text b rest)) .indexOutOfRange b
  | epsilon {text : String} {n : Nat} {a b : S} {rest : LTokens S} : Number text n → rule[n]? = some .epsilon →
      BadRef rule (.punct '#' false a (.literal text b rest)) .indexOfEpsilon b
  | nothing {a : S} : BadRef rule (.punct '#' false a .nil) .danglingNumberSign a
  | group {d : Delim} {a b c : S} {inner rest : LTokens S} :
      BadRef rule (.punct '#' false a (.group d b c inner rest)) .danglingNumberSign a
  | punct {ch : Char} {joint : Bool} {a b : S} {rest : LTokens S} :
      BadRef rule (.punct '#' false a (.punct ch joint b rest)) .danglingNumberSign a
  | inGroup {d : Delim} {a b s : S} {k : MacroError} {inner rest : LTokens S} : BadRef rule inner k s →
      BadRef rule (.group d a b inner rest) k s
  | afterGroup {d : Delim} {a b s : S} {k : MacroError} {inner rest : LTokens S} : Fine rule inner.erase →
      BadRef rule rest k s → BadRef rule (.group d a b inner rest) k s
  | afterIdent {name : String} {a s : S} {k : MacroError} {rest : LTokens S} : BadRef rule rest k s →
      BadRef rule (.ident name a rest) k s
  | afterLiteral {text : String} {a s : S} {k : MacroError} {rest : LTokens S} : BadRef rule rest k s →
      BadRef rule (.literal text a rest) k s
  | afterPunct {ch : Char} {joint : Bool} {a s : S} {k : MacroError} {rest : LTokens S} : ch ≠ '#' ∨ joint = true →
      BadRef rule rest k s → BadRef rule (.punct ch joint a rest) k s
  | afterName {name : String} {i : Nat} {a b s : S} {k : MacroError} {rest : LTokens S} : NameRef rule name i →
      BadRef rule rest k s → BadRef rule (.punct '#' false a (.ident name b rest)) k s
  | afterIndex {text : String} {i : Nat} {a b s : S} {k : MacroError} {rest : LTokens S} : IndexRef rule text i →
      BadRef rule rest k s → BadRef rule (.punct '#' false a (.literal text b rest)) k s

/-- A node with its place: that of its first symbol, or from `<` to `>`. -/
def NodeAt (sp : Spans S) (tx : Text) (p : List (LSymbol S)) (n : LNode S) : Prop :=
  NodeSyntax tx (syms p) n.1 ∧
    ((∃ x rest, p = x :: rest ∧ n.2 = x.span ∧ ∀ l, n.1 ≠ .production l) ∨
      ∃ a b c l, p = [a, b, c] ∧ n.2 = sp.merge a.span c.span ∧ n.1 = .production l)

/-- Nodes with their places. -/
inductive NodesFrom (sp : Spans S) (tx : Text) : List (LSymbol S) → List (LNode S) → Prop
  | nil : NodesFrom sp tx [] []
  | cons {p q : List (LSymbol S)} {n : LNode S} {ns : List (LNode S)} : NodeAt sp tx p n → NodesFrom sp tx q ns →
      NodesFrom sp tx (p ++ q) (n :: ns)

/-- A constructor with its place. -/
def BlockAt : List (LSymbol S) → Option (LBlock S) → Prop
  | [], b => b = none
  | [y], b => ∃ d i, y.symbol.sym = .group d i ∧ b = some ⟨d, y.span, y.inner⟩
  | _, _ => False

/-- The rule `r` is written among the symbols of the file, after an arrow or `|` and before `|` or a semicolon. -/
def RuleIn (sp : Spans S) (tx : Text) (items : List (LItem S)) (r : LRule S) : Prop :=
  ∃ p k q blk z rest, items = okItems (p ++ k :: (q ++ (blk ++ [z]))) ++ rest ∧
    (Is (.op .arrow) k.symbol ∨ Is (.op .pipe) k.symbol) ∧ (Is (.op .pipe) z.symbol ∨ Is (.op .semicolon) z.symbol) ∧
    r.rule ≠ [] ∧ NodesFrom sp tx q r.rule ∧ BlockAt blk r.block

end Verif.Located
