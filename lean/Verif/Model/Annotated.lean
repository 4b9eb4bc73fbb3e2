import Verif.Model.TokenStream
import Verif.Model.StateMap

/-!
# Data of `parser_generator_impl/src/annotated_grammar`

Symbol metadata (spans, source tokens) is kept only where the code looks at it (types, constructors).
-/

namespace Verif

/-- terminal.rs:55-60 `ParenGroup`. -/
inductive ParenGroup where
  | pattern (text : String)
  | wildcard
  | none
deriving DecidableEq, Repr

/-- terminal.rs:62-66 `UserDefinedSymbol`. -/
structure Sym where
  name : String
  paren : ParenGroup
deriving DecidableEq, Repr

/-- terminal.rs:77-79 `is_wildcard`. -/
def Sym.isWildcard (s : Sym) : Bool := s.paren == .wildcard

/-- terminal.rs:81-83 `is_pattern`. -/
def Sym.isPattern (s : Sym) : Bool :=
  match s.paren with
  | .pattern _ => true
  | _ => false

/-- production_node.rs:11-14 `ProductionNode` with terminal.rs:140-144 `TerminalSymbol`; a
`ProductionRefName` is a string. -/
inductive ANode where
  | production (name : String)
  | symbol (s : Sym)
  | epsilon
deriving DecidableEq, Repr

namespace ANode

/-- production_node.rs:24-35 `to_lr_node`, terminal.rs:239-246. -/
def toLrNode : ANode → Node Sym String
  | .production name => .production name
  | .symbol s => .terminal (.token s)
  | .epsilon => .terminal .epsilon

/-- production_node.rs:37-42 `is_epsilon`. -/
def isEpsilon : ANode → Bool
  | .epsilon => true
  | _ => false

end ANode

/-- production_rule.rs:41-47 `ProductionRule`: name, type, nodes, constructor (delimiter and contents). A
type (type_symbol.rs) is the token stream it was written as. -/
structure ARule where
  name : String
  returnType : Option TokenStream
  rule : List ANode
  block : Option (Delim × TokenStream)
deriving DecidableEq, Repr

/-- production_rule.rs:50-57 `to_lr_production_rule`. -/
def ARule.toLr (r : ARule) : Rule Sym String := ⟨r.name, r.rule.map ANode.toLrNode⟩

/-- parse_grammar.rs:71-74 `TerminalType`. -/
inductive TerminalType where
  | raw (ty : TokenStream)
  | enum (ty : TokenStream)
deriving DecidableEq, Repr

/-- parse_grammar.rs:127-135 `GrammarInfo`. `errorType` is `none` for `ErrorType::None`; `labelTypes` is the
`LabelTypeMap` (label_type_map.rs:15-18), an association list. -/
structure GrammarInfo where
  name : String
  terminalType : TerminalType
  errorType : Option TokenStream
  labelTypes : List (String × Option TokenStream)
  productionRules : List ARule
  indexedGrammar : IndexedGrammar Sym String
  lrTable : LRTable

/-- Errors reported by the macro (`ParserGeneratorError`), without their text and place. -/
inductive MacroError where
  | unexpectedEnd
  | unexpectedToken
  | groupWithoutDelimiter
  | badIdentifier
  | badLiteral
  | epsilonNotAlone
  | typeMismatch
  | table (e : LRTableError Sym String)
  | patternForLiteral
  | constructorMissing
  | constructorDelimiter
  | unknownLabel
  | ambiguousLabel
  | badIndex
  | indexOutOfRange
  | indexOfEpsilon
  | danglingNumberSign
deriving DecidableEq, Repr

/-- `result.map_err(f)`. -/
def Outcome.mapErr {ε ε' α : Type} (f : ε → ε') : Outcome ε α → Outcome ε' α
  | .ok a => .ok a
  | .err e => .err (f e)
  | .panic => .panic
  | .ub => .ub
  | .timeout => .timeout

namespace GrammarInfo

/-- parse_grammar.rs:150-152 `label_type` with label_type_map.rs:25-27 `get` (indexing a `HashMap` panics
for missing keys). -/
def labelType {ε : Type} (gi : GrammarInfo) (label : String) : Outcome ε (Option TokenStream) :=
  Outcome.unwrap (gi.labelTypes.lookup label)

/-- parse_grammar.rs:154-156 `production_rule`. -/
def productionRule {ε : Type} (gi : GrammarInfo) (index : Nat) : Outcome ε ARule :=
  Outcome.index gi.productionRules index

/-- parse_grammar.rs:239-244: the grammar handed to `lr_table`. -/
def grammar (gi : GrammarInfo) : Grammar Sym String := ⟨gi.productionRules.map ARule.toLr⟩

end GrammarInfo
end Verif
