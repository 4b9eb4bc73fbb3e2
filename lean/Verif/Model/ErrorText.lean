import Verif.Model.Annotated
import Verif.Model.Display

/-!
# Model of the texts of errors (`lr_table/src/error.rs`, `vocabulary.rs`, `terminal.rs`, `production_ref.rs`)

Texts are lists of characters. `{:?}` of labels and `to_string` of tokens are parameters, since they are chosen by the
user of `lr_table`; for the macro they are given below.
-/

set_option autoImplicit false

namespace Verif.ErrorText

/-- `Itertools::join(", ")`. -/
def joinComma : List (List Char) → List Char
  | [] => []
  | [s] => s
  | s :: ss => s ++ ',' :: ' ' :: joinComma ss

/-- indexed_grammar.rs:29-33 `Debug for ProductionRuleId`. -/
def ruleId (n : Nat) : List Char := "RuleId(".toList ++ (Display.decimal n ++ [')'])

/-- vocabulary.rs:68-76 `Display for AugmentedVocabToken`. -/
def augTok {T : Type} (token : T → List Char) : AugTok T → List Char
  | .token t => token t
  | .epsilon => ['ε']
  | .eos => ['$']

/-- error.rs:117-150 `Display for LRTableError` with :14-25 `Display for BuildGrammarError` and the text of
`NotConnected` (indexed_grammar.rs:346-353). The labels of the last are in the order in which the `HashMap` `label_map`
yields them: which one is not fixed by the model of errors (see `Reordered`). -/
def text {T L : Type} (token : T → List Char) (label : L → List Char) : LRTableError T L → List Char
  | .emptyGrammar => "Build grammar error: grammar is empty".toList
  | .rootProductionRepeated => "Build grammar error: the root production has multiple rules".toList
  | .rootProductionReferenced => "Build grammar error: the root production is referenced by another rule".toList
  | .notConnected ls =>
    "Build grammar error: The grammar is not fully connected: Rules disconnected: ".toList ++ joinComma (ls.map label)
  | .unrecognizedLabel l => "Unrecognized label \"".toList ++ (label l ++ ['"'])
  | .shiftConflict t => "Shift conflict for lookahead ".toList ++ augTok token t
  | .shiftReduceConflict r t =>
    "Shift/reduce conflict with rule ".toList ++ (ruleId r ++ (" and lookahead ".toList ++ augTok token t))
  | .reduceConflict r1 r2 t =>
    "Reduce conflict between rule ".toList ++ (ruleId r1 ++ (" and rule ".toList ++ (ruleId r2 ++
      (" with lookahead ".toList ++ augTok token t))))
  | .unresolvedStates => "Unresolved states while building the LR state map".toList
  | .stateResolveConflict => "Conflict resolving states while building the LR state map".toList

/-- terminal.rs:129-138 `Display for UserDefinedSymbol`. -/
def sym (s : Sym) : List Char :=
  s.name.toList ++
    match s.paren with
    | .pattern pat => '(' :: (pat.toList ++ [')'])
    | .wildcard => ['(', '.', '.', ')']
    | .none => []

/-- production_ref.rs:52-56 `Debug for ProductionRefName`. -/
def refName (name : String) : List Char := '<' :: (name.toList ++ ['>'])

/-- parse_grammar.rs:246-249 with error.rs:23-25 (of the macro) `from_foreign_error`: the message of the macro for an
error of `lr_table`. -/
def tableMessage (e : LRTableError Sym String) : List Char := text sym refName e

end Verif.ErrorText
