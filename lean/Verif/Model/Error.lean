import Verif.Model.Vocabulary

/-!
# Model of `lr_table/src/error.rs`
-/

namespace Verif

/-- error.rs:7-12 `BuildGrammarError` and :41-67 `LRTableError`. Messages are replaced by the data they
are built from (labels, lookahead tokens). `LabelAlreadyExists` is never constructed by the code and
`UnrecognizedToken` is modelled by `Option` where it arises. -/
inductive LRTableError (T L : Type) where
  | emptyGrammar
  | rootProductionRepeated
  | rootProductionReferenced
  | notConnected (labels : List L)
  | unrecognizedLabel (label : L)
  | shiftConflict (lookahead : AugTok T)
  | shiftReduceConflict (rule : Nat) (lookahead : AugTok T)
  | reduceConflict (rule1 rule2 : Nat) (lookahead : AugTok T)
  | unresolvedStates
  | stateResolveConflict
deriving DecidableEq, Repr

end Verif
