import Verif.Model.FixedMap

/-!
# Model of `lr_table/src/grammar.rs` and of the token type of `lr_table/src/vocabulary.rs`
-/

namespace Verif

/-- vocabulary.rs:26-31 `AugmentedVocabToken<T>`. -/
inductive AugTok (T : Type) where
  | token (t : T)
  | epsilon
  | eos
deriving DecidableEq, Repr

/-- vocabulary.rs:33-40 `AugmentedVocabToken::token`. -/
def AugTok.token? {T : Type} : AugTok T → Option T
  | .token t => some t
  | .epsilon => none
  | .eos => none

/-- grammar.rs:8-12 `ProductionNode<T, L>`. -/
inductive Node (T L : Type) where
  | terminal (t : AugTok T)
  | production (l : L)
deriving DecidableEq, Repr

/-- grammar.rs:15-17 `ProductionNode::is_epsilon`. -/
def Node.isEpsilon {T L : Type} : Node T L → Bool
  | .terminal .epsilon => true
  | _ => false

/-- grammar.rs:20-24 `ProductionRule<T, L>`. -/
structure Rule (T L : Type) where
  symbol : L
  rule : List (Node T L)
deriving DecidableEq, Repr

/-- grammar.rs:39-41 `ProductionRule::rules_excluding_epsilon`. -/
def Rule.excludingEpsilon {T L : Type} (r : Rule T L) : List (Node T L) :=
  r.rule.filter fun n => !n.isEpsilon

/-- grammar.rs:49-65 `Grammar<T, L>`; `ProductionRuleIndex` is an index into `productions`. -/
structure Grammar (T L : Type) where
  productions : List (Rule T L)
deriving DecidableEq, Repr

end Verif
