import Verif.Spec.LR
import Verif.Spec.LL

/-!
# Specification: LR(0), SLR(1) and LALR(1) grammars

The definitions of the textbooks; independent of the code. These parsers have fewer states than LR(1) parsers: what has been
read counts only as far as the items without lookaheads are concerned. They differ in the lookaheads for reductions.
-/

set_option autoImplicit false

namespace Verif.Spec

variable {T L : Type}

/-- `DemandsBy P look γ t a`: some item valid after `γ` demands action `a` on lookahead `t`, where rule `i` is reduced on
the lookaheads `look γ i`. -/
inductive DemandsBy (P : List (Rule T L)) (look : List (Node T L) → Nat → AugTok T → Prop) (γ : List (Node T L))
    (t : AugTok T) : Act → Prop
  | shift {i d : Nat} {r : Rule T L} {β : List (Node T L)} :
      Valid P γ i d → P[i]? = some r → (rhs r).drop d = .terminal t :: β → DemandsBy P look γ t .shift
  | reduce {i : Nat} {r : Rule T L} :
      P[i]? = some r → i ≠ 0 → Valid P γ i (rhs r).length → look γ i t → DemandsBy P look γ t (.reduce i)
  | accept {r : Rule T L} :
      P[0]? = some r → t = .eos → Valid P γ 0 (rhs r).length → DemandsBy P look γ t .accept

/-- No two different actions are ever demanded on the same lookahead. -/
def NoConflictBy (P : List (Rule T L)) (look : List (Node T L) → Nat → AugTok T → Prop) : Prop :=
  ∀ γ t a b, DemandsBy P look γ t a → DemandsBy P look γ t b → a = b

/-- LR(0): reductions do not look at the next token. -/
def LR0 (P : List (Rule T L)) : Prop := NoConflictBy P fun _ _ t => t ≠ .epsilon

/-- SLR(1): a rule is reduced if its label may be followed by the next token somewhere. -/
def SLR1 (P : List (Rule T L)) : Prop := NoConflictBy P fun _ i t => ∃ r, P[i]? = some r ∧ Follow P r.symbol t

/-- The same items are valid after `γ` and after `γ'`: one state of the LR(0) automaton. -/
def SameCore (P : List (Rule T L)) (γ γ' : List (Node T L)) : Prop := ∀ i d, Valid P γ i d ↔ Valid P γ' i d

/-- LALR(1): the states of the LR(1) parser with the same items are merged. -/
def LALR1 (P : List (Rule T L)) : Prop :=
  NoConflictBy P fun γ i t => ∃ γ' r, P[i]? = some r ∧ SameCore P γ γ' ∧ ValidLook P (InFirst P) γ' i (rhs r).length t

end Verif.Spec
