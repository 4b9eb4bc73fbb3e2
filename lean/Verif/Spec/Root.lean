import Verif.Spec.LR

/-!
# Specification: root rules within which the root may be read again

Independent of the code.
-/

namespace Verif.Spec

variable {T L : Type}

/-- The root rule names its own label at a place where it is the first symbol or where a token may follow:
reading the root there may go wrong with reading the whole text. -/
def RootOverlaps (P : List (Rule T L)) (first : List (Node T L) → AugTok T → Prop) : Prop :=
  ∃ (r : Rule T L) (d : Nat) (β : List (Node T L)),
    P[0]? = some r ∧ (rhs r).drop d = .production r.symbol :: β ∧ (d = 0 ∨ ∃ k, first β (.token k))

end Verif.Spec
