import Verif.Spec.LR
import Mathlib.Logic.Relation

/-!
# Specification: well-known mistakes in grammars

Independent of the code. Each of them makes a grammar ambiguous.
-/

set_option autoImplicit false

namespace Verif.Spec

variable {T L : Type}

/-- The same rule is given twice. -/
def Twice (P : List (Rule T L)) : Prop :=
  ∃ (i j : Nat) (r r' : Rule T L), i ≠ j ∧ P[i]? = some r ∧ P[j]? = some r' ∧ r.symbol = r'.symbol ∧ rhs r = rhs r'

/-- A rule of `l` can be just `l'`: what stands beside it can vanish. -/
def Turns (P : List (Rule T L)) (l l' : L) : Prop :=
  ∃ (r : Rule T L) (a b : List (Node T L)), r ∈ P ∧ r.symbol = l ∧ r.rule = a ++ .production l' :: b ∧
    Derives P a [] ∧ Derives P b []

/-- A label that is, in some steps, a name for itself. -/
def Circle (P : List (Rule T L)) : Prop := ∃ l, Relation.TransGen (Turns P) l l

/-- A label with a rule that ends with the label and a rule, maybe the same, that begins with it: `E -> E + E`, or
`E -> - E | E + n`. -/
def BothSides (P : List (Rule T L)) : Prop :=
  ∃ (i j : Nat) (r r' : Rule T L) (α β : List (Node T L)), P[i]? = some r ∧ P[j]? = some r' ∧ r.symbol = r'.symbol ∧
    rhs r = α ++ [.production r.symbol] ∧ rhs r' = .production r.symbol :: β

/-- The dangling else: a rule that ends with its label and another rule that goes on, `S -> if S | if S else S`. -/
def Dangling (P : List (Rule T L)) : Prop :=
  ∃ (i j : Nat) (r r' : Rule T L) (α β : List (Node T L)), i ≠ j ∧ P[i]? = some r ∧ P[j]? = some r' ∧
    r.symbol = r'.symbol ∧ rhs r = α ++ [.production r.symbol] ∧ rhs r' = α ++ .production r.symbol :: β

/-- One of these mistakes. -/
def Mistake (P : List (Rule T L)) : Prop := Twice P ∨ Circle P ∨ BothSides P ∨ Dangling P

end Verif.Spec
