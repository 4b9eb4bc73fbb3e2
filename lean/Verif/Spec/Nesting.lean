import Verif.Spec.LR
import Mathlib.Logic.Relation
import Mathlib.Data.List.Dedup

/-!
# Specification: grammars whose recursion is left recursion

Independent of the code. A label *uses* another one if one of its rules mentions it, and uses it *after*
something if the mention is not the first symbol of the rule. Recursion is left recursion when no label comes
back to itself through a use after something. Textbooks advise to write lists that way, for the stack of a
shift-reduce parser then has a fixed size, whereas the input may have any length.
-/

namespace Verif.Spec

variable {T L : Type}

/-- A rule of `l` mentions `l'`. -/
def Uses (P : List (Rule T L)) (l l' : L) : Prop := ∃ r ∈ P, r.symbol = l ∧ .production l' ∈ rhs r

/-- A rule of `l` mentions `l'` after some other symbol. -/
def UsesAfter (P : List (Rule T L)) (l l' : L) : Prop :=
  ∃ r ∈ P, r.symbol = l ∧ ∃ a b, a ≠ [] ∧ rhs r = a ++ .production l' :: b

/-- All recursion is left recursion. -/
def LeftOnly (P : List (Rule T L)) : Prop :=
  ∀ l l', UsesAfter P l l' → ¬ Relation.ReflTransGen (Uses P) l' l

/-- The length of the longest rule, not counting epsilon. -/
def longest (P : List (Rule T L)) : Nat := (P.map fun r => (rhs r).length).foldr max 0

/-- The number of labels that have a rule. -/
def labelCount [DecidableEq L] (P : List (Rule T L)) : Nat := (P.map Rule.symbol).dedup.length

end Verif.Spec
