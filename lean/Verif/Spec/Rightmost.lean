import Verif.Spec.Machine

/-!
# Specification: rightmost derivations and the LR(1) property
-/

namespace Verif.Spec

variable {T L : Type}

/-- A token sequence as nodes. -/
def tokNodes (v : List T) : List (Node T L) := v.map fun t => .terminal (.token t)

/-- `RmStep P i α β`: the last label of `α` is replaced by the symbols of rule `i`. -/
inductive RmStep (P : List (Rule T L)) (i : Nat) : List (Node T L) → List (Node T L) → Prop
  | mk {x : List (Node T L)} {y : List T} {r : Rule T L} : P[i]? = some r →
      RmStep P i (x ++ .production r.symbol :: tokNodes y) (x ++ rhs r ++ tokNodes y)

/-- Rightmost derivations, with the rules used. -/
inductive RmSteps (P : List (Rule T L)) : List Nat → List (Node T L) → List (Node T L) → Prop
  | refl (α : List (Node T L)) : RmSteps P [] α α
  | step {i : Nat} {is : List Nat} {α β γ : List (Node T L)} :
      RmStep P i α β → RmSteps P is β γ → RmSteps P (i :: is) α γ

/-- `Handle P i x y`: the symbols of rule `i`, preceded by `x` and followed by the tokens `y`, form a right
sentential form obtained by applying rule `i` last. -/
def Handle (P : List (Rule T L)) (i : Nat) (x : List (Node T L)) (y : List T) : Prop :=
  ∃ root r is, P[0]? = some root ∧ P[i]? = some r ∧
    RmSteps P is [.production root.symbol] (x ++ .production r.symbol :: tokNodes y)

/-- Knuth's condition fails: after the same symbols `γ` and with the same first token of the rest (or the
end, in both cases), one right sentential form requires the reduction of rule `i` at the end of `γ` and the
other one requires something else. -/
def NotLR1 (P : List (Rule T L)) : Prop :=
  ∃ (γ : List (Node T L)) (i : Nat) (r : Rule T L) (x : List (Node T L)) (w : List T)
    (j : Nat) (r' : Rule T L) (x' : List (Node T L)) (w' : List T) (y : List T),
    P[i]? = some r ∧ P[j]? = some r' ∧ Handle P i x w ∧ Handle P j x' w' ∧
    γ = x ++ rhs r ∧ γ ++ tokNodes y = x' ++ rhs r' ++ tokNodes w' ∧ w.head? = y.head? ∧
    (i ≠ j ∨ w' ≠ y)

/-- Every label derives some token sequence. -/
def Productive (P : List (Rule T L)) : Prop := ∀ r ∈ P, ∃ w, Derives P [.production r.symbol] w

end Verif.Spec
