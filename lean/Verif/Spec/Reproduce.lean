import Mathlib.Data.List.Forall2
import Mathlib.Data.Option.Basic
import Verif.Model.CodeGen

/-!
# Specification: the same generated code up to order

Generated code consists of functions with `match` expressions. Two parsers are the same up to order if they differ only
in the order of arms of a `match`, of the alternatives `State::S1(..) | State::S2(..)` of a pattern over states, and of
the patterns counted by the debug check.
-/

namespace Verif.Spec

/-- The same elements, in another order, up to a relation. -/
def SameElems {α : Type} (R : α → α → Prop) (l l' : List α) : Prop := ∃ m, l.Perm m ∧ List.Forall₂ R m l'

/-- A node is popped in the same way: the same variable, the same variant taken apart, the same states. -/
structure SamePop (p p' : PopStep) : Prop where
  node : p.node = p'.node
  variant : p.variant = p'.variant
  states : p.states.Perm p'.states

/-- An arm of the `match` that ends a reduction: the same next state from the same states. -/
structure SameGotoArm (a a' : Nat × List Nat) : Prop where
  next : a.1 = a'.1
  states : a.2.Perm a'.2

/-- The same end of a reduction. -/
inductive SameGoto : GotoCode → GotoCode → Prop
  | direct (next : Nat) : SameGoto (.direct next) (.direct next)
  | select {arms arms' : List (Nat × List Nat)} : SameElems SameGotoArm arms arms' → SameGoto (.select arms) (.select arms')

/-- The same arm that reduces. -/
structure SameReduce (a a' : ReduceArm) : Prop where
  matchers : a.matchers = a'.matchers
  pops : List.Forall₂ SamePop a.pops a'.pops
  ctor : a.ctor = a'.ctor
  goto : SameGoto a.goto a'.goto

/-- The same arm that accepts. -/
structure SameAccept (a a' : AcceptArm) : Prop where
  matcher : a.matcher = a'.matcher
  pops : List.Forall₂ SamePop a.pops a'.pops
  ctor : a.ctor = a'.ctor

/-- The same function of a state. -/
structure SameState (c c' : StateCode) : Prop where
  overlap : c.overlap.Perm c'.overlap
  shifts : c.shifts = c'.shifts
  reduces : SameElems SameReduce c.reduces c'.reduces
  accept : Option.Rel SameAccept c.accept c'.accept

/-- The same parser up to order: the states, their numbers and their types are the same. -/
structure SameProgram (p p' : Program) : Prop where
  stateTypes : p.stateTypes = p'.stateTypes
  states : List.Forall₂ SameState p.states p'.states
  resultType : p.resultType = p'.resultType

end Verif.Spec
