import Mathlib.Logic.Equiv.Defs
import Verif.Model.Runtime

/-!
# Specification: rules in another order
-/

namespace Verif.Spec

/-- `Reordered π rs rs'`: `rs'` are the rules of `rs` in another order, the first one is the same. The rule number `i`
becomes the rule number `π i`. -/
structure Reordered {α : Type} (π : Equiv.Perm Nat) (rs rs' : List α) : Prop where
  root : π 0 = 0
  get : ∀ i, rs'[π i]? = rs[i]?

/-- The constructors of the rules have moved with the rules. -/
structure SameMeaning {P V E σ : Type} (π : Equiv.Perm Nat) (sem sem' : Sem P V E σ) : Prop where
  litVal : sem'.litVal = sem.litVal
  pat : sem'.pat = sem.pat
  body : ∀ i, sem'.body (π i) = sem.body i
  conv : ∀ i, sem'.conv (π i) = sem.conv i

end Verif.Spec
