import Verif.Model.Runtime

/-!
# Specification: more rules
-/

namespace Verif.Spec

/-- `Extends ρ rs rs'`: the rules of `rs` are among those of `rs'`. The rule number `i` of `rs` is the rule number `ρ i`
of `rs'`, the first one stays the first. -/
structure Extends {α : Type} (ρ : Nat → Nat) (rs rs' : List α) : Prop where
  root : ρ 0 = 0
  inj : ∀ i j, ρ i = ρ j → i = j
  get : ∀ i r, rs[i]? = some r → rs'[ρ i]? = some r

/-- The rules that were there before keep their constructors. -/
structure KeptMeaning {P V E σ : Type} (ρ : Nat → Nat) (sem sem' : Sem P V E σ) : Prop where
  litVal : sem'.litVal = sem.litVal
  pat : sem'.pat = sem.pat
  body : ∀ i, sem'.body (ρ i) = sem.body i
  conv : ∀ i, sem'.conv (ρ i) = sem.conv i

end Verif.Spec
