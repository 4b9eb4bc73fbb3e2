import Verif.Spec.Rightmost
import Verif.Model.Runtime

/-!
# Specification: another label as the root
-/

namespace Verif.Spec

variable {T L : Type}

/-- `RootedAt ρ l P P'`: the first rule of `P'` is `s -> l` for a label `s` that its other rules do not use. These are
exactly the rules of `P` for the labels that can be reached from `l`. The rule number `i` of `P'` is the rule
number `ρ i` of `P`. -/
structure RootedAt (ρ : Nat → Nat) (s l : L) (P P' : List (Rule T L)) : Prop where
  root : P'[0]? = some ⟨s, [.production l]⟩
  fresh : ∀ i r, i ≠ 0 → P'[i]? = some r → r.symbol ≠ s ∧ .production s ∉ r.rule
  get : ∀ i r, i ≠ 0 → P'[i]? = some r → P[ρ i]? = some r
  inj : ∀ i j, i ≠ 0 → j ≠ 0 → ρ i = ρ j → i = j
  reach : ∀ i r, i ≠ 0 → P'[i]? = some r → Reachable P l r.symbol
  all : ∀ j r, P[j]? = some r → Reachable P l r.symbol → ∃ i, i ≠ 0 ∧ ρ i = j ∧ P'[i]? = some r

/-- The same for grammar files: the rules have the types and constructors they had, and the terminals are the same. -/
structure RootedFile (ρ : Nat → Nat) (s l : String) (gi gi' : GrammarInfo) : Prop where
  grammar : RootedAt ρ s l gi.grammar.productions gi'.grammar.productions
  rules : ∀ i r, i ≠ 0 → gi'.productionRules[i]? = some r → gi.productionRules[ρ i]? = some r
  terminals : gi'.terminalType = gi.terminalType

/-- The rules other than the new one keep their constructors. -/
structure KeptBelow {P V E σ : Type} (ρ : Nat → Nat) (sem sem' : Sem P V E σ) : Prop where
  litVal : sem'.litVal = sem.litVal
  pat : sem'.pat = sem.pat
  body : ∀ i, i ≠ 0 → sem'.body i = sem.body (ρ i)
  conv : ∀ i, i ≠ 0 → sem'.conv i = sem.conv (ρ i)

end Verif.Spec
