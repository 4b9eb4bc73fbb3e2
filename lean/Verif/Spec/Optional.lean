import Verif.Spec.Label
import Verif.Spec.Rightmost

/-!
# Specification: something optional
-/

namespace Verif.Spec

variable {T L : Type}

/-- `Optional S X l P`: the first rule is `S -> X`, the rules of `X` are `X -> !` and `X -> l`, each written once, and `X` is
not used below the label `l`. -/
structure Optional (S X l : L) (P : List (Rule T L)) : Prop where
  ne : S ≠ X
  root : P[0]? = some ⟨S, [.production X]⟩
  empty : ⟨X, [.terminal .epsilon]⟩ ∈ P
  one : ⟨X, [.production l]⟩ ∈ P
  only : ∀ r ∈ P, r.symbol = X → r.rule = [.terminal .epsilon] ∨ r.rule = [.production l]
  once : ∀ (i j : Nat) r, P[i]? = some r → P[j]? = some r → r.symbol = X → i = j
  own : ¬ Reachable P l X

end Verif.Spec
