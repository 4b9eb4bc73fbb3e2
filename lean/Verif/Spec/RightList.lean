import Verif.Spec.SepList

/-!
# Specification: lists with a separating token, with the label of the list on the right
-/

namespace Verif.Spec

variable {T L : Type}

/-- `RightList S X l k P`: the first rule is `S -> X`, the rules of `X` are `X -> l` and `X -> l k X`, each written once, and
the token `k` is not used below the label `l`. -/
structure RightList (S X l : L) (k : T) (P : List (Rule T L)) : Prop where
  ne : S ≠ X
  root : P[0]? = some ⟨S, [.production X]⟩
  one : ⟨X, [.production l]⟩ ∈ P
  more : ⟨X, [.production l, .terminal (.token k), .production X]⟩ ∈ P
  only : ∀ r ∈ P, r.symbol = X →
    r.rule = [.production l] ∨ r.rule = [.production l, .terminal (.token k), .production X]
  once : ∀ (i j : Nat) r, P[i]? = some r → P[j]? = some r → r.symbol = X → i = j
  own : NotBelow P l k

end Verif.Spec
