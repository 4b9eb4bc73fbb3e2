import Verif.Spec.Forms

/-!
# Specification: lists of items with a separating token
-/

namespace Verif.Spec

variable {T L : Type}

/-- `SepList S X l k P`: the first rule is `S -> X`, the rules of `X` are `X -> l` and `X -> X k l`, each written once, and
the token `k` is not used below the label `l`. -/
structure SepList (S X l : L) (k : T) (P : List (Rule T L)) : Prop where
  ne : S ≠ X
  root : P[0]? = some ⟨S, [.production X]⟩
  one : ⟨X, [.production l]⟩ ∈ P
  more : ⟨X, [.production X, .terminal (.token k), .production l]⟩ ∈ P
  only : ∀ r ∈ P, r.symbol = X →
    r.rule = [.production l] ∨ r.rule = [.production X, .terminal (.token k), .production l]
  once : ∀ (i j : Nat) r, P[i]? = some r → P[j]? = some r → r.symbol = X → i = j
  own : NotBelow P l k

/-- Sequences of what the label `l` derives, with the token `k` between two of them. -/
inductive SepItems (P : List (Rule T L)) (l : L) (k : T) : List T → Prop
  | one {u : List T} : Derives P [.production l] u → SepItems P l k u
  | snoc {v u : List T} : SepItems P l k v → Derives P [.production l] u → SepItems P l k (v ++ k :: u)

end Verif.Spec
