import Verif.Spec.Forms

/-!
# Specification: something before any number of postfix operators
-/

namespace Verif.Spec

variable {T L : Type}

/-- `Postfixed S X l k P`: the first rule is `S -> X`, the rules of `X` are `X -> l` and `X -> X k`, each written once, and the
token `k` is not used below the label `l`. -/
structure Postfixed (S X l : L) (k : T) (P : List (Rule T L)) : Prop where
  ne : S ≠ X
  root : P[0]? = some ⟨S, [.production X]⟩
  one : ⟨X, [.production l]⟩ ∈ P
  more : ⟨X, [.production X, .terminal (.token k)]⟩ ∈ P
  only : ∀ r ∈ P, r.symbol = X →
    r.rule = [.production l] ∨ r.rule = [.production X, .terminal (.token k)]
  once : ∀ (i j : Nat) r, P[i]? = some r → P[j]? = some r → r.symbol = X → i = j
  own : NotBelow P l k

/-- What the label derives, before any number of operators. -/
inductive BeforePostfixes (P : List (Rule T L)) (l : L) (k : T) : List T → Prop
  | one {w : List T} : Derives P [.production l] w → BeforePostfixes P l k w
  | more {w : List T} : BeforePostfixes P l k w → BeforePostfixes P l k (w ++ [k])

end Verif.Spec
