import Verif.Spec.Forms

/-!
# Specification: something after any number of prefix operators
-/

namespace Verif.Spec

variable {T L : Type}

/-- `Prefixed S X l o P`: the first rule is `S -> X`, the rules of `X` are `X -> l` and `X -> o X`, each written once, and the
token `o` is not used below the label `l`. -/
structure Prefixed (S X l : L) (o : T) (P : List (Rule T L)) : Prop where
  ne : S ≠ X
  root : P[0]? = some ⟨S, [.production X]⟩
  one : ⟨X, [.production l]⟩ ∈ P
  more : ⟨X, [.terminal (.token o), .production X]⟩ ∈ P
  only : ∀ r ∈ P, r.symbol = X →
    r.rule = [.production l] ∨ r.rule = [.terminal (.token o), .production X]
  once : ∀ (i j : Nat) r, P[i]? = some r → P[j]? = some r → r.symbol = X → i = j
  opens : NotBelow P l o

/-- What the label derives, after any number of operators. -/
inductive AfterPrefixes (P : List (Rule T L)) (l : L) (o : T) : List T → Prop
  | one {w : List T} : Derives P [.production l] w → AfterPrefixes P l o w
  | more {w : List T} : AfterPrefixes P l o w → AfterPrefixes P l o (o :: w)

end Verif.Spec
