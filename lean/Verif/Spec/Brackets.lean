import Verif.Spec.Forms

/-!
# Specification: something in any number of brackets
-/

namespace Verif.Spec

variable {T L : Type}

/-- `Brackets S X l o c P`: the first rule is `S -> X`, the rules of `X` are `X -> l` and `X -> o X c`, each written once, and
the different tokens `o` and `c` are not used below the label `l`. -/
structure Brackets (S X l : L) (o c : T) (P : List (Rule T L)) : Prop where
  ne : S ≠ X
  apart : o ≠ c
  root : P[0]? = some ⟨S, [.production X]⟩
  one : ⟨X, [.production l]⟩ ∈ P
  more : ⟨X, [.terminal (.token o), .production X, .terminal (.token c)]⟩ ∈ P
  only : ∀ r ∈ P, r.symbol = X →
    r.rule = [.production l] ∨ r.rule = [.terminal (.token o), .production X, .terminal (.token c)]
  once : ∀ (i j : Nat) r, P[i]? = some r → P[j]? = some r → r.symbol = X → i = j
  opens : NotBelow P l o
  closes : NotBelow P l c

/-- What the label derives, in any number of brackets. -/
inductive Bracketed (P : List (Rule T L)) (l : L) (o c : T) : List T → Prop
  | one {w : List T} : Derives P [.production l] w → Bracketed P l o c w
  | more {w : List T} : Bracketed P l o c w → Bracketed P l o c (o :: w ++ [c])

end Verif.Spec
