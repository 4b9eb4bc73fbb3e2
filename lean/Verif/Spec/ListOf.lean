import Verif.Spec.Forms

/-!
# Specification: lists of items that are each closed by a token of their own
-/

namespace Verif.Spec

variable {T L : Type}

/-- `ListOf S X l k P`: the first rule is `S -> X`, the rules of `X` are `X -> !` and `X -> X l k`, each written once, and
the token `k` is not used below the label `l`. -/
structure ListOf (S X l : L) (k : T) (P : List (Rule T L)) : Prop where
  ne : S ≠ X
  root : P[0]? = some ⟨S, [.production X]⟩
  empty : ⟨X, [.terminal .epsilon]⟩ ∈ P
  more : ⟨X, [.production X, .production l, .terminal (.token k)]⟩ ∈ P
  only : ∀ r ∈ P, r.symbol = X →
    r.rule = [.terminal .epsilon] ∨ r.rule = [.production X, .production l, .terminal (.token k)]
  once : ∀ (i j : Nat) r, P[i]? = some r → P[j]? = some r → r.symbol = X → i = j
  own : NotBelow P l k

/-- Sequences of what the label `l` derives, each followed by the token `k`. -/
inductive Items (P : List (Rule T L)) (l : L) (k : T) : List T → Prop
  | nil : Items P l k []
  | snoc {v u : List T} : Items P l k v → Derives P [.production l] u → Items P l k (v ++ u ++ [k])

end Verif.Spec
