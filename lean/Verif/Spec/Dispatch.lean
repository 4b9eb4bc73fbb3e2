import Verif.Spec.Label

/-!
# Specification: alternatives told apart by their first token
-/

namespace Verif.Spec

variable {T L : Type}

/-- `Dispatch S M P`: the first rule is `S -> M`, the rules of `M` are `M -> k l` for tokens `k` and labels `l`, no token
begins two of them, and no other rule mentions `M`. -/
structure Dispatch (S M : L) (P : List (Rule T L)) : Prop where
  root : P[0]? = some ⟨S, [.production M]⟩
  alt : ∀ r ∈ P, r.symbol = M → ∃ k l, r.rule = [.terminal (.token k), .production l]
  apart : ∀ (i j : Nat) (k : T) (l l' : L), P[i]? = some ⟨M, [.terminal (.token k), .production l]⟩ →
    P[j]? = some ⟨M, [.terminal (.token k), .production l']⟩ → i = j
  once : ∀ (i : Nat) r, i ≠ 0 → P[i]? = some r → .production M ∉ r.rule

end Verif.Spec
