import Verif.Spec.Label

/-!
# Specification: alternatives whose labels are each followed by a token of their own
-/

namespace Verif.Spec

variable {T L : Type}

/-- No rule for the label `l` or a label below it uses the token `k`. -/
def NotBelow (P : List (Rule T L)) (l : L) (k : T) : Prop :=
  ∀ r ∈ P, Reachable P l r.symbol → .terminal (.token k) ∉ r.rule

/-- `Forms S M P`: the first rule is `S -> M`, and no other rule mentions `M`. If `M` has several rules, each of them begins
with another token. In the rules of `M`, every label is the last symbol or is followed by a token that is not used below
the label. -/
structure Forms (S M : L) (P : List (Rule T L)) : Prop where
  ne : S ≠ M
  root : P[0]? = some ⟨S, [.production M]⟩
  once : ∀ (i : Nat) r, i ≠ 0 → P[i]? = some r → .production M ∉ r.rule
  apart : ∀ (i j : Nat) r r', P[i]? = some r → P[j]? = some r' → r.symbol = M → r'.symbol = M → i ≠ j →
    ∃ k k', (rhs r).head? = some (.terminal (.token k)) ∧ (rhs r').head? = some (.terminal (.token k')) ∧ k ≠ k'
  closed : ∀ r ∈ P, r.symbol = M → ∀ pre l post, rhs r = pre ++ .production l :: post →
    post = [] ∨ ∃ k rest, post = .terminal (.token k) :: rest ∧ NotBelow P l k

end Verif.Spec
