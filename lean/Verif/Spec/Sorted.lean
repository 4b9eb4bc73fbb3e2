import Verif.Spec.First

/-!
# Specification: rules that are sorted by their empty derivations
-/

namespace Verif.Spec

variable {T L : Type}

/-- Each rule of `l` has a rule of `l'` before it. -/
def Before (P : List (Rule T L)) (l' l : L) : Prop :=
  ∀ (n : Nat) (q : Rule T L), P[n]? = some q → q.symbol = l → ∃ m p, m < n ∧ P[m]? = some p ∧ p.symbol = l'

/-- The rules are sorted: each label that can vanish, if some rule mentions it at all, has a rule of epsilons and labels
that can vanish and whose rules begin earlier. -/
def EmptySorted (P : List (Rule T L)) : Prop :=
  ∀ l, InFirst P [.production l] .epsilon → (∃ r ∈ P, Node.production l ∈ r.rule) →
    ∃ r ∈ P, r.symbol = l ∧ ∀ n ∈ r.rule, n = .terminal .epsilon ∨
      ∃ l', n = .production l' ∧ InFirst P [.production l'] .epsilon ∧ Before P l' l

/-- A token is in sight: a rule begins with it, or a rule that is not the root rule has only epsilons and labels that can
vanish before it; these labels are that of the rule itself, or vanish without its rules. -/
def InSight [DecidableEq L] (P : List (Rule T L)) : Prop :=
  (∃ r ∈ P, ∃ t, t ≠ .epsilon ∧ BeginsWith r.rule t) ∨
  ∃ r ∈ P.tail, ∃ pre t rest, r.rule = pre ++ .terminal t :: rest ∧ t ≠ .epsilon ∧
    ∀ m ∈ pre, m = .terminal .epsilon ∨ ∃ l, m = .production l ∧ InFirst P [.production l] .epsilon ∧
      (l = r.symbol ∨ InFirst (P.filter fun q => decide (q.symbol ≠ r.symbol)) [.production l] .epsilon)

/-- In the order of the rules: some rule has a token behind epsilons and labels that can vanish. The rules of these labels
begin earlier; or it is the label of the rule itself, which has an earlier rule of labels that can vanish and begin
earlier. -/
def FoundInOrder (P : List (Rule T L)) : Prop :=
  ∃ (n : Nat) (r : Rule T L), P[n]? = some r ∧ ∃ pre t rest, r.rule = pre ++ .terminal t :: rest ∧ t ≠ .epsilon ∧
    ∀ m ∈ pre, m = .terminal .epsilon ∨ ∃ l, m = .production l ∧ InFirst P [.production l] .epsilon ∧
      (Before P l r.symbol ∨ l = r.symbol ∧ ∃ (k : Nat) (q : Rule T L), k < n ∧ P[k]? = some q ∧ q.symbol = r.symbol ∧
        ∀ m ∈ q.rule, m = .terminal .epsilon ∨
          ∃ l', m = .production l' ∧ InFirst P [.production l'] .epsilon ∧ Before P l' r.symbol)

end Verif.Spec
