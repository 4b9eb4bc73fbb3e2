import Verif.Spec.Grammar

/-!
# Specification: sentential forms and FIRST
-/

namespace Verif.Spec

variable {T L : Type}

/-- One rewriting step: a label is replaced by one of its rules. -/
inductive Rewrite (P : List (Rule T L)) : List (Node T L) → List (Node T L) → Prop
  | mk (x y : List (Node T L)) (r : Rule T L) (h : r ∈ P) :
      Rewrite P (x ++ .production r.symbol :: y) (x ++ r.rule ++ y)

/-- Any number of rewriting steps. -/
inductive Rewrites (P : List (Rule T L)) : List (Node T L) → List (Node T L) → Prop
  | refl (α : List (Node T L)) : Rewrites P α α
  | step {α β γ : List (Node T L)} : Rewrite P α β → Rewrites P β γ → Rewrites P α γ

/-- Only epsilon nodes. -/
def AllEpsilon (α : List (Node T L)) : Prop := ∀ n ∈ α, n = .terminal .epsilon

/-- The sequence begins, after epsilons, with the terminal `t`. -/
def BeginsWith (α : List (Node T L)) (t : AugTok T) : Prop :=
  ∃ e rest, α = e ++ .terminal t :: rest ∧ AllEpsilon e

/-- `InFirst P α t`: `t` is epsilon and `α` can be rewritten to nothing but epsilons, or `t` is another
terminal and `α` can be rewritten to a sequence beginning with `t`. -/
def InFirst (P : List (Rule T L)) (α : List (Node T L)) (t : AugTok T) : Prop :=
  (t = .epsilon ∧ ∃ β, Rewrites P α β ∧ AllEpsilon β) ∨
  (t ≠ .epsilon ∧ ∃ β, Rewrites P α β ∧ BeginsWith β t)

end Verif.Spec
