import Verif.Spec.First

/-!
# Specification: LL(1) grammars

The definition of the textbooks, by FIRST and FOLLOW; independent of the code. Rule 0 is the root rule.
-/

set_option autoImplicit false

namespace Verif.Spec

variable {T L : Type}

/-- `Follow P l t`: the root can be rewritten to something in which `t`, or the end, can come right after `l`. -/
def Follow (P : List (Rule T L)) (l : L) (t : AugTok T) : Prop :=
  ∃ root x y, P[0]? = some root ∧ Rewrites P [.production root.symbol] (x ++ .production l :: y) ∧
    ((t = .eos ∧ InFirst P y .epsilon) ∨ (t ≠ .epsilon ∧ InFirst P y t))

/-- A parser that works from the root downwards and has to expand the symbol of `r` may choose `r` if it sees `t`. -/
def Predicts (P : List (Rule T L)) (r : Rule T L) (t : AugTok T) : Prop :=
  t ≠ .epsilon ∧ (InFirst P r.rule t ∨ (InFirst P r.rule .epsilon ∧ Follow P r.symbol t))

/-- Such a parser never has a choice. -/
def LL1 (P : List (Rule T L)) : Prop :=
  ∀ (i j : Nat) (r r' : Rule T L) (t : AugTok T), P[i]? = some r → P[j]? = some r' → r.symbol = r'.symbol →
    Predicts P r t → Predicts P r' t → i = j

end Verif.Spec
