import Verif.Spec.First

/-!
# Specification: LR(1) items, what they demand of a parser, and the parser they describe

Independent of the code. Items are described by the symbols read so far (`γ`, the spelling of the parser's
stack) instead of by states. Rule 0 is the root rule. `first α t` says that `t` may begin `α` (or, for
epsilon, that `α` may vanish); the relation is a parameter because the code does not always compute the true
FIRST sets (see C07).
-/

namespace Verif.Spec

variable {T L : Type}

/-- The symbols of a rule; epsilon stands for nothing. -/
def rhs (r : Rule T L) : List (Node T L) :=
  r.rule.filter fun n => match n with
    | .terminal .epsilon => false
    | _ => true

/-- `Valid P γ i d`: after reading `γ` the parser may be inside rule `i`, with `d` of its symbols read. -/
inductive Valid (P : List (Rule T L)) : List (Node T L) → Nat → Nat → Prop
  | root : Valid P [] 0 0
  | close {γ : List (Node T L)} {i d j : Nat} {r r' : Rule T L} {β : List (Node T L)} :
      Valid P γ i d → P[i]? = some r → (rhs r).drop d = .production r'.symbol :: β →
      P[j]? = some r' → Valid P γ j 0
  | move {γ : List (Node T L)} {i d : Nat} {r : Rule T L} {X : Node T L} {β : List (Node T L)} :
      Valid P γ i d → P[i]? = some r → (rhs r).drop d = X :: β → Valid P (γ ++ [X]) i (d + 1)

/-- `ValidLook P first γ i d t`: moreover, rule `i` may be followed by `t` in this situation. -/
inductive ValidLook (P : List (Rule T L)) (first : List (Node T L) → AugTok T → Prop) :
    List (Node T L) → Nat → Nat → AugTok T → Prop
  | root : ValidLook P first [] 0 0 .eos
  | closeFirst {γ : List (Node T L)} {i d j : Nat} {r r' : Rule T L} {β : List (Node T L)} {t : AugTok T} :
      Valid P γ i d → P[i]? = some r → (rhs r).drop d = .production r'.symbol :: β →
      P[j]? = some r' → t ≠ .epsilon → first β t → ValidLook P first γ j 0 t
  | closePass {γ : List (Node T L)} {i d j : Nat} {r r' : Rule T L} {β : List (Node T L)} {t : AugTok T} :
      ValidLook P first γ i d t → P[i]? = some r → (rhs r).drop d = .production r'.symbol :: β →
      P[j]? = some r' → first β .epsilon → ValidLook P first γ j 0 t
  | move {γ : List (Node T L)} {i d : Nat} {r : Rule T L} {X : Node T L} {β : List (Node T L)}
      {t : AugTok T} :
      ValidLook P first γ i d t → P[i]? = some r → (rhs r).drop d = X :: β →
      ValidLook P first (γ ++ [X]) i (d + 1) t

/-- Actions of an LR parser. -/
inductive Act where
  | shift
  | reduce (i : Nat)
  | accept
deriving DecidableEq, Repr

/-- What a completed rule calls for: acceptance for the root rule, a reduction otherwise. -/
def endAct (i : Nat) : Act := if i = 0 then .accept else .reduce i

/-- `Demands P first γ t a`: some item valid after `γ` demands action `a` on lookahead `t`. -/
inductive Demands (P : List (Rule T L)) (first : List (Node T L) → AugTok T → Prop)
    (γ : List (Node T L)) (t : AugTok T) : Act → Prop
  | shift {i d : Nat} {r : Rule T L} {β : List (Node T L)} :
      Valid P γ i d → P[i]? = some r → (rhs r).drop d = .terminal t :: β → Demands P first γ t .shift
  | reduce {i : Nat} {r : Rule T L} :
      P[i]? = some r → i ≠ 0 → ValidLook P first γ i (rhs r).length t → Demands P first γ t (.reduce i)
  | accept {r : Rule T L} :
      P[0]? = some r → t = .eos → Valid P γ 0 (rhs r).length → Demands P first γ t .accept

/-- No two different actions are ever demanded on the same lookahead. -/
def NoConflict (P : List (Rule T L)) (first : List (Node T L) → AugTok T → Prop) : Prop :=
  ∀ γ t a b, Demands P first γ t a → Demands P first γ t b → a = b

/-- FIRST of a sequence, from FIRST of labels. -/
def seqFirst (labelFirst : L → AugTok T → Prop) : List (Node T L) → AugTok T → Prop
  | [], t => t = .epsilon
  | .terminal .epsilon :: α, t => seqFirst labelFirst α t
  | .terminal (.token k) :: _, t => t = .token k
  | .terminal .eos :: _, t => t = .eos
  | .production l :: α, t =>
    (t ≠ .epsilon ∧ labelFirst l t) ∨ (labelFirst l .epsilon ∧ seqFirst labelFirst α t)

theorem ValidLook.valid {P : List (Rule T L)} {first : List (Node T L) → AugTok T → Prop}
    {γ : List (Node T L)} {i d : Nat} {t : AugTok T} (h : ValidLook P first γ i d t) : Valid P γ i d := by
  induction h with
  | root => exact .root
  | closeFirst h1 h2 h3 h4 _ _ => exact .close h1 h2 h3 h4
  | closePass _ h2 h3 h4 _ ih => exact .close ih h2 h3 h4
  | move _ h2 h3 ih => exact .move ih h2 h3

end Verif.Spec
