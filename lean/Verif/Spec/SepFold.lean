import Verif.Spec.SepList
import Verif.Spec.Eval

/-!
# Specification: folding the constructors of a list with separators over its items
-/

namespace Verif.Spec

variable {P V E σ : Type}

/-- An item of a list after the first: the token before it, its tree, and its tokens. -/
structure SepItem (A : Type) where
  sep : A
  tree : Forest A
  tokens : List A

/-- The tokens of a list, where `W` are those of the first item. -/
def SepItem.all {A : Type} (W : List A) (its : List (SepItem A)) : List A := W ++ its.flatMap fun it => it.sep :: it.tokens

/-- First the tree of the first item is evaluated and its value given to the constructor of the rule `e`. Then, for each
further item from left to right, its tree is evaluated and the constructor of the rule `m` is given the value so far, the
separating token, and the value of the item. The first error ends this. -/
def foldSep (gi : GrammarInfo) (sem : Sem P V E σ) (e m : Nat) (f : Forest (Token P)) (its : List (SepItem (Token P)))
    (w : σ) : Except E (Val P V) × σ :=
  its.foldl (fun acc it => andThen acc fun u w => andThen (value gi sem it.tree w) fun us w =>
    construct gi sem m (u :: .tok it.sep :: us) w) (andThen (value gi sem f w) fun us w => construct gi sem e us w)

end Verif.Spec
