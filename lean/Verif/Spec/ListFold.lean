import Verif.Spec.ListOf
import Verif.Spec.Eval

/-!
# Specification: folding the constructors of a list over its items
-/

namespace Verif.Spec

variable {P V E σ : Type}

/-- An item of a list: its tree, its tokens, and the token that closes it. -/
structure ListItem (A : Type) where
  tree : Forest A
  tokens : List A
  close : A

/-- The tokens of a list of items. -/
def ListItem.all {A : Type} (its : List (ListItem A)) : List A := its.flatMap fun it => it.tokens ++ [it.close]

/-- First the constructor of the rule `e` runs, without arguments. Then, for each item from left to right, its tree is
evaluated and the constructor of the rule `m` is given the value so far, the value of the item, and the closing token.
The first error ends this. -/
def foldItems (gi : GrammarInfo) (sem : Sem P V E σ) (e m : Nat) (its : List (ListItem (Token P))) (w : σ) :
    Except E (Val P V) × σ :=
  its.foldl (fun acc it => andThen acc fun u w => andThen (value gi sem it.tree w) fun us w =>
    construct gi sem m (u :: (us ++ [.tok it.close])) w) (construct gi sem e [] w)

end Verif.Spec
