import Verif.Spec.RightList
import Verif.Spec.ListFold

/-!
# Specification: folding the constructors of a list over its items from the right
-/

namespace Verif.Spec

variable {P V E σ : Type}

/-- First the trees of the items are evaluated, from left to right, the last of them being `g`. Then the value of the last
item is given to the constructor of the rule `e`. Then, for each other item from right to left, the constructor of the
rule `m` is given the value of the item, the token that follows it, and the value so far. The first error ends this. -/
def foldRight (gi : GrammarInfo) (sem : Sem P V E σ) (e m : Nat) (g : Forest (Token P)) :
    List (ListItem (Token P)) → σ → Except E (Val P V) × σ
  | [], w => andThen (value gi sem g w) fun us w => construct gi sem e us w
  | it :: its, w => andThen (value gi sem it.tree w) fun us w => andThen (foldRight gi sem e m g its w) fun v w =>
    construct gi sem m (us ++ [.tok it.close, v]) w

end Verif.Spec
