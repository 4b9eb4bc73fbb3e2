import Verif.Spec.Postfixed
import Verif.Spec.Eval

/-!
# Specification: running the constructors of postfix operators from the operand outwards
-/

namespace Verif.Spec

variable {P V E σ : Type}

/-- First the tree `g` of the operand is evaluated and its value given to the constructor of the rule `e`. Then, for each
operator from left to right, the constructor of the rule `m` is given the value so far and the operator. The first error
ends this. -/
def applyPostfixes (gi : GrammarInfo) (sem : Sem P V E σ) (e m : Nat) (g : Forest (Token P)) (ops : List (Token P)) (w : σ) :
    Except E (Val P V) × σ :=
  ops.foldl (fun acc a => andThen acc fun v w => construct gi sem m [v, .tok a] w)
    (andThen (value gi sem g w) fun us w => construct gi sem e us w)

end Verif.Spec
