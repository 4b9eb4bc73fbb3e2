import Verif.Spec.Prefixed
import Verif.Spec.Eval

/-!
# Specification: running the constructors of prefix operators from the operand outwards
-/

namespace Verif.Spec

variable {P V E σ : Type}

/-- First the tree `g` of the operand is evaluated and its value given to the constructor of the rule `e`. Then, for each
operator from right to left, the constructor of the rule `m` is given the operator and the value so far. The first error
ends this. -/
def applyPrefixes (gi : GrammarInfo) (sem : Sem P V E σ) (e m : Nat) (g : Forest (Token P)) :
    List (Token P) → σ → Except E (Val P V) × σ
  | [], w => andThen (value gi sem g w) fun us w => construct gi sem e us w
  | a :: ops, w => andThen (applyPrefixes gi sem e m g ops w) fun v w => construct gi sem m [.tok a, v] w

end Verif.Spec
