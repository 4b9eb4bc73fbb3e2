import Verif.Spec.Brackets
import Verif.Spec.Eval

/-!
# Specification: running the constructors of brackets from the inside out
-/

namespace Verif.Spec

variable {P V E σ : Type}

/-- The tokens in the pairs of brackets, the outermost pair coming first. -/
def inBrackets {A : Type} (W : List A) : List (A × A) → List A
  | [] => W
  | p :: ps => p.1 :: inBrackets W ps ++ [p.2]

/-- First the tree `g` of the part is evaluated and its value given to the constructor of the rule `e`. Then, for each pair of
brackets from the inside out, the constructor of the rule `m` is given the opening token, the value so far, and the closing
token. The first error ends this. -/
def insideOut (gi : GrammarInfo) (sem : Sem P V E σ) (e m : Nat) (g : Forest (Token P)) :
    List (Token P × Token P) → σ → Except E (Val P V) × σ
  | [], w => andThen (value gi sem g w) fun us w => construct gi sem e us w
  | p :: ps, w => andThen (insideOut gi sem e m g ps w) fun v w => construct gi sem m [.tok p.1, v, .tok p.2] w

end Verif.Spec
