import Verif.Spec.Optional
import Verif.Spec.Eval

/-!
# Specification: the value of something optional
-/

namespace Verif.Spec

variable {P V E σ : Type}

/-- Without the part, the constructor of the rule `e` runs without arguments. Otherwise the tree of the part is evaluated and
its value given to the constructor of the rule `m`. -/
def optionValue (gi : GrammarInfo) (sem : Sem P V E σ) (e m : Nat) : Option (Forest (Token P)) → σ → Except E (Val P V) × σ
  | none, w => construct gi sem e [] w
  | some g, w => andThen (value gi sem g w) fun us w => construct gi sem m us w

/-- A tree of the part for the tokens, or no tokens. -/
def OptionalTree {A : Type} (parses : Forest A → List A → Prop) (W : List A) : Option (Forest A) → Prop
  | none => W = []
  | some g => parses g W

end Verif.Spec
