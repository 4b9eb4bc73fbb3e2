import Verif.Spec.Machine

/-!
# Rules that occur in parse trees
-/

set_option autoImplicit false

namespace Verif.Spec

/-- Rule `k` occurs in the forest. -/
def Forest.Uses {A : Type} (k : Nat) : Forest A → Prop
  | .nil => False
  | .tok _ f => f.Uses k
  | .node i c f => i = k ∨ c.Uses k ∨ f.Uses k

end Verif.Spec
