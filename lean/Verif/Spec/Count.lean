import Verif.Spec.Grammar

/-!
# Specification: the number of nodes of a parse tree
-/

namespace Verif.Spec

/-- The number of inner nodes, i.e. of applications of rules. -/
def Forest.nodes {A : Type} : Forest A → Nat
  | .nil => 0
  | .tok _ f => f.nodes
  | .node _ c f => c.nodes + f.nodes + 1

end Verif.Spec
