import Verif.Spec.RustSyntax

/-!
# Specification: alternatives in patterns

Patterns of the grammar file are spliced into generated patterns as tokens, not as one syntax tree, so that a `|` in
them can end a generated pattern. Rust requires that all alternatives of a pattern bind the same variables (E0408).
-/

set_option autoImplicit false

namespace Verif

namespace TokenStream

/-- Puts a token in front of the first of several streams. -/
def consFirst (f : TokenStream → TokenStream) : List TokenStream → List TokenStream
  | [] => [f .nil]
  | t :: ts => f t :: ts

/-- The tokens between `|`, outside of groups. -/
def alternatives : TokenStream → List TokenStream
  | .nil => [.nil]
  | .group d inner rest => consFirst (.group d inner) rest.alternatives
  | .ident x rest => consFirst (.ident x) rest.alternatives
  | .literal x rest => consFirst (.literal x) rest.alternatives
  | .punct c joint rest => if c = '|' then .nil :: rest.alternatives else consFirst (.punct c joint) rest.alternatives

end TokenStream

namespace RustSyntax
open Rust

/-- Patterns with `|` between them. -/
def joined : List String → List RTok
  | [] => []
  | [a] => [.pattern a]
  | a :: l => .pattern a :: .op "|" :: joined l

/-- The tokens after the patterns of the grammar file are spliced in; `alts` gives the alternatives of each. -/
def splice (alts : String → List String) : List RTok → List RTok
  | [] => []
  | a :: t => (match a with | .pattern text => joined (alts text) | a => [a]) ++ splice alts t

section
/- The variables that a pattern of the grammar file binds. -/
variable (binds : String → List String)

/-- The variables that a pattern binds. -/
def _root_.Verif.Rust.RPat.bound : RPat → List String
  | .wild => []
  | .var x => [x]
  | .atom _ => []
  | .con _ p => p.bound
  | .rest _ => []
  | .ref p => p.bound
  | .named x p => x :: p.bound
  | .user text => binds text
  | .or p _ => p.bound

/-- All alternatives bind the same variables. -/
def _root_.Verif.Rust.RPat.Agree : RPat → Prop
  | .con _ p => p.Agree
  | .ref p => p.Agree
  | .named _ p => p.Agree
  | .or p q => p.Agree ∧ q.Agree ∧ ∀ x, x ∈ p.bound binds ↔ x ∈ q.bound binds
  | _ => True

end

mutual

/-- The patterns in an expression. -/
def _root_.Verif.Rust.Expr.patterns : Expr → List RPat
  | .var _ => []
  | .atom _ => []
  | .con _ e => e.patterns
  | .call0 _ e => e.patterns
  | .push e arg => e.patterns ++ arg.patterns
  | .newState a b => a.patterns ++ b.patterns
  | .call _ e => e.patterns
  | .map e _ body => e.patterns ++ body.patterns
  | .parseError e => e.patterns
  | .overlapping e => e.patterns
  | .closure _ _ => []
  | .convert _ e => e.patterns
  | .block e => e.patterns
  | .question e => e.patterns
  | .ret e => e.patterns
  | .letIn _ _ e rest => e.patterns ++ rest.patterns
  | .seq e rest => e.patterns ++ rest.patterns
  | .stmt e rest => e.patterns ++ rest.patterns
  | .nothing => []
  | .cases e arms => e.patterns ++ arms.patterns
  | .unreachable => []
  | .count e p => e.patterns ++ [p]
  | .add a b => a.patterns ++ b.patterns
  | .ifMany a b => a.patterns ++ b.patterns
  | .debug e => e.patterns
  | .loop e => e.patterns

/-- The patterns in match arms. -/
def _root_.Verif.Rust.Arms.patterns : Arms → List RPat
  | .nil => []
  | .cons p _ e rest => p :: (e.patterns ++ rest.patterns)

end

/-- All patterns in the declarations for a parser. -/
def Item.patterns (it : Item) : List RPat := it.functions.flatMap (fun f => f.2.2.patterns) ++ it.body.patterns

end RustSyntax
end Verif
