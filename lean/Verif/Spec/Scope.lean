import Verif.Model.Emit

/-!
# Specification: scopes of generated code

Which names are in scope at a place of the code; which tokens are paths of Rust.
-/

namespace Verif.Spec

/-- `leaf` is a part of the code, at a place where the names `Γ` are in scope that the code itself
introduces. -/
inductive Occurs : Code → List (Ns × String) → Code → Prop
  | here {c : Code} : Occurs c [] c
  | left {a b c : Code} {Γ : List (Ns × String)} : Occurs a Γ c → Occurs (.seq a b) Γ c
  | right {a b c : Code} {Γ : List (Ns × String)} : Occurs b Γ c → Occurs (.seq a b) Γ c
  | bind {names : List (Ns × String)} {body c : Code} {Γ : List (Ns × String)} : Occurs body Γ c →
      Occurs (.bind names body) (Γ ++ names) c

/-- The tokens `::`. -/
def colons (rest : TokenStream) : TokenStream := .punct ':' true (.punct ':' false rest)

/-- Paths in expressions and patterns (Rust reference, `PathInExpression`): an identifier, perhaps after `::`,
then any number of `::identifier` and `::<..>`. Generic arguments can be anything here. -/
inductive ExprPath : TokenStream → Prop
  | one {x : String} : ExprPath (.ident x .nil)
  | global {x : String} : ExprPath (colons (.ident x .nil))
  | snoc {t : TokenStream} {x : String} : ExprPath t → ExprPath (t.append (colons (.ident x .nil)))
  | args {t args : TokenStream} : ExprPath t →
      ExprPath (t.append (colons (.punct '<' false (args.append (.punct '>' false .nil)))))

/-- The identifier `x` is among the tokens, at any depth. -/
inductive IdentIn (x : String) : TokenStream → Prop
  | here {rest : TokenStream} : IdentIn x (.ident x rest)
  | inside {d : Delim} {inner rest : TokenStream} : IdentIn x inner → IdentIn x (.group d inner rest)
  | group {d : Delim} {inner rest : TokenStream} : IdentIn x rest → IdentIn x (.group d inner rest)
  | ident {y : String} {rest : TokenStream} : IdentIn x rest → IdentIn x (.ident y rest)
  | literal {text : String} {rest : TokenStream} : IdentIn x rest → IdentIn x (.literal text rest)
  | punct {ch : Char} {joint : Bool} {rest : TokenStream} : IdentIn x rest → IdentIn x (.punct ch joint rest)

end Verif.Spec
