import Verif.Spec.Machine
import Verif.Model.Runtime

/-!
# Specification: tokens of generated parsers and the value of a parse tree

Nothing here refers to the table or to the generated code. What the constructor of a rule does is taken from
`buildConstructor` (whose result is the subject of C40).
-/

namespace Verif.Spec

section
variable {A V E σ : Type}

/-- Carry on if all is well so far. -/
def andThen {α β : Type} (x : Except E α × σ) (f : α → σ → Except E β × σ) : Except E β × σ :=
  match x with
  | (.error e, w) => (.error e, w)
  | (.ok a, w) => f a w

/-- The values of the trees of a forest: a token is worth `tok a`, a tree is worth what its rule's
constructor (`apply`) makes of the values of its children. Constructors run from left to right, those of the
children before that of the parent; the first failure ends the evaluation. -/
def eval (tok : A → V) (apply : Nat → List V → σ → Except E V × σ) :
    Forest A → σ → Except E (List V) × σ
  | .nil, w => (.ok [], w)
  | .tok a f, w => andThen (eval tok apply f w) fun vs w => (.ok (tok a :: vs), w)
  | .node i c f, w =>
    andThen (eval tok apply c w) fun us w =>
    andThen (apply i us w) fun v w =>
    andThen (eval tok apply f w) fun vs w => (.ok (v :: vs), w)

end

variable {P V E σ : Type}

/-- Tokens that a terminal of the grammar stands for: for raw terminals the value of the literal, for enums
the variant, with data that fits the pattern. -/
inductive Matches (sem : Sem P V E σ) : TerminalType → Token P → Sym → Prop
  | lit {ty : TokenStream} {name : String} :
      Matches sem (.raw ty) (.lit (sem.litVal name)) ⟨name, .none⟩
  | unit {ty : TokenStream} {name : String} : Matches sem (.enum ty) (.unit name) ⟨name, .none⟩
  | any {ty : TokenStream} {name : String} {p : P} :
      Matches sem (.enum ty) (.data name p) ⟨name, .wildcard⟩
  | data {ty : TokenStream} {name text : String} {p : P} :
      sem.pat text p = true → Matches sem (.enum ty) (.data name p) ⟨name, .pattern text⟩

/-- What a constructor sees of a child: for a terminal with parentheses the data of the token, otherwise the
token, and for a label the value of the tree. -/
def seen (n : ANode) (v : Val P V) : Val P V :=
  match n, v with
  | .symbol ⟨_, .none⟩, v => v
  | .symbol _, .tok (.data _ p) => .payload p
  | _, v => v

/-- The children of a rule, numbered by the position of their node; epsilon has no child. -/
def args : Nat → List ANode → List (Val P V) → List (Nat × Val P V)
  | k, .epsilon :: ns, vs => args (k + 1) ns vs
  | k, n :: ns, v :: vs => (k, seen n v) :: args (k + 1) ns vs
  | _, _, _ => []

/-- Running the constructor of rule `i` on the values of the children. -/
def construct (gi : GrammarInfo) (sem : Sem P V E σ) (i : Nat) (vs : List (Val P V)) (w : σ) :
    Except E (Val P V) × σ :=
  match gi.productionRules[i]? with
  | none => (.ok .unit, w)
  | some r =>
    let env : Env P V := fun k => (args 0 r.rule vs).lookup k
    match buildConstructor gi i with
    | .ok (.provided j body) => sem.body j body env w
    | .ok (.tryInto j) =>
      match env 0 with
      | some v => sem.conv j v w
      | none => (.ok .unit, w)
    | _ => (.ok .unit, w)

/-- The value of a forest of trees of the user's grammar. -/
def value (gi : GrammarInfo) (sem : Sem P V E σ) (f : Forest (Token P)) (w : σ) :
    Except E (List (Val P V)) × σ :=
  eval .tok (construct gi sem) f w

end Verif.Spec
