import Verif.Spec.Eval
import Verif.Model.Feedback

/-!
# Specification: reading tokens and running constructors in turns

Nothing here refers to the table or to the generated code.
-/

namespace Verif.Spec

/-- Going through the trees of a forest from left to right, children before parents: `read` at the tokens and
`apply` at the nodes, both on one state. The first failure ends it. -/
def walk {A V E S : Type} (read : A → S → Except E V × S) (apply : Nat → List V → S → Except E V × S) :
    Forest A → S → Except E (List V) × S
  | .nil, s => (.ok [], s)
  | .tok a f, s =>
    andThen (read a s) fun v s =>
    andThen (walk read apply f s) fun vs s => (.ok (v :: vs), s)
  | .node i c f, s =>
    andThen (walk read apply c s) fun us s =>
    andThen (apply i us s) fun v s =>
    andThen (walk read apply f s) fun vs s => (.ok (v :: vs), s)

variable {P V E F σ : Type} [DecidableEq P]

/-- Using up a token: it has to be the one that the iterator has yielded last (otherwise the failure is
`none`); the next item is then asked for at once. -/
def useToken (src : Source P F σ) (a : Token P) (s : Option (Item P F) × σ) :
    Except (Option E) (Val P V) × (Option (Item P F) × σ) :=
  match s with
  | (some (.ok b), w) => if a = b then (.ok (.tok a), src w) else (.error none, some (.ok b), w)
  | s => (.error none, s)

/-- Running a constructor does not touch the item that has been read ahead. -/
def useRule (apply : Nat → List (Val P V) → σ → Except E (Val P V) × σ) (i : Nat) (us : List (Val P V))
    (s : Option (Item P F) × σ) : Except (Option E) (Val P V) × (Option (Item P F) × σ) :=
  match apply i us s.2 with
  | (.ok v, w) => (.ok v, s.1, w)
  | (.error e, w) => (.error (some e), s.1, w)

/-- The values of a forest that is read from an iterator while it is evaluated, one item ahead. The state is
the item read ahead and the world. -/
def readValue (gi : GrammarInfo) (sem : Sem P V E σ) (src : Source P F σ) (f : Forest (Token P))
    (s : Option (Item P F) × σ) : Except (Option E) (List (Val P V)) × (Option (Item P F) × σ) :=
  walk (useToken src) (useRule (construct gi sem)) f s

end Verif.Spec
