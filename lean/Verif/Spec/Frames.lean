import Verif.Spec.Rust

/-!
# Calls of functions, for C90

Which functions code calls, and what running it does if functions may call each other, but only so many calls may be
active at a time.
-/

namespace Verif.Rust

mutual

/-- The functions that an expression calls. Methods, and constructors of the user, are not among them. -/
def Expr.calls : Expr → List String
  | .var _ => []
  | .atom _ => []
  | .con _ e => e.calls
  | .call0 _ e => e.calls
  | .push e arg => e.calls ++ arg.calls
  | .newState input initial => input.calls ++ initial.calls
  | .call f e => e.calls ++ [f]
  | .map e _ body => e.calls ++ body.calls
  | .parseError e => e.calls
  | .overlapping e => e.calls
  | .closure _ _ => []
  | .convert _ e => e.calls
  | .block e => e.calls
  | .question e => e.calls
  | .ret e => e.calls
  | .letIn _ _ e rest => e.calls ++ rest.calls
  | .seq e rest => e.calls ++ rest.calls
  | .stmt e rest => e.calls ++ rest.calls
  | .nothing => []
  | .cases e arms => e.calls ++ arms.calls
  | .unreachable => []
  | .count e _ => e.calls
  | .add a b => a.calls ++ b.calls
  | .ifMany e then_ => e.calls ++ then_.calls
  | .debug e => e.calls
  | .loop e => e.calls

def Arms.calls : Arms → List String
  | .nil => []
  | .cons _ _ e rest => e.calls ++ rest.calls

end

mutual

/-- The number of loops in an expression. -/
def Expr.loops : Expr → Nat
  | .var _ => 0
  | .atom _ => 0
  | .con _ e => e.loops
  | .call0 _ e => e.loops
  | .push e arg => e.loops + arg.loops
  | .newState input initial => input.loops + initial.loops
  | .call _ e => e.loops
  | .map e _ body => e.loops + body.loops
  | .parseError e => e.loops
  | .overlapping e => e.loops
  | .closure _ _ => 0
  | .convert _ e => e.loops
  | .block e => e.loops
  | .question e => e.loops
  | .ret e => e.loops
  | .letIn _ _ e rest => e.loops + rest.loops
  | .seq e rest => e.loops + rest.loops
  | .stmt e rest => e.loops + rest.loops
  | .nothing => 0
  | .cases e arms => e.loops + arms.loops
  | .unreachable => 0
  | .count e _ => e.loops
  | .add a b => a.loops + b.loops
  | .ifMany e then_ => e.loops + then_.loops
  | .debug e => e.loops
  | .loop e => e.loops + 1

def Arms.loops : Arms → Nat
  | .nil => 0
  | .cons _ _ e rest => e.loops + rest.loops

end

section
variable {P V E F σ : Type} [DecidableEq P]

/-- Calling one of the functions, any of which may call any other, when there is room for so many active calls: without
room for another one the program is aborted. -/
def callDeep (fns : List (String × String × Expr)) (debug : Bool) (sem : Sem P V E σ) (into : F → E)
    (items : Nat → Option (Item P F)) (fuel : Nat) : Nat → String → RVal P V E F → Store P V E F σ →
    Outcome Unit (RVal P V E F × Store P V E F σ)
  | 0, _, _, _ => Outcome.panic
  | room + 1, f, arg, s => do
    let (param, body) ← Outcome.unwrap (fns.lookup f)
    let (r, s) ← body.eval ⟨debug, sem, into, items, fuel, callDeep fns debug sem into items fuel room⟩ [(param, arg)] s
    pure (r.value, s)

/-- Running the body of a function whose parameter is the input, when there is room for so many active calls. -/
def runDeep (room : Nat) (fns : List (String × String × Expr)) (body : Expr) (param : String) (debug : Bool)
    (sem : Sem P V E σ) (into : F → E) (items : Nat → Option (Item P F)) (fuel : Nat) (w : σ) :
    Outcome Unit (RVal P V E F × Store P V E F σ) := do
  let (r, s) ← body.eval ⟨debug, sem, into, items, fuel, callDeep fns debug sem into items fuel room⟩
    [(param, .input)] ⟨none, w⟩
  pure (r.value, s)

end
end Verif.Rust
