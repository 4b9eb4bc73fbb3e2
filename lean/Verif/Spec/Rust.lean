import Verif.Model.Rust
import Verif.Model.Runtime

/-!
# Specification: what Rust code does

An interpreter for the part of Rust in which generated parsers are written. It knows the constructs of Rust
(variables and their scopes, `match`, `?`, `return`, `loop`, calls), the types `Option` and `Result`, and the runtime
library; it does not know about parsers.

References are values of their own, and patterns have Rust's binding modes; how long references live is not checked.
User code means what `Sem` says; what variables the patterns of the grammar file bind is ignored. A name that is not in
scope, a `match` in which no arm matches, and operations on values of a wrong type, which do not compile, are panics.
-/

set_option autoImplicit false

namespace Verif.Rust

section
variable {P V E F σ : Type}

/-- Values. -/
inductive RVal (P V E F : Type) where
  /-- `()`, tokens, data of tokens, the user's values -/
  | val (v : Val P V)
  | none
  | some (x : RVal P V E F)
  | ok (x : RVal P V E F)
  | err (x : RVal P V E F)
  /-- a value of the enum of states -/
  | state (enum variant : String) (v : RVal P V E F)
  /-- `ParserControl` -/
  | accept (x : RVal P V E F)
  | continue
  /-- errors of the user, of the stream, of the parser -/
  | userError (e : E)
  | streamError (f : F)
  | parserError (e : ParseErr P E)
  | nat (n : Nat)
  /-- a reference -/
  | ref (x : RVal P V E F)
  /-- what a pattern `&p` sees: something behind a reference, which cannot be moved -/
  | place (x : RVal P V E F)
  /-- the input -/
  | input
  /-- the one `ParserState` there is, in a variable that is `mut` or not, and a `&mut` reference to it -/
  | owned (isMut : Bool)
  | self
  /-- references to its `ParserStream`: `&` and `&mut` -/
  | stream
  | streamMut

/-- `ParserState` (src/parser_state.rs:8-11) and `ParserStream` (src/parser_stream.rs:1-4): the item read ahead, the
number of calls of `Iterator::next`, and the stack, top first. -/
structure RState (P V E F : Type) where
  next : Option (Item P F)
  pulled : Nat
  stack : List (RVal P V E F)

/-- What code changes: the parser's state, once it exists, and the world. -/
structure Store (P V E F σ : Type) where
  state : Option (RState P V E F)
  world : σ

/-- Variables in scope, innermost first. -/
abbrev Scope (P V E F : Type) := List (String × RVal P V E F)

/-- How the evaluation of an expression ends: with a value, or with `return`. -/
inductive Ctl (P V E F : Type) where
  | val (v : RVal P V E F)
  | ret (v : RVal P V E F)

/-- The value that a function returns. -/
def Ctl.value : Ctl P V E F → RVal P V E F
  | .val v => v
  | .ret v => v

/-- The end of an evaluation, and what was changed. -/
abbrev Done (P V E F σ : Type) := Ctl P V E F × Store P V E F σ

/-- What surrounds code. -/
structure Ctx (P V E F σ : Type) where
  /-- whether debug assertions are enabled -/
  debug : Bool
  sem : Sem P V E σ
  /-- the user's conversion of errors of the stream -/
  into : F → E
  items : Nat → Option (Item P F)
  /-- the number of iterations of a loop that are run -/
  fuel : Nat
  /-- the functions in scope -/
  call : String → RVal P V E F → Store P V E F σ → Outcome Unit (RVal P V E F × Store P V E F σ)

/-! ### Constructors and patterns -/

/-- Tokens as values. -/
def ofToken (t : Token P) : RVal P V E F := .val (.tok t)

/-- The value of a constructor with its field. -/
def Con.build : Con → RVal P V E F → Option (RVal P V E F)
  | .some, v => Option.some (.some v)
  | .ok, v => Option.some (.ok v)
  | .err, v => Option.some (.err v)
  | .accept, v => Option.some (.accept v)
  | .state enum variant, v => Option.some (.state enum variant v)
  | .token _ variant, .val (.payload p) => Option.some (ofToken (.data variant p))
  | .token _ _, _ => none

/-- The field of a value with the given constructor. -/
def Con.field : Con → RVal P V E F → Option (RVal P V E F)
  | .some, .some v => Option.some v
  | .ok, .ok v => Option.some v
  | .err, .err v => Option.some v
  | .accept, .accept v => Option.some v
  | .state enum variant, .state enum' variant' v => if enum = enum' ∧ variant = variant' then Option.some v else none
  | .token _ variant, .val (.tok (.data variant' p)) => if variant = variant' then Option.some (.val (.payload p)) else none
  | _, _ => none

/-- The field, as a pattern sees it: behind a reference, a reference to it. -/
def Con.take (k : Con) : RVal P V E F → Option (RVal P V E F)
  | .ref v => (k.field v).map .ref
  | .place v => (k.field v).map .place
  | v => k.field v

/-- The value of a constant. -/
def Atom.build (sem : Sem P V E σ) : Atom → RVal P V E F
  | .unit => .val .unit
  | .none => .none
  | .continue => .continue
  | .lit text => ofToken (.lit (sem.litVal text))
  | .token _ variant => ofToken (.unit variant)

variable [DecidableEq P]

/-- A value without the reference to it. -/
def RVal.target : RVal P V E F → RVal P V E F
  | .ref v => v
  | .place v => v
  | v => v

/-- Whether a value is a constant. -/
def Atom.is (sem : Sem P V E σ) : Atom → RVal P V E F → Bool
  | .unit, .val .unit => true
  | .none, .none => true
  | .continue, .continue => true
  | .lit text, .val (.tok (.lit c)) => decide (sem.litVal text = c)
  | .token _ variant, .val (.tok (.unit variant')) => variant == variant'
  | _, _ => false

/-- Matching a value with a pattern: the variables bound, or nothing if the value does not match. -/
def RPat.bind (sem : Sem P V E σ) : RPat → RVal P V E F → Option (Scope P V E F)
  | .wild, _ => some []
  | .var x, v => some [(x, v)]
  | .atom a, v => if a.is sem v.target then some [] else none
  | .con k p, v => (k.take v).bind fun v => p.bind sem v
  | .rest k, v => (k.take v).map fun _ => []
  | .ref p, .ref v => p.bind sem (.place v)
  | .ref _, _ => none
  -- not below a reference that no `&` stands for
  | .named _ _, .ref _ => none
  | .named x p, v => (p.bind sem v).map fun s => (x, .ref v.target) :: s
  | .user text, v =>
    match v.target with
    | .val (.payload p) => if sem.pat text p then some [] else none
    | _ => none
  | .or p q, v => (p.bind sem v).or (q.bind sem v)

/-! ### The runtime library -/

/-- `impl From<E> for ParserError<T, E>` (src/error.rs:56-60), and the conversion of a type to itself. -/
def convertError : RVal P V E F → Option (RVal P V E F)
  | .userError e => some (.parserError (.user e))
  | .parserError e => some (.parserError e)
  | _ => none

/-- An option of a token as a value. -/
def toLookahead : RVal P V E F → Option (Option (Token P))
  | .none => some none
  | .some (.val (.tok t)) => some (some t)
  | _ => none

/-- The token that `{:?}` shows, for an option of a reference. -/
def toShown : RVal P V E F → Option (Option (Token P))
  | .none => some none
  | .some (.ref (.val (.tok t))) => some (some t)
  | _ => none

/-- The value of an item of the input. -/
def ofItem : Item P F → RVal P V E F
  | .ok t => .ok (ofToken t)
  | .error f => .err (.streamError f)

/-- parser_state.rs:36-38. -/
def topState (s : Store P V E F σ) : Outcome Unit (RVal P V E F × Store P V E F σ) := do
  let st ← Outcome.unwrap s.state
  let top ← Outcome.unwrapUnchecked st.stack.head?
  pure (.ref top, s)

/-- Methods without arguments. -/
def Method.run (c : Ctx P V E F σ) : Method → RVal P V E F → Store P V E F σ →
    Outcome Unit (RVal P V E F × Store P V E F σ)
  -- parser_state.rs:24-30
  | .stream, .self, s => pure (.stream, s)
  | .stream, .owned _, s => pure (.stream, s)
  | .streamMut, .self, s => pure (.streamMut, s)
  | .streamMut, .owned true, s => pure (.streamMut, s)
  -- parser_stream.rs:15-17
  | .peekNext, .stream, s => do
    let st ← Outcome.unwrap s.state
    pure (match st.next with | some i => .some (.ref (ofItem i)) | none => .none, s)
  -- parser_stream.rs:19-22
  | .advance, .streamMut, s => do
    let st ← Outcome.unwrap s.state
    Outcome.assert st.next.isSome
    pure (.val .unit, { s with state := some { st with next := c.items st.pulled, pulled := st.pulled + 1 } })
  -- parser_state.rs:36-38
  | .state, .self, s => topState s
  | .state, .owned _, s => topState s
  -- parser_state.rs:40-42
  | .popState, .self, s => do
    let st ← Outcome.unwrap s.state
    let top ← Outcome.unwrapUnchecked st.stack.head?
    pure (top, { s with state := some { st with stack := st.stack.tail } })
  -- parser_state.rs:44-47
  | .verifyEmptyStack, .self, s => do
    let st ← Outcome.unwrap s.state
    Outcome.assert (st.stack.length == 1)
    pure (.val .unit, s)
  | .intoIter, .input, s => pure (.input, s)
  | .borrow, .ref v, s => pure (.ref v, s)
  | .clone, .ref v, s => pure (v, s)
  | .transpose, .none, s => pure (.ok .none, s)
  | .transpose, .some (.ok v), s => pure (.ok (.some v), s)
  | .transpose, .some (.err e), s => pure (.err e, s)
  -- error.rs:13-17
  | .intoUserError, .streamError f, s => pure (.parserError (.user (c.into f)), s)
  | _, _, _ => Outcome.panic

/-- parser_state.rs:32-34. -/
def pushState : RVal P V E F → RVal P V E F → Store P V E F σ → Outcome Unit (RVal P V E F × Store P V E F σ)
  | .self, v, s => do
    let st ← Outcome.unwrap s.state
    pure (.val .unit, { s with state := some { st with stack := v :: st.stack } })
  | _, _, _ => Outcome.panic

/-- parser_state.rs:14-22, parser_stream.rs:10-13. -/
def newState (c : Ctx P V E F σ) : RVal P V E F → RVal P V E F → Store P V E F σ →
    Outcome Unit (RVal P V E F × Store P V E F σ)
  | .input, v, s => pure (.owned true, { s with state := some ⟨c.items 0, 1, [v]⟩ })
  | _, _, _ => Outcome.panic

/-! ### Expressions -/

/-- The values of the variables `__v0`, `__v1`, .. that are in scope. -/
def Scope.env (Γ : Scope P V E F) : Env P V := fun i =>
  match Γ.lookup (boundVariable i) with
  | some (.val v) => some v
  | _ => none

/-- Going on with the value of an expression, unless it returns. -/
def andThen (r : Outcome Unit (Done P V E F σ)) (k : RVal P V E F → Store P V E F σ → Outcome Unit (Done P V E F σ)) : Outcome Unit (Done P V E F σ) := do
  match ← r with
  | (.val v, s) => k v s
  | (.ret v, s) => pure (.ret v, s)

/-- A value as the result of an expression. -/
def value (r : Outcome Unit (RVal P V E F × Store P V E F σ)) : Outcome Unit (Done P V E F σ) := do
  let (v, s) ← r
  pure (.val v, s)

/-- `&mut` of a variable: only of one that is declared `mut`, here one for the parser's state. -/
def RVal.borrowMut : RVal P V E F → Option (RVal P V E F)
  | .owned true => Option.some .self
  | _ => Option.none

/-- The value of a variable that is declared `mut` or not. -/
def RVal.declare (isMut : Bool) : RVal P V E F → RVal P V E F
  | .owned _ => .owned isMut
  | v => v

/-- Running a loop until it returns. -/
def iterate (body : Store P V E F σ → Outcome Unit (Done P V E F σ)) : Nat → Store P V E F σ → Outcome Unit (Done P V E F σ)
  | 0, _ => Outcome.timeout
  | fuel + 1, s => andThen (body s) fun _ s => iterate body fuel s

mutual

/-- Evaluation of an expression. -/
def Expr.eval (c : Ctx P V E F σ) : Expr → Scope P V E F → Store P V E F σ → Outcome Unit (Done P V E F σ)
  | .var x, Γ, s => do
    let v ← Outcome.unwrap (Γ.lookup x)
    pure (.val v, s)
  | .atom a, _, s => pure (.val (a.build c.sem), s)
  | .con k e, Γ, s => andThen (e.eval c Γ s) fun v s => do
    let v ← Outcome.unwrap (k.build v)
    pure (.val v, s)
  | .call0 m e, Γ, s => andThen (e.eval c Γ s) fun v s => value (m.run c v s)
  | .push e arg, Γ, s => andThen (e.eval c Γ s) fun v s => andThen (arg.eval c Γ s) fun a s => value (pushState v a s)
  | .newState input initial, Γ, s =>
    andThen (input.eval c Γ s) fun v s => andThen (initial.eval c Γ s) fun i s => value (newState c v i s)
  | .call f e, Γ, s => andThen (e.eval c Γ s) fun v s => do
    let v ← Outcome.unwrap v.borrowMut
    value (c.call f v s)
  | .map e x body, Γ, s => andThen (e.eval c Γ s) fun v s =>
    match v with
    | .none => pure (.val .none, s)
    -- a closure: `return` would return from it
    | .some v => do
      match ← body.eval c ((x, v) :: Γ) s with
      | (r, s) => pure (.val (.some r.value), s)
    | _ => Outcome.panic
  | .parseError e, Γ, s => andThen (e.eval c Γ s) fun v s => do
    let t ← Outcome.unwrap (toLookahead v)
    pure (.val (.parserError (.parseError t)), s)
  | .overlapping e, Γ, s => andThen (e.eval c Γ s) fun v s => do
    let t ← Outcome.unwrap (toShown v)
    pure (.val (.parserError (.overlapping t)), s)
  | .closure rule body, Γ, s =>
    match c.sem.body rule body Γ.env s.world with
    | (.ok v, w) => pure (.val (.ok (.val v)), { s with world := w })
    | (.error e, w) => pure (.val (.err (.userError e)), { s with world := w })
  | .convert rule e, Γ, s => andThen (e.eval c Γ s) fun v s =>
    match v with
    | .val v =>
      match c.sem.conv rule v s.world with
      | (.ok v, w) => pure (.val (.ok (.val v)), { s with world := w })
      | (.error e, w) => pure (.val (.err (.parserError (.user e))), { s with world := w })
    | _ => Outcome.panic
  | .block e, Γ, s => e.eval c Γ s
  | .question e, Γ, s => andThen (e.eval c Γ s) fun v s =>
    match v with
    | .ok v => pure (.val v, s)
    | .err e => do
      let e ← Outcome.unwrap (convertError e)
      pure (.ret (.err e), s)
    | _ => Outcome.panic
  | .ret e, Γ, s => andThen (e.eval c Γ s) fun v s => pure (.ret v, s)
  | .letIn isMut x e rest, Γ, s => andThen (e.eval c Γ s) fun v s => rest.eval c ((x, v.declare isMut) :: Γ) s
  | .seq e rest, Γ, s => andThen (e.eval c Γ s) fun _ s => rest.eval c Γ s
  | .stmt e rest, Γ, s => andThen (e.eval c Γ s) fun _ s => rest.eval c Γ s
  | .nothing, _, s => pure (.val (.val .unit), s)
  | .cases e arms, Γ, s => andThen (e.eval c Γ s) fun v s => arms.eval c v Γ s
  | .unreachable, _, _ => Outcome.ub
  | .count e p, Γ, s => andThen (e.eval c Γ s) fun v s => pure (.val (.nat (p.bind c.sem v).toList.length), s)
  | .add a b, Γ, s => andThen (a.eval c Γ s) fun x s => andThen (b.eval c Γ s) fun y s =>
    match x, y with
    | .nat x, .nat y => pure (.val (.nat (x + y)), s)
    | _, _ => Outcome.panic
  | .ifMany e then_, Γ, s => andThen (e.eval c Γ s) fun v s =>
    match v with
    | .nat n => if 1 < n then then_.eval c Γ s else pure (.val (.val .unit), s)
    | _ => Outcome.panic
  | .debug e, Γ, s => if c.debug then e.eval c Γ s else pure (.val (.val .unit), s)
  | .loop e, Γ, s => iterate (fun s => e.eval c Γ s) c.fuel s

/-- `match`: the first arm whose pattern matches. -/
def Arms.eval (c : Ctx P V E F σ) : Arms → RVal P V E F → Scope P V E F → Store P V E F σ → Outcome Unit (Done P V E F σ)
  | .nil, _, _, _ => Outcome.panic
  | .cons p _ e rest, v, Γ, s =>
    match p.bind c.sem v with
    | some Δ => e.eval c (Δ ++ Γ) s
    | none => rest.eval c v Γ s

end

/-- Calling a function with one parameter out of a list of functions (name, parameter, body), which do not call each
other. -/
def callIn (fns : List (String × String × Expr)) (debug : Bool) (sem : Sem P V E σ) (into : F → E)
    (items : Nat → Option (Item P F)) (f : String) (arg : RVal P V E F) (s : Store P V E F σ) :
    Outcome Unit (RVal P V E F × Store P V E F σ) := do
  let (param, body) ← Outcome.unwrap (fns.lookup f)
  let (r, s) ← body.eval ⟨debug, sem, into, items, 0, fun _ _ _ => Outcome.panic⟩ [(param, arg)] s
  pure (r.value, s)

/-- Running the body of a function whose parameter is the input. -/
def run (fns : List (String × String × Expr)) (body : Expr) (param : String) (debug : Bool) (sem : Sem P V E σ)
    (into : F → E) (items : Nat → Option (Item P F)) (fuel : Nat) (w : σ) :
    Outcome Unit (RVal P V E F × Store P V E F σ) := do
  let (r, s) ← body.eval ⟨debug, sem, into, items, fuel, callIn fns debug sem into items⟩ [(param, .input)] ⟨none, w⟩
  pure (r.value, s)

/-- What can be seen of a parse: the result, the world, and the number of items pulled. -/
def observe : RVal P V E F × Store P V E F σ → Option (Except (ParseErr P E) (Val P V) × σ × Nat)
  | (.ok (.val v), s) => s.state.map fun st => (.ok v, s.world, st.pulled)
  | (.err (.parserError e), s) => s.state.map fun st => (.error e, s.world, st.pulled)
  | _ => none

end
end Verif.Rust
