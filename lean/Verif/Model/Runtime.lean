import Verif.Model.CodeGen

/-!
# Model of the runtime library (`/repo/src`) and of the execution of generated parsers

User code is a parameter: `Sem` says what literals, patterns and constructor bodies mean. Constructors may
fail and may read and change a world `σ` (side effects). The input iterator is a function from the number of
earlier calls of `next` to the item returned, so it may be infinite or go on after `None`.
-/

namespace Verif

/-- A token of the input: a value of a raw terminal type, or a variant of an enum with or without data. -/
inductive Token (P : Type) where
  | lit (c : P)
  | unit (name : String)
  | data (name : String) (payload : P)
deriving DecidableEq, Repr

/-- Values on the parser's stack and of variables: `()`, a token, the data of a token, a user's value. -/
inductive Val (P V : Type) where
  | unit
  | tok (t : Token P)
  | payload (p : P)
  | user (v : V)
deriving DecidableEq, Repr

/-- Values of the variables `__v{i}`. -/
abbrev Env (P V : Type) := Nat → Option (Val P V)

/-- The meaning of user code. -/
structure Sem (P V E σ : Type) where
  /-- the value of a literal -/
  litVal : String → P
  /-- whether data matches a pattern -/
  pat : String → P → Bool
  /-- running the constructor body of a rule -/
  body : Nat → TokenStream → Env P V → σ → Except E (Val P V) × σ
  /-- `try_into` for a rule without constructor; errors are converted by `into_user_error` (error.rs:13-17) -/
  conv : Nat → Val P V → σ → Except E (Val P V) × σ

/-- src/error.rs:35-44 `ParserError`. -/
inductive ParseErr (P E : Type) where
  | parseError (next : Option (Token P))
  | overlapping (token : Option (Token P))
  | user (e : E)
deriving DecidableEq, Repr

variable {P V E F σ : Type} [DecidableEq P]

/-- An item of the input stream. -/
abbrev Item (P F : Type) := Except F (Token P)

/-- `matches!(token, pattern)`. -/
def Pat.matches (sem : Sem P V E σ) : Pat → Token P → Bool
  | .lit text, .lit c => decide (sem.litVal text = c)
  | .unit v, .unit n => v == n
  | .any v, .data n _ => v == n
  | .data v text, .data n p => v == n && sem.pat text p
  | _, _ => false

/-- `matches!(peeked, matcher)`. -/
def Matcher.matches (sem : Sem P V E σ) : Matcher → Option (Token P) → Bool
  | .token p, some t => p.matches sem t
  | .eos, none => true
  | _, _ => false

/-- The value of the expression built from a matched token; `wildcard_var` is the data of the token. -/
def TokExpr.eval (sem : Sem P V E σ) : TokExpr → Option (Token P) → Outcome Unit (Token P)
  | .lit text, _ => pure (.lit (sem.litVal text))
  | .unit v, _ => pure (.unit v)
  | .data v, some (.data _ p) => pure (.data v p)
  | .data _, _ => Outcome.panic -- no such variable

/-- Running a constructor. Without `__v0` the default constructor does not compile. -/
def Ctor.run (sem : Sem P V E σ) (env : Env P V) (w : σ) :
    Ctor → Outcome Unit (Except E (Val P V) × σ)
  | .provided rule body => pure (sem.body rule body env w)
  | .tryInto rule => do
    let v ← Outcome.unwrap (env 0)
    pure (sem.conv rule v w)
  | .unit => pure (.ok .unit, w)

/-- src/parser_state.rs:8-11 `ParserState` with src/parser_stream.rs:1-4 `ParserStream`: the item read ahead,
the number of calls of `Iterator::next`, and the stack of states with their data, top first. -/
structure PState (P V F : Type) where
  next : Option (Item P F)
  pulled : Nat
  stack : List (Nat × Val P V)

namespace PState

/-- parser_state.rs:14-22 `new`, parser_stream.rs:10-13 `new`. -/
def new (items : Nat → Option (Item P F)) (initial : Nat × Val P V) : PState P V F :=
  ⟨items 0, 1, [initial]⟩

/-- parser_stream.rs:19-22 `advance`. -/
def advance (items : Nat → Option (Item P F)) (st : PState P V F) : Outcome Unit (PState P V F) := do
  Outcome.assert st.next.isSome
  pure { st with next := items st.pulled, pulled := st.pulled + 1 }

/-- parser_state.rs:32-34 `push`. -/
def push (st : PState P V F) (s : Nat × Val P V) : PState P V F := { st with stack := s :: st.stack }

/-- parser_state.rs:36-38 `state`. -/
def state (st : PState P V F) : Outcome Unit (Nat × Val P V) := Outcome.unwrapUnchecked st.stack.head?

/-- parser_state.rs:40-42 `pop_state`. -/
def popState (st : PState P V F) : Outcome Unit ((Nat × Val P V) × PState P V F) := do
  let s ← Outcome.unwrapUnchecked st.stack.head?
  pure (s, { st with stack := st.stack.tail })

end PState

/-- The data taken out of a popped state (reduce_rule.rs:49-55); the pattern of the arm does not match other
variants of the terminal type. -/
def extractData (variant : Option String) (v : Val P V) : Outcome Unit (Val P V) :=
  match variant with
  | none => pure v
  | some name =>
    match v with
    | .tok (.data n p) => if n = name then pure (.payload p) else Outcome.ub
    | _ => Outcome.ub

/-- The generated `let` statements that pop the nodes of a rule (reduce_rule.rs:61-82). -/
def runPops : List PopStep → PState P V F → Outcome Unit (List (Nat × Val P V) × PState P V F)
  | [], st => pure ([], st)
  | pop :: rest, st => do
    let (s, st) ← st.popState
    if s.1 ∈ pop.states then do
      let v ← extractData pop.variant s.2
      let (vs, st) ← runPops rest st
      pure ((pop.node, v) :: vs, st)
    else Outcome.ub

/-- The generated end of a reduction (reduce_rule.rs:174-194). -/
def GotoCode.run (v : Val P V) (st : PState P V F) : GotoCode → Outcome Unit (PState P V F)
  | .direct next => pure (st.push (next, v))
  | .select arms => do
    let top ← st.state
    match arms.find? fun arm => decide (top.1 ∈ arm.2) with
    | some arm => pure (st.push (arm.1, v))
    | none => Outcome.ub

/-- What a state's function returns: `Ok(Continue)`, `Ok(Accept(value))` or an error. -/
inductive StepResult (P V E F σ : Type) where
  | next (st : PState P V F) (w : σ)
  | accept (v : Val P V) (st : PState P V F) (w : σ)
  | fail (e : ParseErr P E) (w : σ)

/-- A match arm that shifts (state_action_builder.rs:164-166, :309-311). -/
def ShiftArm.run (sem : Sem P V E σ) (items : Nat → Option (Item P F)) (arm : ShiftArm)
    (peeked : Option (Token P)) (st : PState P V F) (w : σ) : Outcome Unit (StepResult P V E F σ) := do
  let value ← arm.value.eval sem peeked
  let st ← st.advance items
  pure (.next (st.push (arm.next, .tok value)) w)

/-- A match arm that reduces (state_action_builder.rs:208-214). -/
def ReduceArm.run (sem : Sem P V E σ) (arm : ReduceArm) (st : PState P V F) (w : σ) :
    Outcome Unit (StepResult P V E F σ) := do
  let (vars, st) ← runPops arm.pops st
  match ← arm.ctor.run sem (fun i => vars.lookup i) w with
  | (.error e, w) => pure (.fail (.user e) w)
  | (.ok v, w) => do
    let st ← arm.goto.run v st
    pure (.next st w)

/-- The match arm that accepts (state_action_builder.rs:243-249). -/
def AcceptArm.run (sem : Sem P V E σ) (arm : AcceptArm) (st : PState P V F) (w : σ) :
    Outcome Unit (StepResult P V E F σ) := do
  let (vars, st) ← runPops arm.pops st
  Outcome.assert (st.stack.length == 1) -- parser_state.rs:44-47 `verify_empty_stack`
  match ← arm.ctor.run sem (fun i => vars.lookup i) w with
  | (.error e, w) => pure (.fail (.user e) w)
  | (.ok v, w) => pure (.accept v st w)

/-- The generated `match` on the lookahead (state_action_builder.rs:288-292, :302-307): the first arm that
matches is taken. -/
def StateCode.act (sem : Sem P V E σ) (items : Nat → Option (Item P F)) (code : StateCode)
    (peeked : Option (Token P)) (st : PState P V F) (w : σ) : Outcome Unit (StepResult P V E F σ) :=
  match code.shifts.find? fun arm => arm.matcher.matches sem peeked with
  | some arm => arm.run sem items peeked st w
  | none =>
    match code.reduces.find? fun arm => arm.matchers.any fun m => m.matches sem peeked with
    | some arm => arm.run sem st w
    | none =>
      match code.accept.filter fun arm => arm.matcher.matches sem peeked with
      | some arm => arm.run sem st w
      | none => pure (.fail (.parseError peeked) w)

/-- The debug check for overlapping patterns (state_action_builder.rs:132-145), if `debug` assertions are
enabled in the crate that uses the macro, followed by the `match`. -/
def StateCode.check (debug : Bool) (sem : Sem P V E σ) (items : Nat → Option (Item P F))
    (code : StateCode) (peeked : Option (Token P)) (st : PState P V F) (w : σ) :
    Outcome Unit (StepResult P V E F σ) :=
  if debug = true ∧ 1 < (code.overlap.filter fun m => m.matches sem peeked).length then
    pure (.fail (.overlapping peeked) w)
  else code.act sem items peeked st w

/-- The body of a state's function (state_action_builder.rs:283-313). -/
def StateCode.run (debug : Bool) (sem : Sem P V E σ) (into : F → E) (items : Nat → Option (Item P F))
    (code : StateCode) (st : PState P V F) (w : σ) : Outcome Unit (StepResult P V E F σ) :=
  match st.next with
  | some (.error f) => pure (.fail (.user (into f)) w)
  | some (.ok t) => code.check debug sem items (some t) st w
  | none => code.check debug sem items none st w

/-- One iteration of the loop (parse_loop.rs:35-37). -/
def Program.step (debug : Bool) (sem : Sem P V E σ) (into : F → E) (items : Nat → Option (Item P F))
    (prog : Program) (st : PState P V F) (w : σ) : Outcome Unit (StepResult P V E F σ) := do
  let top ← st.state
  let code ← Outcome.index prog.states top.1
  code.run debug sem into items st w

/-- How a parse ended: its result, the world, the number of items pulled, and the stack. -/
structure Run (P V E σ : Type) where
  result : Except (ParseErr P E) (Val P V)
  world : σ
  pulled : Nat
  stack : List (Nat × Val P V)

/-- parse_loop.rs:34-43: the loop, for at most `fuel` iterations. -/
def Program.loop (debug : Bool) (sem : Sem P V E σ) (into : F → E) (items : Nat → Option (Item P F))
    (prog : Program) : Nat → PState P V F → σ → Outcome Unit (Run P V E σ)
  | 0, _, _ => Outcome.timeout
  | fuel + 1, st, w => do
    match ← prog.step debug sem into items st w with
    | .next st w => prog.loop debug sem into items fuel st w
    | .accept v st' w => pure ⟨.ok v, w, st'.pulled, st'.stack⟩
    | .fail e w => pure ⟨.error e, w, st.pulled, st.stack⟩

/-- The generated `parse_fallible` (code_gen.rs:56-67, parse_loop.rs:29-44). -/
def Program.parseFallible (debug : Bool) (sem : Sem P V E σ) (into : F → E)
    (items : Nat → Option (Item P F)) (prog : Program) (fuel : Nat) (w : σ) :
    Outcome Unit (Run P V E σ) :=
  prog.loop debug sem into items fuel (.new items (LRTable.rootState, .unit)) w

/-- src/parser.rs:18-24 `parse`: errors of the stream are `Infallible`. -/
def Program.parse (debug : Bool) (sem : Sem P V E σ) (tokens : Nat → Option (Token P)) (prog : Program)
    (fuel : Nat) (w : σ) : Outcome Unit (Run P V E σ) :=
  prog.parseFallible debug sem (fun e : Empty => nomatch e) (fun i => (tokens i).map .ok) fuel w

/-- Name resolution of the generated code: default constructors refer to a variable that is bound. -/
def Ctor.Compiles (pops : List PopStep) : Ctor → Prop
  | .tryInto _ => ∃ pop ∈ pops, pop.node = 0
  | _ => True

/-- The Rust compiler accepts the generated default constructors. -/
structure Program.Compiles (prog : Program) : Prop where
  reduce : ∀ code ∈ prog.states, ∀ arm ∈ code.reduces, arm.ctor.Compiles arm.pops
  accept : ∀ code ∈ prog.states, ∀ arm, code.accept = some arm → arm.ctor.Compiles arm.pops

end Verif
