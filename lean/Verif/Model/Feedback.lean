import Verif.Model.Runtime

/-!
# Generated parsers that read from an iterator with effects

In `Model/Runtime.lean` the items of the input are given in advance. Nothing in the code demands that: the
iterator handed to `parse_fallible` (src/parser.rs:10-16) is any `Iterator`, and it may share state with the
constructors of the grammar (an `Rc<RefCell<…>>` with the names that are known so far, say, so that the lexer
can tell type names from variables). Here `Iterator::next` is a function of the world that the constructors
work on, and it may change it.

The parts of a generated parser that do not touch the iterator are those of `Model/Runtime.lean`.
-/

namespace Verif

variable {P V E F σ : Type} [DecidableEq P]

/-- `Iterator::next` for an iterator that shares its state with the constructors. -/
abbrev Source (P F σ : Type) := σ → Option (Item P F) × σ

/-- src/parser_state.rs:14-22 `new`, src/parser_stream.rs:10-13 `new`: the first item is read right away. -/
def PState.newFed (src : Source P F σ) (initial : Nat × Val P V) (w : σ) : PState P V F × σ :=
  (⟨(src w).1, 1, [initial]⟩, (src w).2)

/-- src/parser_stream.rs:19-22 `advance`. -/
def PState.advanceFed (src : Source P F σ) (st : PState P V F) (w : σ) : Outcome Unit (PState P V F × σ) := do
  Outcome.assert st.next.isSome
  pure ({ st with next := (src w).1, pulled := st.pulled + 1 }, (src w).2)

/-- A match arm that shifts (state_action_builder.rs:164-166, :309-311). -/
def ShiftArm.runFed (sem : Sem P V E σ) (src : Source P F σ) (arm : ShiftArm)
    (peeked : Option (Token P)) (st : PState P V F) (w : σ) : Outcome Unit (StepResult P V E F σ) := do
  let value ← arm.value.eval sem peeked
  let (st, w) ← st.advanceFed src w
  pure (.next (st.push (arm.next, .tok value)) w)

/-- The generated `match` on the lookahead (state_action_builder.rs:288-292, :302-307). -/
def StateCode.actFed (sem : Sem P V E σ) (src : Source P F σ) (code : StateCode)
    (peeked : Option (Token P)) (st : PState P V F) (w : σ) : Outcome Unit (StepResult P V E F σ) :=
  match code.shifts.find? fun arm => arm.matcher.matches sem peeked with
  | some arm => arm.runFed sem src peeked st w
  | none =>
    match code.reduces.find? fun arm => arm.matchers.any fun m => m.matches sem peeked with
    | some arm => arm.run sem st w
    | none =>
      match code.accept.filter fun arm => arm.matcher.matches sem peeked with
      | some arm => arm.run sem st w
      | none => pure (.fail (.parseError peeked) w)

/-- The debug check for overlapping patterns (state_action_builder.rs:132-145), followed by the `match`. -/
def StateCode.checkFed (debug : Bool) (sem : Sem P V E σ) (src : Source P F σ)
    (code : StateCode) (peeked : Option (Token P)) (st : PState P V F) (w : σ) :
    Outcome Unit (StepResult P V E F σ) :=
  if debug = true ∧ 1 < (code.overlap.filter fun m => m.matches sem peeked).length then
    pure (.fail (.overlapping peeked) w)
  else code.actFed sem src peeked st w

/-- The body of a state's function (state_action_builder.rs:283-313). -/
def StateCode.runFed (debug : Bool) (sem : Sem P V E σ) (into : F → E) (src : Source P F σ)
    (code : StateCode) (st : PState P V F) (w : σ) : Outcome Unit (StepResult P V E F σ) :=
  match st.next with
  | some (.error f) => pure (.fail (.user (into f)) w)
  | some (.ok t) => code.checkFed debug sem src (some t) st w
  | none => code.checkFed debug sem src none st w

/-- One iteration of the loop (parse_loop.rs:35-37). -/
def Program.stepFed (debug : Bool) (sem : Sem P V E σ) (into : F → E) (src : Source P F σ)
    (prog : Program) (st : PState P V F) (w : σ) : Outcome Unit (StepResult P V E F σ) := do
  let top ← st.state
  let code ← Outcome.index prog.states top.1
  code.runFed debug sem into src st w

/-- parse_loop.rs:34-43: the loop, for at most `fuel` iterations. -/
def Program.loopFed (debug : Bool) (sem : Sem P V E σ) (into : F → E) (src : Source P F σ)
    (prog : Program) : Nat → PState P V F → σ → Outcome Unit (Run P V E σ)
  | 0, _, _ => Outcome.timeout
  | fuel + 1, st, w => do
    match ← prog.stepFed debug sem into src st w with
    | .next st w => prog.loopFed debug sem into src fuel st w
    | .accept v st' w => pure ⟨.ok v, w, st'.pulled, st'.stack⟩
    | .fail e w => pure ⟨.error e, w, st.pulled, st.stack⟩

/-- The generated `parse_fallible` (code_gen.rs:56-67, parse_loop.rs:29-44). -/
def Program.parseFed (debug : Bool) (sem : Sem P V E σ) (into : F → E) (src : Source P F σ)
    (prog : Program) (fuel : Nat) (w : σ) : Outcome Unit (Run P V E σ) :=
  let (st, w) := PState.newFed src (LRTable.rootState, .unit) w
  prog.loopFed debug sem into src fuel st w

end Verif
