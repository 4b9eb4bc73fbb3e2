import Verif.Proof.Ownership
import Verif.Props.Check
import Verif.Props.RustSyntax

/-!
# C74: generated parsers use no value that is gone and no reference that is not good any more
-/

set_option linter.unusedSectionVars false
set_option autoImplicit false

namespace Verif
open Spec Rust RustSyntax CodeGen Emit

section
variable {P V E F σ : Type} [DecidableEq P]

theorem Rust.lift_bind {α β : Type} (x : Outcome Unit α) (f : α → Outcome Unit β) :
    lift (x >>= f) = lift x >>= fun a => lift (f a) := by
  cases x <;> rfl

theorem Rust.CTy.plain_ofType (t : RType) : (CTy.ofType t).plain = true := by
  cases t <;> rfl

theorem RustSyntax.Item.plain {it : RustSyntax.Item} {u : UserDecls} {D : Decls} (h : it.decls u = some D) (hu : u.Plain) :
    D.Plain := by
  unfold RustSyntax.Item.decls at h
  split at h
  · cases h
    refine ⟨CTy.plain_ofType _, CTy.plain_ofType _, fun v t hv => ?_, hu⟩
    obtain ⟨x, -, hx⟩ := List.mem_map.mp (mem_of_lookup hv)
    cases hx
    exact CTy.plain_ofType _
  · cases h

/-- The body of a function that passes the checks. -/
theorem agree_function {D : Decls} (hD : D.Plain) {c : Ctx P V E F σ} {calls : Calls P V E F σ} (hc : CallsOk D c calls)
    {r : CTy} {param : String} {t : CTy} {body : Expr} (h : checkFunction D c.debug r param t body = true)
    {v : RVal P V E F} {taken now : Time} {s : Store P V E F σ} (hv : HasTy t v) (hg : v.good taken now = true) (hs : StoreOk s) :
    Agree (fun a b => b.1.held.1 = a.1.value ∧ b.2.store = a.2 ∧ StoreOk a.2 ∧ HasTy r a.1.value)
      (body.eval c [(param, v)] s) (body.own c calls ⟨[(param, some (v, taken))], now, s⟩) := by
  unfold checkFunction at h
  split at h
  · rename_i t' o hb
    refine (agree_expr hD hc body _ _ _ _ hb [] [] [(param, v)] ⟨[(param, some (v, taken))], now, s⟩ (fun _ => ⟨rfl, rfl⟩)
      ⟨rfl, rfl, fun _ => ⟨taken, rfl, hv, hg⟩, rfl, rfl⟩ hs).mono fun a b hab => ?_
    obtain ⟨x, s'⟩ := a
    obtain ⟨y, m⟩ := b
    cases x with
    | val w =>
      cases y with
      | val w' taken' =>
        obtain ⟨rfl, rfl, h1, Γ, -, -, h4, -, -⟩ := hab
        exact ⟨rfl, rfl, h1, h4.fits h⟩
      | ret => exact hab.elim
    | ret w =>
      cases y with
      | val => exact hab.elim
      | ret w' taken' =>
        obtain ⟨rfl, rfl, h1, r', hr, h2⟩ := hab
        cases hr
        exact ⟨rfl, rfl, h1, h2⟩
  · cases h

/-- Two interpreters that agree on values end in the same way. -/
theorem Agree.eq {α β γ : Type} {R : α → β → Prop} {x : Outcome Unit α} {y : Outcome Misuse β} {f : α → γ} {g : β → γ}
    (h : Agree R x y) (hR : ∀ a b, R a b → g b = f a) :
    (y >>= fun b => (pure (g b) : Outcome Misuse γ)) = lift (x >>= fun a => (pure (f a) : Outcome Unit γ)) := by
  cases x <;> cases y <;> first | exact h.elim | rfl | skip
  simp [lift, hR _ _ h]

end

namespace C74
section
variable {P V E F σ : Type} [DecidableEq P]

/-- **C74**, for all code: what passes the checks of C63 makes no use of values that were moved, and none of references
into the parser's state that are not good any more. The interpreter that watches for these does what the other one
does. -/
theorem checked_is_safe {it : RustSyntax.Item} {u : UserDecls} {debug : Bool} (hu : u.Plain) (h : it.checks u debug = true)
    (sem : Sem P V E σ) (into : F → E) (items : Nat → Option (Item P F)) (fuel : Nat) (w : σ) :
    it.ownRun debug sem into items fuel w = lift (it.run debug sem into items fuel w) := by
  unfold RustSyntax.Item.checks at h
  split at h
  · rename_i D hD
    simp only [Bool.and_eq_true, List.all_eq_true] at h
    obtain ⟨⟨⟨hf, hb⟩, -⟩, -⟩ := h
    have hp := it.plain hD hu
    have hfun : D.functions = it.functions.map Prod.fst := by
      unfold RustSyntax.Item.decls at hD
      split at hD
      · cases hD
        rfl
      · cases hD
    have hc : CallsOk D ⟨debug, sem, into, items, fuel, callIn it.functions debug sem into items⟩
        (ownCallIn it.functions debug sem into items) := by
      intro f now s hmem hs
      show Agree _ (callIn it.functions debug sem into items f .self s) (ownCallIn it.functions debug sem into items f .self now s)
      simp only [callIn, ownCallIn]
      cases hl : it.functions.lookup f with
      | none => trivial
      | some q =>
        obtain ⟨param, body⟩ := q
        simp only [Outcome.unwrap_some, Outcome.ok_bind]
        have := agree_function hp (c := ⟨debug, sem, into, items, 0, fun _ _ _ => Outcome.panic⟩)
          (calls := fun _ _ _ _ => .panic) (fun _ _ _ _ _ => trivial) (hf _ (mem_of_lookup hl)) (v := .self)
          (taken := now) (now := now) (s := s) ⟨rfl, .inr rfl⟩ (RVal.good_self _ _) hs
        refine this.bind fun a b hab => ?_
        exact ⟨hab.1, hab.2.1, hab.2.2.1, hab.2.2.2⟩
    have := agree_function hp hc hb (v := .input) (taken := ⟨0, 0⟩) (now := ⟨0, 0⟩) (s := ⟨none, w⟩) ⟨rfl, rfl⟩
      (RVal.good_self _ _) (fun st h => by cases h)
    exact Agree.eq this fun a b hab => Prod.ext hab.1 hab.2.1
  · cases h

end

theorem strict_plain (gi : GrammarInfo) : (C63.strict gi).Plain where
  body k out env t h := by
    simp only [C63.strict, bind, Option.bind_eq_some_iff] at h
    obtain ⟨r, -, ty, -, h⟩ := h
    split at h
    · cases h
      cases ty <;> rfl
    · cases h
  conv k t t' h := by
    simp only [C63.strict, bind, Option.bind_eq_some_iff] at h
    obtain ⟨r, -, ty, -, h⟩ := h
    split at h
    · cases h
      cases ty <;> rfl
    · cases h

section
variable {P V E F' σ : Type} [DecidableEq P] {lex : Lexer} {o : HashOrder} {tx : Text} {t : TokenStream} {fuel : Nat}
  {gi : GrammarInfo} {prog : Program}

/-- **C74.** What the macro returns for an accepted grammar file makes no use of values that were moved, and none of
references into the parser's state that are not good any more, whatever user code does, for every input, with debug
assertions and without: the interpreter that watches for these sees the parser that the macro was asked for. -/
theorem generated_is_safe (hj : JointOk t) (hb : buildGrammar o lex tx fuel t = .ok (gi, prog))
    (hn : C51.NoDefaultForEpsilon gi) (hname : gi.name ∉ reserved) (retok : String → TokenStream) (isPub : Bool) :
    ∃ it, Reads (Emit.parser gi retok isPub prog).tokens it ∧
      ∀ (debug : Bool) (sem : Sem P V E σ) (into : F' → E) (items : Nat → Option (Item P F')) (n : Nat) (w : σ),
        (it.ownRun debug sem into items n w >>= fun r => .ok (observe r)) =
          lift (prog.parseFallible debug sem into items n w >>= fun r => .ok (some (r.result, r.world, r.pulled))) := by
  have hc := C63.checks hj hb hn hname (C63.strict_fits gi) retok isPub
  obtain ⟨gi', hpar, hb'⟩ := Outcome.bind_eq_ok.mp hb
  obtain ⟨prog', hgen, hb'⟩ := Outcome.bind_eq_ok.mp hb'
  cases hb'
  obtain ⟨it, hr, -, -, -, -, -, -, -, -, -, hrun⟩ := C54.emitted_tokens_run (P := P) (V := V) (E := E) (F' := F') (σ := σ)
    hgen hname retok isPub
  refine ⟨it, hr, fun debug sem into items n w => ?_⟩
  obtain ⟨it', hr', hch⟩ := hc debug
  cases hr.unique hr'
  rw [checked_is_safe (strict_plain gi) hch, ← hrun, lift_bind]
  rfl

/-- No use of them is found. -/
theorem no_misuse (hj : JointOk t) (hb : buildGrammar o lex tx fuel t = .ok (gi, prog))
    (hn : C51.NoDefaultForEpsilon gi) (hname : gi.name ∉ reserved) (retok : String → TokenStream) (isPub : Bool)
    {it : RustSyntax.Item} (hit : Reads (Emit.parser gi retok isPub prog).tokens it) (debug : Bool) (sem : Sem P V E σ)
    (into : F' → E) (items : Nat → Option (Item P F')) (n : Nat) (w : σ) (m : Misuse) :
    it.ownRun debug sem into items n w ≠ .err m := by
  obtain ⟨it', hr, hc⟩ := C63.checks hj hb hn hname (C63.strict_fits gi) retok isPub debug
  cases hit.unique hr
  rw [checked_is_safe (strict_plain gi) hc]
  cases it.run debug sem into items n w <;> simp [lift]

end

/-! ### Cases -/

open GrammarSample in
/-- The hypotheses are met by the sample. -/
example : ∃ gi prog, buildGrammar .id lexer tx 1000 tokens = .ok (gi, prog) ∧ JointOk tokens ∧
    C51.NoDefaultForEpsilon gi ∧ gi.name ∉ reserved := by
  have hk : (match buildGrammar .id lexer tx 1000 tokens with
      | .ok x => decide (x.1.name ∉ reserved) && x.1.productionRules.all fun r =>
          decide (r.rule = [.epsilon] → r.block = none → r.returnType = none)
      | _ => false) = true := by decide +kernel
  cases h : buildGrammar .id lexer tx 1000 tokens with
  | ok x =>
    rw [h] at hk
    simp only [Bool.and_eq_true, decide_eq_true_eq, List.all_eq_true] at hk
    exact ⟨x.1, x.2, rfl, tokens_joint, hk.2, hk.1⟩
  | _ => rw [h] at hk; cases hk

/-! ### Code in which misuse is found -/

/-- The misuse that is found when a function of a state runs with two values on the stack, and whether the interpreter
that does not watch comes to an end. -/
def ends (e : Expr) : Option Misuse × Bool :=
  let c : Ctx Nat Nat String String Nat := ⟨true, Sample.sem, id, Sample.stream [.unit "Plus"] none, 2, fun _ _ _ => .panic⟩
  let s : Store Nat Nat String String Nat :=
    ⟨some ⟨some (.ok (.unit "Plus")), 1, [.state "States" "S0" (.val .unit), .state "States" "S0" (.val (.user 1))]⟩, 0⟩
  (match e.own c (fun _ _ _ _ => .panic) ⟨[("state", some (.self, ⟨0, 0⟩))], ⟨0, 0⟩, s⟩ with
    | .err m => some m
    | _ => none,
  match e.eval c [("state", .self)] s with
    | .ok _ => true
    | _ => false)

/-- `let x = state.pop_state(); state.push(x); state.push(x); Ok(Continue)`. -/
example : ends (.letIn false "x" (.call0 .popState (.var "state"))
    (.seq (.push (.var "state") (.var "x")) (.seq (.push (.var "state") (.var "x")) C63.done))) = (some .moved, true) := by
  decide +kernel

/-- Once is enough. -/
example : ends (.letIn false "x" (.call0 .popState (.var "state")) (.seq (.push (.var "state") (.var "x")) C63.done)) =
    (none, true) := by decide +kernel

/-- `state.push({ state.pop_state() })`: the state is borrowed while the argument is evaluated. -/
example : ends (.seq (.push (.var "state") (.block (.call0 .popState (.var "state")))) C63.done) = (some .moved, true) := by
  decide +kernel

/-- `let x = state.state(); state.pop_state(); match x { S0(..) => (), S1(..) => () } Ok(Continue)`. -/
example : ends (.letIn false "x" (.call0 .state (.var "state")) (.seq (.call0 .popState (.var "state"))
    (.stmt (.cases (.var "x") (C63.both .nothing .nothing)) C63.done))) = (some .dangling, true) := by decide +kernel

/-- The stream may be looked at in between, -/
example : ends (.letIn false "x" (.call0 .state (.var "state")) (.seq (.call0 .peekNext (.call0 .stream (.var "state")))
    (.stmt (.cases (.var "x") (C63.both .nothing .nothing)) C63.done))) = (none, true) := by decide +kernel

/-- but not while there is an exclusive reference to it: `let x = state.stream_mut(); state.stream(); x.advance();`. -/
example : ends (.letIn false "x" (.call0 .streamMut (.var "state")) (.seq (.call0 .stream (.var "state"))
    (.seq (.call0 .advance (.var "x")) C63.done))) = (some .dangling, true) := by decide +kernel

/-- An item that was read ahead is used after the stream was advanced:
`let x = state.stream().peek_next(); state.stream_mut().advance(); match x { .. }`. -/
example : ends (.letIn false "x" (.call0 .peekNext (.call0 .stream (.var "state")))
    (.seq (.call0 .advance (.call0 .streamMut (.var "state")))
      (.stmt (.cases (.var "x") (.cons .wild .last .nothing .nil)) C63.done))) = (some .dangling, true) := by decide +kernel

/-- A constructor is run twice with the same `__v0`. -/
example : ends (.letIn true "__v0" (.call0 .popState (.var "state"))
    (.seq (.closure 0 .nil) (.seq (.closure 0 .nil) C63.done))) = (some .moved, true) := by decide +kernel

/-- The interpreter that watches runs the sample parser. -/
example : (do
    let gi ← Sample.info
    match generateParser .id Sample.lexer gi with
    | .ok prog =>
      match Rust.ownRun (Emit.functions gi prog) (Emit.parseLoop gi prog.states.length) "__parser_generator_input_stream"
          true Sample.sem id (Sample.stream [.unit "Plus", .data "Num" 13] none) 50 0 with
      | .ok r => pure (observe r)
      | _ => Outcome.panic
    | _ => Outcome.panic) = .ok (some (.error (.user "unlucky"), 1, 3)) := by
  decide +kernel

/-- The hypothesis on user code in `checked_is_safe` is needed: a constructor whose type is said to be a number, and
copied, although it has a value that is moved. -/
example : ∃ (it : RustSyntax.Item) (u : UserDecls), it.checks u true = true ∧
    (match it.ownRun (P := Nat) (F := String) true Sample.sem id (Sample.stream [] none) 2 0 with
      | .err m => some m
      | _ => none) = some .moved := by
  refine ⟨⟨true, "P", "1usize", .user .nil, .unit, .unit, "States", [("S0", .unit)], [], "input",
    .letIn false "x" (.question (.closure 1 .nil)) (.seq (.var "x") (.seq (.var "x") (.con .ok (.atom .unit))))⟩,
    ⟨fun _ => true, fun _ => true, fun _ => true, fun _ _ => true, fun _ _ _ => some .usize, fun _ _ => none⟩, ?_, ?_⟩ <;>
    decide +kernel

end C74
end Verif
