import Verif.Spec.Frames
import Verif.Props.Rust

/-!
# C90: how deep the calls of a generated parser are
-/

set_option linter.unusedSectionVars false
set_option autoImplicit false

namespace Verif
open Spec Rust

namespace Rust
variable {P V E F σ : Type} [DecidableEq P]

theorem Method.run_ctx (c : Ctx P V E F σ) (n : Nat)
    (k : String → RVal P V E F → Store P V E F σ → Outcome Unit (RVal P V E F × Store P V E F σ)) (m : Method)
    (v : RVal P V E F) (s : Store P V E F σ) : m.run { c with fuel := n, call := k } v s = m.run c v s := by
  unfold Method.run
  rfl

mutual

/-- Code without calls and loops does not depend on the functions in scope. -/
theorem Expr.eval_ctx (c : Ctx P V E F σ) (n : Nat)
    (k : String → RVal P V E F → Store P V E F σ → Outcome Unit (RVal P V E F × Store P V E F σ)) :
    ∀ (e : Expr) (Γ : Scope P V E F) (s : Store P V E F σ), e.calls = [] → e.loops = 0 →
      e.eval { c with fuel := n, call := k } Γ s = e.eval c Γ s
  | .var _, Γ, s, _, _ => by simp only [Expr.eval]
  | .atom _, Γ, s, _, _ => by simp only [Expr.eval]
  | .con _ e, Γ, s, hc, hl => by
    simp only [Expr.calls, Expr.loops] at hc hl
    simp only [Expr.eval, Expr.eval_ctx c n k e Γ s hc hl]
  | .call0 _ e, Γ, s, hc, hl => by
    simp only [Expr.calls, Expr.loops] at hc hl
    simp only [Expr.eval, Expr.eval_ctx c n k e Γ s hc hl, Method.run_ctx]
  | .push e arg, Γ, s, hc, hl => by
    simp only [Expr.calls, Expr.loops, List.append_eq_nil_iff, Nat.add_eq_zero_iff] at hc hl
    simp only [Expr.eval, Expr.eval_ctx c n k e Γ _ hc.1 hl.1, fun s => Expr.eval_ctx c n k arg Γ s hc.2 hl.2]
  | .newState e arg, Γ, s, hc, hl => by
    simp only [Expr.calls, Expr.loops, List.append_eq_nil_iff, Nat.add_eq_zero_iff] at hc hl
    simp only [Expr.eval, Expr.eval_ctx c n k e Γ _ hc.1 hl.1, fun s => Expr.eval_ctx c n k arg Γ s hc.2 hl.2, newState]
  | .call f e, Γ, s, hc, hl => by simp [Expr.calls] at hc
  | .map e x body, Γ, s, hc, hl => by
    simp only [Expr.calls, Expr.loops, List.append_eq_nil_iff, Nat.add_eq_zero_iff] at hc hl
    simp only [Expr.eval, Expr.eval_ctx c n k e Γ _ hc.1 hl.1, fun Γ s => Expr.eval_ctx c n k body Γ s hc.2 hl.2]
  | .parseError e, Γ, s, hc, hl => by
    simp only [Expr.calls, Expr.loops] at hc hl
    simp only [Expr.eval, Expr.eval_ctx c n k e Γ s hc hl]
  | .overlapping e, Γ, s, hc, hl => by
    simp only [Expr.calls, Expr.loops] at hc hl
    simp only [Expr.eval, Expr.eval_ctx c n k e Γ s hc hl]
  | .closure _ _, Γ, s, _, _ => by simp only [Expr.eval]
  | .convert _ e, Γ, s, hc, hl => by
    simp only [Expr.calls, Expr.loops] at hc hl
    simp only [Expr.eval, Expr.eval_ctx c n k e Γ s hc hl]
  | .block e, Γ, s, hc, hl => by
    simp only [Expr.calls, Expr.loops] at hc hl
    simp only [Expr.eval, Expr.eval_ctx c n k e Γ s hc hl]
  | .question e, Γ, s, hc, hl => by
    simp only [Expr.calls, Expr.loops] at hc hl
    simp only [Expr.eval, Expr.eval_ctx c n k e Γ s hc hl]
  | .ret e, Γ, s, hc, hl => by
    simp only [Expr.calls, Expr.loops] at hc hl
    simp only [Expr.eval, Expr.eval_ctx c n k e Γ s hc hl]
  | .letIn isMut x e rest, Γ, s, hc, hl => by
    simp only [Expr.calls, Expr.loops, List.append_eq_nil_iff, Nat.add_eq_zero_iff] at hc hl
    simp only [Expr.eval, Expr.eval_ctx c n k e Γ _ hc.1 hl.1, fun Γ s => Expr.eval_ctx c n k rest Γ s hc.2 hl.2]
  | .seq e rest, Γ, s, hc, hl => by
    simp only [Expr.calls, Expr.loops, List.append_eq_nil_iff, Nat.add_eq_zero_iff] at hc hl
    simp only [Expr.eval, Expr.eval_ctx c n k e Γ _ hc.1 hl.1, fun Γ s => Expr.eval_ctx c n k rest Γ s hc.2 hl.2]
  | .stmt e rest, Γ, s, hc, hl => by
    simp only [Expr.calls, Expr.loops, List.append_eq_nil_iff, Nat.add_eq_zero_iff] at hc hl
    simp only [Expr.eval, Expr.eval_ctx c n k e Γ _ hc.1 hl.1, fun Γ s => Expr.eval_ctx c n k rest Γ s hc.2 hl.2]
  | .nothing, Γ, s, _, _ => by simp only [Expr.eval]
  | .cases e arms, Γ, s, hc, hl => by
    simp only [Expr.calls, Expr.loops, List.append_eq_nil_iff, Nat.add_eq_zero_iff] at hc hl
    simp only [Expr.eval, Expr.eval_ctx c n k e Γ _ hc.1 hl.1, fun v s => Arms.eval_ctx c n k arms v Γ s hc.2 hl.2]
  | .unreachable, Γ, s, _, _ => by simp only [Expr.eval]
  | .count e p, Γ, s, hc, hl => by
    simp only [Expr.calls, Expr.loops] at hc hl
    simp only [Expr.eval, Expr.eval_ctx c n k e Γ s hc hl]
  | .add e arg, Γ, s, hc, hl => by
    simp only [Expr.calls, Expr.loops, List.append_eq_nil_iff, Nat.add_eq_zero_iff] at hc hl
    simp only [Expr.eval, Expr.eval_ctx c n k e Γ _ hc.1 hl.1, fun s => Expr.eval_ctx c n k arg Γ s hc.2 hl.2]
  | .ifMany e rest, Γ, s, hc, hl => by
    simp only [Expr.calls, Expr.loops, List.append_eq_nil_iff, Nat.add_eq_zero_iff] at hc hl
    simp only [Expr.eval, Expr.eval_ctx c n k e Γ _ hc.1 hl.1, fun s => Expr.eval_ctx c n k rest Γ s hc.2 hl.2]
  | .debug e, Γ, s, hc, hl => by
    simp only [Expr.calls, Expr.loops] at hc hl
    simp only [Expr.eval, Expr.eval_ctx c n k e Γ s hc hl]
  | .loop e, Γ, s, hc, hl => by simp [Expr.loops] at hl

theorem Arms.eval_ctx (c : Ctx P V E F σ) (n : Nat)
    (k : String → RVal P V E F → Store P V E F σ → Outcome Unit (RVal P V E F × Store P V E F σ)) :
    ∀ (arms : Arms) (v : RVal P V E F) (Γ : Scope P V E F) (s : Store P V E F σ), arms.calls = [] → arms.loops = 0 →
      arms.eval { c with fuel := n, call := k } v Γ s = arms.eval c v Γ s
  | .nil, v, Γ, s, _, _ => by simp only [Arms.eval]
  | .cons p _ e rest, v, Γ, s, hc, hl => by
    simp only [Arms.calls, Arms.loops, List.append_eq_nil_iff, Nat.add_eq_zero_iff] at hc hl
    simp only [Arms.eval, fun Γ s => Expr.eval_ctx c n k e Γ s hc.1 hl.1, Arms.eval_ctx c n k rest v Γ s hc.2 hl.2]

end

/-- Neither calls nor loops. -/
def Expr.Flat (e : Expr) : Prop := e.calls = [] ∧ e.loops = 0

def Arms.Flat (a : Arms) : Prop := a.calls = [] ∧ a.loops = 0

theorem Arms.Flat.cons {p : RPat} {st : Style} {e : Expr} {rest : Arms} (h1 : e.Flat) (h2 : rest.Flat) :
    (Arms.cons p st e rest).Flat := by
  simp [Arms.Flat, Arms.calls, Arms.loops, h1.1, h1.2, h2.1, h2.2]

theorem Arms.Flat.ofList {l : List (RPat × Style × Expr)} {rest : Arms} (h1 : ∀ a ∈ l, a.2.2.Flat) (h2 : rest.Flat) :
    (Arms.ofList l rest).Flat := by
  induction l with
  | nil => exact h2
  | cons a l ih =>
    exact .cons (h1 a (by simp)) (ih fun b hb => h1 b (List.mem_cons_of_mem _ hb))

end Rust

namespace Emit
variable {gi : GrammarInfo}

theorem flat_constructor (c : Ctor) : (constructor c).Flat := by
  cases c <;> simp [constructor, Expr.Flat, Expr.calls, Expr.loops]

theorem flat_tokenExpr (e : TokExpr) : (tokenExpr gi e).Flat := by
  cases e <;> simp [tokenExpr, Expr.Flat, Expr.calls, Expr.loops]

theorem flat_unreachable : unreachableArm.Flat := by
  simp [unreachableArm, Arms.Flat, Arms.calls, Arms.loops, Expr.calls, Expr.loops]

theorem flat_pops {body : Expr} (h : body.Flat) (ps : List PopStep) : (pops gi body ps).Flat := by
  induction ps with
  | nil => exact h
  | cons p ps ih =>
    have ha : (Arms.ofList (p.states.map (popArm gi p.variant)) unreachableArm).Flat := by
      refine .ofList ?_ flat_unreachable
      intro a ha
      obtain ⟨s, -, rfl⟩ := List.mem_map.mp ha
      simp [popArm, Expr.Flat, Expr.calls, Expr.loops]
    simp [pops, Expr.Flat, Expr.calls, Expr.loops, state, ha.1, ha.2, ih.1, ih.2]

theorem flat_gotoCode {ctor : Ctor} {rest : Expr} (h : rest.Flat) (g : GotoCode) : (gotoCode gi ctor rest g).Flat := by
  have hc := flat_constructor ctor
  cases g with
  | direct next => simp [gotoCode, Expr.Flat, Expr.calls, Expr.loops, state, h.1, h.2, hc.1, hc.2]
  | select arms =>
    have ha : (Arms.ofList (arms.map fun arm => (anyOf (arm.2.map (stateMatcher gi)), .comma,
        .push state (.con (stateName gi arm.1) (.var "__constructed")))) unreachableArm).Flat := by
      refine .ofList ?_ flat_unreachable
      intro a ha
      obtain ⟨s, -, rfl⟩ := List.mem_map.mp ha
      simp [Expr.Flat, Expr.calls, Expr.loops, state]
    simp [gotoCode, Expr.Flat, Expr.calls, Expr.loops, state, h.1, h.2, hc.1, hc.2] at ha ⊢
    exact ha

theorem flat_overlap {rest : Expr} (h : rest.Flat) (ms : List Matcher) : (overlapCheck gi rest ms).Flat := by
  have hs : ∀ (es : List Expr) (e : Expr), e.Flat → (∀ x ∈ es, x.Flat) → (es.foldl .add e).Flat := by
    intro es
    induction es with
    | nil => intro e he _; exact he
    | cons x es ih =>
      intro e he hx
      refine ih _ ?_ fun y hy => hx y (List.mem_cons_of_mem _ hy)
      have := hx x (by simp)
      simp [Expr.Flat, Expr.calls, Expr.loops, he.1, he.2, this.1, this.2]
  cases ms with
  | nil => exact h
  | cons m ms =>
    have hsum : (sum ((m :: ms).map fun m => .count (.var peekedVal) (matcher gi false m))).Flat := by
      rw [List.map_cons]
      refine hs _ _ (by simp [Expr.Flat, Expr.calls, Expr.loops]) ?_
      intro x hx
      obtain ⟨s, -, rfl⟩ := List.mem_map.mp hx
      simp [Expr.Flat, Expr.calls, Expr.loops]
    simp only [overlapCheck, Expr.Flat, Expr.calls, Expr.loops, hsum.1, hsum.2, h.1, h.2]
    simp

theorem flat_actions (code : StateCode) : (actions gi code).Flat := by
  have harms : (Arms.ofList (code.reduces.map (reduceArm gi))
      (Arms.ofList (code.accept.toList.map (acceptArm gi)) returnErr)).Flat := by
    refine .ofList ?_ (.ofList ?_ ?_)
    · intro a ha
      obtain ⟨arm, -, rfl⟩ := List.mem_map.mp ha
      exact flat_pops (flat_gotoCode (by simp [Expr.Flat, Expr.calls, Expr.loops]) _) _
    · intro a ha
      obtain ⟨arm, -, rfl⟩ := List.mem_map.mp ha
      have hc := flat_constructor arm.ctor
      exact flat_pops (by simp [Expr.Flat, Expr.calls, Expr.loops, state, hc.1, hc.2]) _
    · simp [returnErr, Arms.Flat, Arms.calls, Arms.loops, Expr.calls, Expr.loops]
  have hpeek : peekNext.Flat := by
    simp [peekNext, state, Expr.Flat, Expr.calls, Expr.loops, Arms.calls, Arms.loops]
  unfold actions
  have key : ∀ rest : Expr, rest.Flat → (Expr.letIn false peekedVal peekNext rest).Flat := by
    intro rest h
    simp [Expr.Flat, Expr.calls, Expr.loops, hpeek.1, hpeek.2, h.1, h.2]
  refine key _ (flat_overlap ?_ _)
  split
  · simp [Expr.Flat, Expr.calls, Expr.loops, harms.1, harms.2]
  · have hshift : (Arms.ofList (code.shifts.map (shiftArm gi)) (Arms.ofList (code.reduces.map (reduceArm gi))
        (Arms.ofList (code.accept.toList.map (acceptArm gi)) returnErr))).Flat := by
      refine .ofList ?_ harms
      intro a ha
      obtain ⟨arm, -, rfl⟩ := List.mem_map.mp ha
      have := flat_tokenExpr (gi := gi) arm.value
      simp [shiftArm, Expr.Flat, Expr.calls, Expr.loops, this.1, this.2]
    simp [Expr.Flat, Expr.calls, Expr.loops, state, hshift.1, hshift.2]

end Emit

namespace C90
variable {lex : Lexer} {o : HashOrder} {gi : GrammarInfo} {prog : Program}

/-- **C90.** The functions for the states call no function and have no loops. -/
theorem state_functions_flat (gi : GrammarInfo) (prog : Program) :
    ∀ f ∈ Emit.functions gi prog, f.2.2.calls = [] ∧ f.2.2.loops = 0 := by
  intro f hf
  obtain ⟨p, -, rfl⟩ := List.mem_map.mp hf
  exact Emit.flat_actions p.1

/-- **C90.** `parse_fallible` has one loop, and calls each of the functions for the states, in one place. -/
theorem parse_fallible_calls (gi : GrammarInfo) (prog : Program) :
    (Emit.parseLoop gi prog.states.length).calls = (Emit.functions gi prog).map (·.1) ∧
      (Emit.parseLoop gi prog.states.length).loops = 1 := by
  have h1 : ∀ l : List Nat, (Arms.ofList (l.map fun s => (Emit.stateMatcher gi s, .comma,
      .call (Emit.functionName s) (.var "state"))) .nil).calls = l.map Emit.functionName ∧
      (Arms.ofList (l.map fun s => (Emit.stateMatcher gi s, .comma,
        .call (Emit.functionName s) (.var "state"))) .nil).loops = 0 := by
    intro l
    induction l with
    | nil => simp [Arms.ofList, Arms.calls, Arms.loops]
    | cons s l ih =>
      simp only [Arms.ofList, List.map_cons, List.foldr_cons, Arms.calls, Arms.loops, Expr.calls, Expr.loops] at ih ⊢
      simp [ih.1, ih.2]
  have h2 : (Emit.functions gi prog).map (·.1) = (List.range prog.states.length).map Emit.functionName := by
    unfold Emit.functions
    rw [List.map_map]
    have : ((fun x : String × String × Expr => x.1) ∘ fun p : StateCode × Nat =>
        (Emit.functionName p.2, Emit.prefixed "state", Emit.actions gi p.1)) = Emit.functionName ∘ Prod.snd := rfl
    rw [this, ← List.map_map, List.zipIdx_map_snd, List.range_eq_range']
  rw [h2]
  simp [Emit.parseLoop, Expr.calls, Expr.loops, Arms.calls, Arms.loops, (h1 _).1, (h1 _).2]

section
variable {P V E F' σ : Type} [DecidableEq P]

/-- **C90.** However deeply the input is nested, a generated parser never has more than one active call of its functions
besides `parse_fallible` itself: with room for one, it runs as with any room, which is what the model of the parser does
(C54). -/
theorem one_call_at_a_time (h : generateParser o lex gi = .ok prog) (debug : Bool) (sem : Sem P V E σ) (into : F' → E)
    (items : Nat → Option (Item P F')) (fuel room : Nat) (w0 : σ) (hr : 1 ≤ room) :
    (runDeep room (Emit.functions gi prog) (Emit.parseLoop gi prog.states.length) "__parser_generator_input_stream"
        debug sem into items fuel w0 >>= fun r => .ok (observe r)) =
      prog.parseFallible debug sem into items fuel w0 >>= fun r => .ok (some (r.result, r.world, r.pulled)) := by
  rw [← C54.emitted_code_refines h]
  congr 1
  have : callDeep (Emit.functions gi prog) debug sem into items fuel room =
      callIn (Emit.functions gi prog) debug sem into items := by
    obtain ⟨k, rfl⟩ : ∃ k, room = k + 1 := ⟨room - 1, by omega⟩
    funext f arg s
    unfold callDeep callIn
    cases hl : (Emit.functions gi prog).lookup f with
    | none => rfl
    | some p =>
      have hm := state_functions_flat gi prog _ (lookup_some_mem hl)
      have e := Expr.eval_ctx (⟨debug, sem, into, items, 0, fun _ _ _ => Outcome.panic⟩ : Ctx P V E F' σ) fuel
        (callDeep (Emit.functions gi prog) debug sem into items fuel k) p.2 [(p.1, arg)] s hm.1 hm.2
      show (Outcome.unwrap (some p) >>= fun p => _) = _
      simp only [Outcome.unwrap, Outcome.ok_bind]
      rw [← e]
  unfold runDeep Rust.run
  rw [this]

/-- The sample parser: with room for one call it gives the value, without it is aborted. The functions are not trivial:
there are calls of them, and a function that did call another would need more room. -/
example : (do
    let gi ← Sample.info
    match generateParser .id Sample.lexer gi with
    | .ok prog =>
      let go := fun room => runDeep room (Emit.functions gi prog) (Emit.parseLoop gi prog.states.length)
        "__parser_generator_input_stream" true Sample.sem id
        (Sample.stream [.unit "Plus", .unit "Plus", .data "Num" 5] none) 50 0
      match go 1, go 0 with
      | .ok r, .panic => pure (observe r)
      | _, _ => Outcome.panic
    | _ => Outcome.panic) = .ok (some (.ok (.user 623), 4, 4)) := by
  decide +kernel

end
end C90
end Verif
