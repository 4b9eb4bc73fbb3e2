import Verif.Proof.Rust
import Verif.Props.Emit

/-!
# C54: running the generated code

`Verif.Spec.Rust` says what the Rust code that `Verif.Model.Emit` writes does, statement by statement, without knowing
where the code comes from. The theorems compare this with the model of generated parsers, about which the other
properties speak.
-/

set_option linter.unusedSectionVars false
set_option autoImplicit false

namespace Verif
open Spec Rust

variable {P V E F' σ : Type} [DecidableEq P] {lex : Lexer} {o : HashOrder} {gi : GrammarInfo} {prog : Program}

theorem nodes_nodup {smap : StateMap Sym} {site : List Nat} {nodes : List INode} {S final : List Nat}
    {pops : List PopStep} (h : bindNodes o lex smap site (indexedNodesRev nodes) S = .ok (pops, final)) :
    (pops.map PopStep.node).Nodup := by
  rw [bindNodes_nodes _ _ _ _ h]
  refine (List.filter_sublist.map Prod.fst).nodup ?_
  have : (indexedNodesRev nodes).map Prod.fst = (List.range nodes.length).reverse := by
    unfold indexedNodesRev
    rw [List.map_reverse, List.map_map]
    congr 1
    rw [show (Prod.fst ∘ fun (x : INode × Nat) => match x with | (n, i) => (i, n)) = Prod.snd from rfl]
    rw [List.zipIdx_map_snd, List.range_eq_range']
  rw [this]
  exact List.nodup_reverse.mpr List.nodup_range

/-- Generated programs have what their code needs. -/
theorem sound_of_generateParser (h : generateParser o lex gi = .ok prog) :
    ∀ code ∈ prog.states, StateCode.Sound code := by
  unfold generateParser at h
  simp only [Outcome.bind_eq_ok] at h
  obtain ⟨smap, -, root, -, result, -, types, -, states, hs, h⟩ := h
  cases h
  intro code hcode
  obtain ⟨s, -, hg⟩ := forall₂_mem_right' (generateStates_spec hs) hcode
  unfold generateState at hg
  simp only [Outcome.bind_eq_ok] at hg
  obtain ⟨a, ha, overlap, -, reduces, hr, accept, hacc, shifts, -, hg⟩ := hg
  cases hg
  have hall := reduceArms_spec hr
  refine ⟨?_, ?_, ?_, ?_⟩
  · intro arm harm
    obtain ⟨p, hp, hf⟩ := forall₂_mem_right' hall harm
    have hne := build_nonempty ha p ((o.perm _ _).mem_iff.mp hp)
    intro he
    have := hf.matchers
    rw [he] at this
    cases hp2 : p.2 with
    | nil => exact hne hp2
    | cons => rw [hp2] at this; cases this
  · intro arm harm arms hsel q hq
    obtain ⟨p, hp, hf⟩ := forall₂_mem_right' hall harm
    obtain ⟨rule, states, -, -, hgo⟩ := hf.rest
    unfold applyGoto at hgo
    simp only [Outcome.bind_eq_ok] at hgo
    obtain ⟨m, hm, ctor, -, hgo⟩ := hgo
    have hne := gotoMap_nonempty hm (by simp)
    rw [hsel] at hgo
    split at hgo
    · cases hgo
    · cases hgo
      exact hne q ((o.perm _ _).mem_iff.mp hq)
  · intro arm harm
    obtain ⟨p, hp, hf⟩ := forall₂_mem_right' hall harm
    obtain ⟨rule, states, -, hb, -⟩ := hf.rest
    exact nodes_nodup hb
  · rintro arm rfl
    unfold acceptArm at hacc
    cases hacc' : a.accept with
    | none => rw [hacc'] at hacc; cases hacc
    | some t =>
      rw [hacc'] at hacc
      simp only [Outcome.bind_eq_ok] at hacc
      obtain ⟨m, -, rule, -, ⟨pops, states⟩, hb, -, -, ctor, -, hacc⟩ := hacc
      cases hacc
      exact nodes_nodup hb

namespace C54

/-- **C54.** Running the code that the macro writes for `parse_fallible` gives the result, the side effects and the
number of items read that the model of the parser gives, for every debug setting, every meaning of the user's code,
every input, and every number of iterations of the loop. -/
theorem emitted_code_refines (h : generateParser o lex gi = .ok prog) (debug : Bool) (sem : Sem P V E σ)
    (into : F' → E) (items : Nat → Option (Item P F')) (fuel : Nat) (w0 : σ) :
    (Rust.run (Emit.functions gi prog) (Emit.parseLoop gi prog.states.length) "__parser_generator_input_stream"
        debug sem into items fuel w0 >>= fun r => .ok (observe r)) =
      prog.parseFallible debug sem into items fuel w0 >>= fun r => .ok (some (r.result, r.world, r.pulled)) := by
  have hl := eval_loop (sound_of_generateParser h) (debug := debug) (sem := sem) (into := into) (items := items)
    (n := fuel) (fuel := fuel) (gi := gi) (st := .new items (LRTable.rootState, .unit)) (w := w0)
    (Γ := [("state", .owned true), ("__parser_generator_input_stream", .input)]) (by simp)
  have hin : Emit.prefixed "input_stream" = "__parser_generator_input_stream" := by decide +kernel
  rw [← Program.parseFallible] at hl
  refine Eq.trans ?_ hl
  unfold Rust.run Emit.parseLoop returned
  rw [hin]
  rfl

/-- **C54.** Where the grammar was accepted, running the code never fails: every variable is bound, every `match` has
an arm for its value, no method is called on a wrong value and no unreachable code is reached. -/
theorem emitted_code_never_fails (h : Generated o lex gi prog) (debug : Bool) (sem : Sem P V E σ)
    (into : F' → E) (items : Nat → Option (Item P F')) (fuel : Nat) (w0 : σ) :
    (Rust.run (Emit.functions gi prog) (Emit.parseLoop gi prog.states.length) "__parser_generator_input_stream"
        debug sem into items fuel w0 = .timeout ∧
      prog.parseFallible debug sem into items fuel w0 = .timeout) ∨
    ∃ r s st run, Rust.run (Emit.functions gi prog) (Emit.parseLoop gi prog.states.length)
        "__parser_generator_input_stream" debug sem into items fuel w0 = .ok (r, s) ∧
      prog.parseFallible debug sem into items fuel w0 = .ok run ∧
      s = ⟨some st, run.world⟩ ∧ st.pulled = run.pulled ∧
      ((∃ v, r = .ok (.val v) ∧ run.result = .ok v) ∨ ∃ e, r = .err (.parserError e) ∧ run.result = .error e) := by
  have hr := emitted_code_refines h.program debug sem into items fuel w0
  revert hr
  generalize Rust.run (Emit.functions gi prog) (Emit.parseLoop gi prog.states.length)
    "__parser_generator_input_stream" debug sem into items fuel w0 = r
  intro hr
  rcases C17.generated_never_fails h debug sem into items fuel w0 with ht | ⟨run, hrun⟩
  · left
    rw [ht] at hr
    refine ⟨?_, ht⟩
    cases r <;> first | rfl | cases hr
  · right
    rw [hrun, Outcome.ok_bind] at hr
    cases r with
    | ok p =>
      obtain ⟨v, s⟩ := p
      rw [Outcome.ok_bind] at hr
      injection hr with hr
      obtain ⟨state, world⟩ := s
      have key : ∀ {x : Except (ParseErr P E) (Val P V)}, (state.map fun st => (x, world, st.pulled)) =
          some (run.result, run.world, run.pulled) →
          ∃ st, state = some st ∧ x = run.result ∧ world = run.world ∧ st.pulled = run.pulled := by
        intro x hx
        obtain ⟨st, rfl, hy⟩ := Option.map_eq_some_iff.mp hx
        injection hy with h1 h2
        injection h2 with h2 h3
        exact ⟨st, rfl, h1, h2, h3⟩
      unfold observe at hr
      split at hr
      · rename_i v s heq
        cases heq
        obtain ⟨st, rfl, h1, rfl, h3⟩ := key hr
        exact ⟨_, _, st, run, rfl, hrun, rfl, h3, .inl ⟨v, rfl, h1.symm⟩⟩
      · rename_i e s heq
        cases heq
        obtain ⟨st, rfl, h1, rfl, h3⟩ := key hr
        exact ⟨_, _, st, run, rfl, hrun, rfl, h3, .inr ⟨e, rfl, h1.symm⟩⟩
      · cases hr
    | _ => cases hr

/-- The number of functions and of arms of the `match` in the loop is the number of states of the table. -/
theorem functions_length (h : generateParser o lex gi = .ok prog) :
    (Emit.functions gi prog).length = gi.lrTable.numStates ∧ prog.states.length = gi.lrTable.numStates := by
  unfold generateParser at h
  simp only [Outcome.bind_eq_ok] at h
  obtain ⟨smap, -, root, -, result, -, types, -, states, hs, h⟩ := h
  cases h
  have := (generateStates_spec hs).length_eq
  simp only [Emit.functions, List.length_map, List.length_zipIdx, ← this]
  simp [LRTable.states]

/-- The sample parser's code: `Plus Plus Num(5)` evaluates to 623 with four calls of constructors. -/
example : ∃ gi prog, Generated .id Sample.lexer gi prog ∧
    (Rust.run (Emit.functions gi prog) (Emit.parseLoop gi prog.states.length) "__parser_generator_input_stream"
      true Sample.sem id (Sample.stream [.unit "Plus", .unit "Plus", .data "Num" 5] none) 50 0 >>=
        fun r => .ok (observe r)) = .ok (some (.ok (.user 623), 4, 4)) := by
  obtain ⟨gi, prog, h, -, -, hi, hp⟩ := Sample.generated
  obtain ⟨run, h1, h2, h3, h4⟩ := Sample.run_of hi hp Sample.value623
  refine ⟨gi, prog, h, ?_⟩
  rw [emitted_code_refines h.program, h1, Outcome.ok_bind, h2, h3, h4]

/-- The interpreter itself runs the code, without the theorem. -/
example : (do
    let gi ← Sample.info
    match generateParser .id Sample.lexer gi with
    | .ok prog =>
      match Rust.run (Emit.functions gi prog) (Emit.parseLoop gi prog.states.length) "__parser_generator_input_stream"
          true Sample.sem id (Sample.stream [.unit "Plus", .data "Num" 13] none) 50 0 with
      | .ok r => pure (observe r)
      | _ => Outcome.panic
    | _ => Outcome.panic) = .ok (some (.error (.user "unlucky"), 1, 3)) := by
  decide +kernel

end C54
end Verif
