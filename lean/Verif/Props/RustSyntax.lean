import Verif.Proof.RustItem
import Verif.Props.Rust

/-!
# C54, C55: the tokens of generated code

`Verif.Spec.RustSyntax` reads tokens of Rust code. The theorems say that the tokens that the macro returns are read as
declarations with the intended functions, and that running these is running the parser.
-/

set_option linter.unusedSectionVars false
set_option autoImplicit false

namespace Verif
open Spec Rust RustSyntax

theorem RustSyntax.Reads.unique {t : List RTok} {a b : RustSyntax.Item} (ha : Reads t a) (hb : Reads t b) : a = b := by
  obtain ⟨n, ha⟩ := ha
  obtain ⟨m, hb⟩ := hb
  have h1 := ha (max n m) (by omega)
  rw [hb (max n m) (by omega)] at h1
  exact (Option.some.inj h1).symm

namespace C54
variable {P V E F' σ : Type} [DecidableEq P] {lex : Lexer} {o : HashOrder} {gi : GrammarInfo} {prog : Program}

/-- **C54.** The tokens that the macro returns are those of declarations of a parser with the name of the grammar, the
types of the grammar file and `TABLE_SIZE` the number of states. The loop and the functions that a reader of these
tokens sees do what the model of the parser does: same result, side effects and number of items read, for every
debug setting, meaning of the user's code, input and number of iterations of the loop. -/
theorem emitted_tokens_run (h : generateParser o lex gi = .ok prog) (hname : gi.name ∉ reserved)
    (retok : String → TokenStream) (isPub : Bool) :
    ∃ it, Reads (Emit.parser gi retok isPub prog).tokens it ∧
      it.isPub = isPub ∧ it.name = gi.name ∧ it.tableSize = Nat.repr gi.lrTable.numStates ++ "usize" ∧
      it.token = .user (match gi.terminalType with | .raw ty => ty | .enum ty => ty) ∧
      it.value = (match prog.resultType with | some ty => .user ty | none => .unit) ∧
      it.error = (match gi.errorType with
        | some ty => .user ty
        | none => .path ["parser_generator", "error", "NoUserErrorType"]) ∧
      it.variants.map Prod.snd = prog.stateTypes.map (fun | some ty => .user ty | none => .unit) ∧
      (it.variants.map Prod.fst).Nodup ∧ (it.functions.map Prod.fst).Nodup ∧
      ∀ (debug : Bool) (sem : Sem P V E σ) (into : F' → E) (items : Nat → Option (Item P F')) (fuel : Nat) (w0 : σ),
        (it.run debug sem into items fuel w0 >>= fun r => .ok (observe r)) =
          prog.parseFallible debug sem into items fuel w0 >>= fun r => .ok (some (r.result, r.world, r.pulled)) := by
  refine ⟨_, read_parser hname (sound_of_generateParser h), rfl, rfl, rfl, rfl, ?_, ?_, ?_, ?_, ?_, ?_⟩
  · simp only [emitted]
    cases prog.resultType <;> rfl
  · simp only [emitted, errType]
    cases gi.errorType <;> rfl
  · simp only [emitted, List.map_map]
    rw [show (Prod.snd ∘ fun (p : Option TokenStream × Nat) => (Emit.variantName p.2, typeOrUnit' p.1)) =
      typeOrUnit' ∘ Prod.fst from rfl, ← List.map_map, List.zipIdx_map_fst]
    exact List.map_congr_left fun a _ => by cases a <;> rfl
  · simp only [emitted, List.map_map]
    rw [show (Prod.fst ∘ fun (p : Option TokenStream × Nat) => (Emit.variantName p.2, typeOrUnit' p.1)) =
      Emit.variantName ∘ Prod.snd from rfl, ← List.map_map, List.zipIdx_map_snd]
    exact (List.nodup_range' ..).map fun a b hab => (C51.items_differ (gi := gi)).1 a b hab
  · simp only [emitted, Emit.functions, List.map_map]
    rw [show (Prod.fst ∘ fun (p : StateCode × Nat) => (Emit.functionName p.2, Emit.prefixed "state",
      Emit.actions gi p.1)) = Emit.functionName ∘ Prod.snd from rfl, ← List.map_map, List.zipIdx_map_snd]
    exact (List.nodup_range' ..).map fun a b hab => (C51.items_differ (gi := gi)).2.1 a b hab
  · intro debug sem into items fuel w0
    have := emitted_code_refines h debug sem into items fuel w0
    have hin : Emit.prefixed "input_stream" = "__parser_generator_input_stream" := by decide +kernel
    rw [← hin] at this
    exact this

end C54

namespace C55
section
variable {o : HashOrder} {lex : Lexer} {tx : Text} {t : TokenStream} {fuel : Nat} {gi : GrammarInfo} {prog : Program}

/-- **C55**, without grammars whose name is a keyword: what the macro returns for an accepted grammar file is Rust
code, of a structure with the given name. Types, patterns and constructors of the file count as correct. -/
theorem syntax_partial (hb : buildGrammar o lex tx fuel t = .ok (gi, prog)) (hname : gi.name ∉ reserved)
    (retok : String → TokenStream) (isPub : Bool) :
    ∃ it, Reads (Emit.parser gi retok isPub prog).tokens it ∧ it.name = gi.name := by
  obtain ⟨gi', hpar, hb⟩ := Outcome.bind_eq_ok.mp hb
  obtain ⟨prog', hgen, hb⟩ := Outcome.bind_eq_ok.mp hb
  cases hb
  exact ⟨_, read_parser hname (sound_of_generateParser hgen), rfl⟩

/-- Code for a keyword is never read. -/
theorem keyword_unreadable (hname : gi.name ∈ reserved) (retok : String → TokenStream) (isPub : Bool) (f : Nat) :
    RustSyntax.item f (Emit.parser gi retok isPub prog).tokens = none := by
  rw [Emit.parser]
  simp only [Emit.cat, Code.tokens, List.append_assoc, List.append_nil]
  have hp : ∀ rest, visibility ((if isPub then rs!"pub struct" else rs!"struct") ++ rest) =
      (isPub, .word "struct" :: rest) := by
    intro rest
    cases isPub <;> simp [visibility, skip]
  rw [RustSyntax.item, hp]
  simp only [List.cons_append, List.nil_append, skip, if_true, bind, Option.bind, RustSyntax.ident, if_pos hname]

end

open GrammarSample in
/-- The sample grammar, with another name. -/
def named (x : String) : TokenStream := C37.fileTokens unprint { file with name := x }

open GrammarSample in
/-- The hypotheses are met by the sample. -/
example : ∃ gi prog, buildGrammar .id lexer tx 1000 tokens = .ok (gi, prog) ∧ gi.name ∉ reserved := by
  have hk : (match buildGrammar .id lexer tx 1000 tokens with
      | .ok x => decide (x.1.name ∉ reserved)
      | _ => false) = true := by decide +kernel
  cases h : buildGrammar .id lexer tx 1000 tokens with
  | ok x =>
    rw [h] at hk
    exact ⟨x.1, x.2, rfl, by simpa using hk⟩
  | _ => rw [h] at hk; cases hk

open GrammarSample in
/-- The reader reads the tokens for the sample, without the theorem. -/
example : (match buildGrammar .id lexer tx 1000 tokens with
    | .ok x => match RustSyntax.item 300 (Emit.parser x.1 unprint true x.2).tokens with
      | some it => decide (it.isPub = true ∧ it.name = "Calc" ∧ it.functions.length = x.1.lrTable.numStates)
      | none => false
    | _ => false) = true := by decide +kernel

open GrammarSample in
/-- **C55** refuted: a grammar file with `name: match;` is accepted, but what is returned begins with `struct match;`
and is not Rust code. -/
theorem syntax_refuted : ∃ gi prog, buildGrammar .id lexer tx 1000 (named "match") = .ok (gi, prog) ∧
    ∀ retok isPub it, ¬ Reads (Emit.parser gi retok isPub prog).tokens it := by
  have hk : (match buildGrammar .id lexer tx 1000 (named "match") with
      | .ok x => decide (x.1.name ∈ reserved)
      | _ => false) = true := by decide +kernel
  cases h : buildGrammar .id lexer tx 1000 (named "match") with
  | ok x =>
    rw [h] at hk
    refine ⟨x.1, x.2, rfl, fun retok isPub it ⟨n, hr⟩ => ?_⟩
    have := hr n (Nat.le_refl _)
    rw [keyword_unreadable (by simpa using hk)] at this
    cases this
  | _ => rw [h] at hk; cases hk

end C55
end Verif
