import Verif.Model.Emit
import Verif.Proof.GenDet
import Verif.Proof.Reproduce
import Verif.Props.Agree
import Verif.Props.Located
import Verif.Props.Macro

/-!
# C68: expanding the same grammar again
-/

set_option linter.unusedSectionVars false
set_option autoImplicit false

namespace Verif.C68
open Spec

section
variable {P V E F' σ : Type} [DecidableEq P] {lex : Lexer} {tx : Text} {o o' : HashOrder} {gi gi' : GrammarInfo}
  {prog prog' : Program}

/-- **C68**, up to order: if the macro accepts a file, it accepts it whatever the order in which hash maps are iterated,
with the same grammar and table. The generated parsers differ at most in the order of arms, of alternatives of patterns
over states, and of the patterns counted by the debug check. -/
theorem expansion_partial {t : TokenStream} (hj : JointOk t) {fuel : Nat}
    (h : buildGrammar o lex tx fuel t = .ok (gi, prog)) (o' : HashOrder) :
    ∃ prog', buildGrammar o' lex tx fuel t = .ok (gi, prog') ∧ SameProgram prog prog' := by
  obtain ⟨gi1, hpar, h⟩ := Outcome.bind_eq_ok.mp h
  obtain ⟨prog1, hgen, h⟩ := Outcome.bind_eq_ok.mp h
  cases h
  obtain ⟨F, kt, -, hin, -⟩ := genIn_of hj hpar
  obtain ⟨prog', h1, h2⟩ := hin.generateParser_same (o' := o') prog hgen
  refine ⟨prog', ?_, h2⟩
  unfold buildGrammar
  rw [hpar, Outcome.ok_bind, h1]
  rfl

/-- A file that is refused is refused every time. -/
theorem refused {t : TokenStream} (hj : JointOk t) {fuel : Nat}
    (h : ∀ gi prog, buildGrammar o lex tx fuel t ≠ .ok (gi, prog)) (o' : HashOrder) :
    ∀ gi prog, buildGrammar o' lex tx fuel t ≠ .ok (gi, prog) := by
  intro gi prog hb
  obtain ⟨prog', h1, -⟩ := expansion_partial hj hb o
  exact h _ _ h1

/-- **C68** for results in debug builds with an enum of tokens: they are the same after every expansion, even if tokens
match several patterns. -/
theorem debug_results_partial (h : Generated o lex gi prog) (h' : Generated o' lex gi prog')
    (he : ∃ ty, gi.terminalType = .enum ty) (sem : Sem P V E σ) (into : F' → E) (items : Nat → Option (Item P F'))
    (fuel : Nat) (w0 : σ) :
    prog.parseFallible true sem into items fuel w0 = prog'.parseFallible true sem into items fuel w0 := by
  obtain ⟨F, kt, -, hc⟩ := h.ctx
  obtain ⟨ty, he⟩ := he
  exact hc.loop_eq_debug (h'.ctx_of hc.fit) (by rw [he]; rfl) fuel .start

end

/-! ### What is not the same -/

open GrammarSample

/-- Reversed order everywhere. -/
def back : HashOrder := ⟨fun _ l => l.reverse, fun _ l => l.reverse_perm⟩

/-- `<S>: u64 => <T> { #T }; <T>: u64 => <A> x { #A } | <B> y { #B }; <A>: u64 => Z a; <B>: u64 => Z b;` for terminals `x`
and `y` and constructors `a` and `b`. -/
def twoWays (x y : Sym) (a b : TokenStream) : TokenStream :=
  let u := some (.ident "u64" .nil)
  let ref := fun n => some (.brace, (.punct '#' false (.ident n .nil) : TokenStream))
  withDeclarations
    [⟨"S", u, [([.production "T"], ref "T")]⟩,
     ⟨"T", u, [([.production "A", .symbol x], ref "A"), ([.production "B", .symbol y], ref "B")]⟩,
     ⟨"A", u, [([.symbol ⟨"Z", .none⟩], some (.brace, a))]⟩,
     ⟨"B", u, [([.symbol ⟨"Z", .none⟩], some (.brace, b))]⟩]

/-- What the macro returns: tokens of Rust. -/
def expand (o : HashOrder) (t : TokenStream) : Outcome MacroError (List RTok) := do
  let (gi, prog) ← buildGrammar o lexer tx 1000 t
  pure (Emit.parser gi (fun _ => .ident "x" .nil) false prog).tokens

/-- **C68** as it stands is false: the code for a grammar depends on the order of hash maps. -/
theorem expansion_refuted : ∃ (t : TokenStream) (o o' : HashOrder) (code code' : List RTok), JointOk t ∧
    expand o t = .ok code ∧ expand o' t = .ok code' ∧ code ≠ code' := by
  let t := twoWays ⟨"X", .none⟩ ⟨"Y", .none⟩ .nil .nil
  have h : (match expand .id t, expand back t with
    | .ok code, .ok code' => decide (code ≠ code')
    | _, _ => false) = true := by decide +kernel
  refine ⟨t, .id, back, ?_⟩
  split at h
  · rename_i code code' h1 h2
    exact ⟨code, code', C65.jointOk_of (by decide +kernel), h1, h2, of_decide_eq_true h⟩
  · cases h

/-- Of two errors in a file, which one is reported depends on the order of hash maps. -/
theorem error_refuted : ∃ (t : TokenStream) (o o' : HashOrder), JointOk t ∧
    expand o t = .err .indexOutOfRange ∧ expand o' t = .err .unknownLabel := by
  refine ⟨twoWays ⟨"X", .none⟩ ⟨"Y", .none⟩ (.punct '#' false (.literal "7" .nil)) (.punct '#' false (.ident "C" .nil)),
    .id, back, C65.jointOk_of (by decide +kernel), ?_, ?_⟩
  · decide +kernel
  · decide +kernel

/-- Every rule of the sample returns its number, except for the rules whose constructor hands on a value. Every number
matches the pattern. -/
def sem : Sem Nat Nat String Nat :=
  ⟨fun _ => 0, fun _ _ => true,
   fun i _ env w => (.ok (match i, env 0 with | 0, some v => v | 1, some v => v | 2, some v => v | i, _ => .user i), w),
   fun _ v w => (.ok v, w)⟩

/-- In release builds the result depends on the order of hash maps, if a token matches two patterns: for
`<T>: u64 => <A> Num(x) { #A } | <B> Num(..) { #B }` the input `Z Num(5)` is read as one or as the other. -/
theorem release_results_refuted : ∃ (t : TokenStream) (o o' : HashOrder) (gi : GrammarInfo) (prog prog' : Program)
    (run run' : Run Nat Nat String Nat), JointOk t ∧
    buildGrammar o lexer tx 1000 t = .ok (gi, prog) ∧ buildGrammar o' lexer tx 1000 t = .ok (gi, prog') ∧
    prog.parseFallible false sem id (Sample.stream [.unit "Z", .data "Num" 5] none) 50 0 = .ok run ∧
    prog'.parseFallible false sem id (Sample.stream [.unit "Z", .data "Num" 5] none) 50 0 = .ok run' ∧
    run.result = .ok (.user 3) ∧ run'.result = .ok (.user 4) := by
  let t := twoWays ⟨"Num", .pattern "x "⟩ ⟨"Num", .wildcard⟩ .nil .nil
  have hj : JointOk t := C65.jointOk_of (by decide +kernel)
  have h : (match buildGrammar .id lexer tx 1000 t, buildGrammar back lexer tx 1000 t with
    | .ok (_, prog), .ok (_, prog') =>
      (match prog.parseFallible false sem id (Sample.stream [.unit "Z", .data "Num" 5] none) 50 0,
          prog'.parseFallible false sem id (Sample.stream [.unit "Z", .data "Num" 5] none) 50 0 with
        | .ok run, .ok run' => decide (run.result.toOption = some (.user 3) ∧ run'.result.toOption = some (.user 4))
        | _, _ => false)
    | _, _ => false) = true := by decide +kernel
  split at h
  · rename_i gi prog gi' prog' h1 h2
    split at h
    · rename_i run run' h3 h4
      obtain ⟨h5, h6⟩ := of_decide_eq_true h
      obtain ⟨prog2, h7, -⟩ := expansion_partial hj h1 back
      rw [h2] at h7
      cases h7
      refine ⟨t, .id, back, gi, prog, prog', run, run', hj, h1, h2, h3, h4, ?_, ?_⟩
      · cases hr : run.result with
        | ok v => rw [hr] at h5; cases h5; rfl
        | error e => rw [hr] at h5; cases h5
      · cases hr : run'.result with
        | ok v => rw [hr] at h6; cases h6; rfl
        | error e => rw [hr] at h6; cases h6
    · cases h
  · cases h

/-- The hypotheses of the theorems are met by this grammar, whose parsers differ and do report an overlap. -/
example : ∃ (t : TokenStream) (gi : GrammarInfo) (prog prog' : Program), JointOk t ∧
    buildGrammar .id lexer tx 1000 t = .ok (gi, prog) ∧ Generated .id lexer gi prog ∧ Generated back lexer gi prog' ∧
    (∃ ty, gi.terminalType = .enum ty) ∧ prog ≠ prog' ∧
    ∃ run, prog.parseFallible true sem id (Sample.stream [.unit "Z", .data "Num" 5] none) 50 0 = .ok run ∧
      run.result = .error (.overlapping (some (.data "Num" 5))) := by
  let t := twoWays ⟨"Num", .pattern "x "⟩ ⟨"Num", .wildcard⟩ .nil .nil
  have hj : JointOk t := C65.jointOk_of (by decide +kernel)
  have h : (match buildGrammar .id lexer tx 1000 t, buildGrammar back lexer tx 1000 t with
    | .ok (gi, prog), .ok (_, prog') =>
      gi.terminalType.isEnum && decide (prog ≠ prog') && gi.productionRules.all (fun r => decide (r.rule ≠ [.epsilon])) &&
      (match prog.parseFallible true sem id (Sample.stream [.unit "Z", .data "Num" 5] none) 50 0 with
        | .ok run => (match run.result with | .error (.overlapping (some (.data "Num" 5))) => true | _ => false)
        | _ => false)
    | _, _ => false) = true := by decide +kernel
  split at h
  · rename_i gi prog gi' prog' h1 h2
    simp only [Bool.and_eq_true, List.all_eq_true] at h
    obtain ⟨⟨⟨h3, h4⟩, h5⟩, h6⟩ := h
    obtain ⟨prog2, h7, -⟩ := expansion_partial hj h1 back
    rw [h2] at h7
    cases h7
    have hn : ∀ r ∈ gi.productionRules, r.rule = [.epsilon] → r.block = none → r.returnType = none :=
      fun r hr e => absurd e (of_decide_eq_true (h5 r hr))
    obtain ⟨-, -, -, -, -, hg⟩ := C49.macro_generated hj h1 hn
    obtain ⟨-, -, -, -, -, hg'⟩ := C49.macro_generated hj h2 hn
    refine ⟨t, gi, prog, prog', hj, h1, hg, hg', ?_, of_decide_eq_true h4, ?_⟩
    · cases ht : gi.terminalType with
      | raw ty => rw [ht] at h3; cases h3
      | enum ty => exact ⟨ty, rfl⟩
    · split at h6
      · rename_i run hr
        split at h6
        · exact ⟨run, hr, by assumption⟩
        · cases h6
      · cases h6
  · cases h

end Verif.C68
