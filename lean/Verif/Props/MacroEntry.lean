import Verif.Model.MacroEntry
import Verif.Props.LocatedGen
import Verif.Props.RustSyntax

/-!
# C91: `grammar!` and `pub_grammar!`
-/

set_option autoImplicit false
set_option linter.unusedSectionVars false

namespace Verif.C91
open Spec Located MacroEntry RustSyntax

section
variable {S : Type} {sp : Spans S} {fx : Foreign} {o : HashOrder} {lex : Lexer} {tx : Text}
  {retok : String → TokenStream} {T : LTokens S} {fuel : Nat}

/-- Putting `pub` in front of code, and leaving errors as they are. -/
def withPub : Expansion S → Expansion S
  | .code tokens => .code (.word "pub" :: tokens)
  | .compileError m s => .compileError m s

theorem tokens_pub (gi : GrammarInfo) (prog : Program) :
    (Emit.parser gi retok true prog).tokens = .word "pub" :: (Emit.parser gi retok false prog).tokens := rfl

/-- **C91.** For the same tokens, `pub_grammar!` expands to what `grammar!` expands to, with the word `pub` in front, or to the
same error at the same place. -/
theorem same_but_pub :
    (∀ x, grammar sp fx o lex tx retok fuel T = .ok x → pubGrammar sp fx o lex tx retok fuel T = .ok (withPub x)) ∧
    ((¬ ∃ x, grammar sp fx o lex tx retok fuel T = .ok x) →
      pubGrammar sp fx o lex tx retok fuel T = grammar sp fx o lex tx retok fuel T) := by
  unfold grammar pubGrammar build
  cases Located.buildGrammar sp fx o lex tx fuel T with
  | ok r =>
    refine ⟨fun x hx => ?_, fun h => absurd ⟨_, rfl⟩ h⟩
    cases hx
    rfl
  | err e =>
    refine ⟨fun x hx => ?_, fun h => absurd ⟨_, rfl⟩ h⟩
    cases hx
    rfl
  | _ => exact ⟨fun x hx => (by cases hx), fun _ => rfl⟩

/-- **C91.** An invocation gives an error exactly if reading the file or generating code fails, with the message and at the
place of that error. -/
theorem error_iff {m : String} {s : S} :
    grammar sp fx o lex tx retok fuel T = .ok (.compileError m s) ↔
      ∃ k, Located.buildGrammar sp fx o lex tx fuel T = .err ⟨k, m, s⟩ := by
  unfold grammar build
  cases Located.buildGrammar sp fx o lex tx fuel T with
  | err e =>
    obtain ⟨k, m', s'⟩ := e
    constructor
    · intro h
      cases h
      exact ⟨k, rfl⟩
    · rintro ⟨k', h⟩
      cases h
      rfl
  | ok r => exact ⟨fun h => (by cases h), fun ⟨k, h⟩ => by cases h⟩
  | _ => exact ⟨fun h => (by cases h), fun ⟨k, h⟩ => by cases h⟩

/-- It gives code exactly if a parser is generated. -/
theorem code_iff {tokens : List RTok} :
    grammar sp fx o lex tx retok fuel T = .ok (.code tokens) ↔
      ∃ gi prog, Verif.buildGrammar o lex tx fuel T.erase = .ok (gi, prog) ∧
        tokens = (Emit.parser gi retok false prog).tokens := by
  have hsame := (C66.same_outcomes sp fx o lex tx fuel T).1
  unfold grammar build
  cases h : Located.buildGrammar sp fx o lex tx fuel T with
  | ok r =>
    obtain ⟨gi, prog⟩ := r
    rw [h] at hsame
    constructor
    · intro hx
      cases hx
      exact ⟨gi, prog, (hsame _).mp rfl, rfl⟩
    · rintro ⟨gi', prog', h1, rfl⟩
      cases (hsame _).mpr h1
      rfl
  | _ =>
    rw [h] at hsame
    refine ⟨fun hx => (by cases hx), ?_⟩
    rintro ⟨gi', prog', h1, -⟩
    cases (hsame _).mpr h1

/-- **C91.** The code of either macro declares one structure, public or not as the macro says, with the name of the
file. Everything else is the same, in particular what the parser does. -/
theorem declared {tokens : List RTok} (h : grammar sp fx o lex tx retok fuel T = .ok (.code tokens)) :
    ∃ gi prog, Verif.buildGrammar o lex tx fuel T.erase = .ok (gi, prog) ∧
      (gi.name ∉ reserved → ∃ it : RustSyntax.Item, it.isPub = false ∧ it.name = gi.name ∧
        Reads tokens it ∧ Reads (.word "pub" :: tokens) { it with isPub := true }) := by
  obtain ⟨gi, prog, hb, rfl⟩ := code_iff.mp h
  refine ⟨gi, prog, hb, fun hname => ?_⟩
  obtain ⟨gi', hpar, hb⟩ := Outcome.bind_eq_ok.mp hb
  obtain ⟨prog', hgen, hb⟩ := Outcome.bind_eq_ok.mp hb
  cases hb
  refine ⟨emitted gi false prog, rfl, rfl, read_parser hname (sound_of_generateParser hgen), ?_⟩
  rw [← tokens_pub]
  exact read_parser hname (sound_of_generateParser hgen)

/-- **C91.** Every invocation ends. It becomes code, or one error; or the macro panics, for the files of C46 only. -/
theorem expansion (hid : lex.Idents tx) (hj : JointOk T.erase) :
    ∃ N, ∀ fuel ≥ N,
      (∃ tokens, grammar sp fx o lex tx retok fuel T = .ok (.code tokens)) ∨
      (∃ m s, grammar sp fx o lex tx retok fuel T = .ok (.compileError m s)) ∨
      (grammar sp fx o lex tx retok fuel T = .panic ∧
        ∃ ss f, Lexes tx T.erase ss ∧ FileSyntax tx ss f ∧ C46.Stops f) := by
  obtain ⟨N, res, h1, h2⟩ := C46.macro_outcomes_partial (o := o) hid hj
  refine ⟨N, fun fuel hf => ?_⟩
  have hrel := buildGrammar_rel sp fx (o := o) (lex := lex) tx fuel T
  rw [h1 fuel hf] at hrel
  unfold grammar build
  cases h : Located.buildGrammar sp fx o lex tx fuel T with
  | ok r => exact .inl ⟨_, rfl⟩
  | err e => exact .inr (.inl ⟨_, _, rfl⟩)
  | panic =>
    rw [h] at hrel
    rcases h2 with ⟨gi, prog, rfl⟩ | ⟨e, rfl⟩ | ⟨-, h3⟩
    · exact hrel.elim
    · exact hrel.elim
    · exact .inr (.inr ⟨rfl, h3⟩)
  | ub =>
    rw [h] at hrel
    rcases h2 with ⟨gi, prog, rfl⟩ | ⟨e, rfl⟩ | ⟨rfl, -⟩ <;> exact hrel.elim
  | timeout =>
    rw [h] at hrel
    rcases h2 with ⟨gi, prog, rfl⟩ | ⟨e, rfl⟩ | ⟨rfl, -⟩ <;> exact hrel.elim

end

/-! ### Concrete cases -/

open GrammarSample C65 C66

/-- `<S>: u8 => <T> 'a' { #T }; <T>: u8 => 'b' { 0 };` becomes code, of a structure `A`. -/
example : (match grammar positions foreign .id C66.lexer GrammarSample.tx unprint 100
      (withBody (number 50 [.p '#', .i "T"])) with
    | .ok (.code tokens) => tokens.take 3 == [.word "struct", .word "A", .op ";"]
    | _ => false) = true := by decide +kernel

/-- Both macros report the reference to a node that the rule does not have, at the number. -/
example : (match grammar positions foreign .id C66.lexer GrammarSample.tx unprint 100 outOfRange,
      pubGrammar positions foreign .id C66.lexer GrammarSample.tx unprint 100 outOfRange with
    | .ok (.compileError m s), .ok (.compileError m' s') =>
      m == "Index is out of range of rules, expected within [0, 2)" && s == 54 && m' == m && s' == s
    | _, _ => false) = true := by decide +kernel

end Verif.C91
