import Verif.Props.Located

/-!
# C67: messages of syntax errors offer what can stand there
-/

set_option autoImplicit false
set_option linter.unusedSectionVars false

namespace Verif
open Spec Located

namespace C67

variable {S : Type} {sp : Spans S} {tx : Text} {T : LTokens S} {fuel : Nat} {e : Diag S}

/-- **C67.** The error is at the beginning of `T2`, and the message is about that: either no symbol is there, and the message
names what is there, or a symbol is there with which no file continues. Then the message says that it was not expected, or it
says what was expected. Every symbol that it says was expected can be put there: what is before it, then this symbol, is the
beginning of some file (up to the check that epsilon is alone in its rule). -/
theorem syntax_message (hj : JointOk T.erase) (h : Located.parseGrammar sp tx fuel (stream sp tx T) = .err e)
    (hk : LexKind e.kind) :
    ∃ (T1 T2 : LTokens S) (ss : List Symbol), T = T1.append T2 ∧ Lexes tx T1.erase ss ∧ AtHead sp T2 e.span ∧
      (((∀ (t r : TokenStream) (k : SymT), T2.erase = t.append r → ¬ SymbolTokens tx t k) ∧
          ∃ text more, LexText T2 text ∧ e.message = text ++ more) ∨
        ∃ (t R : LTokens S) (k : SymT), T2 = t.append R ∧ SymbolTokens tx t.erase k ∧
          (∀ ext, ¬ FileL tx (ss ++ ⟨k, t.erase⟩ :: ext)) ∧ Guides (Located.Begins tx (FileL tx)) e.message ss) := by
  cases badL_grammar sp tx fuel _ e h with
  | item pre x rest h1 h2 h3 h4 hh =>
    obtain ⟨T1, T2, h5, h6, h7, h8⟩ := tokenize_place sp tx hj h1
    refine ⟨T1, T2, syms pre, h5, h6, ?_, ?_⟩
    · rw [h2.span]
      exact h7
    · cases x with
      | error d =>
        obtain ⟨-, -, more, h9⟩ := h2
        exact .inl ⟨h8.1, _, more, h8.2, h9⟩
      | ok y =>
        obtain ⟨t, R, h9, h10, h11⟩ := h8
        refine .inr ⟨t, R, y.symbol.sym, h9, h10, fun ext => ?_, hh y rfl⟩
        rw [← h11]
        exact not_file sp tx h2.1 h4 ext
  | ended _ _ h _ _ =>
    rw [h] at hk
    rcases hk with hk | hk | hk | hk <;> cases hk
  | other _ _ _ h =>
    cases h with
    | types _ _ _ _ h =>
      rw [h.1.1] at hk
      rcases hk with hk | hk | hk | hk <;> cases hk
    | epsilon h =>
      rw [C65.EpsIn.kind' h] at hk
      rcases hk with hk | hk | hk | hk <;> cases hk
    | table te h _ =>
      rw [h] at hk
      rcases hk with hk | hk | hk | hk <;> cases hk

/-- **C67.** The messages of the other errors of the text. -/
theorem other_message (h : Located.parseGrammar sp tx fuel (stream sp tx T) = .err e) :
    (e.kind = .epsilonNotAlone → e.message = "Epsilon may only appear in a rule by itself") ∧
    (e.kind = .typeMismatch → e.message = "Production rules for the same label have different return types") := by
  refine ⟨fun hk => ?_, fun hk => ?_⟩
  · obtain ⟨p, rest, -, a, k, b, ext, -, -, -, h1, -⟩ := C65.epsilon_error h hk
    exact h1.2
  · obtain ⟨o, w, rest, -, -, h1, -⟩ := C65.type_error h hk
    exact h1.2

end C67

namespace C67
open GrammarSample C65

/-! ### Concrete cases -/

/-- In `noArrow` (`<S> => 'a'; <S> 'b';`), what is before `'b'` can be followed by an arrow. -/
example : ∃ (T1 T2 : LTokens Nat) (ss : List Symbol), number 0 noArrow = T1.append T2 ∧ Lexes tx T1.erase ss ∧
    AtHead positions T2 18 ∧ (∀ k, Is (.op .arrow) k → Located.Begins tx (FileL tx) (ss ++ [k])) := by
  obtain ⟨T1, T2, ss, h1, h2, h3, h4⟩ := syntax_message (jointOk_of (by decide +kernel)) (diagnosed noArrow_err) (.inl rfl)
  refine ⟨T1, T2, ss, h1, h2, h3, ?_⟩
  rcases h4 with ⟨-, text, more, h4, h5⟩ | ⟨t, R, k, -, -, -, h4⟩
  · exfalso
    have h6 : ("Expected `=>` to follow production name".toList).head? = (text ++ more).toList.head? := by rw [← h5]
    rw [String.toList_append] at h6
    cases h4 with
    | group => exact absurd h6 (by simp)
    | ident => simp [String.toList_append] at h6
    | literal => simp [String.toList_append] at h6
    | punct => simp [String.toList_append] at h6
    | both => simp [String.toList_append] at h6
  · exact fun k hk => h4.2 (.op .arrow) (by
      rw [show offers "Expected `=>` to follow production name" = [.op .arrow] by decide +kernel]
      exact List.mem_singleton.mpr rfl) k hk

/-- `+` is named by the message. -/
example : LexText (.punct '+' false 14 (.nil : LTokens Nat)) "Unexpected token \"+\"" := .punct '+' false 14 .nil

example : ∃ (T1 T2 : LTokens Nat) (text more : String), number 0 plus = T1.append T2 ∧ AtHead positions T2 14 ∧
    (LexText T2 text ∧ "Unexpected token \"+\"" = text ++ more ∨ offers "Unexpected token \"+\"" ≠ []
      ∨ headline "Unexpected token \"+\"".toList = "Unexpected token".toList) := by
  obtain ⟨T1, T2, ss, h1, h2, h3, h4⟩ := syntax_message (jointOk_of (by decide +kernel)) (diagnosed plus_err) (.inl rfl)
  rcases h4 with ⟨-, text, more, h4, h5⟩ | ⟨t, R, k, -, -, -, h4⟩
  · exact ⟨T1, T2, text, more, h1, h3, .inl ⟨h4, h5⟩⟩
  · exact absurd (h4.1 (by decide +kernel)) (by decide +kernel)

/-- Messages with an explanation: `name; …`. -/
theorem explained : diagnosis [.i "name", .p ';'] = some (.unexpectedToken, 1,
    "Expected \":\" to follow \"name\" keyword.: \"name: `MyName`;\" specifies the name the generated parser struct will be given") := by
  decide +kernel

example : offers ("Expected \":\" to follow \"name\" keyword.: \"name: `MyName`;\" specifies the name the generated parser " ++
    "struct will be given") = [.op .colon] := by decide +kernel

/-- The hypotheses of `other_message` are met. -/
example := (other_message (diagnosed epsilon_err)).1 rfl
example := (other_message (diagnosed types_err)).2 rfl

end C67
end Verif
