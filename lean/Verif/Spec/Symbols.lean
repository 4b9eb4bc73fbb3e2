import Verif.Model.Symbol

/-!
# Specification: the symbols of the grammar language
-/

namespace Verif.Spec

/-- Identifiers of the grammar language: a letter or underscore, followed by letters, digits, underscores. -/
def Identifier (tx : Text) (s : String) : Prop :=
  (∃ c rest, s.toList = c :: rest ∧ (tx.alphabetic c = true ∨ c = '_')) ∧
    ∀ c ∈ s.toList, tx.alphanumeric c = true ∨ c = '_'

/-- Operators that are one character, however close to the next one. -/
inductive Single : Char → Op → Prop
  | semicolon : Single ';' .semicolon
  | numberSign : Single '#' .numberSign
  | beginProd : Single '<' .beginProd
  | endProd : Single '>' .endProd
  | pipe : Single '|' .pipe
  | bang : Single '!' .bang

/-- `SymbolTokens tx t s`: the tokens `t` are the symbol `s`. -/
inductive SymbolTokens (tx : Text) : TokenStream → SymT → Prop
  | brace (inner : TokenStream) : SymbolTokens tx (.group .brace inner .nil) (.group .brace inner)
  | paren (inner : TokenStream) : SymbolTokens tx (.group .paren inner .nil) (.paren inner)
  | bracket (inner : TokenStream) : SymbolTokens tx (.group .bracket inner .nil) (.array inner)
  | ident {name : String} : Identifier tx name → SymbolTokens tx (.ident name .nil) (.ident name)
  | char {text : String} {rest : List Char} : text.toList = '\'' :: rest →
      SymbolTokens tx (.literal text .nil) (.literal text)
  | word {text : String} : Identifier tx text → text.toList.head? ≠ some '\'' →
      SymbolTokens tx (.literal text .nil) (.ident text)
  | single {ch : Char} {joint : Bool} {o : Op} : Single ch o →
      SymbolTokens tx (.punct ch joint .nil) (.op o)
  | colon : SymbolTokens tx (.punct ':' false .nil) (.op .colon)
  | arrow (joint : Bool) : SymbolTokens tx (.punct '=' true (.punct '>' joint .nil)) (.op .arrow)
  | scope (joint : Bool) : SymbolTokens tx (.punct ':' true (.punct ':' joint .nil)) (.op .scope)

/-- A token stream is the concatenation of the tokens of its symbols. -/
inductive Lexes (tx : Text) : TokenStream → List Symbol → Prop
  | nil : Lexes tx .nil []
  | cons {t rest : TokenStream} {s : SymT} {ss : List Symbol} :
      SymbolTokens tx t s → Lexes tx rest ss → Lexes tx (t.append rest) (⟨s, t⟩ :: ss)

/-- The tokens of symbols one after the other. -/
def tokensOf : List Symbol → TokenStream
  | [] => .nil
  | s :: ss => s.tokens.append (tokensOf ss)

/-- Punctuation marked as joined to the next token is followed by punctuation, as `Spacing::Joint` promises. Only the
quote of a lifetime is followed by an identifier. -/
def JointOk : TokenStream → Prop
  | .nil => True
  | .group _ _ rest => JointOk rest
  | .ident _ rest => JointOk rest
  | .literal _ rest => JointOk rest
  | .punct ch joint rest => (joint = true → ch ≠ '\'' → ∃ c j r, rest = .punct c j r) ∧ JointOk rest

end Verif.Spec
