import Verif.Model.Annotated

/-!
# Model of `parser_generator_impl/src/symbol.rs`

Spans are not modelled; the tokens a symbol was made from are.
-/

namespace Verif

/-- What the macro asks of characters and of `proc_macro2`: `char::is_alphabetic`, `char::is_alphanumeric`
and `TokenStream::to_string`. -/
structure Text where
  alphabetic : Char → Bool
  alphanumeric : Char → Bool
  print : TokenStream → String

/-- symbol.rs:6-8 `is_leading_ident_char`. -/
def Text.leading (tx : Text) (c : Char) : Bool := tx.alphabetic c || c == '_'

/-- symbol.rs:10-12 `is_ident_char`. -/
def Text.identChar (tx : Text) (c : Char) : Bool := tx.alphanumeric c || c == '_'

/-- symbol.rs:14-16 `string_is_identifier`. -/
def Text.isIdentifier (tx : Text) (s : String) : Bool :=
  (match s.toList with
    | [] => false
    | c :: _ => tx.leading c) && s.toList.all tx.identChar

/-- symbol.rs:53-72 `Operator`. -/
inductive Op where
  | arrow
  | colon
  | semicolon
  | numberSign
  | beginProd
  | endProd
  | pipe
  | scope
  | bang
deriving DecidableEq, Repr

/-- symbol.rs:94-109 `SymbolT`. -/
inductive SymT where
  | op (o : Op)
  | ident (name : String)
  | literal (text : String)
  | group (d : Delim) (inner : TokenStream)
  | paren (inner : TokenStream)
  | array (inner : TokenStream)
deriving DecidableEq, Repr

/-- symbol.rs:127-131 `Symbol` with :18-22 `SymbolMeta`. -/
structure Symbol where
  sym : SymT
  tokens : TokenStream
deriving DecidableEq, Repr

/-- symbol.rs:40-45 `SymbolMeta::merge`, on the tokens. -/
def TokenStream.merge (a b : TokenStream) : TokenStream := a.append b

/-- symbol.rs:146-163 `from_group`. -/
def Symbol.fromGroup (d : Delim) (inner : TokenStream) : Except MacroError Symbol :=
  let tokens := .group d inner .nil
  match d with
  | .brace => .ok ⟨.group d inner, tokens⟩
  | .paren => .ok ⟨.paren inner, tokens⟩
  | .bracket => .ok ⟨.array inner, tokens⟩
  | .none => .error .groupWithoutDelimiter

/-- symbol.rs:178-184 `from_ident` with :164-176 `verify_ident_spelling`. -/
def Symbol.fromIdent (tx : Text) (name : String) : Except MacroError Symbol :=
  if tx.isIdentifier name then .ok ⟨.ident name, .ident name .nil⟩ else .error .badIdentifier

/-- symbol.rs:186-203 `from_literal`. -/
def Symbol.fromLiteral (tx : Text) (text : String) : Except MacroError Symbol :=
  let tokens := .literal text .nil
  if text.toList.head? = some '\'' then .ok ⟨.literal text, tokens⟩
  else if tx.isIdentifier text then .ok ⟨.ident text, tokens⟩
  else .error .badLiteral

/-- symbol.rs:226-232 `PunctBuilder`. -/
inductive PunctBuilder where
  | empty
  | prevWasEq (tokens : TokenStream)
  | prevWasColon (tokens : TokenStream)
deriving DecidableEq, Repr

/-- symbol.rs:235-291 `consume_next`: the builder afterwards and what is returned. -/
def PunctBuilder.consumeNext (b : PunctBuilder) (ch : Char) (joint : Bool) :
    PunctBuilder × Except MacroError (Option Symbol) :=
  let tokens := .punct ch joint .nil
  match b with
  | .empty =>
    if ch = ';' then (b, .ok (some ⟨.op .semicolon, tokens⟩))
    else if ch = '#' then (b, .ok (some ⟨.op .numberSign, tokens⟩))
    else if ch = '<' then (b, .ok (some ⟨.op .beginProd, tokens⟩))
    else if ch = '>' then (b, .ok (some ⟨.op .endProd, tokens⟩))
    else if ch = '|' then (b, .ok (some ⟨.op .pipe, tokens⟩))
    else if ch = '!' then (b, .ok (some ⟨.op .bang, tokens⟩))
    else if ch = '=' then
      if joint then (.prevWasEq tokens, .ok none) else (b, .error .unexpectedToken)
    else if ch = ':' then
      if joint then (.prevWasColon tokens, .ok none) else (b, .ok (some ⟨.op .colon, tokens⟩))
    else (b, .error .unexpectedToken)
  | .prevWasEq prev =>
    if ch = '>' then (.empty, .ok (some ⟨.op .arrow, prev.merge tokens⟩))
    else (b, .error .unexpectedToken)
  | .prevWasColon prev =>
    if ch = ':' then (.empty, .ok (some ⟨.op .scope, prev.merge tokens⟩))
    else (b, .error .unexpectedToken)

/-- An item of the stream of symbols. -/
abbrev SymItem := Except MacroError Symbol

/-- symbol.rs:310-319 `tokenize_from_stream` with :300-307 `consume_next_token`: all items that the iterator
yields. It is lazy and goes on after errors; the parser stops at the first one. -/
def tokenize (tx : Text) : PunctBuilder → TokenStream → List SymItem
  | _, .nil => []
  | b, .group d inner rest => Symbol.fromGroup d inner :: tokenize tx b rest
  | b, .ident name rest => Symbol.fromIdent tx name :: tokenize tx b rest
  | b, .literal text rest => Symbol.fromLiteral tx text :: tokenize tx b rest
  | b, .punct ch joint rest =>
    match b.consumeNext ch joint with
    | (b, .ok none) => tokenize tx b rest
    | (b, .ok (some s)) => .ok s :: tokenize tx b rest
    | (b, .error e) => .error e :: tokenize tx b rest

end Verif
