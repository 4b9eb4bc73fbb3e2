import Verif.Model.ParseGrammar
import Verif.Model.Runtime

/-!
# Grammar files as text, for the tests

`grammar! "…"` is the token stream that the compiler passes to the macro for this text. It covers what the tests of
the repository use. It is part of the tests, not of the model.
-/

set_option autoImplicit false

namespace Verif.Tests

/-- Splits text into tokens, up to the end of the group; `fuel` is at least the length of the text. -/
def lex : Nat → List Char → TokenStream × List Char
  | 0, s => (.nil, s)
  | _, [] => (.nil, [])
  | n + 1, c :: cs =>
    let isWord := fun c : Char => c.isAlphanum || c == '_'
    let delim := fun (d : Delim) =>
      let (inner, s) := lex n cs
      let (rest, s) := lex n s
      (TokenStream.group d inner rest, s)
    if c.isWhitespace then lex n cs
    else if c == '(' then delim .paren
    else if c == '{' then delim .brace
    else if c == '[' then delim .bracket
    else if c == ')' || c == '}' || c == ']' then (.nil, cs)
    else if c == '\'' then
      let body := match cs with
        | '\\' :: e :: _ => ['\\', e]
        | e :: _ => [e]
        | [] => []
      let (rest, s) := lex n (cs.drop (body.length + 1))
      (.literal (String.ofList ('\'' :: body ++ ['\''])) rest, s)
    else if isWord c then
      let word := String.ofList (c :: cs.takeWhile isWord)
      let (rest, s) := lex n (cs.dropWhile isWord)
      (if c.isDigit then .literal word rest else .ident word rest, s)
    else
      let joint := match cs with
        | d :: _ => "=:;#<>|!+*-.,&?@$%^~/".toList.contains d
        | [] => false
      let (rest, s) := lex n cs
      (.punct c joint rest, s)

open Lean in
/-- A token stream as a term. -/
def quoteTokens : TokenStream → TSyntax `term
  | .nil => mkCIdent ``TokenStream.nil
  | .group d inner rest =>
    let d := match d with
      | .brace => ``Delim.brace
      | .paren => ``Delim.paren
      | .bracket => ``Delim.bracket
      | .none => ``Delim.none
    Syntax.mkCApp ``TokenStream.group #[mkCIdent d, quoteTokens inner, quoteTokens rest]
  | .ident name rest => Syntax.mkCApp ``TokenStream.ident #[quote name, quoteTokens rest]
  | .literal text rest => Syntax.mkCApp ``TokenStream.literal #[quote text, quoteTokens rest]
  | .punct ch joint rest => Syntax.mkCApp ``TokenStream.punct #[quote ch, quote joint, quoteTokens rest]

/-- The tokens of a text. -/
syntax:max "grammar!" str : term

macro_rules
  | `(grammar! $s:str) =>
    let text := s.getString.toList
    return quoteTokens (lex text.length text).1

/-- A printed form of tokens. -/
def print : TokenStream → String
  | .nil => ""
  | .group d inner rest =>
    let (a, b) := match d with
      | .brace => ("{ ", "} ")
      | .paren => ("( ", ") ")
      | .bracket => ("[ ", "] ")
      | .none => ("", "")
    a ++ print inner ++ b ++ print rest
  | .ident name rest => name ++ " " ++ print rest
  | .literal text rest => text ++ " " ++ print rest
  | .punct ch joint rest => String.ofList (if joint then [ch] else [ch, ' ']) ++ print rest

/-- Characters and printing. -/
def text : Text := ⟨Char.isAlpha, Char.isAlphanum, print⟩

/-- What is a literal and an identifier. -/
def lexer : Lexer := ⟨fun s => s.toList.head? == some '\'', fun s => text.isIdentifier s⟩

/-- The macro, on the tokens of a grammar file. -/
def expand (t : TokenStream) : Option (GrammarInfo × Program) :=
  match buildGrammar .id lexer text 200 t with
  | .ok p => some p
  | _ => none

/-- How a parse ended. -/
inductive Result (P V E : Type) where
  | ok (v : Val P V)
  | err (e : ParseErr P E)
  /-- no parser, panic, undefined behaviour, no end -/
  | bad
deriving DecidableEq, Repr

/-- `Parser::parse_fallible` in a debug or release build. -/
def parseFallible {P V E F : Type} [DecidableEq P] (debug : Bool) (t : TokenStream) (sem : Sem P V E Unit) (into : F → E)
    (items : List (Item P F)) : Result P V E :=
  match expand t with
  | none => .bad
  | some (_, prog) =>
    match prog.parseFallible debug sem into (fun i => items[i]?) 1000 () with
    | .ok run =>
      match run.result with
      | .ok v => .ok v
      | .error e => .err e
    | _ => .bad

/-- `Parser::parse`. -/
def parse {P V E : Type} [DecidableEq P] (debug : Bool) (t : TokenStream) (sem : Sem P V E Unit)
    (tokens : List (Token P)) : Result P V E :=
  parseFallible debug t sem (fun e : Empty => nomatch e) (tokens.map .ok)

/-- `"…".chars()`. -/
def chars (s : String) : List (Token Nat) := s.toList.map fun c => .lit c.toNat

/-- The value of a literal of a character. -/
def charLit (s : String) : Nat :=
  match s.toList with
  | ['\'', c, '\''] => c.toNat
  | _ => 0

end Verif.Tests
