import Verif.Spec.Located

/-!
# What the messages of syntax errors tell

A message that says what was expected offers symbols to continue with.
-/

set_option autoImplicit false

namespace Verif.Located

open Verif.Spec

/-- A symbol that a message offers. -/
inductive Hint where
  | op (o : Op)
  | ident
  | keyword (name : String)
deriving DecidableEq

/-- The symbol is as offered. -/
def Hint.Fits : Hint → Symbol → Prop
  | .op o, k => Is (.op o) k
  | .ident, k => ∃ name, Is (.ident name) k
  | .keyword name, k => Is (.ident name) k

/-- What a message begins with, up to the first `": "`; explanations follow. -/
def headline : List Char → List Char
  | [] => []
  | ':' :: ' ' :: _ => []
  | c :: r => c :: headline r

/-- The keywords of options. -/
def keywords : List String := ["name", "terminal", "enum_terminal", "error_type"]

/-- The symbols offered by the beginning of a message. -/
def offered (m : List Char) : List Hint :=
  if m = "Expected \"name\" keyword".toList then [.keyword "name"]
  else if m = "Expected \"terminal\" or \"enum_terminal\" option".toList then [.keyword "terminal", .keyword "enum_terminal"]
  else if m ∈ keywords.map (fun o => ("Expected \":\" to follow \"" ++ o ++ "\" keyword.").toList) then [.op .colon]
  else if m ∈ keywords.map (fun o => ("Expected \";\" to follow \"" ++ o ++ "\" value.").toList) then [.op .semicolon]
  else if m = "Expected identifier".toList then [.ident]
  else if m = "Expected production name to begin with '<'.".toList then [.op .beginProd]
  else if m = "Expected production name.".toList then [.ident]
  else if m = "Expected production name to end with '>'.".toList then [.op .endProd]
  else if m = "Expected `=>` to follow production name".toList then [.op .arrow]
  else if m = "Expected either `;` or `|`".toList then [.op .semicolon, .op .pipe]
  else []

/-- The symbols offered by a message. -/
def offers (message : String) : List Hint := offered (headline message.toList)

/-- The message says that a symbol was not expected, or it offers symbols that may follow `p`. -/
def Guides (V : List Symbol → Prop) (message : String) (p : List Symbol) : Prop :=
  (offers message = [] → headline message.toList = "Unexpected token".toList) ∧
    ∀ h ∈ offers message, ∀ k, h.Fits k → V (p ++ [k])

/-- What a message says about tokens that are no symbol. -/
inductive LexText {S : Type} : LTokens S → String → Prop
  | group (span spanOpen : S) (inner rest : LTokens S) :
      LexText (.group .none span spanOpen inner rest) "Group without delimiter"
  | ident (name : String) (span : S) (rest : LTokens S) : LexText (.ident name span rest)
      ("Identifier \"" ++ name ++ "\" is not alphanumeric/_ with a non-numeric leading character")
  | literal (text : String) (span : S) (rest : LTokens S) :
      LexText (.literal text span rest) ("Unrecognized literal: " ++ text)
  | punct (ch : Char) (joint : Bool) (span : S) (rest : LTokens S) :
      LexText (.punct ch joint span rest) ("Unexpected token \"" ++ ch.toString ++ "\"")
  | both (ch ch' : Char) (joint : Bool) (a b : S) (rest : LTokens S) :
      LexText (.punct ch true a (.punct ch' joint b rest)) ("Unexpected token \"" ++ ch.toString ++ ch'.toString ++ "\"")

end Verif.Located
