import Verif.Model.Runtime

/-!
# Model of the texts of runtime errors (`src/error.rs`)

Texts are lists of characters. `{:?}` of tokens and `{}`, `{:?}` of user errors are parameters, since they are chosen by
the user. The flags of the formatter (`{:#?}`, width, …) do not matter: every `write!` in `error.rs` formats its
arguments with flags of its own.
-/

set_option autoImplicit false

namespace Verif.RuntimeText

variable {P E : Type}

/-- `{:?}` of an `Option` (derived in `core`). -/
def option {A : Type} (dbg : A → List Char) : Option A → List Char
  | none => "None".toList
  | some a => "Some(".toList ++ (dbg a ++ [')'])

/-- The text of `ParseError` (src/error.rs:73, 88). -/
def rejected (dbg : Token P → List Char) (next : Option (Token P)) : List Char :=
  "Failed to parse: unexpected ".toList ++ option dbg next

/-- The text of `OverlappingTokenMatchers` (src/error.rs:74-78, 89-93). Its field is the text of `__peeked_val`, an
`Option` (parser_generator_impl/src/code_gen/state_action_builder.rs:138-141); the model of errors keeps the value. -/
def overlapping (dbg : Token P → List Char) (token : Option (Token P)) : List Char :=
  "Token ".toList ++ (option dbg token ++
    " matches multiple rules. Disambiguate matchers for tokens of this type.".toList)

/-- src/error.rs:70-82 `Display for ParserError`; `user` is `Display` of the user error. -/
def display (dbg : Token P → List Char) (user : E → List Char) : ParseErr P E → List Char
  | .parseError next => rejected dbg next
  | .overlapping token => overlapping dbg token
  | .user e => user e

/-- src/error.rs:85-97 `Debug for ParserError`; `user` is `Debug` of the user error. -/
def debug (dbg : Token P → List Char) (user : E → List Char) : ParseErr P E → List Char
  | .parseError next => rejected dbg next
  | .overlapping token => overlapping dbg token
  | .user e => user e

/-- src/error.rs:19-26 `NoUserErrorType`, the error type of a grammar without `error_type`. -/
inductive NoUserErrorType where
  | mk

/-- src/error.rs:22-26 `Display for NoUserErrorType`. -/
def NoUserErrorType.display : NoUserErrorType → List Char := fun _ => []

/-- src/error.rs:19 the derived `Debug for NoUserErrorType`. -/
def NoUserErrorType.debug : NoUserErrorType → List Char := fun _ => "NoUserErrorType".toList

end Verif.RuntimeText
