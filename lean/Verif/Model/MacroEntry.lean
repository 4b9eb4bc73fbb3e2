import Verif.Model.LocatedGen
import Verif.Model.Emit

/-!
# Model of the macros themselves

What an invocation of `grammar!` or `pub_grammar!` becomes.
-/

set_option autoImplicit false

namespace Verif.MacroEntry
open Located

/-- lib.rs:23-26 `Visibility`. -/
inductive Visibility where
  | priv
  | pub
deriving DecidableEq

/-- What the compiler gets in place of an invocation: tokens, or an error with a message at a place. The latter is what
`proc_macro_error` makes of `abort!`; that library is not modelled further. -/
inductive Expansion (S : Type) where
  | code (tokens : List RTok)
  | compileError (message : String) (span : S)

section
variable {S : Type} (sp : Spans S) (fx : Foreign) (o : HashOrder) (lex : Lexer) (tx : Text) (retok : String → TokenStream)

/-- lib.rs:28-36 `build_grammar`, with code_gen.rs:36-39, where the visibility is used. -/
def build (fuel : Nat) (tokens : LTokens S) (visibility : Visibility) : Outcome (Diag S) (List RTok) := do
  let (gi, program) ← Located.buildGrammar sp fx o lex tx fuel tokens
  pure (Emit.parser gi retok (match visibility with | .priv => false | .pub => true) program).tokens

/-- error.rs:31-33 `ParserGeneratorError::abort`. -/
def abort (e : Diag S) : Expansion S := .compileError e.message e.span

/-- The `match` of lib.rs:42-45 and :52-55. -/
def expand : Outcome (Diag S) (List RTok) → Outcome Unit (Expansion S)
  | .ok tokens => .ok (.code tokens)
  | .err e => .ok (abort e)
  | .panic => .panic
  | .ub => .ub
  | .timeout => .timeout

/-- lib.rs:38-46 `grammar`. -/
def grammar (fuel : Nat) (tokens : LTokens S) : Outcome Unit (Expansion S) :=
  expand (build sp fx o lex tx retok fuel tokens .priv)

/-- lib.rs:48-56 `pub_grammar`. -/
def pubGrammar (fuel : Nat) (tokens : LTokens S) : Outcome Unit (Expansion S) :=
  expand (build sp fx o lex tx retok fuel tokens .pub)

end
end Verif.MacroEntry
