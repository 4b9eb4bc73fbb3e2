import Verif.Model.Rust

/-!
# Model of `derive(ParserUserError)` (`/repo/parser-user-error/src/lib.rs`)
-/

namespace Verif
open Rust

/-- A parameter of a type; `required` unless it has a default. Lifetimes are required. -/
structure GenericParam where
  required : Bool
deriving DecidableEq, Repr

/-- What `syn::DeriveInput` knows of the type. Attributes, visibility, where clauses, fields and variants are left out,
the derive does not look at them; it does not look at the parameters either. -/
structure DeriveInput where
  ident : String
  generics : List GenericParam
deriving DecidableEq, Repr

/-- parser-user-error/src/lib.rs:6-16 `build_user_error_impl`: the tokens of the two impls. -/
def buildUserErrorImpl (input : DeriveInput) : List RTok :=
  rs!"impl From<::std::convert::Infallible> for" ++ [.word input.ident] ++
  rs!"{ fn from(value: ::std::convert::Infallible) -> Self { match value {} } }
    impl ::parser_generator::error::ParserUserError for" ++ [.word input.ident] ++ rs!"{}"

end Verif
