/-!
# Token streams of `proc_macro2`

`proc_macro2::TokenStream` is a list of token trees; here it is written as a binary tree (contents of a
group, remaining tokens). Spans are not modelled.
-/

namespace Verif

/-- `proc_macro2::Delimiter`. -/
inductive Delim where
  | brace
  | paren
  | bracket
  | none
deriving DecidableEq, Repr

/-- `proc_macro2::TokenStream`; the constructors name the first token. `joint` is `Spacing::Joint`. -/
inductive TokenStream where
  | nil
  | group (d : Delim) (inner rest : TokenStream)
  | ident (name : String) (rest : TokenStream)
  | literal (text : String) (rest : TokenStream)
  | punct (ch : Char) (joint : Bool) (rest : TokenStream)
deriving DecidableEq, Repr

/-- `TokenStream::extend`. -/
def TokenStream.append : TokenStream → TokenStream → TokenStream
  | .nil, u => u
  | .group d inner rest, u => .group d inner (rest.append u)
  | .ident name rest, u => .ident name (rest.append u)
  | .literal text rest, u => .literal text (rest.append u)
  | .punct ch joint rest, u => .punct ch joint (rest.append u)

end Verif
