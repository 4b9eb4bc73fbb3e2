import Verif.Spec.Symbols

/-!
# Specification: Rust types as tokens

A part of the type syntax of the Rust reference: paths with generic arguments, references, tuples, slices and arrays,
functions, trait objects and the never type. What stands between parentheses and brackets is not looked at.
-/

set_option autoImplicit false

namespace Verif.Spec

/-- What is described by `RustType`: a type, or the list of arguments between `<` and `>`. -/
inductive TypePart where
  | type
  | args
deriving DecidableEq

/-- `RustType tx .type t`: the tokens `t` are a Rust type. `RustType tx .args t`: they are generic arguments. -/
inductive RustType (tx : Text) : TypePart → TokenStream → Prop
  /-- `name` -/
  | name {n : String} : Identifier tx n → RustType tx .type (.ident n .nil)
  /-- `name::type` -/
  | path {n : String} {j : Bool} {ty : TokenStream} : Identifier tx n → RustType tx .type ty →
      RustType tx .type (.ident n (.punct ':' true (.punct ':' j ty)))
  /-- `name<args>` -/
  | generic {n : String} {j j' : Bool} {as : TokenStream} : Identifier tx n → RustType tx .args as →
      RustType tx .type (.ident n (.punct '<' j (as.append (.punct '>' j' .nil))))
  /-- `name<args>::type` -/
  | genericPath {n : String} {j j' : Bool} {as ty : TokenStream} : Identifier tx n → RustType tx .args as →
      RustType tx .type ty →
      RustType tx .type (.ident n (.punct '<' j (as.append (.punct '>' true (.punct ':' true (.punct ':' j' ty))))))
  /-- `<type as type>::type` -/
  | qualified {j j' : Bool} {ty trait rest : TokenStream} : Identifier tx "as" → RustType tx .type ty →
      RustType tx .type trait → RustType tx .type rest →
      RustType tx .type (.punct '<' j (ty.append (.ident "as" (trait.append (.punct '>' true (.punct ':' true
        (.punct ':' j' rest)))))))
  /-- `(..)`: unit and tuples -/
  | tuple {inner : TokenStream} : RustType tx .type (.group .paren inner .nil)
  /-- `[..]`: slices and arrays -/
  | array {inner : TokenStream} : RustType tx .type (.group .bracket inner .nil)
  /-- `!` -/
  | never {j : Bool} : RustType tx .type (.punct '!' j .nil)
  /-- `&type` -/
  | reference {j : Bool} {ty : TokenStream} : RustType tx .type ty → RustType tx .type (.punct '&' j ty)
  /-- `&'lifetime type` -/
  | lifetime {n : String} {ty : TokenStream} : RustType tx .type ty →
      RustType tx .type (.punct '&' true (.punct '\'' true (.ident n ty)))
  /-- `*name type` for `const` or `mut` -/
  | pointer {n : String} {ty : TokenStream} : n = "const" ∨ n = "mut" → RustType tx .type ty →
      RustType tx .type (.punct '*' false (.ident n ty))
  /-- `word type` for `dyn` or `impl` -/
  | object {n : String} {ty : TokenStream} : n = "dyn" ∨ n = "impl" → Identifier tx n → RustType tx .type ty →
      RustType tx .type (.ident n ty)
  /-- `type + type` for `dyn A + B` -/
  | plus {j : Bool} {ty ty' : TokenStream} : RustType tx .type ty → RustType tx .type ty' →
      RustType tx .type (ty.append (.punct '+' j ty'))
  /-- `fn(..)` and `Fn(..)` -/
  | function {n : String} {inner : TokenStream} : Identifier tx n →
      RustType tx .type (.ident n (.group .paren inner .nil))
  /-- `fn(..) -> type` and `Fn(..) -> type` -/
  | functionTo {n : String} {inner ty : TokenStream} {j : Bool} : Identifier tx n → RustType tx .type ty →
      RustType tx .type (.ident n (.group .paren inner (.punct '-' true (.punct '>' j ty))))
  /-- One argument. -/
  | one {ty : TokenStream} : RustType tx .type ty → RustType tx .args ty
  /-- `name = type` -/
  | assoc {n : String} {j : Bool} {ty : TokenStream} : Identifier tx n → RustType tx .type ty →
      RustType tx .args (.ident n (.punct '=' j ty))
  /-- A number, as in `Matrix<3>`. -/
  | number {text : String} : (∃ c rest, text.toList = c :: rest ∧ c.isDigit = true) →
      RustType tx .args (.literal text .nil)
  /-- `args, args` -/
  | more {j : Bool} {as as' : TokenStream} : RustType tx .args as → RustType tx .args as' →
      RustType tx .args (as.append (.punct ',' j as'))

/-- Types of names, `::`, `<..>` with one argument, tuples, arrays, `!`, `dyn T` and functions without result. -/
inductive PlainType (tx : Text) : TokenStream → Prop
  | name {n : String} : Identifier tx n → PlainType tx (.ident n .nil)
  | path {n : String} {j : Bool} {ty : TokenStream} : Identifier tx n → PlainType tx ty →
      PlainType tx (.ident n (.punct ':' true (.punct ':' j ty)))
  | generic {n : String} {j j' : Bool} {ty : TokenStream} : Identifier tx n → PlainType tx ty →
      PlainType tx (.ident n (.punct '<' j (ty.append (.punct '>' j' .nil))))
  | genericPath {n : String} {j j' : Bool} {ty ty' : TokenStream} : Identifier tx n → PlainType tx ty →
      PlainType tx ty' →
      PlainType tx (.ident n (.punct '<' j (ty.append (.punct '>' true (.punct ':' true (.punct ':' j' ty'))))))
  | qualified {j j' : Bool} {ty trait rest : TokenStream} : Identifier tx "as" → PlainType tx ty →
      PlainType tx trait → PlainType tx rest →
      PlainType tx (.punct '<' j (ty.append (.ident "as" (trait.append (.punct '>' true (.punct ':' true
        (.punct ':' j' rest)))))))
  | tuple {inner : TokenStream} : PlainType tx (.group .paren inner .nil)
  | array {inner : TokenStream} : PlainType tx (.group .bracket inner .nil)
  | never {j : Bool} : PlainType tx (.punct '!' j .nil)
  | object {n : String} {ty : TokenStream} : n = "dyn" ∨ n = "impl" → Identifier tx n → PlainType tx ty →
      PlainType tx (.ident n ty)
  | function {n : String} {inner : TokenStream} : Identifier tx n →
      PlainType tx (.ident n (.group .paren inner .nil))

end Verif.Spec
