import Verif.Spec.Rust

/-!
# Specification: how Rust code is read

A parser for the part of Rust in which generated parsers are written, from the Rust reference: operators, blocks and
statements, `match`, patterns, paths, the item for a parser. It decides which code tokens are; what code does is
said in `Verif.Spec.Rust`. Tokens of the grammar file are read as what they are put for: a type, a pattern without
alternatives, a literal, the contents of a block. Anything else does not compile, or is not Rust that this parser knows.
-/

set_option autoImplicit false

namespace Verif.RustSyntax
open Rust

/-- Strict and reserved keywords (Rust reference, 2021 edition), and `_`. -/
def reserved : List String :=
  ["as", "break", "const", "continue", "crate", "else", "enum", "extern", "false", "fn", "for", "if", "impl", "in",
   "let", "loop", "match", "mod", "move", "mut", "pub", "ref", "return", "self", "Self", "static", "struct", "super",
   "trait", "true", "type", "unsafe", "use", "where", "while", "async", "await", "dyn", "abstract", "become", "box",
   "do", "final", "macro", "override", "priv", "typeof", "unsized", "virtual", "yield", "try", "_"]

/-- The tokens after the given ones. -/
def skip : List RTok → List RTok → Option (List RTok)
  | [], t => some t
  | a :: l, b :: t => if a = b then skip l t else none
  | _ :: _, [] => none

/-- An identifier. -/
def ident : List RTok → Option (String × List RTok)
  | .word x :: t => if x ∈ reserved then none else some (x, t)
  | _ => none

/-! ### Paths and types -/

/-- The identifiers of a path that begins with `::`. -/
def segments : List RTok → List String × List RTok
  | .op s :: .word x :: t =>
    if s = "::" then ((x :: (segments t).1), (segments t).2) else ([], .op s :: .word x :: t)
  | t => ([], t)

/-- Types. -/
inductive RType where
  | user (t : TokenStream)
  | unit
  | path (names : List String)
deriving DecidableEq, Repr

def type : List RTok → Option (RType × List RTok)
  | .type t :: rest => some (.user t, rest)
  | .op s :: t =>
    if s = "(" then do
      let t ← skip rs!")" t
      some (.unit, t)
    else
      match segments (.op s :: t) with
      | (x :: names, t) => some (.path (x :: names), t)
      | _ => none
  | _ => none

/-- What a name or path stands for. -/
inductive Path where
  | con (k : Con)
  | atom (a : Atom)
  /-- a function of the code -/
  | fn (x : String)
  | var (x : String)
  | newState
  | parseError
  | overlapping

/-- Paths of the runtime library. -/
def library : List (List String × Path) :=
  [(["parser_generator", "parser_state", "ParserControl", "Accept"], .con .accept),
   (["parser_generator", "parser_state", "ParserControl", "Continue"], .atom .continue),
   (["parser_generator", "parser_state", "ParserState", "new"], .newState),
   (["parser_generator", "error", "ParserError", "new"], .parseError),
   (["parser_generator", "error", "ParserError", "overlapping_token_matchers"], .overlapping)]

/-- Names of the prelude. -/
def prelude : List (String × Path) :=
  [("Some", .con .some), ("None", .atom .none), ("Ok", .con .ok), ("Err", .con .err)]

/-- A parenthesis follows. -/
def isCall : List RTok → Bool
  | .op s :: _ => s == "("
  | _ => false

/-- Names, paths and literals in expressions and patterns. -/
def path : List RTok → Option (Path × List RTok)
  | .word x :: t =>
    if x ∈ reserved then none
    else match prelude.lookup x with
      | some p => some (p, t)
      | none =>
        match skip rs!"::" t with
        | some (.word v :: t) => some (.con (.state x v), t)
        | some _ => none
        | none => some (if isCall t then .fn x else .var x, t)
  | .op s :: t => do
    let p ← library.lookup (segments (.op s :: t)).1
    some (p, (segments (.op s :: t)).2)
  | .type ty :: t => do
    match ← skip rs!"::" t with
    | .word v :: t => some (if isCall t then .con (.token ty v) else .atom (.token ty v), t)
    | _ => none
  | .userLit text :: t => some (.atom (.lit text), t)
  | _ => none

/-! ### Patterns -/

mutual

/-- A pattern without alternatives at the top. -/
def patternNoAlt : Nat → List RTok → Option (RPat × List RTok)
  | 0, _ => none
  | f + 1, t =>
    match t with
    | .pattern text :: t => some (.user text, t)
    | .op s :: t' => if s = "&" then (patternNoAlt f t').map fun r => (.ref r.1, r.2) else patternPath f t
    | .word x :: t' =>
      if x = "_" then some (.wild, t')
      else if x = "ref" then do
        let (x, t) ← ident t'
        let t ← skip rs!"@" t
        let (p, t) ← patternNoAlt f t
        some (.named x p, t)
      else patternPath f t
    | _ => patternPath f t

/-- A pattern that begins with a name, path or literal. -/
def patternPath : Nat → List RTok → Option (RPat × List RTok)
  | 0, _ => none
  | f + 1, t => do
    let (p, t) ← path t
    match p with
    | .con k =>
      match skip rs!"(..)" t with
      | some t => some (.rest k, t)
      | none =>
        let t ← skip rs!"(" t
        let (p, t) ← pattern f t
        let t ← skip rs!")" t
        some (.con k p, t)
    | .atom a => some (.atom a, t)
    | .var x => some (.var x, t)
    | _ => none

/-- Patterns. -/
def pattern : Nat → List RTok → Option (RPat × List RTok)
  | 0, _ => none
  | f + 1, t => do
    let (p, t) ← patternNoAlt f t
    match skip rs!"|" t with
    | some t =>
      let (q, t) ← pattern f t
      some (.or p q, t)
    | none => some (p, t)

end

/-! ### Expressions -/

/-- Methods without arguments. -/
def methods : List (String × Method) :=
  [("stream", .stream), ("stream_mut", .streamMut), ("peek_next", .peekNext), ("advance", .advance),
   ("state", .state), ("pop_state", .popState), ("verify_empty_stack", .verifyEmptyStack), ("into_iter", .intoIter),
   ("borrow", .borrow), ("clone", .clone), ("transpose", .transpose), ("into_user_error", .intoUserError)]

/-- Whether an expression that is a statement without semicolon begins here. -/
def startsBlock : List RTok → Bool
  | .word x :: _ => x ∈ ["match", "if", "loop", "unsafe"]
  | .op s :: _ => s ∈ ["{", "#"]
  | _ => false

section
/- The type of errors of the user. -/
variable (error : RType)

mutual

/-- An expression without operators. -/
def primary : Nat → List RTok → Option (Expr × List RTok)
  | 0, _ => none
  | f + 1, t =>
    match t with
    | .word x :: t' =>
      if x = "match" then do
        let (e, t) ← expr f t'
        let t ← skip rs!"{" t
        let (arms, t) ← arms f t
        let t ← skip rs!"}" t
        some (.cases e arms, t)
      else if x = "if" then do
        let (e, t) ← expr f t'
        let t ← skip rs!"> 1 {" t
        let (b, t) ← block f t
        let t ← skip rs!"}" t
        some (.ifMany e b, t)
      else if x = "loop" then do
        let t ← skip rs!"{" t'
        let (b, t) ← block f t
        let t ← skip rs!"}" t
        some (.loop b, t)
      else if x = "unsafe" then do
        let t ← skip rs!"{ ::std::hint::unreachable_unchecked() }" t'
        some (.unreachable, t)
      else primaryPath f t
    | .op s :: t' =>
      if s = "{" then do
        let (b, t) ← block f t'
        let t ← skip rs!"}" t
        some (.block b, t)
      else if s = "#" then do
        let t ← skip rs!"[cfg(debug_assertions)] {" t'
        let (b, t) ← block f t
        let t ← skip rs!"}" t
        some (.debug b, t)
      else if s = "(" then
        match skip rs!")" t' with
        | some t => some (.atom .unit, t)
        | none =>
          match skip rs!"|| -> ::std::result::Result<_," t' with
          | some t => do
            let (ty, t) ← type t
            guard (ty = error)
            match ← skip rs!"> { Ok({" t with
            | .body rule b :: t =>
              let t ← skip rs!"}) })()" t
              some (.closure rule b, t)
            | _ => none
          | none => do
            let t ← skip rs!"matches!(" t'
            let (e, t) ← expr f t
            let t ← skip rs!"," t
            let (p, t) ← pattern f t
            let t ← skip rs!") as usize)" t
            some (.count e p, t)
      else primaryPath f t
    | _ => primaryPath f t

/-- An expression that begins with a name, path or literal, perhaps a call. -/
def primaryPath : Nat → List RTok → Option (Expr × List RTok)
  | 0, _ => none
  | f + 1, t => do
    let (p, t) ← path t
    match p with
    | .con k =>
      let t ← skip rs!"(" t
      let (e, t) ← expr f t
      let t ← skip rs!")" t
      some (.con k e, t)
    | .atom a => some (.atom a, t)
    | .var x => some (.var x, t)
    | .fn x =>
      let t ← skip rs!"(&mut" t
      let (e, t) ← expr f t
      let t ← skip rs!")" t
      some (.call x e, t)
    | .newState =>
      let t ← skip rs!"(" t
      let (a, t) ← expr f t
      let t ← skip rs!"," t
      let (b, t) ← expr f t
      let t ← skip rs!")" t
      some (.newState a b, t)
    | .parseError =>
      let t ← skip rs!"(" t
      let (e, t) ← expr f t
      let t ← skip rs!")" t
      some (.parseError e, t)
    | .overlapping =>
      let t ← skip rs!"(format!(\"{:?}\"," t
      let (e, t) ← expr f t
      let t ← skip rs!"))" t
      some (.overlapping e, t)

/-- Methods and `?` after an expression. -/
def suffixes : Nat → Expr → List RTok → Option (Expr × List RTok)
  | 0, _, _ => none
  | f + 1, e, t =>
    match t with
    | .mark rule :: t => do
      let t ← skip rs!".try_into().map_err(
        ::parser_generator::error::ParserUserErrorOrInfallible::<_, _>::into_user_error)" t
      suffixes f (.convert rule e) t
    | .op s :: t' =>
      if s = "?" then suffixes f (.question e) t'
      else if s = "." then
        match t' with
        | .word m :: t =>
          if m = "push" then do
            let t ← skip rs!"(" t
            let (arg, t) ← expr f t
            let t ← skip rs!")" t
            suffixes f (.push e arg) t
          else if m = "map" then do
            let t ← skip rs!"(|" t
            let (x, t) ← ident t
            let t ← skip rs!"|" t
            let (b, t) ← expr f t
            let t ← skip rs!")" t
            suffixes f (.map e x b) t
          else do
            let m ← methods.lookup m
            let t ← skip rs!"()" t
            suffixes f (.call0 m e) t
        | _ => none
      else some (e, t)
    | _ => some (e, t)

/-- More summands. -/
def summands : Nat → Expr → List RTok → Option (Expr × List RTok)
  | 0, _, _ => none
  | f + 1, e, t =>
    match skip rs!"+" t with
    | some t => do
      let (a, t) ← primary f t
      let (a, t) ← suffixes f a t
      summands f (.add e a) t
    | none => some (e, t)

/-- Expressions. -/
def expr : Nat → List RTok → Option (Expr × List RTok)
  | 0, _ => none
  | f + 1, t =>
    match skip rs!"return" t with
    | some t => do
      let (e, t) ← expr f t
      some (.ret e, t)
    | none => do
      let (e, t) ← primary f t
      let (e, t) ← suffixes f e t
      summands f e t

/-- The contents of a block, up to `}`. -/
def block : Nat → List RTok → Option (Expr × List RTok)
  | 0, _ => none
  | f + 1, t =>
    if t.head? = some (.op "}") then some (.nothing, t)
    else match skip rs!"let" t with
      | some t => do
        let (isMut, t) := match skip rs!"mut" t with
          | some t => (true, t)
          | none => (false, t)
        let (x, t) ← ident t
        let t ← skip rs!"=" t
        let (e, t) ← expr f t
        let t ← skip rs!";" t
        let (rest, t) ← block f t
        some (.letIn isMut x e rest, t)
      | none =>
        if startsBlock t then do
          let (e, t) ← primary f t
          if t.head? = some (.op "}") then some (e, t)
          else
            let (rest, t) ← block f t
            some (.stmt e rest, t)
        else do
          let (e, t) ← expr f t
          match skip rs!";" t with
          | some t =>
            let (rest, t) ← block f t
            some (.seq e rest, t)
          | none => if t.head? = some (.op "}") then some (e, t) else none

/-- Match arms, up to `}`. -/
def arms : Nat → List RTok → Option (Arms × List RTok)
  | 0, _ => none
  | f + 1, t =>
    if t.head? = some (.op "}") then some (.nil, t)
    else do
      let (p, t) ← pattern f t
      let t ← skip rs!"=>" t
      match skip rs!"{" t with
      | some t =>
        let (e, t) ← block f t
        let t ← skip rs!"}" t
        let (rest, t) ← arms f t
        some (.cons p .block e rest, t)
      | none =>
        let (e, t) ← expr f t
        match skip rs!"," t with
        | some t =>
          let (rest, t) ← arms f t
          some (.cons p .comma e rest, t)
        | none => if t.head? = some (.op "}") then some (.cons p .last e .nil, t) else none

end
end

/-! ### Items -/

/-- What is declared for a parser. -/
structure Item where
  isPub : Bool
  name : String
  /-- `TABLE_SIZE` -/
  tableSize : String
  token : RType
  value : RType
  error : RType
  /-- the enum of states -/
  enum : String
  variants : List (String × RType)
  /-- name, parameter, body -/
  functions : List (String × String × Expr)
  /-- the parameter and the rest of the body of `parse_fallible` -/
  param : String
  body : Expr

/-- A type that is known. -/
def theType (ty : RType) (t : List RTok) : Option (List RTok) := do
  let (ty', t) ← type t
  guard (ty' = ty)
  some t

/-- An identifier that is known. -/
def theIdent (x : String) (t : List RTok) : Option (List RTok) := do
  let (y, t) ← ident t
  guard (y = x)
  some t

/-- Variants of an enum, up to `}`. -/
def variants : Nat → List RTok → Option (List (String × RType) × List RTok)
  | 0, _ => none
  | f + 1, t =>
    if t.head? = some (.op "}") then some ([], t)
    else do
      let (x, t) ← ident t
      let t ← skip rs!"(" t
      let (ty, t) ← type t
      let t ← skip rs!")," t
      let (l, t) ← variants f t
      some ((x, ty) :: l, t)

/-- Functions for states, with a signature as the loop needs it. -/
def functions (token value error : RType) (enum : String) :
    Nat → List RTok → Option (List (String × String × Expr) × List RTok)
  | 0, _ => none
  | f + 1, t =>
    match skip rs!"fn" t with
    | none => some ([], t)
    | some t => do
      let (name, t) ← ident t
      let t ← skip rs!"<I, B: ::std::borrow::Borrow<" t
      let t ← theType token t
      let t ← skip rs!">, E: ::parser_generator::error::ParserUserErrorOrInfallible<" t
      let t ← theType token t
      let t ← skip rs!"," t
      let t ← theType error t
      let t ← skip rs!"> + Clone>(" t
      let (param, t) ← ident t
      let t ← skip rs!": &mut ::parser_generator::parser_state::ParserState<::core::result::Result<B, E>," t
      let t ← theIdent enum t
      let t ← skip rs!", I>) -> ::parser_generator::error::ParserResult<
        ::parser_generator::parser_state::ParserControl<" t
      let t ← theType value t
      let t ← skip rs!">," t
      let t ← theType token t
      let t ← skip rs!"," t
      let t ← theType error t
      let t ← skip rs!", > where I: Iterator<Item = ::core::result::Result<B, E>>, {" t
      let (body, t) ← block error f t
      let t ← skip rs!"}" t
      let (l, t) ← functions token value error enum f t
      some ((name, param, body) :: l, t)

/-- Names of types in the signature of `parse_fallible`. -/
def generics (t : List RTok) : Option ((String × String × String) × List RTok) := do
  let t ← skip rs!"<" t
  let (i, t) ← ident t
  let t ← skip rs!"," t
  let (b, t) ← ident t
  let t ← skip rs!"," t
  let (e, t) ← ident t
  let t ← skip rs!">" t
  some ((i, b, e), t)

/-- The signature of `parse_fallible` (src/parser.rs), with its parameter. -/
def signature (token : RType) (t : List RTok) : Option (String × List RTok) := do
  let t ← skip rs!"fn parse_fallible" t
  let ((i, b, e), t) ← generics t
  let t ← skip rs!"(" t
  let (param, t) ← ident t
  let t ← skip rs!":" t
  let t ← theIdent i t
  let t ← skip rs!") -> ::parser_generator::error::ParserResult<Self::Value, Self::Token, Self::Error> where" t
  let t ← theIdent i t
  let t ← skip rs!": IntoIterator<Item = ::core::result::Result<" t
  let t ← theIdent b t
  let t ← skip rs!"," t
  let t ← theIdent e t
  let t ← skip rs!">>," t
  let t ← theIdent b t
  let t ← skip rs!": ::std::borrow::Borrow<" t
  let t ← theType token t
  let t ← skip rs!">," t
  let t ← theIdent e t
  let t ← skip rs!": ::parser_generator::error::ParserUserErrorOrInfallible<Self::Token, Self::Error> + Clone, {" t
  some (param, t)

/-- `pub`, or nothing. -/
def visibility (t : List RTok) : Bool × List RTok :=
  match skip rs!"pub" t with
  | some t => (true, t)
  | none => (false, t)

/-- All declarations for a parser. -/
def item (f : Nat) (t : List RTok) : Option Item := do
  let (isPub, t) := visibility t
  let t ← skip rs!"struct" t
  let (name, t) ← ident t
  let t ← skip rs!"; impl" t
  let t ← theIdent name t
  match ← skip rs!"{ pub const TABLE_SIZE: usize =" t with
  | .lit tableSize :: t =>
    let t ← skip rs!"; } impl ::parser_generator::parser::Parser for" t
    let t ← theIdent name t
    let t ← skip rs!"{ type Token =" t
    let (token, t) ← type t
    let t ← skip rs!"; type Value =" t
    let (value, t) ← type t
    let t ← skip rs!"; type Error =" t
    let (error, t) ← type t
    let t ← skip rs!";" t
    let (param, t) ← signature token t
    let t ← skip rs!"enum" t
    let (enum, t) ← ident t
    let t ← skip rs!"{" t
    let (variants, t) ← variants f t
    let t ← skip rs!"}" t
    let (functions, t) ← functions token value error enum f t
    let (body, t) ← block error f t
    let t ← skip rs!"} }" t
    guard (t = [])
    some ⟨isPub, name, tableSize, token, value, error, enum, variants, functions, param, body⟩
  | _ => none

/-- The tokens are read as these declarations, whatever bound on the depth is taken, if it is large enough. -/
def Reads (t : List RTok) (it : Item) : Prop := ∃ n, ∀ f, n ≤ f → item f t = some it

/-- Running the function `parse_fallible` that is declared. -/
def Item.run {P V E F σ : Type} [DecidableEq P] (it : Item) (debug : Bool) (sem : Sem P V E σ) (into : F → E)
    (items : Nat → Option (Verif.Item P F)) (fuel : Nat) (w : σ) : Outcome Unit (RVal P V E F × Store P V E F σ) :=
  Rust.run it.functions it.body it.param debug sem into items fuel w

end Verif.RustSyntax
