import Verif.Model.CodeGen

/-!
# The part of Rust in which generated parsers are written

Syntax of patterns and expressions, and their text. `Verif.Model.Emit` writes generated parsers in this syntax,
`Verif.Spec.Rust` says what they do.
-/

namespace Verif

/-- Rust's namespaces; macros are listed with values. -/
inductive Ns where
  | type
  | value
deriving DecidableEq, Repr

/-- Tokens of Rust code. Tokens of the grammar file that are spliced in are kept together. -/
inductive RTok where
  /-- identifiers, keywords, `_` -/
  | word (x : String)
  /-- punctuation, delimiters -/
  | op (s : String)
  | lit (s : String)
  /-- a type of the grammar file -/
  | type (t : TokenStream)
  /-- a literal of the grammar file -/
  | userLit (text : String)
  /-- the tokens of a pattern of the grammar file -/
  | pattern (text : String)
  /-- the body of the constructor of a rule; spans tell of which rule -/
  | body (rule : Nat) (t : TokenStream)
  /-- no token: for which rule a conversion was written, which the compiler finds out from types -/
  | mark (rule : Nat)
deriving DecidableEq, Repr

/-- Splits text that contains no comments, characters or lifetimes. Only used by `rs!`. -/
def lexText : Nat → List Char → List RTok
  | 0, _ => []
  | _, [] => []
  | n + 1, c :: cs =>
    let isWord := fun c : Char => c.isAlphanum || c == '_'
    if c.isWhitespace then lexText n cs
    else if c.isDigit then .lit (String.ofList (c :: cs.takeWhile isWord)) :: lexText n (cs.dropWhile isWord)
    else if isWord c then .word (String.ofList (c :: cs.takeWhile isWord)) :: lexText n (cs.dropWhile isWord)
    else if c == '"' then
      .lit (String.ofList (c :: cs.takeWhile (· != '"')) ++ "\"") :: lexText n (cs.dropWhile (· != '"')).tail
    else match c, cs with
      | ':', ':' :: cs => .op "::" :: lexText n cs
      | '=', '>' :: cs => .op "=>" :: lexText n cs
      | '-', '>' :: cs => .op "->" :: lexText n cs
      | '|', '|' :: cs => .op "||" :: lexText n cs
      | '.', '.' :: cs => .op ".." :: lexText n cs
      | c, cs => .op (String.ofList [c]) :: lexText n cs

/-- The tokens of a text. -/
syntax:max "rs!" str : term

macro_rules
  | `(rs! $s:str) => do
    let text := s.getString
    let toks : List (Lean.TSyntax `term) ← (lexText text.length text.toList).mapM fun t => match t with
      | .word x => `(RTok.word $(Lean.quote x))
      | .op x => `(RTok.op $(Lean.quote x))
      | .lit x => `(RTok.lit $(Lean.quote x))
      | _ => Lean.Macro.throwUnsupported
    let toks := toks.toArray
    `([$toks,*])

/-- Rust code, with its binding structure: which names the code introduces and where they are in scope, which names
it looks up, and where tokens of the grammar file are spliced in. `text` is punctuation, keywords, literals, names of
methods and fields, and paths that begin with `::`. -/
inductive Code where
  | text (l : List RTok)
  /-- a name that is introduced -/
  | name (x : String)
  /-- a name that is looked up -/
  | use (ns : Ns) (x : String)
  /-- a path `x::variant`; `x` is looked up -/
  | member (x variant : String)
  /-- a path `t::variant` in a pattern or an expression, where `t` is a type of the grammar file -/
  | variant (t : TokenStream) (variant : String)
  /-- a type of the grammar file -/
  | type (t : TokenStream)
  /-- a pattern of the grammar file, with its tokens -/
  | pattern (text : String) (t : TokenStream)
  /-- the body of the constructor of a rule -/
  | user (rule : Nat) (t : TokenStream)
  | seq (a b : Code)
  /-- code in which names are in scope that the code before introduces -/
  | bind (names : List (Ns × String)) (body : Code)
deriving DecidableEq, Repr

/-- The tokens of code. -/
def Code.tokens : Code → List RTok
  | .text l => l
  | .name x => [.word x]
  | .use _ x => [.word x]
  | .member x v => [.word x, .op "::", .word v]
  | .variant t v => [.type t, .op "::", .word v]
  | .type t => [.type t]
  | .pattern x _ => [.pattern x]
  | .user rule t => [.body rule t]
  | .seq a b => a.tokens ++ b.tokens
  | .bind _ body => body.tokens

namespace Emit

/-- Code in sequence. -/
def cat : List Code → Code
  | [] => .text []
  | c :: cs => .seq c (cat cs)

def value (x : String) : Code := .use .value x

end Emit

namespace Rust
open Emit

/-- Constructors with one field. -/
inductive Con where
  | some
  | ok
  | err
  /-- `ParserControl::Accept` (parser_state.rs:5) -/
  | accept
  /-- a variant of the enum of states -/
  | state (enum variant : String)
  /-- a variant of the type of tokens -/
  | token (ty : TokenStream) (variant : String)
deriving DecidableEq, Repr

/-- Constants. -/
inductive Atom where
  | unit
  | none
  /-- `ParserControl::Continue` (parser_state.rs:4) -/
  | continue
  /-- a literal of the grammar file -/
  | lit (text : String)
  /-- a variant of the type of tokens -/
  | token (ty : TokenStream) (variant : String)
deriving DecidableEq, Repr

/-- Patterns. -/
inductive RPat where
  /-- `_` -/
  | wild
  | var (x : String)
  | atom (a : Atom)
  /-- `k(p)` -/
  | con (k : Con) (p : RPat)
  /-- `k(..)` -/
  | rest (k : Con)
  /-- `&p` -/
  | ref (p : RPat)
  /-- `ref x @ p` -/
  | named (x : String) (p : RPat)
  /-- a pattern of the grammar file -/
  | user (text : String)
  /-- `p | q` -/
  | or (p q : RPat)
deriving DecidableEq, Repr

/-- Methods without arguments: of `ParserState` and its stream (src/parser_state.rs, src/parser_stream.rs), and
of values. -/
inductive Method where
  | stream
  | streamMut
  | peekNext
  | advance
  | state
  | popState
  | verifyEmptyStack
  | intoIter
  | borrow
  | clone
  | transpose
  /-- `ParserUserErrorOrInfallible::into_user_error` (src/error.rs:13-17) -/
  | intoUserError
deriving DecidableEq, Repr

/-- How a match arm is written: `p => e,` or `p => { e }` or `p => e` at the end. -/
inductive Style where
  | comma
  | block
  | last
deriving DecidableEq, Repr

mutual

/-- Expressions and the statements that follow them. -/
inductive Expr where
  | var (x : String)
  | atom (a : Atom)
  | con (k : Con) (e : Expr)
  | call0 (m : Method) (e : Expr)
  /-- `e.push(arg)` -/
  | push (e arg : Expr)
  /-- `ParserState::new(input, initial)` -/
  | newState (input initial : Expr)
  /-- `f(&mut e)` -/
  | call (f : String) (e : Expr)
  /-- `e.map(|x| body)` -/
  | map (e : Expr) (x : String) (body : Expr)
  /-- `ParserError::new(e)` -/
  | parseError (e : Expr)
  /-- `ParserError::overlapping_token_matchers(format!("{:?}", e))` -/
  | overlapping (e : Expr)
  /-- `(|| -> Result<_, error> { Ok({ body }) })()`, for the constructor of a rule -/
  | closure (rule : Nat) (body : TokenStream)
  /-- `e.try_into().map_err(into_user_error)`, for a rule without constructor -/
  | convert (rule : Nat) (e : Expr)
  /-- `{ e }` -/
  | block (e : Expr)
  /-- `e?` -/
  | question (e : Expr)
  /-- `return e` -/
  | ret (e : Expr)
  /-- `let x = e; rest`, with or without `mut` -/
  | letIn (isMut : Bool) (x : String) (e rest : Expr)
  /-- `e; rest` -/
  | seq (e rest : Expr)
  /-- `stmt rest`, where the statement needs no semicolon -/
  | stmt (stmt rest : Expr)
  /-- nothing, in a block -/
  | nothing
  /-- `match e { arms }` -/
  | cases (e : Expr) (arms : Arms)
  /-- `unsafe { unreachable_unchecked() }` -/
  | unreachable
  /-- `(matches!(e, p) as usize)` -/
  | count (e : Expr) (p : RPat)
  | add (a b : Expr)
  /-- `if e > 1 { then_ }` -/
  | ifMany (e then_ : Expr)
  /-- `#[cfg(debug_assertions)] { e }` -/
  | debug (e : Expr)
  /-- `loop { e }` -/
  | loop (e : Expr)

/-- Match arms. -/
inductive Arms where
  | nil
  | cons (p : RPat) (style : Style) (e : Expr) (rest : Arms)

end

namespace Arms

/-- Arms one after the other. -/
def ofList (l : List (RPat × Style × Expr)) (rest : Arms) : Arms :=
  l.foldr (fun a arms => .cons a.1 a.2.1 a.2.2 arms) rest

end Arms

/-! ### Text -/

/-- The identifiers of tokens. -/
def identsOf : TokenStream → List String
  | .nil => []
  | .group _ inner rest => identsOf inner ++ identsOf rest
  | .ident name rest => name :: identsOf rest
  | .literal _ rest => identsOf rest
  | .punct _ _ rest => identsOf rest

section
variable (retok : String → TokenStream) (errorType : Code)

/-- The path to a constructor. -/
def Con.code : Con → Code
  | .some => value "Some"
  | .ok => value "Ok"
  | .err => value "Err"
  | .accept => .text rs!"::parser_generator::parser_state::ParserControl::Accept"
  | .state enum variant => .member enum variant
  | .token ty variant => .variant ty variant

def Atom.code : Atom → Code
  | .unit => .text rs!"()"
  | .none => value "None"
  | .continue => .text rs!"::parser_generator::parser_state::ParserControl::Continue"
  | .lit text => .text [.userLit text]
  | .token ty variant => .variant ty variant

def RPat.code : RPat → Code
  | .wild => .text rs!"_"
  | .var x => .name x
  | .atom a => a.code
  | .con k p => cat [k.code, .text rs!"(", p.code, .text rs!")"]
  | .rest k => cat [k.code, .text rs!"(..)"]
  | .ref p => cat [.text rs!"&", p.code]
  | .named x p => cat [.text rs!"ref", .name x, .text rs!"@", p.code]
  | .user text => .pattern text (retok text)
  | .or p q => cat [p.code, .text rs!"|", q.code]

/-- Names that a pattern may bind; of a pattern of the grammar file, any identifier. -/
def RPat.vars : RPat → List (Ns × String)
  | .wild => []
  | .var x => [(.value, x)]
  | .atom _ => []
  | .con _ p => p.vars
  | .rest _ => []
  | .ref p => p.vars
  | .named x p => (.value, x) :: p.vars
  | .user text => (identsOf (retok text)).map (.value, ·)
  | .or p q => p.vars ++ q.vars

def Method.name : Method → String
  | .stream => "stream"
  | .streamMut => "stream_mut"
  | .peekNext => "peek_next"
  | .advance => "advance"
  | .state => "state"
  | .popState => "pop_state"
  | .verifyEmptyStack => "verify_empty_stack"
  | .intoIter => "into_iter"
  | .borrow => "borrow"
  | .clone => "clone"
  | .transpose => "transpose"
  | .intoUserError => "into_user_error"

mutual

def Expr.code : Expr → Code
  | .var x => value x
  | .atom a => a.code
  | .con k e => cat [k.code, .text rs!"(", e.code, .text rs!")"]
  | .call0 m e => cat [e.code, .text (rs!"." ++ .word m.name :: rs!"()")]
  | .push e arg => cat [e.code, .text rs!".push(", arg.code, .text rs!")"]
  | .newState input initial => cat [.text rs!"::parser_generator::parser_state::ParserState::new(", input.code,
      .text rs!",", initial.code, .text rs!")"]
  | .call f e => cat [value f, .text rs!"(&mut", e.code, .text rs!")"]
  | .map e x body => cat [e.code, .text rs!".map(|", .name x, .text rs!"|", .bind [(.value, x)] body.code, .text rs!")"]
  | .parseError e => cat [.text rs!"::parser_generator::error::ParserError::new(", e.code, .text rs!")"]
  | .overlapping e => cat [.text rs!"::parser_generator::error::ParserError::overlapping_token_matchers(",
      value "format", .text rs!"!(\"{:?}\",", e.code, .text rs!"))"]
  | .closure rule body => cat [.text rs!"(|| -> ::std::result::Result<_,", errorType, .text rs!"> {", value "Ok",
      .text rs!"({", .user rule body, .text rs!"}) })()"]
  | .convert rule e => cat [e.code, .text (.mark rule :: rs!".try_into().map_err(
      ::parser_generator::error::ParserUserErrorOrInfallible::<_, _>::into_user_error)")]
  | .block e => cat [.text rs!"{", e.code, .text rs!"}"]
  | .question e => cat [e.code, .text rs!"?"]
  | .ret e => cat [.text rs!"return", e.code]
  | .letIn isMut x e rest => cat [.text (if isMut then rs!"let mut" else rs!"let"), .name x, .text rs!"=", e.code,
      .text rs!";", .bind [(.value, x)] rest.code]
  | .seq e rest => cat [e.code, .text rs!";", rest.code]
  | .stmt e rest => cat [e.code, rest.code]
  | .nothing => .text []
  | .cases e arms => cat [.text rs!"match", e.code, .text rs!"{", arms.code, .text rs!"}"]
  | .unreachable => .text rs!"unsafe { ::std::hint::unreachable_unchecked() }"
  | .count e p => cat [.text rs!"(", value "matches", .text rs!"!(", e.code, .text rs!",", p.code retok,
      .text rs!") as", .use .type "usize", .text rs!")"]
  | .add a b => cat [a.code, .text rs!"+", b.code]
  | .ifMany e then_ => cat [.text rs!"if", e.code, .text rs!"> 1 {", then_.code, .text rs!"}"]
  | .debug e => cat [.text rs!"#[cfg(debug_assertions)] {", e.code, .text rs!"}"]
  | .loop e => cat [.text rs!"loop {", e.code, .text rs!"}"]

def Arms.code : Arms → Code
  | .nil => .text []
  | .cons p style e rest => cat [p.code retok, .text (if style = .block then rs!"=> {" else rs!"=>"),
      .bind (p.vars retok) e.code,
      .text (match style with | .comma => rs!"," | .block => rs!"}" | .last => []), rest.code]

end

end
end Rust
end Verif
