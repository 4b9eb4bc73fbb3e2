import Verif.Model.Symbol
import Verif.Model.CodeGen

/-!
# Model of the parser of the grammar language

`parser_generator_impl/src/{symbol_stream,ident,type_symbol}.rs` and, in `annotated_grammar/`,
`{util,production_ref,terminal,production_node,production_rule,label_type_map,parse_grammar}.rs`; the macro
itself (`lib.rs`).

A `SymbolStream` is the list of the items that are left; functions that take it by mutable reference return
what they leave. The texts of errors (and `intercept`, which extends them) and spans are not modelled. Loops
that are not structural in the list take as fuel the number of items left.
-/

namespace Verif

/-- symbol_stream.rs:20-23 `SymbolStreamImpl`: the items to come. -/
abbrev SymStream := List SymItem

/-- symbol.rs:112-117 `is_op`. -/
def SymT.isOp (s : SymT) (o : Op) : Bool := s == .op o

/-- symbol.rs:119-124 `is_identifier_with_name`. -/
def SymT.isIdent (s : SymT) (name : String) : Bool := s == .ident name

/-- symbol_stream.rs:41-53 `expect_symbol`. -/
def expectSymbol : SymStream → Outcome MacroError (Symbol × SymStream)
  | [] => .err .unexpectedEnd
  | .error e :: _ => .err e
  | .ok x :: rest => .ok (x, rest)

/-- symbol_stream.rs:55-66 `peek_expect_symbol`; :112-116 `SymbolProxy::take` then leaves `stream.tail`. The
two `debug_assert`s of `SymbolProxy` hold and its `unwrap_unchecked` sees what was peeked (C69). -/
def peekExpectSymbol : SymStream → Outcome MacroError Symbol
  | [] => .err .unexpectedEnd
  | .error e :: _ => .err e
  | .ok x :: _ => .ok x

/-- util.rs:7-21 `expect_symbol_with`. -/
def expectSymbolWith (cmp : SymT → Bool) (s : SymStream) : Outcome MacroError (TokenStream × SymStream) := do
  let (x, s) ← expectSymbol s
  if cmp x.sym then pure (x.tokens, s) else .err .unexpectedToken

/-- ident.rs:25-34 `Ident::parse`. -/
def parseIdentifier (s : SymStream) : Outcome MacroError (String × SymStream) := do
  let (x, s) ← expectSymbol s
  match x.sym with
  | .ident name => pure (name, s)
  | _ => .err .unexpectedToken

/-- type_symbol.rs:24-36: the loop of `Type::parse`. -/
def parseTypeLoop : TokenStream → SymStream → Outcome MacroError (TokenStream × SymStream)
  | _, [] => .err .unexpectedEnd
  | _, .error e :: _ => .err e
  | acc, .ok x :: rest =>
    if x.sym.isOp .arrow || x.sym.isOp .semicolon then .ok (acc, .ok x :: rest)
    else parseTypeLoop (acc.merge x.tokens) rest

/-- type_symbol.rs:16-39 `Type::parse`. -/
def parseType (s : SymStream) : Outcome MacroError (TokenStream × SymStream) := do
  let (x, s) ← expectSymbol s
  parseTypeLoop x.tokens s

/-- type_symbol.rs:41-43 `cmp_tokens`. -/
def cmpTokens (tx : Text) (a b : TokenStream) : Bool := tx.print a == tx.print b

/-- production_ref.rs:28-49 `ProductionRef::parse`. -/
def parseProductionRef (s : SymStream) : Outcome MacroError (String × SymStream) := do
  let (_, s) ← expectSymbolWith (·.isOp .beginProd) s
  let (x, s) ← expectSymbol s
  match x.sym with
  | .ident name =>
    let (_, s) ← expectSymbolWith (·.isOp .endProd) s
    pure (name, s)
  | _ => .err .unexpectedToken

/-- terminal.rs:14-41 `is_wildcard`, `is_punct`. -/
def isWildcardTokens : TokenStream → Bool
  | .punct c joint rest =>
    if c == '.' && joint then
      match rest with
      | .punct c' joint' .nil => c' == '.' && !joint'
      | _ => false
    else if c == '_' && !joint then rest == .nil
    else false
  | _ => false

/-- terminal.rs:203-223 `parse_ident`, after the identifier. -/
def parseTerminalIdent (tx : Text) (name : String) (s : SymStream) :
    Outcome MacroError (ANode × SymStream) := do
  let x ← peekExpectSymbol s
  match x.sym with
  | .paren inner =>
    if isWildcardTokens inner then pure (.symbol ⟨name, .wildcard⟩, s.tail)
    else pure (.symbol ⟨name, .pattern (tx.print inner)⟩, s.tail)
  | _ => pure (.symbol ⟨name, .none⟩, s)

/-- terminal.rs:225-236 `Terminal::parse`. -/
def parseTerminal (tx : Text) (s : SymStream) : Outcome MacroError (ANode × SymStream) := do
  let (x, s) ← expectSymbol s
  match x.sym with
  | .literal text => pure (.symbol ⟨text, .none⟩, s)
  | .ident name => parseTerminalIdent tx name s
  | .op .bang => pure (.epsilon, s)
  | _ => .err .unexpectedToken

/-- production_node.rs:44-50 `ProductionNode::parse`. -/
def parseNode (tx : Text) (s : SymStream) : Outcome MacroError (ANode × SymStream) := do
  let x ← peekExpectSymbol s
  match x.sym with
  | .op .beginProd => do
    let (name, s) ← parseProductionRef s
    pure (.production name, s)
  | _ => parseTerminal tx s

/-- production_rule.rs:15-23 `maybe_parse_return_type`. -/
def maybeParseReturnType (s : SymStream) : Outcome MacroError (Option TokenStream × SymStream) := do
  let x ← peekExpectSymbol s
  match x.sym with
  | .op .colon => do
    let (ty, s) ← parseType s.tail
    pure (some ty, s)
  | _ => pure (none, s)

/-- production_rule.rs:85-101: the loop of `parse_rule`. -/
def parseNodes (tx : Text) : Nat → List ANode → SymStream →
    Outcome MacroError (List ANode × Option (Delim × TokenStream) × SymStream)
  | 0, _, _ => .timeout
  | fuel + 1, rule, s => do
    let x ← peekExpectSymbol s
    match x.sym with
    | .op .semicolon => pure (rule, none, s)
    | .op .pipe => pure (rule, none, s)
    | .group d inner => pure (rule, some (d, inner), s.tail)
    | _ => do
      let (node, s) ← parseNode tx s
      parseNodes tx fuel (rule ++ [node]) s

/-- production_rule.rs:75-120 `parse_rule`. -/
def parseRule (tx : Text) (name : String) (returnType : Option TokenStream) (s : SymStream) :
    Outcome MacroError (ARule × SymStream) := do
  let (first, s) ← parseNode tx s
  let (rule, block, s) ← parseNodes tx (s.length + 1) [first] s
  if rule.length > 1 && rule.any ANode.isEpsilon then .err .epsilonNotAlone
  else pure (⟨name, returnType, rule, block⟩, s)

/-- label_type_map.rs:15-18 `LabelTypeMap`, an association list. -/
abbrev LabelTypes := List (String × Option TokenStream)

/-- label_type_map.rs:7-13 `types_equal`. -/
def typesEqual (tx : Text) : Option TokenStream → Option TokenStream → Bool
  | some a, some b => cmpTokens tx a b
  | none, none => true
  | _, _ => false

/-- label_type_map.rs:29-55 `add`. The `expect` on the type to blame is a panic if there is none. -/
def LabelTypes.add (tx : Text) (m : LabelTypes) (label : String) (ty : Option TokenStream) :
    Outcome MacroError LabelTypes :=
  match m.lookup label with
  | some existing =>
    if typesEqual tx existing ty then .ok m
    else do
      let _ ← Outcome.unwrap (ty.or existing)
      .err .typeMismatch
  | none => .ok ((label, ty) :: m)

/-- production_rule.rs:140-151: the loop of `parse`. -/
def parseAlternatives (tx : Text) (name : String) (returnType : Option TokenStream) :
    Nat → List ARule → SymStream → Outcome MacroError (List ARule × SymStream)
  | 0, _, _ => .timeout
  | fuel + 1, rules, s => do
    let (x, s) ← expectSymbol s
    match x.sym with
    | .op .pipe => do
      let (r, s) ← parseRule tx name returnType s
      parseAlternatives tx name returnType fuel (rules ++ [r]) s
    | .op .semicolon => pure (rules, s)
    | _ => .err .unexpectedToken

/-- production_rule.rs:122-154 `ProductionRule::parse`. -/
def parseDeclaration (tx : Text) (m : LabelTypes) (s : SymStream) :
    Outcome MacroError (List ARule × LabelTypes × SymStream) := do
  let (name, s) ← parseProductionRef s
  let (returnType, s) ← maybeParseReturnType s
  let m ← m.add tx name returnType
  let (_, s) ← expectSymbolWith (·.isOp .arrow) s
  let (first, s) ← parseRule tx name returnType s
  let (rules, s) ← parseAlternatives tx name returnType (s.length + 1) [first] s
  pure (rules, m, s)

/-- parse_grammar.rs:233-235: the loop of `parse_grammar`; it goes on while anything can be peeked. -/
def parseDeclarations (tx : Text) : Nat → List ARule → LabelTypes → SymStream →
    Outcome MacroError (List ARule × LabelTypes)
  | 0, _, _, _ => .timeout
  | fuel + 1, rules, m, s =>
    match s with
    | [] => pure (rules, m)
    | _ :: _ => do
      let (more, m, s) ← parseDeclaration tx m s
      parseDeclarations tx fuel (rules ++ more) m s

section Options
variable {α : Type}

/-- parse_grammar.rs:27-50 `parse_option_remainder`. -/
def parseOptionRemainder (value : SymStream → Outcome MacroError (α × SymStream)) (s : SymStream) :
    Outcome MacroError (α × SymStream) := do
  let (_, s) ← expectSymbolWith (·.isOp .colon) s
  let (v, s) ← value s
  let (_, s) ← expectSymbolWith (·.isOp .semicolon) s
  pure (v, s)

/-- parse_grammar.rs:53-69 `parse_option`. -/
def parseOption (keyword : String) (value : SymStream → Outcome MacroError (α × SymStream)) (s : SymStream) :
    Outcome MacroError (α × SymStream) := do
  let (_, s) ← expectSymbolWith (·.isIdent keyword) s
  parseOptionRemainder value s

end Options

/-- parse_grammar.rs:172-175 `parse_name`. -/
def parseName (s : SymStream) : Outcome MacroError (String × SymStream) :=
  parseOption "name" parseIdentifier s

/-- parse_grammar.rs:177-204 `parse_terminal_symbol_type`. -/
def parseTerminalType (s : SymStream) : Outcome MacroError (TerminalType × SymStream) := do
  let (x, s) ← expectSymbol s
  if x.sym.isIdent "terminal" then do
    let (ty, s) ← parseOptionRemainder parseType s
    pure (.raw ty, s)
  else if x.sym.isIdent "enum_terminal" then do
    let (ty, s) ← parseOptionRemainder parseType s
    pure (.enum ty, s)
  else .err .unexpectedToken

/-- parse_grammar.rs:206-223 `maybe_parse_error_type`. -/
def maybeParseErrorType (s : SymStream) : Outcome MacroError (Option TokenStream × SymStream) := do
  let x ← peekExpectSymbol s
  if x.sym.isIdent "error_type" then do
    let (ty, s) ← parseOptionRemainder parseType s.tail
    pure (some ty, s)
  else pure (none, s)

/-- parse_grammar.rs:225-260 `parse_grammar`. The fuel is that of `LRTable.build`. -/
def parseGrammar (tx : Text) (fuel : Nat) (s : SymStream) : Outcome MacroError GrammarInfo := do
  let (name, s) ← parseName s
  let (terminalType, s) ← parseTerminalType s
  let (errorType, s) ← maybeParseErrorType s
  let (rules, labelTypes) ← parseDeclarations tx (s.length + 1) [] [] s
  let ig ← (IndexedGrammar.build ⟨rules.map ARule.toLr⟩).mapErr MacroError.table
  let table ← (LRTable.build fuel ig).mapErr MacroError.table
  pure ⟨name, terminalType, errorType, labelTypes, rules, ig, table⟩

/-- lib.rs:28-36 `build_grammar`: the macro, up to the token stream it returns, which is represented by what
it was made from. -/
def buildGrammar (o : HashOrder) (lex : Lexer) (tx : Text) (fuel : Nat) (tokens : TokenStream) :
    Outcome MacroError (GrammarInfo × Program) := do
  let gi ← parseGrammar tx fuel (tokenize tx .empty tokens)
  let prog ← generateParser o lex gi
  pure (gi, prog)

end Verif
