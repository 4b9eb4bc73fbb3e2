import Verif.Model.ParseGrammar
import Verif.Model.ErrorText

/-!
# Model of the messages and places of the errors of the macro

The functions of `Verif.Model.Symbol` and `Verif.Model.ParseGrammar` once more, now with the spans of tokens
and the texts of messages (`ParserGeneratorError`, parser_generator_impl/src/error.rs:9-21). `Verif.Proof.LocatedErase` shows that
forgetting spans and texts gives the other model.
-/

set_option autoImplicit false

namespace Verif.Located

/-- `proc_macro2::Span`: `call_site` (the whole invocation of the macro) and `join`, which may fail (it always does with a
stable compiler). -/
structure Spans (S : Type) where
  callSite : S
  join : S → S → Option S

/-- `proc_macro2::TokenStream` with the span of each token; groups also have the span of their opening delimiter. -/
inductive LTokens (S : Type) where
  | nil
  | group (d : Delim) (span spanOpen : S) (inner rest : LTokens S)
  | ident (name : String) (span : S) (rest : LTokens S)
  | literal (text : String) (span : S) (rest : LTokens S)
  | punct (ch : Char) (joint : Bool) (span : S) (rest : LTokens S)
deriving DecidableEq, Repr

variable {S : Type}

/-- The tokens without their spans. -/
def LTokens.erase : LTokens S → TokenStream
  | .nil => .nil
  | .group d _ _ inner rest => .group d inner.erase rest.erase
  | .ident name _ rest => .ident name rest.erase
  | .literal text _ rest => .literal text rest.erase
  | .punct ch joint _ rest => .punct ch joint rest.erase

/-- error.rs:9-13 `ParserGeneratorError`: message and span. `kind` is what `Verif.Model.ParseGrammar` keeps of it. -/
structure Diag (S : Type) where
  kind : MacroError
  message : String
  span : S
deriving DecidableEq, Repr

/-- error.rs:54-61 `intercept`. -/
def intercept {α : Type} (message : String) : Outcome (Diag S) α → Outcome (Diag S) α :=
  Outcome.mapErr fun e => { e with message := e.message ++ ": " ++ message }

/-- symbol.rs:127-131 `Symbol` with :18-22 `SymbolMeta`; `inner` are the contents of a group, with their spans; they
are those of the symbol (`inner_eq`). -/
structure LSymbol (S : Type) where
  symbol : Symbol
  span : S
  inner : LTokens S
  inner_eq : ∀ d t, symbol.sym = .group d t → inner.erase = t := by intro _ _ h; cases h

/-- symbol.rs:40-45 `SymbolMeta::merge`, on the spans. -/
def Spans.merge (sp : Spans S) (a b : S) : S := (sp.join a b).getD a

/-- An item of the stream of symbols. -/
abbrev LItem (S : Type) := Except (Diag S) (LSymbol S)

/-- symbol.rs:146-163 `from_group`. -/
def fromGroup (d : Delim) (span spanOpen : S) (inner : LTokens S) : LItem S :=
  let tokens := TokenStream.group d inner.erase .nil
  match d with
  | .brace => .ok ⟨⟨.group d inner.erase, tokens⟩, span, inner, fun _ _ h => by cases h; rfl⟩
  | .paren => .ok ⟨⟨.paren inner.erase, tokens⟩, span, inner, by intro _ _ h; cases h⟩
  | .bracket => .ok ⟨⟨.array inner.erase, tokens⟩, span, inner, by intro _ _ h; cases h⟩
  | .none => .error ⟨.groupWithoutDelimiter, "Group without delimiter", spanOpen⟩

/-- symbol.rs:178-184 `from_ident` with :164-176 `verify_ident_spelling`. -/
def fromIdent (tx : Text) (name : String) (span : S) : LItem S :=
  if tx.isIdentifier name then .ok ⟨⟨.ident name, .ident name .nil⟩, span, .nil, by intro _ _ h; cases h⟩
  else .error ⟨.badIdentifier,
    "Identifier \"" ++ name ++ "\" is not alphanumeric/_ with a non-numeric leading character", span⟩

/-- symbol.rs:186-203 `from_literal`. -/
def fromLiteral (tx : Text) (text : String) (span : S) : LItem S :=
  if text.toList.head? = some '\'' then .ok ⟨⟨.literal text, .literal text .nil⟩, span, .nil, by intro _ _ h; cases h⟩
  else if tx.isIdentifier text then .ok ⟨⟨.ident text, .literal text .nil⟩, span, .nil, by intro _ _ h; cases h⟩
  else .error ⟨.badLiteral, "Unrecognized literal: " ++ text, span⟩

/-- symbol.rs:226-232 `PunctBuilder`. -/
inductive LPunct (S : Type) where
  | empty
  | prevWasEq (tokens : TokenStream) (span : S)
  | prevWasColon (tokens : TokenStream) (span : S)

/-- symbol.rs:235-291 `consume_next`. -/
def LPunct.consumeNext (sp : Spans S) (b : LPunct S) (ch : Char) (joint : Bool) (span : S) :
    LPunct S × Except (Diag S) (Option (LSymbol S)) :=
  let tokens := TokenStream.punct ch joint .nil
  let one : Op → LPunct S × Except (Diag S) (Option (LSymbol S)) := fun o =>
    (b, .ok (some ⟨⟨.op o, tokens⟩, span, .nil, by intro _ _ h; cases h⟩))
  match b with
  | .empty =>
    if ch = ';' then one .semicolon
    else if ch = '#' then one .numberSign
    else if ch = '<' then one .beginProd
    else if ch = '>' then one .endProd
    else if ch = '|' then one .pipe
    else if ch = '!' then one .bang
    else if ch = '=' then
      if joint then (.prevWasEq tokens span, .ok none)
      else (b, .error ⟨.unexpectedToken, "Unexpected token \"=\"", span⟩)
    else if ch = ':' then
      if joint then (.prevWasColon tokens span, .ok none) else one .colon
    else (b, .error ⟨.unexpectedToken, "Unexpected token \"" ++ ch.toString ++ "\"", span⟩)
  | .prevWasEq prev prevSpan =>
    if ch = '>' then (.empty, .ok (some ⟨⟨.op .arrow, prev.merge tokens⟩, sp.merge prevSpan span, .nil, by intro _ _ h; cases h⟩))
    else (b, .error ⟨.unexpectedToken, "Unexpected token \"=" ++ ch.toString ++ "\"", span⟩)
  | .prevWasColon prev prevSpan =>
    if ch = ':' then (.empty, .ok (some ⟨⟨.op .scope, prev.merge tokens⟩, sp.merge prevSpan span, .nil, by intro _ _ h; cases h⟩))
    else (b, .error ⟨.unexpectedToken, "Unexpected token \":" ++ ch.toString ++ "\"", span⟩)

/-- symbol.rs:310-319 `tokenize_from_stream` with :300-307 `consume_next_token`. -/
def tokenize (sp : Spans S) (tx : Text) : LPunct S → LTokens S → List (LItem S)
  | _, .nil => []
  | b, .group d span spanOpen inner rest => fromGroup d span spanOpen inner :: tokenize sp tx b rest
  | b, .ident name span rest => fromIdent tx name span :: tokenize sp tx b rest
  | b, .literal text span rest => fromLiteral tx text span :: tokenize sp tx b rest
  | b, .punct ch joint span rest =>
    match b.consumeNext sp ch joint span with
    | (b, .ok none) => tokenize sp tx b rest
    | (b, .ok (some s)) => .ok s :: tokenize sp tx b rest
    | (b, .error e) => .error e :: tokenize sp tx b rest

/-- symbol_stream.rs:20-23 `SymbolStreamImpl`: the items to come, and `current_span`. -/
structure LStream (S : Type) where
  items : List (LItem S)
  current : Option S

/-- "Unexpected end of input" (symbol_stream.rs:46-51, :59-64). -/
def unexpectedEnd (sp : Spans S) (current : Option S) : Diag S :=
  ⟨.unexpectedEnd, "Unexpected end of input", current.getD sp.callSite⟩

/-- symbol_stream.rs:41-53 `expect_symbol`. It calls `next` of the iterator, not :68-75 `next`, so that `current_span` stays
as it is. -/
def expectSymbol (sp : Spans S) (s : LStream S) : Outcome (Diag S) (LSymbol S × LStream S) :=
  match s.items with
  | [] => .err (unexpectedEnd sp s.current)
  | .error e :: _ => .err e
  | .ok x :: rest => .ok (x, { s with items := rest })

/-- symbol_stream.rs:55-66 `peek_expect_symbol`, :77-84 `peek`. The `SymbolProxy` holds the peeked symbol. -/
def peekExpectSymbol (sp : Spans S) (s : LStream S) : Outcome (Diag S) (LSymbol S) :=
  match s.items with
  | [] => .err (unexpectedEnd sp s.current)
  | .error e :: _ => .err e
  | .ok x :: _ => .ok x

/-- symbol_stream.rs:112-116 `SymbolProxy::take`, which calls :68-75 `next`: `current_span` is the span of the symbol taken. -/
def take (s : LStream S) : LStream S :=
  match s.items with
  | .ok x :: rest => ⟨rest, some x.span⟩
  | _ :: rest => ⟨rest, none⟩
  | [] => ⟨[], none⟩

/-- util.rs:7-21 `expect_symbol_with`. -/
def expectSymbolWith (sp : Spans S) (cmp : SymT → Bool) (message : String) (s : LStream S) :
    Outcome (Diag S) (S × LStream S) := do
  let (x, s) ← expectSymbol sp s
  if cmp x.symbol.sym then pure (x.span, s) else .err ⟨.unexpectedToken, message, x.span⟩

/-- ident.rs:25-34 `Ident::parse`. -/
def parseIdentifier (sp : Spans S) (s : LStream S) : Outcome (Diag S) (String × LStream S) := do
  let (x, s) ← expectSymbol sp s
  match x.symbol.sym with
  | .ident name => pure (name, s)
  | _ => .err ⟨.unexpectedToken, "Expected identifier", x.span⟩

/-- A type with its span (type_symbol.rs:10-13). -/
abbrev LType (S : Type) := TokenStream × S

/-- type_symbol.rs:24-36: the loop of `Type::parse`; the symbols are those of the stream. -/
def parseTypeLoop (sp : Spans S) : LType S → Option S → List (LItem S) → Outcome (Diag S) (LType S × LStream S)
  | _, current, [] => intercept "expected type" (.err (unexpectedEnd sp current))
  | _, _, .error e :: _ => intercept "expected type" (.err e)
  | acc, current, .ok x :: rest =>
    if x.symbol.sym.isOp .arrow || x.symbol.sym.isOp .semicolon then .ok (acc, ⟨.ok x :: rest, current⟩)
    else parseTypeLoop sp (acc.1.merge x.symbol.tokens, sp.merge acc.2 x.span) (some x.span) rest

/-- type_symbol.rs:16-39 `Type::parse`. -/
def parseType (sp : Spans S) (s : LStream S) : Outcome (Diag S) (LType S × LStream S) := do
  let (x, s) ← expectSymbol sp s
  parseTypeLoop sp (x.symbol.tokens, x.span) s.current s.items

/-- production_ref.rs:28-49 `ProductionRef::parse`. -/
def parseProductionRef (sp : Spans S) (s : LStream S) : Outcome (Diag S) ((String × S) × LStream S) := do
  let (span, s) ← expectSymbolWith sp (·.isOp .beginProd) "Expected production name to begin with '<'." s
  let (x, s) ← expectSymbol sp s
  match x.symbol.sym with
  | .ident name =>
    let (span', s) ← expectSymbolWith sp (·.isOp .endProd) "Expected production name to end with '>'." s
    pure ((name, sp.merge span span'), s)
  | _ => .err ⟨.unexpectedToken, "Expected production name.", x.span⟩

/-- A node with its span (production_node.rs:17-22). -/
abbrev LNode (S : Type) := ANode × S

/-- terminal.rs:203-223 `parse_ident`, after the identifier. -/
def parseTerminalIdent (sp : Spans S) (tx : Text) (name : String) (span : S) (s : LStream S) :
    Outcome (Diag S) (LNode S × LStream S) := do
  let x ← peekExpectSymbol sp s
  match x.symbol.sym with
  | .paren inner =>
    if isWildcardTokens inner then pure ((.symbol ⟨name, .wildcard⟩, span), take s)
    else pure ((.symbol ⟨name, .pattern (tx.print inner)⟩, span), take s)
  | _ => pure ((.symbol ⟨name, .none⟩, span), s)

/-- terminal.rs:225-236 `Terminal::parse`. -/
def parseTerminal (sp : Spans S) (tx : Text) (s : LStream S) : Outcome (Diag S) (LNode S × LStream S) := do
  let (x, s) ← expectSymbol sp s
  match x.symbol.sym with
  | .literal text => pure ((.symbol ⟨text, .none⟩, x.span), s)
  | .ident name => parseTerminalIdent sp tx name x.span s
  | .op .bang => pure ((.epsilon, x.span), s)
  | _ => .err ⟨.unexpectedToken, "Unexpected token", x.span⟩

/-- production_node.rs:44-50 `ProductionNode::parse`. -/
def parseNode (sp : Spans S) (tx : Text) (s : LStream S) : Outcome (Diag S) (LNode S × LStream S) := do
  let x ← peekExpectSymbol sp s
  match x.symbol.sym with
  | .op .beginProd => do
    let (r, s) ← parseProductionRef sp s
    pure ((.production r.1, r.2), s)
  | _ => parseTerminal sp tx s

/-- production_rule.rs:15-23 `maybe_parse_return_type`. -/
def maybeParseReturnType (sp : Spans S) (s : LStream S) : Outcome (Diag S) (Option (LType S) × LStream S) := do
  let x ← peekExpectSymbol sp s
  match x.symbol.sym with
  | .op .colon => do
    let (ty, s) ← parseType sp (take s)
    pure (some ty, s)
  | _ => pure (none, s)

/-- production_rule.rs:25-29 `Constructor`: delimiter, span and contents of the group. -/
structure LBlock (S : Type) where
  delim : Delim
  span : S
  body : LTokens S

/-- production_rule.rs:85-101: the loop of `parse_rule`. -/
def parseNodes (sp : Spans S) (tx : Text) : Nat → List (LNode S) → LStream S →
    Outcome (Diag S) ((List (LNode S) × Option (LBlock S)) × LStream S)
  | 0, _, _ => .timeout
  | fuel + 1, rule, s => do
    let x ← peekExpectSymbol sp s
    match x.symbol.sym with
    | .op .semicolon => pure ((rule, none), s)
    | .op .pipe => pure ((rule, none), s)
    | .group d _ => pure ((rule, some ⟨d, x.span, x.inner⟩), take s)
    | _ => do
      let (node, s) ← parseNode sp tx s
      parseNodes sp tx fuel (rule ++ [node]) s

/-- production_rule.rs:41-47 `ProductionRule`; the span is that of `meta`, the spans of the nodes joined. -/
structure LRule (S : Type) where
  name : String
  returnType : Option (LType S)
  rule : List (LNode S)
  block : Option (LBlock S)

/-- production_rule.rs:80, :99: the span of a rule. -/
def ruleSpan (sp : Spans S) : List (LNode S) → S
  | [] => sp.callSite
  | n :: ns => ns.foldl (fun a m => sp.merge a m.2) n.2

/-- production_rule.rs:75-120 `parse_rule`. -/
def parseRule (sp : Spans S) (tx : Text) (name : String) (returnType : Option (LType S)) (s : LStream S) :
    Outcome (Diag S) (LRule S × LStream S) := do
  let (first, s) ← parseNode sp tx s
  let ((rule, block), s) ← parseNodes sp tx (s.items.length + 1) [first] s
  match (if rule.length > 1 then rule.find? fun n => n.1.isEpsilon else none) with
  | some n => .err ⟨.epsilonNotAlone, "Epsilon may only appear in a rule by itself", n.2⟩
  | none => pure (⟨name, returnType, rule, block⟩, s)

/-- label_type_map.rs:15-18 `LabelTypeMap`, an association list. -/
abbrev LLabelTypes (S : Type) := List (String × Option (LType S))

/-- label_type_map.rs:29-55 `add`. -/
def LLabelTypes.add (tx : Text) (m : LLabelTypes S) (label : String) (ty : Option (LType S)) :
    Outcome (Diag S) (LLabelTypes S) :=
  match m.lookup label with
  | some existing =>
    if typesEqual tx (existing.map (·.1)) (ty.map (·.1)) then .ok m
    else do
      let t ← Outcome.unwrap (ty.or existing)
      .err ⟨.typeMismatch, "Production rules for the same label have different return types", t.2⟩
  | none => .ok ((label, ty) :: m)

/-- production_rule.rs:140-151: the loop of `parse`. -/
def parseAlternatives (sp : Spans S) (tx : Text) (name : String) (returnType : Option (LType S)) :
    Nat → List (LRule S) → LStream S → Outcome (Diag S) (List (LRule S) × LStream S)
  | 0, _, _ => .timeout
  | fuel + 1, rules, s => do
    let (x, s) ← expectSymbol sp s
    match x.symbol.sym with
    | .op .pipe => do
      let (r, s) ← parseRule sp tx name returnType s
      parseAlternatives sp tx name returnType fuel (rules ++ [r]) s
    | .op .semicolon => pure (rules, s)
    | _ => .err ⟨.unexpectedToken, "Expected either `;` or `|`", x.span⟩

/-- production_rule.rs:122-154 `ProductionRule::parse`. -/
def parseDeclaration (sp : Spans S) (tx : Text) (m : LLabelTypes S) (s : LStream S) :
    Outcome (Diag S) ((List (LRule S) × LLabelTypes S) × LStream S) := do
  let (name, s) ← parseProductionRef sp s
  let (returnType, s) ← maybeParseReturnType sp s
  let m ← m.add tx name.1 returnType
  let (_, s) ← expectSymbolWith sp (·.isOp .arrow) "Expected `=>` to follow production name" s
  let (first, s) ← parseRule sp tx name.1 returnType s
  let (rules, s) ← parseAlternatives sp tx name.1 returnType (s.items.length + 1) [first] s
  pure ((rules, m), s)

/-- parse_grammar.rs:233-235: the loop of `parse_grammar`. -/
def parseDeclarations (sp : Spans S) (tx : Text) : Nat → List (LRule S) → LLabelTypes S → LStream S →
    Outcome (Diag S) (List (LRule S) × LLabelTypes S)
  | 0, _, _, _ => .timeout
  | fuel + 1, rules, m, s =>
    match s.items with
    | [] => pure (rules, m)
    | _ :: _ => do
      let ((more, m), s) ← parseDeclaration sp tx m s
      parseDeclarations sp tx fuel (rules ++ more) m s

/-- parse_grammar.rs:27-50 `parse_option_remainder`. -/
def parseOptionRemainder {α : Type} (sp : Spans S) (option : String)
    (value : LStream S → Outcome (Diag S) (α × LStream S)) (s : LStream S) : Outcome (Diag S) (α × LStream S) := do
  let (_, s) ← expectSymbolWith sp (·.isOp .colon) ("Expected \":\" to follow \"" ++ option ++ "\" keyword.") s
  let (v, s) ← value s
  let (_, s) ← expectSymbolWith sp (·.isOp .semicolon) ("Expected \";\" to follow \"" ++ option ++ "\" value.") s
  pure (v, s)

/-- parse_grammar.rs:53-69 `parse_option`. -/
def parseOption {α : Type} (sp : Spans S) (option : String) (value : LStream S → Outcome (Diag S) (α × LStream S))
    (s : LStream S) : Outcome (Diag S) (α × LStream S) := do
  let (_, s) ← expectSymbolWith sp (·.isIdent option) ("Expected \"" ++ option ++ "\" keyword") s
  parseOptionRemainder sp option value s

/-- parse_grammar.rs:172-175 `parse_name`. -/
def parseName (sp : Spans S) (s : LStream S) : Outcome (Diag S) (String × LStream S) :=
  intercept "\"name: `MyName`;\" specifies the name the generated parser struct will be given"
    (parseOption sp "name" (parseIdentifier sp) s)

/-- parse_grammar.rs:177-204 `parse_terminal_symbol_type`. -/
def parseTerminalType (sp : Spans S) (s : LStream S) : Outcome (Diag S) (TerminalType × LStream S) := do
  let (x, s) ← intercept "Expected \"terminal\" or \"enum_terminal\" option" (expectSymbol sp s)
  if x.symbol.sym.isIdent "terminal" then do
    let (ty, s) ← intercept "\"terminal: `type`;\" specifies the `type` of tokens that this grammar will parse"
      (parseOptionRemainder sp "terminal" (parseType sp) s)
    pure (.raw ty.1, s)
  else if x.symbol.sym.isIdent "enum_terminal" then do
    let (ty, s) ← intercept
      "\"enum_terminal: `enum_type`;\" specifies the `enum_type` of tokens that this grammar will parse"
      (parseOptionRemainder sp "enum_terminal" (parseType sp) s)
    pure (.enum ty.1, s)
  else .err ⟨.unexpectedToken, "Expected \"terminal\" or \"enum_terminal\" option", x.span⟩

/-- parse_grammar.rs:206-223 `maybe_parse_error_type`. -/
def maybeParseErrorType (sp : Spans S) (s : LStream S) : Outcome (Diag S) (Option TokenStream × LStream S) := do
  let x ← intercept "Unexpected end of stream" (peekExpectSymbol sp s)
  if x.symbol.sym.isIdent "error_type" then do
    let (ty, s) ← intercept ("\"error_type: `type`;\" specifies the `type` of errors that either the " ++
      "input stream and/or constructors may yield.") (parseOptionRemainder sp "error_type" (parseType sp) (take s))
    pure (some ty.1, s)
  else pure (none, s)

/-- A rule without spans. -/
def LRule.erase (r : LRule S) : ARule :=
  ⟨r.name, r.returnType.map (·.1), r.rule.map (·.1), r.block.map fun b => (b.delim, b.body.erase)⟩

/-- error.rs:23-25 `from_foreign_error` at `Span::call_site()` (parse_grammar.rs:246-249, :166-169). -/
def tableError (sp : Spans S) (e : LRTableError Sym String) : Diag S :=
  ⟨.table e, String.ofList (ErrorText.tableMessage e), sp.callSite⟩

/-- parse_grammar.rs:225-260 `parse_grammar`; the rules are also returned with their spans. -/
def parseGrammar (sp : Spans S) (tx : Text) (fuel : Nat) (s : LStream S) :
    Outcome (Diag S) (GrammarInfo × List (LRule S)) := do
  let (name, s) ← parseName sp s
  let (terminalType, s) ← parseTerminalType sp s
  let (errorType, s) ← maybeParseErrorType sp s
  let (rules, labelTypes) ← parseDeclarations sp tx (s.items.length + 1) [] [] s
  let ig ← (IndexedGrammar.build ⟨(rules.map LRule.erase).map ARule.toLr⟩).mapErr (tableError sp)
  let table ← (LRTable.build fuel ig).mapErr (tableError sp)
  pure (⟨name, terminalType, errorType, labelTypes.map fun p => (p.1, p.2.map (·.1)), rules.map LRule.erase, ig, table⟩,
    rules)

/-- symbol.rs:310, symbol_stream.rs:26-31 `new`: the stream of a file. -/
def stream (sp : Spans S) (tx : Text) (tokens : LTokens S) : LStream S := ⟨tokenize sp tx .empty tokens, none⟩

end Verif.Located
