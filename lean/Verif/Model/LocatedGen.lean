import Verif.Model.Located
import Verif.Model.CodeGen

/-!
# Model of the messages and places of the errors of code generation

The functions of `Verif.Model.Constructor` and `Verif.Model.CodeGen` that can fail once more, now with the spans of tokens and
the texts of messages. `Verif.Proof.LocatedGen` shows that forgetting spans and texts gives the other model.
-/

set_option autoImplicit false

namespace Verif.Located

variable {S : Type}

/-- Texts of errors of other libraries: of `Literal::from_str` and of `str::parse::<usize>`. -/
structure Foreign where
  lexError : String
  intError : String → String

/-- constructor.rs:69-90 `lookup_label`. -/
def lookupLabel (m : SubstMap) (label : String) (span : S) : Outcome (Diag S) Nat :=
  match m.labelMap.lookup label with
  | none => .err ⟨.unknownLabel, "Unrecognized production label: not found in rule", span⟩
  | some none => .err ⟨.ambiguousLabel,
      "Cannot refer to production by name, as it appears multiple times in the rule. " ++
        "Use `#n` instead, where `n` is the index in the rule.", span⟩
  | some (some index) => pure index

/-- constructor.rs:92-118 `literal_to_index`. -/
def literalToIndex (fx : Foreign) (m : SubstMap) (literal : String) (span : S) (rule : List ANode) :
    Outcome (Diag S) Nat :=
  match SubstMap.parseUsize literal with
  | none => .err ⟨.badIndex, fx.intError literal, span⟩
  | some index =>
    if m.numNodes ≤ index then
      .err ⟨.indexOutOfRange, "Index is out of range of rules, expected within [0, " ++ toString m.numNodes ++ ")", span⟩
    else do
      let node ← Outcome.index rule index
      if node.isEpsilon then
        .err ⟨.indexOfEpsilon, "Index " ++ toString index ++ " refers to `!` which matches nothing", span⟩
      else pure index

/-- constructor.rs:140-168 `substitute_vars` with :120-138 `substitute_at`. -/
def substituteVars (fx : Foreign) (m : SubstMap) (rule : List ANode) : LTokens S → Outcome (Diag S) TokenStream
  | .nil => pure .nil
  | .group d _ _ inner rest => do
    let inner ← substituteVars fx m rule inner
    let rest ← substituteVars fx m rule rest
    pure (.group d inner rest)
  | .punct ch joint span rest =>
    if joint = false ∧ ch = '#' then
      match rest with
      | .ident name at_ rest => do
        let index ← lookupLabel m name at_
        let rest ← substituteVars fx m rule rest
        pure (.ident (boundVariable index) rest)
      | .literal text at_ rest => do
        let index ← literalToIndex fx m text at_ rule
        let rest ← substituteVars fx m rule rest
        pure (.ident (boundVariable index) rest)
      | _ => .err ⟨.danglingNumberSign, "`#` must be followed by an identifier or index", span⟩
    else do
      let rest ← substituteVars fx m rule rest
      pure (.punct ch joint rest)
  | .ident name _ rest => do
    let rest ← substituteVars fx m rule rest
    pure (.ident name rest)
  | .literal text _ rest => do
    let rest ← substituteVars fx m rule rest
    pure (.literal text rest)

/-- constructor.rs:171-191 `rewrite_provided_constructor`. -/
def rewriteProvided (fx : Foreign) (index : Nat) (rule : List ANode) (block : LBlock S) : Outcome (Diag S) Ctor :=
  if block.delim ≠ .brace then
    .err ⟨.constructorDelimiter, "Constructor must be delimited by \"{}\"", block.span⟩
  else do
    let body ← substituteVars fx (SubstMap.build rule) rule block.body
    pure (.provided index body)

/-- constructor.rs:193-208 `build_constructor` with :19-34 `generate_default_constructor`. -/
def buildConstructor (sp : Spans S) (fx : Foreign) (rules : List (LRule S)) (index : Nat) : Outcome (Diag S) Ctor := do
  let rule ← Outcome.index rules index
  match rule.block with
  | some block => rewriteProvided fx index (rule.rule.map (·.1)) block
  | none =>
    if rule.returnType.isSome then
      if rule.rule.length ≠ 1 then
        .err ⟨.constructorMissing, "Must provide a constructor for rules with more than 1 node", ruleSpan sp rule.rule⟩
      else pure (.tryInto index)
    else pure .unit

/-- Errors at `Span::call_site()`: of terminals (terminal.rs:86-94) and of `build_lr_state_map` (parse_grammar.rs:166-169). -/
def generalError (sp : Spans S) (fx : Foreign) (kind : MacroError) : Diag S :=
  ⟨kind,
    match kind with
    | .table e => String.ofList (ErrorText.tableMessage e)
    | .patternForLiteral => "Cannot cast UserDefinedSymbol with pattern to literal"
    | _ => fx.lexError,
    sp.callSite⟩

/-- reduce_rule.rs:149-196 `apply_goto`. -/
def applyGoto (sp : Spans S) (fx : Foreign) (o : HashOrder) (gi : GrammarInfo) (rules : List (LRule S)) (site : List Nat)
    (ruleIndex : Nat) (label : Nat) (states : List Nat) : Outcome (Diag S) (Ctor × GotoCode) := do
  let map ← (gotoMap gi label (o.ord (2 :: site) states) []).mapErr (generalError sp fx)
  let ctor ← buildConstructor sp fx rules ruleIndex
  match map with
  | [(next, _)] => pure (ctor, .direct next)
  | map => pure (ctor, .select (o.ord (3 :: site) map))

/-- state_action_builder.rs:176-217 `reduce_match_and_return`. -/
def reduceArms (sp : Spans S) (fx : Foreign) (o : HashOrder) (lex : Lexer) (gi : GrammarInfo) (rules : List (LRule S))
    (smap : StateMap Sym) (state : Nat) : List (Nat × List (AugTok Sym)) → Outcome (Diag S) (List ReduceArm)
  | [] => pure []
  | (ruleId, tokens) :: rest => do
    let matchers ← (tokenMatchers lex gi.terminalType tokens).mapErr (generalError sp fx)
    let rule ← (gi.indexedGrammar.productionRule ruleId).mapErr (generalError sp fx)
    let (pops, states) ← (bindNodes o lex smap [4, state, ruleId] (indexedNodesRev rule.nodes) [state]).mapErr
      (generalError sp fx)
    let (ctor, goto) ← applyGoto sp fx o gi rules [state, ruleId] rule.originalIndex rule.symbol states
    let arms ← reduceArms sp fx o lex gi rules smap state rest
    pure (⟨matchers, pops, ctor, goto⟩ :: arms)

/-- state_action_builder.rs:221-250 `accept_match_and_return`. -/
def acceptArm (sp : Spans S) (fx : Foreign) (o : HashOrder) (lex : Lexer) (gi : GrammarInfo) (rules : List (LRule S))
    (smap : StateMap Sym) (state : Nat) : Option (AugTok Sym) → Outcome (Diag S) (Option AcceptArm)
  | none => pure none
  | some token => do
    let matcher ← (tokenMatcher lex gi.terminalType token).mapErr (generalError sp fx)
    let rule ← (gi.indexedGrammar.productionRule IndexedGrammar.rootRule).mapErr (generalError sp fx)
    let (pops, states) ← (bindNodes o lex smap [5, state] (indexedNodesRev rule.nodes) [state]).mapErr (generalError sp fx)
    Outcome.assert (o.ord [6, state] states == [LRTable.rootState])
    let ctor ← buildConstructor sp fx rules 0
    pure (some ⟨matcher, pops, ctor⟩)

/-- state_action_builder.rs:317-351 `generate_state_action_function` with :254-314 `generate_actions`. -/
def generateState (sp : Spans S) (fx : Foreign) (o : HashOrder) (lex : Lexer) (gi : GrammarInfo) (rules : List (LRule S))
    (smap : StateMap Sym) (state : Nat) : Outcome (Diag S) StateCode := do
  let actions ← (LikeActions.build gi state).mapErr (generalError sp fx)
  let overlap ← (actions.overlapCheck o lex gi state).mapErr (generalError sp fx)
  let reduces ← reduceArms sp fx o lex gi rules smap state (actions.reduces o state)
  let accept ← acceptArm sp fx o lex gi rules smap state actions.accept
  let shifts ← (LikeActions.shiftArms lex gi actions.shiftMap).mapErr (generalError sp fx)
  pure ⟨overlap, shifts, reduces, accept⟩

/-- code_gen.rs:28-32: code for each state; the first error is returned. -/
def generateStates (sp : Spans S) (fx : Foreign) (o : HashOrder) (lex : Lexer) (gi : GrammarInfo) (rules : List (LRule S))
    (smap : StateMap Sym) : List Nat → Outcome (Diag S) (List StateCode)
  | [] => pure []
  | state :: rest => do
    let code ← generateState sp fx o lex gi rules smap state
    let codes ← generateStates sp fx o lex gi rules smap rest
    pure (code :: codes)

/-- code_gen.rs:15-70 `generate_parser`. -/
def generateParser (sp : Spans S) (fx : Foreign) (o : HashOrder) (lex : Lexer) (gi : GrammarInfo) (rules : List (LRule S)) :
    Outcome (Diag S) Program := do
  let smap ← ((StateMap.build o gi.indexedGrammar gi.lrTable).mapErr MacroError.table).mapErr (generalError sp fx)
  let rootLabel ← (gi.indexedGrammar.origLabel IndexedGrammar.rootLabel).mapErr (generalError sp fx)
  let resultType ← (gi.labelType rootLabel).mapErr (generalError sp fx)
  let stateTypes ← (stateDataTypes gi smap gi.lrTable.states).mapErr (generalError sp fx)
  let states ← generateStates sp fx o lex gi rules smap gi.lrTable.states
  pure ⟨stateTypes, states, resultType⟩

/-- lib.rs:28-36 `build_grammar`. -/
def buildGrammar (sp : Spans S) (fx : Foreign) (o : HashOrder) (lex : Lexer) (tx : Text) (fuel : Nat) (tokens : LTokens S) :
    Outcome (Diag S) (GrammarInfo × Program) := do
  let (gi, rules) ← parseGrammar sp tx fuel (stream sp tx tokens)
  let program ← generateParser sp fx o lex gi rules
  pure (gi, program)

end Verif.Located
