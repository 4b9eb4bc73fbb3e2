import Verif.Model.Constructor

/-!
# Model of `parser_generator_impl/src/code_gen`

The generated Rust code is represented by a data structure (`Program`) with one constructor or field per
form of generated code; `Verif.Model.Runtime` runs it. Generating code is a function of the grammar, the
table and the iteration order of the hash maps involved.
-/

namespace Verif

/-- What `proc_macro2` accepts as a literal (`Literal::from_str`) and as an identifier (`Ident::new`, which
panics otherwise). -/
structure Lexer where
  isLiteral : String → Bool
  isIdent : String → Bool

/-- A pattern for a token: `'a'`, `Enum::Name`, `Enum::Name(..)`, `Enum::Name(pattern)`. -/
inductive Pat where
  | lit (text : String)
  | unit (variant : String)
  | any (variant : String)
  | data (variant : String) (text : String)
deriving DecidableEq, Repr

/-- The matching token as an expression: `'a'`, `Enum::Name`, `Enum::Name(wildcard_var.clone())`. -/
inductive TokExpr where
  | lit (text : String)
  | unit (variant : String)
  | data (variant : String)
deriving DecidableEq, Repr

/-- terminal.rs:85-94 `as_literal`. -/
def Sym.asLiteral (lex : Lexer) (s : Sym) : Outcome MacroError String :=
  if s.paren ≠ .none then Outcome.err .patternForLiteral
  else if lex.isLiteral s.name then pure s.name
  else Outcome.err .badLiteral

/-- terminal.rs:96-98 `as_ident`. -/
def Sym.asIdent (lex : Lexer) (s : Sym) : Outcome MacroError String := do
  Outcome.assert (lex.isIdent s.name)
  pure s.name

/-- parse_grammar.rs:83-95 `try_build_pattern` in the modes `Named` and `Unnamed`, which match the same
tokens (terminal.rs:100-126 `as_pattern`). A pattern was printed from tokens, so that reading it back
(`expect`, :110-111) succeeds. -/
def tryBuildPattern (lex : Lexer) (tt : TerminalType) (s : Sym) : Outcome MacroError Pat :=
  match tt with
  | .raw _ => do
    let text ← s.asLiteral lex
    pure (.lit text)
  | .enum _ => do
    let ident ← s.asIdent lex
    match s.paren with
    | .pattern text => pure (.data ident text)
    | .wildcard => pure (.any ident)
    | .none => pure (.unit ident)

/-- parse_grammar.rs:83-95 `try_build_pattern` in mode `Rhs`. -/
def tryBuildRhs (lex : Lexer) (tt : TerminalType) (s : Sym) : Outcome MacroError TokExpr :=
  match tt with
  | .raw _ => do
    let text ← s.asLiteral lex
    pure (.lit text)
  | .enum _ => do
    let ident ← s.asIdent lex
    match s.paren with
    | .pattern _ => pure (.data ident)
    | .wildcard => pure (.data ident)
    | .none => pure (.unit ident)

/-- A pattern for the lookahead: `Some(..)` or `None`. -/
inductive Matcher where
  | token (p : Pat)
  | eos
deriving DecidableEq, Repr

/-- state_action_builder.rs:42-54 `token_matcher` (parse_grammar.rs:97-108 `try_build_matcher`). -/
def tokenMatcher (lex : Lexer) (tt : TerminalType) (tok : AugTok Sym) : Outcome MacroError Matcher :=
  match tok with
  | .token s => do
    let p ← tryBuildPattern lex tt s
    pure (.token p)
  | .eos => pure .eos
  | .epsilon => Outcome.panic

/-- Matchers for a list of tokens; the first error is returned. -/
def tokenMatchers (lex : Lexer) (tt : TerminalType) : List (AugTok Sym) → Outcome MacroError (List Matcher)
  | [] => pure []
  | tok :: rest => do
    let m ← tokenMatcher lex tt tok
    let ms ← tokenMatchers lex tt rest
    pure (m :: ms)

/-- One `let mut __v{node} = match state.pop_state() { .. }` (reduce_rule.rs:34-83): the states with an arm,
and the enum variant taken apart in each arm, if any. -/
structure PopStep where
  node : Nat
  variant : Option String
  states : List Nat
deriving DecidableEq, Repr

/-- The end of a reduction (reduce_rule.rs:168-195): the next state, or a `match` on the top state. -/
inductive GotoCode where
  | direct (next : Nat)
  | select (arms : List (Nat × List Nat))
deriving DecidableEq, Repr

/-- A match arm that shifts (state_action_builder.rs:164-166). -/
structure ShiftArm where
  matcher : Matcher
  next : Nat
  value : TokExpr
deriving DecidableEq, Repr

/-- A match arm that reduces (state_action_builder.rs:208-214). -/
structure ReduceArm where
  matchers : List Matcher
  pops : List PopStep
  ctor : Ctor
  goto : GotoCode
deriving DecidableEq, Repr

/-- The match arm that accepts (state_action_builder.rs:243-249). -/
structure AcceptArm where
  matcher : Matcher
  pops : List PopStep
  ctor : Ctor
deriving DecidableEq, Repr

/-- The body of `parse_s{n}` (state_action_builder.rs:283-313); `overlap` lists the matchers of the debug
check (no check if empty). -/
structure StateCode where
  overlap : List Matcher
  shifts : List ShiftArm
  reduces : List ReduceArm
  accept : Option AcceptArm
deriving DecidableEq, Repr

/-- The generated parser: the type of each state's data (states_enum.rs), the body of each state's function,
and the result type. -/
structure Program where
  stateTypes : List (Option TokenStream)
  states : List StateCode
  resultType : Option TokenStream
deriving DecidableEq, Repr

/-- state_action_builder.rs:57-61 `CollectLikeActions`. -/
structure LikeActions where
  reduceMap : List (Nat × List (AugTok Sym))
  shiftMap : List (AugTok Sym × Nat)
  accept : Option (AugTok Sym)
deriving DecidableEq, Repr

/-- `map.entry(key).or_default().push(value)`. -/
def pushEntry {α : Type} (key : Nat) (value : α) : List (Nat × List α) → List (Nat × List α)
  | [] => [(key, [value])]
  | (k, vs) :: rest => if k = key then (k, vs ++ [value]) :: rest else (k, vs) :: pushEntry key value rest

namespace LikeActions

/-- state_action_builder.rs:74-86: the loop of `build_for_state`. -/
def collect : List (AugTok Sym × Action) → LikeActions → Outcome MacroError LikeActions
  | [], a => pure a
  | (token, .shift next) :: rest, a => collect rest { a with shiftMap := a.shiftMap ++ [(token, next)] }
  | (token, .reduce rule) :: rest, a => collect rest { a with reduceMap := pushEntry rule token a.reduceMap }
  | (token, .accept) :: rest, a => do
    Outcome.assert a.accept.isNone
    collect rest { a with accept := some token }

/-- state_action_builder.rs:71-89 `build_for_state`. -/
def build (gi : GrammarInfo) (state : Nat) : Outcome MacroError LikeActions := do
  let actions ← gi.lrTable.stateActions gi.indexedGrammar state
  collect actions ⟨[], [], none⟩

/-- `reduce_map` in the order of iteration. -/
def reduces (o : HashOrder) (state : Nat) (a : LikeActions) : List (Nat × List (AugTok Sym)) :=
  o.ord [1, state] a.reduceMap

/-- state_action_builder.rs:92-99 `all_lookahead_tokens`. -/
def allLookahead (o : HashOrder) (state : Nat) (a : LikeActions) : List (AugTok Sym) :=
  (a.reduces o state).flatMap Prod.snd ++ a.shiftMap.map Prod.fst ++ a.accept.toList

/-- state_action_builder.rs:106-146 `debug_check_token_conflict`. -/
def overlapCheck (o : HashOrder) (lex : Lexer) (gi : GrammarInfo) (state : Nat) (a : LikeActions) :
    Outcome MacroError (List Matcher) :=
  match gi.terminalType with
  | .raw _ => pure []
  | .enum _ =>
    tokenMatchers lex gi.terminalType ((a.allLookahead o state).filter fun t => t.token?.isSome)

/-- state_action_builder.rs:151-169 `shift_match_and_yield`. -/
def shiftArms (lex : Lexer) (gi : GrammarInfo) : List (AugTok Sym × Nat) → Outcome MacroError (List ShiftArm)
  | [] => pure []
  | (token, next) :: rest => do
    let m ← tokenMatcher lex gi.terminalType token
    let sym ← Outcome.unwrap token.token?
    let value ← tryBuildRhs lex gi.terminalType sym
    let arms ← shiftArms lex gi rest
    pure (⟨m, next, value⟩ :: arms)

end LikeActions

/-- reduce_rule.rs:43-51: the enum variant whose data is extracted. -/
def extractVariant (lex : Lexer) : StateType Sym → Outcome MacroError (Option String)
  | .terminal (.token s) =>
    if s.isPattern || s.isWildcard then do
      let ident ← s.asIdent lex
      pure (some ident)
    else pure none
  | _ => pure none

/-- `HashSet::insert`. -/
def setInsert (x : Nat) (s : List Nat) : List Nat := if x ∈ s then s else s ++ [x]

/-- reduce_rule.rs:121-126: the union of the predecessors of the given states. -/
def unionBackEdges (smap : StateMap Sym) : List Nat → List Nat → Outcome MacroError (List Nat)
  | [], acc => pure acc
  | state :: rest, acc => do
    let prev ← smap.backEdges state
    unionBackEdges smap rest (prev.foldl (fun acc x => setInsert x acc) acc)

/-- reduce_rule.rs:91-130 `bind_production_nodes_to_locals`; the nodes come with their indices, last node
first, and `states` is the set of states that may be on top of the stack. -/
def bindNodes (o : HashOrder) (lex : Lexer) (smap : StateMap Sym) (site : List Nat) :
    List (Nat × INode) → List Nat → Outcome MacroError (List PopStep × List Nat)
  | [], states => pure ([], states)
  | (index, node) :: rest, states =>
    if node.isEpsilon then bindNodes o lex smap site rest states
    else do
      let order := o.ord (site ++ [index]) states
      let representative ← Outcome.unwrap order.head?
      let stateType ← smap.stateType representative
      let variant ← extractVariant lex stateType
      let prev ← unionBackEdges smap order []
      let (pops, final) ← bindNodes o lex smap site rest prev
      pure (⟨index, variant, order⟩ :: pops, final)

/-- The nodes of a rule with their indices, last node first. -/
def indexedNodesRev (nodes : List INode) : List (Nat × INode) :=
  (nodes.zipIdx.map fun (n, i) => (i, n)).reverse

/-- reduce_rule.rs:157-163: the possible top states grouped by the state to go to. -/
def gotoMap (gi : GrammarInfo) (label : Nat) : List Nat → List (Nat × List Nat) →
    Outcome MacroError (List (Nat × List Nat))
  | [], m => pure m
  | state :: rest, m => do
    let goto ← Outcome.unwrap (← gi.lrTable.getGoto state label)
    gotoMap gi label rest (pushEntry goto state m)

/-- reduce_rule.rs:149-196 `apply_goto`. -/
def applyGoto (o : HashOrder) (gi : GrammarInfo) (site : List Nat) (ruleIndex : Nat) (label : Nat)
    (states : List Nat) : Outcome MacroError (Ctor × GotoCode) := do
  let map ← gotoMap gi label (o.ord (2 :: site) states) []
  let ctor ← buildConstructor gi ruleIndex
  match map with
  | [(next, _)] => pure (ctor, .direct next)
  | map => pure (ctor, .select (o.ord (3 :: site) map))

/-- state_action_builder.rs:176-217 `reduce_match_and_return`. -/
def reduceArms (o : HashOrder) (lex : Lexer) (gi : GrammarInfo) (smap : StateMap Sym) (state : Nat) :
    List (Nat × List (AugTok Sym)) → Outcome MacroError (List ReduceArm)
  | [] => pure []
  | (ruleId, tokens) :: rest => do
    let matchers ← tokenMatchers lex gi.terminalType tokens
    let rule ← gi.indexedGrammar.productionRule ruleId
    let (pops, states) ← bindNodes o lex smap [4, state, ruleId] (indexedNodesRev rule.nodes) [state]
    let (ctor, goto) ← applyGoto o gi [state, ruleId] rule.originalIndex rule.symbol states
    let arms ← reduceArms o lex gi smap state rest
    pure (⟨matchers, pops, ctor, goto⟩ :: arms)

/-- state_action_builder.rs:221-250 `accept_match_and_return`. -/
def acceptArm (o : HashOrder) (lex : Lexer) (gi : GrammarInfo) (smap : StateMap Sym) (state : Nat) :
    Option (AugTok Sym) → Outcome MacroError (Option AcceptArm)
  | none => pure none
  | some token => do
    let matcher ← tokenMatcher lex gi.terminalType token
    let rule ← gi.indexedGrammar.productionRule IndexedGrammar.rootRule
    let (pops, states) ← bindNodes o lex smap [5, state] (indexedNodesRev rule.nodes) [state]
    Outcome.assert (o.ord [6, state] states == [LRTable.rootState])
    let ctor ← buildConstructor gi 0
    pure (some ⟨matcher, pops, ctor⟩)

/-- state_action_builder.rs:317-351 `generate_state_action_function` with :254-314 `generate_actions`. -/
def generateState (o : HashOrder) (lex : Lexer) (gi : GrammarInfo) (smap : StateMap Sym) (state : Nat) :
    Outcome MacroError StateCode := do
  let actions ← LikeActions.build gi state
  let overlap ← actions.overlapCheck o lex gi state
  let reduces ← reduceArms o lex gi smap state (actions.reduces o state)
  let accept ← acceptArm o lex gi smap state actions.accept
  let shifts ← LikeActions.shiftArms lex gi actions.shiftMap
  pure ⟨overlap, shifts, reduces, accept⟩

/-- Code for each state; the first error is returned. -/
def generateStates (o : HashOrder) (lex : Lexer) (gi : GrammarInfo) (smap : StateMap Sym) :
    List Nat → Outcome MacroError (List StateCode)
  | [] => pure []
  | state :: rest => do
    let code ← generateState o lex gi smap state
    let codes ← generateStates o lex gi smap rest
    pure (code :: codes)

/-- states_enum.rs:35-48 `state_type`. -/
def stateDataType (gi : GrammarInfo) (smap : StateMap Sym) (state : Nat) :
    Outcome MacroError (Option TokenStream) := do
  match ← smap.stateType state with
  | .reduce label => do
    let label ← gi.indexedGrammar.origLabel label
    gi.labelType label
  | .terminal _ =>
    pure (some (match gi.terminalType with | .raw ty => ty | .enum ty => ty))
  | .root => pure none

/-- states_enum.rs:64-81 `generate_dfa_states`. -/
def stateDataTypes (gi : GrammarInfo) (smap : StateMap Sym) :
    List Nat → Outcome MacroError (List (Option TokenStream))
  | [] => pure []
  | state :: rest => do
    let ty ← stateDataType gi smap state
    let tys ← stateDataTypes gi smap rest
    pure (ty :: tys)

/-- code_gen.rs:15-70 `generate_parser`; parse_grammar.rs:166-169 `build_lr_state_map`;
state_action_builder.rs:28-36 `root_production_type`. -/
def generateParser (o : HashOrder) (lex : Lexer) (gi : GrammarInfo) : Outcome MacroError Program := do
  let smap ← (StateMap.build o gi.indexedGrammar gi.lrTable).mapErr MacroError.table
  let rootLabel ← gi.indexedGrammar.origLabel IndexedGrammar.rootLabel
  let resultType ← gi.labelType rootLabel
  let stateTypes ← stateDataTypes gi smap gi.lrTable.states
  let states ← generateStates o lex gi smap gi.lrTable.states
  pure ⟨stateTypes, states, resultType⟩

end Verif
