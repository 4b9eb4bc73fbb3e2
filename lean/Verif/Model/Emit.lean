import Verif.Model.Rust

/-!
# Model of the code that `parser_generator_impl/src/code_gen` writes

The Rust code that `quote!` produces for a `Program`: bodies of functions in the syntax of `Verif.Model.Rust`, the
rest as text with its binding structure. All identifiers of `quote!` and of `Ident::new(.., Span::call_site())` have
call site hygiene, i.e. they can see, and be seen by, identifiers of the user.
-/

namespace Verif

namespace Emit
open Rust

/-- util.rs:9-11 `unique_prefixed_ident`. -/
def prefixed (name : String) : String := "__parser_generator_" ++ name

/-- states_enum.rs:14-20 `enum_name`. -/
def enumName (gi : GrammarInfo) : String := gi.name ++ "DfaStates"

/-- states_enum.rs:22-24 `enum_variant_name`. -/
def variantName (state : Nat) : String := "S" ++ Nat.repr state

/-- state_action_builder.rs:38-40 `state_action_function_name`. -/
def functionName (state : Nat) : String := "parse_s" ++ Nat.repr state

/-- state_action_builder.rs:64-66 `peeked_val_ident`. -/
def peekedVal : String := "__peeked_val"

/-- terminal.rs:69-75 `wildcard_bound_ident`. -/
def wildcardVar : String := "wildcard_var"

section
variable (gi : GrammarInfo) (retok : String → TokenStream)

/-- states_enum.rs:26-33 `qualified_enum_variant_name`. -/
def stateName (state : Nat) : Con := .state (enumName gi) (variantName state)

/-- states_enum.rs:59-62 `enum_matcher`. -/
def stateMatcher (state : Nat) : RPat := .rest (stateName gi state)

/-- parse_grammar.rs:77-81 `inner_type`. -/
def tokenType : TokenStream := match gi.terminalType with | .raw ty => ty | .enum ty => ty

/-- parse_grammar.rs:116-125: tokens of `ErrorType`. -/
def errorType : Code :=
  match gi.errorType with
  | some ty => .type ty
  | none => .text rs!"::parser_generator::error::NoUserErrorType"

/-- state_action_builder.rs:28-36, states_enum.rs:52-55: a type, or `()`. -/
def typeOrUnit : Option TokenStream → Code
  | some ty => .type ty
  | none => .text rs!"()"

/-- terminal.rs:100-126 `as_pattern` in the modes `Named` and `Unnamed`, parse_grammar.rs:97-108
`try_build_matcher`. -/
def pattern (named : Bool) : Pat → RPat
  | .lit text => .con .some (.ref (.atom (.lit text)))
  | .unit v => .con .some (.ref (.atom (.token (tokenType gi) v)))
  | .any v => .con .some
      (if named then .con (.token (tokenType gi) v) (.var wildcardVar) else .rest (.token (tokenType gi) v))
  | .data v text => .con .some (.ref (.con (.token (tokenType gi) v)
      (if named then .named wildcardVar (.user text) else .user text)))

/-- state_action_builder.rs:42-54 `token_matcher`. -/
def matcher (named : Bool) : Matcher → RPat
  | .token p => pattern gi named p
  | .eos => .atom .none

/-- Patterns joined with `|`. Lists are not empty (state_action_builder.rs:81); `_` stands for no pattern. -/
def anyOf : List RPat → RPat
  | [] => .wild
  | [p] => p
  | p :: ps => .or p (anyOf ps)

/-- terminal.rs:100-126 `as_pattern` in mode `Rhs`. -/
def tokenExpr : TokExpr → Expr
  | .lit text => .atom (.lit text)
  | .unit v => .atom (.token (tokenType gi) v)
  | .data v => .con (.token (tokenType gi) v) (.call0 .clone (.var wildcardVar))

/-- constructor.rs:28-33, :190, :204. -/
def constructor : Ctor → Expr
  | .provided rule body => .question (.closure rule body)
  | .tryInto rule => .block (.question (.convert rule (.var (boundVariable 0))))
  | .unit => .atom .unit

/-- The variable for the parser's state. -/
def state : Expr := .var (prefixed "state")

/-- `::std::hint::unreachable_unchecked` (reduce_rule.rs:64, :191). -/
def unreachableArm : Arms := .cons .wild .last .unreachable .nil

/-- reduce_rule.rs:42-59: an arm that takes the data out of a state. -/
def popArm (variant : Option String) (state : Nat) : RPat × Style × Expr :=
  (.con (stateName gi state)
    (match variant with
      | some v => .con (.token (tokenType gi) v) (.var "v")
      | none => .var "v"), .comma, .var "v")

/-- reduce_rule.rs:71-84 `bind_production_node` with :34-69 `extract_state`, for each node, followed by code
that sees the variables. -/
def pops (body : Expr) : List PopStep → Expr
  | [] => body
  | pop :: rest => .letIn true (boundVariable pop.node)
      (.cases (.call0 .popState state) (.ofList (pop.states.map (popArm gi pop.variant)) unreachableArm))
      (pops body rest)

/-- reduce_rule.rs:168-195: the end of `apply_goto`, followed by other code. -/
def gotoCode (ctor : Ctor) (rest : Expr) : GotoCode → Expr
  | .direct next => .seq (.push state (.con (stateName gi next) (constructor ctor))) rest
  | .select arms => .letIn false "__constructed" (constructor ctor)
      (.stmt (.cases (.call0 .state state) (.ofList (arms.map fun arm => (anyOf (arm.2.map (stateMatcher gi)), .comma,
        .push state (.con (stateName gi arm.1) (.var "__constructed")))) unreachableArm)) rest)

/-- state_action_builder.rs:164-166. -/
def shiftArm (arm : ShiftArm) : RPat × Style × Expr :=
  (matcher gi true arm.matcher, .comma, .con (stateName gi arm.next) (tokenExpr gi arm.value))

/-- state_action_builder.rs:188-215. -/
def reduceArm (arm : ReduceArm) : RPat × Style × Expr :=
  (anyOf (arm.matchers.map (matcher gi false)), .block, pops gi
    (gotoCode gi arm.ctor (.seq (.ret (.con .ok (.atom .continue))) .nothing) arm.goto) arm.pops)

/-- state_action_builder.rs:243-249. -/
def acceptArm (arm : AcceptArm) : RPat × Style × Expr :=
  (matcher gi false arm.matcher, .block, pops gi (.seq (.call0 .verifyEmptyStack state)
    (.seq (.ret (.con .ok (.con .accept (constructor arm.ctor)))) .nothing)) arm.pops)

/-- state_action_builder.rs:262-267. -/
def peekNext : Expr :=
  .question (.call0 .transpose (.map (.call0 .peekNext (.call0 .stream state)) "token" (.cases (.var "token")
    (.cons (.con .ok (.var "token")) .comma (.con .ok (.call0 .borrow (.var "token")))
    (.cons (.con .err (.var "err")) .comma (.con .err (.call0 .intoUserError (.call0 .clone (.var "err")))) .nil)))))

/-- Sums; of a list that is not empty. -/
def sum : List Expr → Expr
  | [] => .nothing
  | e :: es => es.foldl .add e

/-- state_action_builder.rs:121-145: the end of `debug_check_token_conflict`, followed by other code. -/
def overlapCheck (rest : Expr) : List Matcher → Expr
  | [] => rest
  | ms => .stmt (.debug (.letIn false "count_matches"
      (sum (ms.map fun m => .count (.var peekedVal) (matcher gi false m)))
      (.ifMany (.var "count_matches") (.seq (.ret (.con .err (.overlapping (.var peekedVal)))) .nothing)))) rest

/-- state_action_builder.rs:274-281 `return_err`. -/
def returnErr : Arms :=
  .cons (.con .some (.var "peeked_token")) .comma
    (.ret (.con .err (.parseError (.con .some (.call0 .clone (.var "peeked_token"))))))
  (.cons (.atom .none) .comma (.ret (.con .err (.parseError (.atom .none)))) .nil)

/-- state_action_builder.rs:254-314 `generate_actions`. -/
def actions (code : StateCode) : Expr :=
  let arms : Arms := .ofList (code.reduces.map (reduceArm gi)) (.ofList (code.accept.toList.map (acceptArm gi)) returnErr)
  .letIn false peekedVal peekNext (overlapCheck gi
    (match code.shifts with
      | [] => .cases (.var peekedVal) arms
      | shifts => .letIn false "next_state" (.cases (.var peekedVal) (.ofList (shifts.map (shiftArm gi)) arms))
          (.seq (.call0 .advance (.call0 .streamMut state)) (.seq (.push state (.var "next_state")) (.con .ok (.atom .continue)))))
    code.overlap)

/-- parse_loop.rs:13-45 `generate_parse_loop`. -/
def parseLoop (states : Nat) : Expr :=
  .letIn true "state" (.newState (.call0 .intoIter (.var (prefixed "input_stream"))) (.con (stateName gi LRTable.rootState) (.atom .unit)))
    (.loop (.letIn false "action" (.question (.cases (.call0 .state (.var "state")) (.ofList
        ((List.range states).map fun s => (stateMatcher gi s, .comma, .call (functionName s) (.var "state"))) .nil)))
      (.cases (.var "action")
        (.cons (.con .accept (.var "result")) .comma (.ret (.con .ok (.var "result")))
        (.cons (.atom .continue) .block .nothing .nil)))))

/-- state_action_builder.rs:317-351 `generate_state_action_function`. -/
def function (result : Option TokenStream) (p : StateCode × Nat) : Code :=
  cat [.text rs!"fn", .name (functionName p.2),
    .bind [(.type, "I"), (.type, "B"), (.type, "E")] (cat [
      .text rs!"<I, B: ::std::borrow::Borrow<", .type (tokenType gi),
      .text rs!">, E: ::parser_generator::error::ParserUserErrorOrInfallible<", .type (tokenType gi), .text rs!",",
      errorType gi, .text rs!"> +", .use .type "Clone", .text rs!">(", .name (prefixed "state"),
      .text rs!": &mut ::parser_generator::parser_state::ParserState<::core::result::Result<",
      .use .type "B", .text rs!",", .use .type "E", .text rs!">,", .use .type (enumName gi), .text rs!",",
      .use .type "I",
      .text rs!">) -> ::parser_generator::error::ParserResult<::parser_generator::parser_state::ParserControl<",
      typeOrUnit result, .text rs!">,", .type (tokenType gi), .text rs!",", errorType gi, .text rs!", > where",
      .use .type "I", .text rs!":", .use .type "Iterator", .text rs!"<Item = ::core::result::Result<", .use .type "B",
      .text rs!",", .use .type "E", .text rs!">>, {",
      .bind [(.value, prefixed "state")] ((actions gi p.1).code retok (errorType gi)), .text rs!"}"])]

/-- The names, parameters and bodies of the functions above, for all states (code_gen.rs:30-32). -/
def functions (prog : Program) : List (String × String × Expr) :=
  prog.states.zipIdx.map fun p => (functionName p.2, prefixed "state", actions gi p.1)

/-- states_enum.rs:64-81 `generate_dfa_states` with :50-57 `generate_enum_variant`. -/
def statesEnum (types : List (Option TokenStream)) : Code :=
  cat [.text rs!"enum", .name (enumName gi), .text rs!"{",
    cat (types.zipIdx.map fun p => cat [.name (variantName p.2), .text rs!"(", typeOrUnit p.1, .text rs!"),"]),
    .text rs!"}"]

/-- The items in the body of `parse_fallible`: the enum and the functions (states_enum.rs:76-80,
state_action_builder.rs:331). They are in scope in the whole body. -/
def items (states : Nat) : List (Ns × String) :=
  (.type, enumName gi) :: (List.range states).map fun s => (.value, functionName s)

/-- code_gen.rs:15-70 `generate_parser`; `isPub` says whether `pub_grammar!` was used. -/
def parser (isPub : Bool) (prog : Program) : Code :=
  cat [.text (if isPub then rs!"pub struct" else rs!"struct"), .name gi.name, .text rs!";",
    .bind [(.type, gi.name), (.value, gi.name)] (cat [
      .text rs!"impl", .use .type gi.name, .text rs!"{ pub const TABLE_SIZE:", .use .type "usize",
      .text (rs!"=" ++ .lit (Nat.repr gi.lrTable.numStates ++ "usize") ::
        rs!"; } impl ::parser_generator::parser::Parser for"),
      .use .type gi.name,
      .text rs!"{ type Token =", .type (tokenType gi), .text rs!"; type Value =", typeOrUnit prog.resultType,
      .text rs!"; type Error =", errorType gi, .text rs!"; fn parse_fallible",
      .bind [(.type, prefixed "I"), (.type, prefixed "B"), (.type, prefixed "E")] (cat [
        .text rs!"<", .name (prefixed "I"), .text rs!",", .name (prefixed "B"), .text rs!",", .name (prefixed "E"),
        .text rs!">(", .name (prefixed "input_stream"), .text rs!":", .use .type (prefixed "I"),
        .text rs!") -> ::parser_generator::error::ParserResult<Self::Value, Self::Token, Self::Error> where",
        .use .type (prefixed "I"), .text rs!":", .use .type "IntoIterator",
        .text rs!"<Item = ::core::result::Result<", .use .type (prefixed "B"), .text rs!",",
        .use .type (prefixed "E"),
        .text rs!">>,", .use .type (prefixed "B"), .text rs!": ::std::borrow::Borrow<", .type (tokenType gi),
        .text rs!">,", .use .type (prefixed "E"),
        .text rs!": ::parser_generator::error::ParserUserErrorOrInfallible<Self::Token, Self::Error> +",
        .use .type "Clone", .text rs!", {",
        .bind (items gi prog.states.length) (cat [statesEnum gi prog.stateTypes,
          cat (prog.states.zipIdx.map (function gi retok prog.resultType)),
          -- items of a block do not see the variables of the function around them
          .bind [(.value, prefixed "input_stream")] ((parseLoop gi prog.states.length).code retok (errorType gi))]),
        .text rs!"}"]), .text rs!"}"])]

end
end Emit
end Verif
