import Verif.Model.Annotated

/-!
# Model of `parser_generator_impl/src/code_gen/constructor.rs`
-/

namespace Verif

/-- reduce_rule.rs:26-29 `bound_variable_ident`. -/
def boundVariable (nodeIndex : Nat) : String := "__v" ++ toString nodeIndex

/-- The code produced for a constructor:

* `provided`: the closure around the rewritten body (constructor.rs:184-190),
* `tryInto`: `__v0.try_into()` with errors converted (:28-33),
* `unit`: `()` (:204).

The rule is not part of the generated code; it stands for the types that Rust infers from the context, on
which the meaning of the code depends (`Default::default()`, `#0.into()`). -/
inductive Ctor where
  | provided (rule : Nat) (body : TokenStream)
  | tryInto (rule : Nat)
  | unit
deriving DecidableEq, Repr

/-- constructor.rs:36-39 `SubstitutionMap`. `DUPLICATE_SYMBOL` (`usize::MAX`, :42) is `none`. -/
structure SubstMap where
  labelMap : List (String × Option Nat)
  numNodes : Nat
deriving DecidableEq, Repr

namespace SubstMap

/-- Replaces the value of a key that is present. -/
def setValue (name : String) (v : Option Nat) : List (String × Option Nat) → List (String × Option Nat)
  | [] => []
  | (k, x) :: rest => if k = name then (k, v) :: rest else (k, x) :: setValue name v rest

/-- constructor.rs:47-61: the loop of `build`. -/
def buildLoop : Nat → List ANode → List (String × Option Nat) → List (String × Option Nat)
  | _, [], m => m
  | idx, .production name :: rest, m =>
    match m.lookup name with
    | some _ => buildLoop (idx + 1) rest (setValue name none m)
    | none => buildLoop (idx + 1) rest (m ++ [(name, some idx)])
  | idx, _ :: rest, m => buildLoop (idx + 1) rest m

/-- constructor.rs:44-67 `build`. -/
def build (rule : List ANode) : SubstMap := ⟨buildLoop 0 rule [], rule.length⟩

/-- constructor.rs:69-90 `lookup_label`. -/
def lookupLabel (m : SubstMap) (label : String) : Outcome MacroError Nat :=
  match m.labelMap.lookup label with
  | none => Outcome.err .unknownLabel
  | some none => Outcome.err .ambiguousLabel
  | some (some index) => pure index

/-- The value of a list of decimal digits. -/
def digits : Nat → List Char → Option Nat
  | n, [] => some n
  | n, c :: cs => if c.isDigit then digits (10 * n + (c.toNat - '0'.toNat)) cs else none

/-- `str::parse::<usize>`: an optional `+` and decimal digits, below 2^64. -/
def parseUsize (text : String) : Option Nat :=
  let cs := match text.toList with
    | '+' :: cs => cs
    | cs => cs
  match cs with
  | [] => none
  | cs =>
    match digits 0 cs with
    | some n => if n < 2 ^ 64 then some n else none
    | none => none

/-- constructor.rs:92-118 `literal_to_index`. -/
def literalToIndex (m : SubstMap) (literal : String) (rule : List ANode) : Outcome MacroError Nat :=
  match parseUsize literal with
  | none => Outcome.err .badIndex
  | some index =>
    if m.numNodes ≤ index then Outcome.err .indexOutOfRange
    else do
      let node ← Outcome.index rule index
      if node.isEpsilon then Outcome.err .indexOfEpsilon else pure index

/-- constructor.rs:140-168 `substitute_vars` with :120-138 `substitute_at`. -/
def substituteVars (m : SubstMap) (rule : List ANode) : TokenStream → Outcome MacroError TokenStream
  | .nil => pure .nil
  | .group d inner rest => do
    let inner ← substituteVars m rule inner
    let rest ← substituteVars m rule rest
    pure (.group d inner rest)
  | .punct ch joint rest =>
    if joint = false ∧ ch = '#' then
      match rest with
      | .ident name rest => do
        let index ← m.lookupLabel name
        let rest ← substituteVars m rule rest
        pure (.ident (boundVariable index) rest)
      | .literal text rest => do
        let index ← m.literalToIndex text rule
        let rest ← substituteVars m rule rest
        pure (.ident (boundVariable index) rest)
      | _ => Outcome.err .danglingNumberSign
    else do
      let rest ← substituteVars m rule rest
      pure (.punct ch joint rest)
  | .ident name rest => do
    let rest ← substituteVars m rule rest
    pure (.ident name rest)
  | .literal text rest => do
    let rest ← substituteVars m rule rest
    pure (.literal text rest)

end SubstMap

/-- constructor.rs:171-191 `rewrite_provided_constructor`. -/
def rewriteProvided (index : Nat) (rule : List ANode) (delim : Delim) (body : TokenStream) : Outcome MacroError Ctor :=
  if delim ≠ .brace then Outcome.err .constructorDelimiter
  else do
    let body ← (SubstMap.build rule).substituteVars rule body
    pure (.provided index body)

/-- constructor.rs:193-208 `build_constructor` with :19-34 `generate_default_constructor`. -/
def buildConstructor (gi : GrammarInfo) (index : Nat) : Outcome MacroError Ctor := do
  let rule ← gi.productionRule index
  match rule.block with
  | some (delim, body) => rewriteProvided index rule.rule delim body
  | none =>
    if rule.returnType.isSome then
      if rule.rule.length ≠ 1 then Outcome.err .constructorMissing else pure (.tryInto index)
    else pure .unit

end Verif
