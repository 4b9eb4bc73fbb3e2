import Verif.Model.Runtime

/-!
# Specification: types of generated code

Typing rules for the forms of code that the macro writes (`Program`), and what it means for values at run
time to have the declared types. Nothing here refers to tables or state maps.
-/

namespace Verif.Spec

/-- A type written in the grammar (`none` stands for `()`), or the type of the data of a variant of the token
type. -/
inductive Ty where
  | plain (ty : Option TokenStream)
  | data (variant : String)
deriving DecidableEq, Repr

/-- The type of tokens. -/
def tokenTy (gi : GrammarInfo) : Option TokenStream :=
  some (match gi.terminalType with | .raw ty => ty | .enum ty => ty)

/-- The type of the variable for a node: that of the label, or that of tokens, or for terminals written with
parentheses that of their data. There is no variable for epsilon. -/
inductive NodeTy (gi : GrammarInfo) : ANode → Ty → Prop
  | label {x : String} {ty : Option TokenStream} : gi.labelTypes.lookup x = some ty →
      NodeTy gi (.production x) (.plain ty)
  | token {x : String} : NodeTy gi (.symbol ⟨x, .none⟩) (.plain (tokenTy gi))
  | data {x : String} {p : ParenGroup} : p ≠ .none → NodeTy gi (.symbol ⟨x, p⟩) (.data x)

section
variable (gi : GrammarInfo) (types : List (Option TokenStream))

/-- The arm `States::S{s}(v) => v` or `States::S{s}(Token::Variant(v)) => v` gives a value of this type. -/
inductive ArmTy (s : Nat) : Option String → Ty → Prop
  | whole {ty : Option TokenStream} : types[s]? = some ty → ArmTy s none (.plain ty)
  | part {v : String} : types[s]? = some (tokenTy gi) → ArmTy s (some v) (.data v)

/-- `let mut __v{i} = match state.pop_state() { .. }`: there is an arm, no state has two, and all arms give
the type of node `i` of the rule. -/
structure PopTyped (r : ARule) (pop : PopStep) : Prop where
  nonempty : pop.states ≠ []
  nodup : pop.states.Nodup
  arms : ∃ n τ, r.rule[pop.node]? = some n ∧ NodeTy gi n τ ∧ ∀ s ∈ pop.states, ArmTy gi types s pop.variant τ

/-- The code of rule `k` up to its constructor: the variables of the nodes are bound, once each, in reverse
order, with the types of the nodes; what runs then is the constructor of the rule. -/
structure RuleTyped (k : Nat) (r : ARule) (pops : List PopStep) (ctor : Ctor) : Prop where
  rule : gi.productionRules[k]? = some r
  ctor : buildConstructor gi k = .ok ctor
  bound : ∀ i, (∃ pop ∈ pops, pop.node = i) ↔ ∃ n, r.rule[i]? = some n ∧ n ≠ .epsilon
  order : (pops.map PopStep.node).Pairwise (· > ·)
  pops : ∀ pop ∈ pops, PopTyped gi types r pop

/-- The end of a reduction: the constructed value, of type `ty`, becomes data of a state with this type; if
there is a `match` on the state below, its arms are disjoint and there are at least two. -/
def GotoTyped (ty : Option TokenStream) : GotoCode → Prop
  | .direct next => types[next]? = some ty
  | .select arms => 2 ≤ arms.length ∧ (arms.flatMap Prod.snd).Nodup ∧
      ∀ arm ∈ arms, arm.2 ≠ [] ∧ types[arm.1]? = some ty ∧ ∀ s ∈ arm.2, s < types.length

/-- A shift: the expression that is pushed rebuilds the token that the pattern has matched (it can use the
data only where the pattern binds it), and is data of a state whose type is that of tokens. -/
structure ShiftTyped (arm : ShiftArm) : Prop where
  next : types[arm.next]? = some (tokenTy gi)
  value : (∃ x, arm.matcher = .token (.lit x) ∧ arm.value = .lit x) ∨
    (∃ x, arm.matcher = .token (.unit x) ∧ arm.value = .unit x) ∨
    (∃ x, arm.matcher = .token (.any x) ∧ arm.value = .data x) ∨
    ∃ x text, arm.matcher = .token (.data x text) ∧ arm.value = .data x

end

/-- Typing of generated parsers. -/
structure ProgramTyped (gi : GrammarInfo) (prog : Program) : Prop where
  /-- one function for each state -/
  functions : prog.states.length = prog.stateTypes.length
  /-- the loop starts with `States::S0(())` -/
  root : prog.stateTypes[0]? = some none
  /-- parsers return values of the type of the first label -/
  result : ∃ r, gi.productionRules[0]? = some r ∧ gi.labelTypes.lookup r.name = some prog.resultType
  /-- labels have types, and rules for which `()` is returned belong to labels of this type -/
  labels : ∀ r ∈ gi.productionRules, ∃ ty, gi.labelTypes.lookup r.name = some ty ∧
    (ty = none ↔ r.returnType = none)
  shift : ∀ code ∈ prog.states, ∀ arm ∈ code.shifts, ShiftTyped gi prog.stateTypes arm
  reduce : ∀ code ∈ prog.states, ∀ arm ∈ code.reduces, ∃ k r ty,
    RuleTyped gi prog.stateTypes k r arm.pops arm.ctor ∧ gi.labelTypes.lookup r.name = some ty ∧
    GotoTyped prog.stateTypes ty arm.goto
  accept : ∀ code ∈ prog.states, ∀ arm, code.accept = some arm → ∃ r,
    RuleTyped gi prog.stateTypes 0 r arm.pops arm.ctor ∧ gi.labelTypes.lookup r.name = some prog.resultType

section
variable {P V E σ : Type} (gi : GrammarInfo) (has : Ty → Val P V → Prop)

/-- The variables that a constructor sees have the types of the nodes. -/
def EnvTyped (r : ARule) (env : Env P V) : Prop :=
  ∀ i n τ, r.rule[i]? = some n → NodeTy gi n τ → ∃ v, env i = some v ∧ has τ v

/-- `has` says which values have which types. User code is well typed: given variables of the declared types,
constructors that succeed return a value of the type of their rule's label. -/
structure TypedSem (sem : Sem P V E σ) : Prop where
  unit : has (.plain none) .unit
  data : ∀ x p, has (.plain (tokenTy gi)) (.tok (.data x p)) → has (.data x) (.payload p)
  body : ∀ k r ty out env w v w', gi.productionRules[k]? = some r → gi.labelTypes.lookup r.name = some ty →
    buildConstructor gi k = .ok (.provided k out) → EnvTyped gi has r env →
    sem.body k out env w = (.ok v, w') → has (.plain ty) v
  conv : ∀ k r ty n τ u w v w', gi.productionRules[k]? = some r → gi.labelTypes.lookup r.name = some ty →
    r.rule = [n] → NodeTy gi n τ → has τ u → sem.conv k u w = (.ok v, w') → has (.plain ty) v

/-- All data on a stack has the type of its state. -/
def StackTyped (types : List (Option TokenStream)) (stack : List (Nat × Val P V)) : Prop :=
  ∀ s v, (s, v) ∈ stack → ∃ ty, types[s]? = some ty ∧ has (.plain ty) v

end
end Verif.Spec
