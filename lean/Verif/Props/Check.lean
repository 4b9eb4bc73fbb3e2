import Verif.Proof.Check
import Verif.Props.Patterns

/-!
# C63: generated code passes the checks of a compiler
-/

set_option linter.unusedSectionVars false
set_option autoImplicit false

namespace Verif
open Spec Rust RustSyntax CodeGen Emit

section
variable {lex : Lexer} {o : HashOrder} {tx : Text} {t : TokenStream} {fuel : Nat} {gi : GrammarInfo} {prog : Program}
  {u : UserDecls}

/-- The pattern for a terminal is one for the type of tokens. -/
theorem matcherFits {tok : AugTok Sym} (hu : UserFits gi u) (ht : Matchable gi tok) {m : Matcher}
    (h : tokenMatcher lex gi.terminalType tok = .ok m) : MatcherFits gi u m := by
  rcases ht with rfl | ⟨⟨x, p⟩, rfl, r, hr, hs⟩
  · cases h
    exact .eos
  · simp only [tokenMatcher, Outcome.bind_eq_ok] at h
    obtain ⟨pat, hp, h⟩ := h
    cases h
    unfold tryBuildPattern at hp
    split at hp
    · rename_i ty hty
      rw [Outcome.bind_eq_ok] at hp
      obtain ⟨text, hl, hp⟩ := hp
      cases hp
      unfold Sym.asLiteral at hl
      split at hl
      · cases hl
      · split at hl
        · cases hl
          exact .lit (hu.literal r hr x p hs ty hty)
        · cases hl
    · rename_i ty hty
      rw [Outcome.bind_eq_ok] at hp
      obtain ⟨text, hl, hp⟩ := hp
      unfold Sym.asIdent at hl
      rw [Outcome.bind_eq_ok] at hl
      obtain ⟨-, -, hl⟩ := hl
      cases hl
      cases p with
      | pattern text =>
        cases hp
        exact .data (hu.data r hr x _ hs (by simp)) (hu.pattern r hr x text hs)
      | wildcard =>
        cases hp
        exact .any (hu.data r hr x _ hs (by simp))
      | none =>
        cases hp
        exact .unit (hu.unit r hr x hs ty hty)

end

namespace C63
section
variable {lex : Lexer} {o : HashOrder} {tx : Text} {t : TokenStream} {fuel : Nat} {gi : GrammarInfo} {prog : Program}
  {u : UserDecls}

/-- **C63.** What the macro returns for an accepted grammar file passes the checks of types, moves, borrows and
exhaustive matches, with debug assertions and without, if user code is as the grammar file says. Two things are left to
C40 and C55: rules with a type and without constructor for nothing, and names that are keywords. -/
theorem checks (hj : JointOk t) (hb : buildGrammar o lex tx fuel t = .ok (gi, prog)) (hn : C51.NoDefaultForEpsilon gi)
    (hname : gi.name ∉ reserved) (hu : UserFits gi u) (retok : String → TokenStream) (isPub debug : Bool) :
    ∃ it, Reads (Emit.parser gi retok isPub prog).tokens it ∧ it.checks u debug = true := by
  have ht := C50.macro_typed hj hb
  obtain ⟨gi', hpar, hb⟩ := Outcome.bind_eq_ok.mp hb
  obtain ⟨prog', hgen, hb⟩ := Outcome.bind_eq_ok.mp hb
  cases hb
  obtain ⟨ss, f, -, -, -, -, hg, -⟩ := C37.accepted_is_file hj hpar
  have hc := C40.default_bound hg hgen hn
  obtain ⟨F, kt, -, hin, -⟩ := genIn_of hj hpar
  refine ⟨_, read_parser hname (sound_of_generateParser hgen), checks_emitted hu ht.functions ht.root fun code hcode => ?_⟩
  have hlabel : ∀ (k : Nat) (r : ARule) ty, gi.productionRules[k]? = some r → gi.labelTypes.lookup r.name = some ty →
      (ty = none ↔ r.returnType = none) := fun k r ty hr hty => by
    obtain ⟨ty', h1, h2⟩ := ht.labels r (List.mem_of_getElem? hr)
    rw [hty] at h1
    cases h1
    exact h2
  refine ⟨fun m hm => ?_, ht.shift code hcode, fun arm harm => ?_, fun arm harm => ?_⟩
  · obtain ⟨tok, h1, h2⟩ := matchers_from hin hgen hcode hm
    exact matcherFits hu h1 h2
  · obtain ⟨k, r, ty, h1, h2, h3⟩ := ht.reduce code hcode arm harm
    exact ⟨k, r, ty, h1, h2, hlabel k r ty h1.rule h2, hc.reduce code hcode arm harm, h3⟩
  · obtain ⟨r, h1, h2⟩ := ht.accept code hcode arm harm
    exact ⟨r, h1, h2, hlabel 0 r _ h1.rule h2, hc.accept code hcode arm harm⟩

/-! ### User code that fits -/

/-- The type of a node, as code. -/
def nodeCode (gi : GrammarInfo) : ANode → Option CTy
  | .production x => (gi.labelTypes.lookup x).map fun ty => (Ty.plain ty).code
  | .symbol ⟨_, .none⟩ => some (Ty.plain (tokenTy gi)).code
  | .symbol ⟨x, _⟩ => some (.data x)
  | .epsilon => none

/-- User code that accepts no more than it must: constructors have a type only if every variable has the type of its
node, and conversions exist only from the type of the node. -/
def strict (gi : GrammarInfo) : UserDecls where
  unitVariant x := gi.productionRules.any fun r => .symbol ⟨x, .none⟩ ∈ r.rule
  dataVariant x := gi.productionRules.any fun r => r.rule.any fun
    | .symbol ⟨y, p⟩ => x = y && p ≠ .none
    | _ => false
  literal x := gi.productionRules.any fun r => r.rule.any fun
    | .symbol ⟨y, _⟩ => x = y
    | _ => false
  pattern x text := gi.productionRules.any fun r => .symbol ⟨x, .pattern text⟩ ∈ r.rule
  body k _ env := do
    let r ← gi.productionRules[k]?
    let ty ← gi.labelTypes.lookup r.name
    if r.rule.zipIdx.all fun p => nodeCode gi p.1 = none ∨ env p.2 = nodeCode gi p.1 then some (Ty.plain ty).code else none
  conv k t := do
    let r ← gi.productionRules[k]?
    let ty ← gi.labelTypes.lookup r.name
    if r.rule.map (nodeCode gi) = [some t] then some (Ty.plain ty).code else none

theorem nodeCode_eq {n : ANode} {τ : Ty} (h : NodeTy gi n τ) : nodeCode gi n = some τ.code := by
  cases h with
  | label h => simp [nodeCode, h]
  | token => rfl
  | @data x p h => cases p <;> first | rfl | exact absurd rfl h

theorem nodeTy_of {n : ANode} (h : nodeCode gi n ≠ none) : ∃ τ, NodeTy gi n τ := by
  match n with
  | .production x =>
    cases hx : gi.labelTypes.lookup x with
    | none => simp [nodeCode, hx] at h
    | some ty => exact ⟨_, .label hx⟩
  | .symbol ⟨x, .none⟩ => exact ⟨_, .token⟩
  | .symbol ⟨x, .wildcard⟩ => exact ⟨_, .data (by simp)⟩
  | .symbol ⟨x, .pattern _⟩ => exact ⟨_, .data (by simp)⟩
  | .epsilon => exact absurd rfl h

/-- There is such user code for every grammar. -/
theorem strict_fits (gi : GrammarInfo) : UserFits gi (strict gi) where
  literal r hr x p hs _ _ := List.any_eq_true.mpr ⟨r, hr, List.any_eq_true.mpr ⟨_, hs, by simp⟩⟩
  unit r hr x hs _ _ := List.any_eq_true.mpr ⟨r, hr, by simpa using hs⟩
  data r hr x p hs hp := List.any_eq_true.mpr ⟨r, hr, List.any_eq_true.mpr ⟨_, hs, by simp [hp]⟩⟩
  pattern r hr x text hs := List.any_eq_true.mpr ⟨r, hr, by simpa using hs⟩
  body k r ty out env hr hty _ henv := by
    simp only [strict, hr, hty, bind, Option.bind]
    rw [if_pos]
    rw [List.all_eq_true]
    rintro ⟨n, i⟩ hn
    rw [List.mk_mem_zipIdx_iff_getElem?] at hn
    simp only [decide_eq_true_eq]
    by_cases h : nodeCode gi n = none
    · exact .inl h
    · obtain ⟨τ, hτ⟩ := nodeTy_of h
      exact .inr (by rw [henv i n τ hn hτ, nodeCode_eq hτ])
  conv k r ty n τ hr hty _ hrule hτ := by
    simp only [strict, hr, hty, bind, Option.bind]
    rw [if_pos (by simp [hrule, nodeCode_eq hτ])]

end

/-! ### Cases -/

open GrammarSample in
/-- The hypotheses are met by the sample, with user code that accepts no more than it must. -/
example : ∃ gi prog, buildGrammar .id lexer tx 1000 tokens = .ok (gi, prog) ∧ JointOk tokens ∧
    C51.NoDefaultForEpsilon gi ∧ gi.name ∉ reserved ∧ UserFits gi (strict gi) := by
  have hk : (match buildGrammar .id lexer tx 1000 tokens with
      | .ok x => decide (x.1.name ∉ reserved) && x.1.productionRules.all fun r =>
          decide (r.rule = [.epsilon] → r.block = none → r.returnType = none)
      | _ => false) = true := by decide +kernel
  cases h : buildGrammar .id lexer tx 1000 tokens with
  | ok x =>
    rw [h] at hk
    simp only [Bool.and_eq_true, decide_eq_true_eq, List.all_eq_true] at hk
    exact ⟨x.1, x.2, rfl, tokens_joint, hk.2, hk.1, strict_fits _⟩
  | _ => rw [h] at hk; cases hk

open GrammarSample in
/-- The checks pass for the sample, without the theorem, and they fail if the variants of the type of tokens do not have
the fields that the grammar file says, or if constructors have other types. -/
example : (match buildGrammar .id lexer tx 1000 tokens with
    | .ok x => match RustSyntax.item 300 (Emit.parser x.1 unprint true x.2).tokens with
      | some it => it.checks (strict x.1) true && it.checks (strict x.1) false &&
          !it.checks { strict x.1 with dataVariant := fun _ => false } true &&
          !it.checks { strict x.1 with unitVariant := fun _ => false } true &&
          !it.checks { strict x.1 with pattern := fun _ _ => false } true &&
          !it.checks { strict x.1 with body := fun _ _ _ => some .unit } true
      | none => false
    | _ => false) = true := by decide +kernel

/-- `<S>: u64 => <A> { #A }; <A>: u64 => ! | Plus { 0 };` -/
def unbound : TokenStream := GrammarSample.withDeclarations
    [⟨"S", some (.ident "u64" .nil), [([.production "A"], some (.brace, .punct '#' false (.ident "A" .nil)))]⟩,
     ⟨"A", some (.ident "u64" .nil), [([.epsilon], none),
       ([.symbol ⟨"Plus", .none⟩], some (.brace, .literal "0" .nil))]⟩]

open GrammarSample in
/-- Rules with a type and without constructor for nothing are left out with reason: for
`<S>: u64 => <A> { #A }; <A>: u64 => ! | Plus { 0 };` the macro returns code that uses a variable which does not
exist. -/
theorem default_refuted : ∃ t gi prog, JointOk t ∧ buildGrammar .id lexer tx 1000 t = .ok (gi, prog) ∧
    gi.name ∉ reserved ∧ UserFits gi (strict gi) ∧ ∀ isPub debug, ∃ it, Reads (Emit.parser gi unprint isPub prog).tokens it ∧
      it.checks (strict gi) debug = false := by
  have hk : (match buildGrammar .id lexer tx 1000 unbound with
      | .ok x => decide (x.1.name ∉ reserved) &&
          !(emitted x.1 true x.2).checks (strict x.1) true && !(emitted x.1 true x.2).checks (strict x.1) false
      | _ => false) = true := by decide +kernel
  cases h : buildGrammar .id lexer tx 1000 unbound with
  | ok x =>
    rw [h] at hk
    simp only [Bool.and_eq_true, decide_eq_true_eq, Bool.not_eq_true'] at hk
    refine ⟨unbound, x.1, x.2, ?_, h, hk.1.1, strict_fits _, fun isPub debug => ?_⟩
    · simp [unbound, withDeclarations, C37.fileTokens, file, C37.cat, C37.opTokens, C37.typeOptionTokens, C37.declarationTokens,
        C37.rulesTokens, C37.ruleTokens, C37.nodeTokens, JointOk, TokenStream.append]
    · obtain ⟨gi', hpar, hb⟩ := Outcome.bind_eq_ok.mp h
      obtain ⟨prog', hgen, hb⟩ := Outcome.bind_eq_ok.mp hb
      cases hb
      refine ⟨_, read_parser hk.1.1 (sound_of_generateParser hgen), ?_⟩
      cases debug
      · exact hk.2
      · exact hk.1.2
  | _ => rw [h] at hk; cases hk

/-! ### Code that is rejected -/

/-- A parser with two states, of `()` and of tokens. -/
def D : Decls where
  token := .ident "Token" .nil
  error := .unit
  value := .unit
  enum := "States"
  variants := [("S0", .unit), ("S1", .user (.ident "Token" .nil))]
  functions := ["parse_s0", "parse_s1"]
  user := ⟨fun _ => true, fun _ => true, fun _ => true, fun _ _ => true, fun _ _ _ => some .unit, fun _ _ => some .unit⟩

/-- A function of a state. -/
def accepts (e : Expr) : Bool := checkFunction D true D.control "state" (.refMut .parserState) e

/-- `Ok(ParserControl::Continue)`. -/
def done : Expr := .con .ok (.atom .continue)

/-- `States::S0(..) => a, States::S1(..) => b`. -/
def both (a b : Expr) : Arms :=
  .cons (.rest (.state "States" "S0")) .comma a (.cons (.rest (.state "States" "S1")) .comma b .nil)

/-- `match state.pop_state() { S0(v) => v, _ => unreachable }` is accepted. -/
example : accepts (.letIn true "__v0" (.cases (.call0 .popState (.var "state"))
    (.cons (.con (.state "States" "S0") (.var "v")) .comma (.var "v") (.cons .wild .last .unreachable .nil))) done) = true := by
  decide +kernel

/-- A value is moved twice. -/
example : accepts (.letIn false "x" (.call0 .popState (.var "state"))
    (.seq (.push (.var "state") (.var "x")) (.seq (.push (.var "state") (.var "x")) done))) = false := by decide +kernel

/-- It is accepted once. -/
example : accepts (.letIn false "x" (.call0 .popState (.var "state"))
    (.seq (.push (.var "state") (.var "x")) done)) = true := by decide +kernel

/-- A value is moved in a loop. -/
example : accepts (.letIn false "x" (.call0 .popState (.var "state")) (.loop (.seq (.push (.var "state") (.var "x")) .nothing))) =
    false := by decide +kernel

/-- A reference to the state is used after a state was popped. -/
example : accepts (.letIn false "x" (.call0 .state (.var "state")) (.seq (.call0 .popState (.var "state"))
    (.stmt (.cases (.var "x") (both .nothing .nothing)) done))) = false := by decide +kernel

/-- It is accepted before. -/
example : accepts (.letIn false "x" (.call0 .state (.var "state"))
    (.stmt (.cases (.var "x") (both .nothing .nothing)) (.seq (.call0 .popState (.var "state")) done))) = true := by decide +kernel

/-- A state is pushed while the state is matched on by reference: the reference is not used in the arm. -/
example : accepts (.stmt (.cases (.call0 .state (.var "state"))
    (both (.push (.var "state") (.con (.state "States" "S0") (.atom .unit))) .nothing)) done) = true := by decide +kernel

/-- A token is moved out of a reference to the state, and with `clone` it is not. -/
example : accepts (.stmt (.cases (.call0 .state (.var "state")) (.cons (.con (.state "States" "S1") (.var "v")) .comma
    (.push (.var "state") (.con (.state "States" "S1") (.var "v"))) (.cons .wild .last .unreachable .nil))) done) = false := by
  decide +kernel

example : accepts (.letIn false "x" (.cases (.call0 .state (.var "state")) (.cons (.con (.state "States" "S1") (.var "v")) .comma
    (.con (.state "States" "S1") (.call0 .clone (.var "v"))) (.cons .wild .last .unreachable .nil)))
    (.seq (.push (.var "state") (.var "x")) done)) = true := by decide +kernel

/-- An arm is missing, or of another type, or a variant holds a value of another type. -/
example : accepts (.stmt (.cases (.call0 .state (.var "state")) (.cons (.rest (.state "States" "S0")) .comma .nothing .nil)) done) =
      false ∧
    accepts (.stmt (.cases (.call0 .state (.var "state")) (both .nothing (.con .some (.atom .unit)))) done) = false ∧
    accepts (.seq (.push (.var "state") (.con (.state "States" "S1") (.atom .unit))) done) = false := by decide +kernel

/-- The result is of another type, the error cannot be converted, or the function has no result. -/
example : accepts (.atom .unit) = false ∧ accepts (.question (.con .err (.atom .none))) = false ∧
    accepts .nothing = false := by decide +kernel

end C63
end Verif
