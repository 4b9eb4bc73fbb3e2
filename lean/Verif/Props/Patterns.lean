import Verif.Proof.Patterns
import Verif.Props.RustSyntax

/-!
# C56: patterns of the grammar file in generated code
-/

set_option linter.unusedSectionVars false
set_option autoImplicit false

namespace Verif
open Spec Rust RustSyntax CodeGen

section
variable {lex : Lexer} {o : HashOrder} {gi : GrammarInfo} {prog : Program} {F : FirstTable} {kt : KernelTable}

/-- Patterns in matchers are those of terminals. -/
theorem pattern_of_matcher {tok : AugTok Sym} (ht : Matchable gi tok) {v text : String}
    (h : tokenMatcher lex gi.terminalType tok = .ok (.token (.data v text))) :
    ∃ s, gi.Terminal s ∧ s.paren = .pattern text := by
  rcases ht with rfl | ⟨s, rfl, hs⟩
  · cases h
  · simp only [tokenMatcher, Outcome.bind_eq_ok] at h
    obtain ⟨p, hp, h⟩ := h
    cases h
    refine ⟨s, hs, ?_⟩
    unfold tryBuildPattern at hp
    split at hp
    · rw [Outcome.bind_eq_ok] at hp
      obtain ⟨_, -, hp⟩ := hp
      cases hp
    · rw [Outcome.bind_eq_ok] at hp
      obtain ⟨_, -, hp⟩ := hp
      split at hp
      · rename_i h
        cases hp
        exact h
      · cases hp
      · cases hp

/-- All matchers in a parser are those of terminals of the grammar or of the end of the stream. -/
theorem matchers_from (h : GenIn gi F kt) (hg : generateParser o lex gi = .ok prog) {code : StateCode}
    (hc : code ∈ prog.states) {m : Matcher} (hm : m ∈ code.matchers) :
    ∃ tok, Matchable gi tok ∧ tokenMatcher lex gi.terminalType tok = .ok m := by
  unfold generateParser at hg
  simp only [Outcome.bind_eq_ok] at hg
  obtain ⟨smap, -, root, -, result, -, types, -, states, hs, hg⟩ := hg
  cases hg
  obtain ⟨s, hmem, hg⟩ := forall₂_mem_right' (generateStates_spec hs) hc
  have hlt : s < gi.lrTable.numStates := by simpa [LRTable.states] using hmem
  obtain ⟨a, l, h1, h2, -, h3⟩ := h.likeActions hlt
  have htok : ∀ tok act, (tok, act) ∈ l → Matchable gi tok := fun tok act hm => by
    obtain ⟨id, h4, h5⟩ := (h3 tok act).mp hm
    exact (h.tokens hlt h4 h5).1
  unfold generateState at hg
  simp only [h1, Outcome.ok_bind, Outcome.bind_eq_ok] at hg
  obtain ⟨overlap, hov, reduces, hr, accept, hacc, shifts, hsh, hg⟩ := hg
  cases hg
  simp only [StateCode.matchers, List.mem_append, List.mem_map, List.mem_flatMap] at hm
  rcases hm with ((hm | ⟨arm, harm, hm⟩) | ⟨arm, harm, hm⟩) | ⟨arm, harm, hm⟩
  · unfold LikeActions.overlapCheck at hov
    split at hov
    · cases hov
      cases hm
    · obtain ⟨tok, h4, h5⟩ := forall₂_mem_right' (tokenMatchers_spec hov) hm
      have := (LikeActions.allLookahead_perm o s a).mem_iff.mp (List.mem_filter.mp h4).1
      obtain ⟨⟨t, act⟩, h6, rfl⟩ := List.mem_map.mp (h2.perm.mem_iff.mp this)
      exact ⟨t, htok t act h6, h5⟩
  · obtain ⟨p, h4, h5⟩ := forall₂_mem_right' (shiftArms_spec hsh) harm
    exact ⟨p.1, htok p.1 _ ((h2.shift p.1 p.2).mp h4), hm ▸ h5.matcher⟩
  · obtain ⟨p, h4, h5⟩ := forall₂_mem_right' (reduceArms_spec hr) harm
    obtain ⟨tok, h6, h7⟩ := forall₂_mem_right' h5.matchers hm
    exact ⟨tok, htok tok _ ((h2.reduce tok p.1).mp ⟨p.2, (o.perm _ _).mem_iff.mp h4, h6⟩), h7⟩
  · unfold acceptArm at hacc
    cases hacc' : a.accept with
    | none =>
      rw [hacc'] at hacc
      cases hacc
      cases harm
    | some t =>
      rw [hacc'] at hacc
      simp only [Outcome.bind_eq_ok] at hacc
      obtain ⟨m', hma, rule, -, ⟨pops, states⟩, hb, -, -, ctor, -, hacc⟩ := hacc
      cases hacc
      simp only [Option.mem_toList, Option.some.injEq] at harm
      subst harm
      simp only at hm
      subst hm
      exact ⟨t, htok t _ ((h2.accept t).mp hacc'), hma⟩

/-- All patterns in a parser are those of terminals of the grammar. -/
theorem matchers_used (h : GenIn gi F kt) (hg : generateParser o lex gi = .ok prog) {code : StateCode}
    (hc : code ∈ prog.states) {v text : String} (hm : .token (.data v text) ∈ code.matchers) :
    ∃ s, gi.Terminal s ∧ s.paren = .pattern text := by
  obtain ⟨tok, h1, h2⟩ := matchers_from h hg hc hm
  exact pattern_of_matcher h1 h2

end

namespace RustSyntax

theorem occurs_tokens {c leaf : Code} {Γ : List (Ns × String)} (h : Occurs c Γ leaf) : leaf.tokens <:+: c.tokens := by
  induction h with
  | here => exact List.infix_refl _
  | left _ ih => exact ih.trans (List.prefix_append ..).isInfix
  | right _ ih => exact ih.trans (List.suffix_append ..).isInfix
  | bind _ ih => exact ih

end RustSyntax

namespace C56
open Emit
variable {lex : Lexer} {o : HashOrder} {tx : Text} {t : TokenStream} {fuel : Nat} {gi : GrammarInfo} {prog : Program}
  {retok : String → TokenStream} {isPub : Bool} {alts binds : String → List String}

/-- **C56**, for patterns without `|` outside of parentheses: the tokens are read as the same declarations after the
patterns are spliced in, and alternatives in generated patterns bind the same variables exactly if the terminals on
which one rule is reduced in one state bind the same variables. -/
theorem patterns_agree_iff (hj : JointOk t) (hb : buildGrammar o lex tx fuel t = .ok (gi, prog))
    (hname : gi.name ∉ reserved)
    (ha : ∀ r ∈ gi.productionRules, ∀ x text, .symbol ⟨x, .pattern text⟩ ∈ r.rule → alts text = [text]) :
    ∃ it, Reads (splice alts (Emit.parser gi retok isPub prog).tokens) it ∧
      ((∀ p ∈ it.patterns, p.Agree binds) ↔
        ∀ code ∈ prog.states, ∀ arm ∈ code.reduces, ∀ m ∈ arm.matchers, ∀ m' ∈ arm.matchers, ∀ x,
          x ∈ m.binds binds ↔ x ∈ m'.binds binds) := by
  obtain ⟨gi', hpar, hb⟩ := Outcome.bind_eq_ok.mp hb
  obtain ⟨prog', hgen, hb⟩ := Outcome.bind_eq_ok.mp hb
  cases hb
  obtain ⟨F, kt, -, hin, -⟩ := genIn_of hj hpar
  have hs : splice alts (Emit.parser gi retok isPub prog).tokens = (Emit.parser gi retok isPub prog).tokens := by
    refine splice_eq fun text ht => ?_
    obtain ⟨code, h1, v, h2⟩ := texts_of_parser ht
    obtain ⟨s, ⟨r, h3, h4⟩, h5⟩ := matchers_used hin hgen h1 h2
    obtain ⟨x, p⟩ := s
    cases h5
    exact ha r h3 x text h4
  rw [hs]
  refine ⟨_, read_parser hname (sound_of_generateParser hgen), ?_⟩
  have hand : ∀ arm : ReduceArm, (anyOf (arm.matchers.map (matcher gi false))).Agree binds ↔
      ∀ m ∈ arm.matchers, ∀ m' ∈ arm.matchers, ∀ x, x ∈ m.binds binds ↔ x ∈ m'.binds binds := by
    intro arm
    rw [agree_anyOf]
    constructor
    · rintro ⟨-, h⟩ m hm m' hm' x
      have := h _ (List.mem_map_of_mem hm) _ (List.mem_map_of_mem hm') x
      rwa [bound_matcher, bound_matcher] at this
    · refine fun h => ⟨fun p hp => ?_, fun p hp q hq x => ?_⟩
      · obtain ⟨m, -, rfl⟩ := List.mem_map.mp hp
        exact agree_matcher
      · obtain ⟨m, hm, rfl⟩ := List.mem_map.mp hp
        obtain ⟨m', hm', rfl⟩ := List.mem_map.mp hq
        rw [bound_matcher, bound_matcher]
        exact h m hm m' hm' x
  constructor
  · intro h code hc arm harm
    refine (hand arm).mp (h _ ?_)
    obtain ⟨i, hi⟩ := List.mem_iff_getElem?.mp hc
    refine List.mem_append_left _ (List.mem_flatMap.mpr ⟨(functionName i, prefixed "state", actions gi code), ?_,
      patterns_of_reduce harm⟩)
    exact List.mem_map.mpr ⟨(code, i), List.mk_mem_zipIdx_iff_getElem?.mpr hi, rfl⟩
  · intro h p hp
    rcases List.mem_append.mp hp with hp | hp
    · obtain ⟨f, h1, h2⟩ := List.mem_flatMap.mp hp
      obtain ⟨⟨code, i⟩, h3, rfl⟩ := List.mem_map.mp h1
      have hc : code ∈ prog.states := (List.mem_zipIdx h3).2.2 ▸ List.getElem_mem _
      rcases patterns_actions h2 with h4 | ⟨named, m, -, rfl⟩ | ⟨arm, h4, rfl⟩
      · exact h4.2 binds
      · exact agree_matcher
      · exact (hand arm).mpr (h code hc arm h4)
    · exact (safe_parseLoop p hp).2 binds

/-- **C56**, for terminals whose patterns have no `|` outside of parentheses and bind no variables: all alternatives
in generated patterns bind the same variables. -/
theorem patterns_agree_partial (hj : JointOk t) (hb : buildGrammar o lex tx fuel t = .ok (gi, prog))
    (hname : gi.name ∉ reserved)
    (ha : ∀ r ∈ gi.productionRules, ∀ x text, .symbol ⟨x, .pattern text⟩ ∈ r.rule →
      alts text = [text] ∧ binds text = []) :
    ∃ it, Reads (splice alts (Emit.parser gi retok isPub prog).tokens) it ∧ ∀ p ∈ it.patterns, p.Agree binds := by
  obtain ⟨it, h1, h2⟩ := patterns_agree_iff (retok := retok) (isPub := isPub) (binds := binds) hj hb hname
    fun r hr x text hx => (ha r hr x text hx).1
  refine ⟨it, h1, h2.mpr ?_⟩
  obtain ⟨gi', hpar, hb⟩ := Outcome.bind_eq_ok.mp hb
  obtain ⟨prog', hgen, hb⟩ := Outcome.bind_eq_ok.mp hb
  cases hb
  obtain ⟨F, kt, -, hin, -⟩ := genIn_of hj hpar
  intro code hc arm harm
  have hall : ∀ m ∈ arm.matchers, m.binds binds = [] := by
    intro m hm
    unfold Matcher.binds
    split
    · rename_i v text
      obtain ⟨s, ⟨r, h3, h4⟩, h5⟩ := matchers_used hin hgen hc (v := v) (text := text) (by
        simp only [StateCode.matchers, List.mem_append, List.mem_flatMap]
        exact .inl (.inr ⟨arm, harm, hm⟩))
      obtain ⟨x, p⟩ := s
      cases h5
      exact (ha r h3 x text h4).2
    · rfl
  intro m hm m' hm' x
  rw [hall m hm, hall m' hm']

/-- The arms that shift are part of the code. -/
theorem arm_occurs {code : StateCode} (hc : code ∈ prog.states) {arm : ShiftArm} (ha : arm ∈ code.shifts) :
    ∃ rest Γ, Occurs (parser gi retok isPub prog) Γ ((Arms.cons (shiftArm gi arm).1 (shiftArm gi arm).2.1
      (shiftArm gi arm).2.2 rest).code retok (errorType gi)) := by
  obtain ⟨i, hi⟩ := List.mem_iff_getElem?.mp hc
  have hmem : function gi retok prog.resultType (code, i) ∈
      prog.states.zipIdx.map (function gi retok prog.resultType) :=
    List.mem_map.mpr ⟨_, List.mk_mem_zipIdx_iff_getElem?.mpr hi, rfl⟩
  have harms : ∀ {l : List ShiftArm} {rest : Arms}, arm ∈ l → ∃ rest',
      Occurs ((Arms.ofList (l.map (shiftArm gi)) rest).code retok (errorType gi)) []
        ((Arms.cons (shiftArm gi arm).1 (shiftArm gi arm).2.1 (shiftArm gi arm).2.2 rest').code retok (errorType gi)) := by
    intro l rest hl
    induction l with
    | nil => cases hl
    | cons a l ih =>
      rcases List.mem_cons.mp hl with rfl | hl
      · exact ⟨_, .here⟩
      · obtain ⟨rest', h⟩ := ih hl
        exact ⟨rest', .right (.right (.right (.right (.left h))))⟩
  have hover : ∀ {rest : Expr} {ms : List Matcher} {Γ : List (Ns × String)} {c : Code},
      Occurs (rest.code retok (errorType gi)) Γ c →
      Occurs ((overlapCheck gi rest ms).code retok (errorType gi)) Γ c := by
    intro rest ms Γ c h
    unfold overlapCheck
    split
    · exact h
    · exact .right (.left h)
  have hact : ∃ rest Γ, Occurs ((actions gi code).code retok (errorType gi)) Γ ((Arms.cons (shiftArm gi arm).1
      (shiftArm gi arm).2.1 (shiftArm gi arm).2.2 rest).code retok (errorType gi)) := by
    unfold actions
    cases hs : code.shifts with
    | nil => rw [hs] at ha; cases ha
    | cons a l =>
      obtain ⟨rest, h⟩ := harms (l := a :: l) (rest := .ofList (code.reduces.map (reduceArm gi))
        (.ofList (code.accept.toList.map (Emit.acceptArm gi)) returnErr)) (hs ▸ ha)
      exact ⟨rest, _, .right (.right (.right (.right (.right (.left (.bind (hover (.right (.right (.right (.left (.right
        (.right (.right (.left h)))))))))))))))⟩
  obtain ⟨rest, Γ, hact⟩ := hact
  refine ⟨rest, _, C51.occurs_body (List.mem_cons_of_mem _ (List.mem_cons_self ..)) (C51.occurs_cat hmem (.right (.right
    (.left (.bind ?_))))) (Γ := Γ ++ [(.value, prefixed "state")] ++ [(.type, "I"), (.type, "B"), (.type, "E")])⟩
  iterate 33 refine .right ?_
  exact .left (.bind hact)

theorem joined_tokens {a : String} {l : List String} :
    joined (a :: l) = ((anyOf ((a :: l).map RPat.user)).code retok).tokens := by
  induction l generalizing a with
  | nil => rfl
  | cons b l ih =>
    have h := ih (a := b)
    simp only [List.map_cons] at h
    simp only [List.map_cons, anyOf, RPat.code, Emit.cat, Code.tokens, joined, h, List.cons_append, List.nil_append,
      List.append_nil]

/-- **C56** fails wherever a terminal with a `|` outside of parentheses is shifted: the pattern for it, as Rust
reads it, binds `wildcard_var` in the first alternative only. -/
theorem alternatives_disagree {code : StateCode} (hc : code ∈ prog.states) {arm : ShiftArm} (ha : arm ∈ code.shifts)
    {v text a b : String} {l : List String} (hm : arm.matcher = .token (.data v text)) (hal : alts text = a :: b :: l)
    (hb : "wildcard_var" ∉ binds b) :
    ∃ before tokens after q, splice alts (Emit.parser gi retok isPub prog).tokens = before ++ (tokens ++ rs!"=>" ++ after) ∧
      (∃ n, ∀ f ≥ n, RustSyntax.pattern f (tokens ++ rs!"=>" ++ after) = some (q, rs!"=>" ++ after)) ∧
      ¬ q.Agree binds := by
  obtain ⟨rest, Γ, hocc⟩ := arm_occurs (gi := gi) (retok := retok) (isPub := isPub) hc ha
  obtain ⟨pre, post, he⟩ := occurs_tokens hocc
  let q : RPat := .con .some (.ref (.con (.token (tokenType gi) v)
    (.or (.named wildcardVar (.user a)) (anyOf ((b :: l).map RPat.user)))))
  have hq : IsNoAlt retok q := by
    refine isNoAlt_con (by trivial) (IsNoAlt.pat (isNoAlt_ref (isNoAlt_con (by trivial) (IsPat.or
      (isNoAlt_named name_wildcard.1 isNoAlt_user) (IsPat.anyOf (by simp) ?_)))))
    intro p hp
    obtain ⟨x, -, rfl⟩ := List.mem_map.mp hp
    exact isNoAlt_user
  have htok : splice alts ((shiftArm gi arm).1.code retok).tokens = (q.code retok).tokens := by
    unfold shiftArm
    rw [hm]
    simp only [matcher, Emit.pattern, if_true, RPat.code, Con.code, Emit.cat, Code.tokens, Emit.value, q,
      List.cons_append, List.nil_append, List.append_nil, splice, hal, joined, joined_tokens (retok := retok) (a := b)]
    simp
  refine ⟨splice alts pre, (q.code retok).tokens, ?_, q, ?_, ?_, ?_⟩
  rotate_left 3
  · rintro ⟨-, -, h⟩
    have hbound : (anyOf ((b :: l).map RPat.user)).bound binds = binds b := by cases l <;> rfl
    have := (h "wildcard_var").mp (by simp [RPat.bound, wildcardVar])
    rw [hbound] at this
    exact hb this
  · exact splice alts ((((shiftArm gi arm).2.2.code retok (errorType gi)).tokens ++ [.op ","] ++
      (rest.code retok (errorType gi)).tokens) ++ post)
  · rw [← he, splice_append, splice_append]
    simp only [Arms.code, Emit.cat, Code.tokens, splice_append, htok, List.append_assoc]
    simp [splice, shiftArm]
  · obtain ⟨n, h⟩ := hq.pat.parse (rs!"=>" ++ _) ⟨_, _, rfl, by simp⟩
    exact ⟨n, fun f hf => by rw [List.append_assoc]; exact h f hf⟩

end C56

namespace GrammarSample
open C56 Emit

/-- `1 | 2` as tokens. -/
def oneOrTwo : TokenStream := .literal "1" (.punct '|' false (.literal "2" .nil))

/-- The sample with the single rule `<S> => Num(1 | 2)`. -/
def orTokens : TokenStream := C37.fileTokens (fun _ => oneOrTwo)
  { file with declarations := [⟨"S", none, [([.symbol ⟨"Num", .pattern (tx.print oneOrTwo)⟩], none)]⟩] }

/-- The alternatives of a pattern whose tokens are known. -/
def altsOf (retok : String → TokenStream) (text : String) : List String := (retok text).alternatives.map tx.print

/-- The sample with the rules `<S> => <T>`, `<T> => <A> Num(x) | <A> Plus` and `<A> => Minus`. -/
def boundTokens : TokenStream := C37.fileTokens unprint
  { file with declarations :=
    [⟨"S", none, [([.production "T"], none)]⟩,
     ⟨"T", none, [([.production "A", .symbol ⟨"Num", .pattern "x "⟩], none),
      ([.production "A", .symbol ⟨"Plus", .none⟩], none)]⟩,
     ⟨"A", none, [([.symbol ⟨"Minus", .none⟩], none)]⟩] }

/-- **C56** refuted: a grammar file with the terminal `Num(1 | 2)` is accepted, but the pattern in the generated code
is read as one that binds `wildcard_var` in its first alternative only. -/
theorem alternatives_refuted : ∃ gi prog, buildGrammar .id lexer tx 1000 orTokens = .ok (gi, prog) ∧
    gi.name ∉ reserved ∧ ∀ isPub binds, binds "2 " = [] →
      ∃ before tokens after q,
        splice (altsOf fun _ => oneOrTwo) (Emit.parser gi (fun _ => oneOrTwo) isPub prog).tokens =
          before ++ (tokens ++ rs!"=>" ++ after) ∧
        (∃ n, ∀ f ≥ n, RustSyntax.pattern f (tokens ++ rs!"=>" ++ after) = some (q, rs!"=>" ++ after)) ∧
        ¬ q.Agree binds := by
  have hk : (match buildGrammar .id lexer tx 1000 orTokens with
      | .ok x => decide (x.1.name ∉ reserved) && x.2.states.any fun code => code.shifts.any fun arm =>
          match arm.matcher with
          | .token (.data _ text) => decide (altsOf (fun _ => oneOrTwo) text = ["1 ", "2 "])
          | _ => false
      | _ => false) = true := by decide +kernel
  cases h : buildGrammar .id lexer tx 1000 orTokens with
  | ok x =>
    rw [h] at hk
    simp only [Bool.and_eq_true, decide_eq_true_eq, List.any_eq_true] at hk
    obtain ⟨h1, code, h2, arm, h3, h4⟩ := hk
    refine ⟨x.1, x.2, rfl, h1, fun isPub binds hb => ?_⟩
    split at h4
    · rename_i v text hm
      exact alternatives_disagree h2 h3 hm (of_decide_eq_true h4) (by simp [hb])
    · cases h4
  | _ => rw [h] at hk; cases hk

/-- **C56** refuted: a grammar file in which one rule is reduced on `Num(x)` and on `Plus` is accepted, but the
pattern of this reduction binds `x` in one of its alternatives only. -/
theorem lookahead_refuted : ∃ gi prog, buildGrammar .id lexer tx 1000 boundTokens = .ok (gi, prog) ∧
    ∀ isPub (binds : String → List String), binds "x " = ["x"] →
      ∃ it, Reads (splice (altsOf unprint) (Emit.parser gi unprint isPub prog).tokens) it ∧
        ∃ p ∈ it.patterns, ¬ p.Agree binds := by
  have hk : (match buildGrammar .id lexer tx 1000 boundTokens with
      | .ok x => decide (x.1.name ∉ reserved) && (x.1.productionRules.all fun r => r.rule.all fun n =>
          match n with
          | .symbol ⟨_, .pattern text⟩ => decide (altsOf unprint text = [text])
          | _ => true) &&
        x.2.states.any fun code => code.reduces.any fun arm =>
          decide (.token (.data "Num" "x ") ∈ arm.matchers) && decide (.token (.unit "Plus") ∈ arm.matchers)
      | _ => false) = true := by decide +kernel
  have hj : JointOk boundTokens := by
    simp [boundTokens, C37.fileTokens, file, C37.cat, C37.opTokens, C37.typeOptionTokens, C37.declarationTokens,
      C37.rulesTokens, C37.ruleTokens, C37.nodeTokens, JointOk, TokenStream.append, unprint]
  cases h : buildGrammar .id lexer tx 1000 boundTokens with
  | ok x =>
    rw [h] at hk
    simp only [Bool.and_eq_true, decide_eq_true_eq, List.any_eq_true, List.all_eq_true] at hk
    obtain ⟨⟨h1, h2⟩, code, h3, arm, h4, h5, h6⟩ := hk
    refine ⟨x.1, x.2, rfl, fun isPub binds hb => ?_⟩
    obtain ⟨it, h7, h8⟩ := patterns_agree_iff (retok := unprint) (isPub := isPub) (binds := binds) hj h h1
      (alts := altsOf unprint) fun r hr y text hy => by simpa using h2 r hr _ hy
    refine ⟨it, h7, ?_⟩
    by_contra hc
    have := h8.mp (fun p hp => by_contra fun hn => hc ⟨p, hp, hn⟩) code h3 arm h4 _ h5 _ h6 "x"
    simp [Matcher.binds, hb] at this
  | _ => rw [h] at hk; cases hk

/-- The hypotheses of `patterns_agree_partial` are met by the sample, whose pattern is then a constant. -/
example : ∃ gi prog, buildGrammar .id lexer tx 1000 tokens = .ok (gi, prog) ∧ JointOk tokens ∧ gi.name ∉ reserved ∧
    (∀ r ∈ gi.productionRules, ∀ x text, .symbol ⟨x, .pattern text⟩ ∈ r.rule → altsOf unprint text = [text]) ∧
    ∃ r ∈ gi.productionRules, ∃ x text, .symbol ⟨x, .pattern text⟩ ∈ r.rule := by
  have hk : (match buildGrammar .id lexer tx 1000 tokens with
      | .ok x => decide (x.1.name ∉ reserved) && (x.1.productionRules.all fun r => r.rule.all fun n =>
          match n with
          | .symbol ⟨_, .pattern text⟩ => decide (altsOf unprint text = [text])
          | _ => true) && x.1.productionRules.any fun r => decide (.symbol ⟨"Num", .pattern "x "⟩ ∈ r.rule)
      | _ => false) = true := by decide +kernel
  cases h : buildGrammar .id lexer tx 1000 tokens with
  | ok x =>
    rw [h] at hk
    simp only [Bool.and_eq_true, decide_eq_true_eq, List.any_eq_true, List.all_eq_true] at hk
    obtain ⟨⟨h1, h2⟩, r, h3, h4⟩ := hk
    exact ⟨x.1, x.2, rfl, tokens_joint, h1, fun r hr y text hy => by simpa using h2 r hr _ hy, r, h3, _, _, h4⟩
  | _ => rw [h] at hk; cases hk

end GrammarSample
end Verif
