import Verif.Proof.Useful
import Verif.Props.GrammarIndex
import Verif.Props.Parse
import Verif.Props.Agree

/-!
# C70: no rule is dead
-/

set_option linter.unusedSectionVars false
set_option autoImplicit false

namespace Verif.C70
open Spec

section
variable {T L : Type} [DecidableEq T] [DecidableEq L]

/-- The simulator accepts `w` and has reduced by rule `k` of the user's grammar (accepting is reducing by the root
rule). -/
def Reduces (p : SimParser T L) (w : List T) (k : Nat) : Prop :=
  ∃ ss ns tr, SimRun p w ss ns [] tr ∧ (p.step ss ns [] : Outcome (LRTableError T L) _) = .ok (.done true) ∧
    ∃ i ∈ 0 :: tr, ∃ r, p.grammar.rules[i]? = some r ∧ r.originalIndex = k

/-- In a grammar that is accepted and whose rules derive something, every rule occurs in a parse tree. -/
theorem tree_with_rule {A : Type} {M : A → T → Prop} {g : Grammar T L} {ig : IndexedGrammar T L}
    (hi : IndexedGrammar.build g = .ok ig) (hp : ∀ r ∈ g.productions, ∃ f w, ParsesM g.productions M f r.rule w)
    {k : Nat} (hk : k < g.productions.length) : ∃ f w, ParseTreeM g M f w ∧ f.Uses k := by
  obtain ⟨ps⟩ := g
  cases ps with
  | nil => cases hk
  | cons root rest =>
    obtain ⟨-, -, h3⟩ := (C10.build_succeeds_iff root rest).mp ⟨ig, hi⟩
    have hr : (root :: rest)[k]? = some (root :: rest)[k] := List.getElem?_eq_getElem hk
    obtain ⟨f, w, h4, h5⟩ := (h3 _ (List.mem_of_getElem? hr)).rule_used hr hp
    exact ⟨f, w, ⟨root, rest, rfl, h4⟩, h5⟩

/-- If every label derives something then so does every rule. -/
theorem rules_derive {g : Grammar T L} {ig : IndexedGrammar T L} (hi : IndexedGrammar.build g = .ok ig)
    (hne : NoEndMarker g) (hp : Productive g.productions) :
    ∀ r ∈ g.productions, ∃ f w, ParsesM g.productions (fun a t => a = t) f r.rule w := by
  obtain ⟨ps⟩ := g
  cases ps with
  | nil => intro r hr; cases hr
  | cons root rest =>
    obtain ⟨-, h2, -⟩ := (C10.build_succeeds_iff root rest).mp ⟨ig, hi⟩
    intro r hr
    refine rule_parses (hne r hr) (fun t _ => ⟨t, rfl⟩) fun l hl => ?_
    obtain ⟨q, hq, rfl⟩ := h2 r hr l hl
    obtain ⟨w, hw⟩ := hp q hq
    obtain ⟨f, hf⟩ := hw.parses
    exact ⟨f, w, parses_iff_parsesM.mp hf⟩

/-- Whenever the simulator accepts after a reduction, the input has a parse tree with that rule. -/
theorem reduced_in_tree (g : Grammar T L) (p : SimParser T L) (fuel : Nat) (w : List T) (k : Nat)
    (hg : WellFormed g) (hp : SimParser.new fuel g = .ok p) (h : Reduces p w k) :
    ∃ f, ParseTree g f w ∧ f.Uses k := by
  obtain ⟨F, kt, hr⟩ := ready hg hp
  obtain ⟨ss, ns, tr, h1, h2, i, hi, r, hir, hk⟩ := h
  obtain ⟨c, h3, h4, rfl, hz⟩ := hr.run h1
  have hacc : Accepting p.grammar.cfg F.NodesFirst (tokMatch p.grammar) c := by
    rw [hz] at h2
    rcases step_sim (ε := LRTableError T L) hr.good h4 with ⟨hacc, e⟩ | ⟨-, e⟩ | ⟨_, _, _, _, _, e, -⟩
    · exact hacc
    · rw [e] at h2; cases h2
    · rw [e] at h2; cases h2
  obtain ⟨-, r0, hr0, -, h5⟩ := h3.sound hr.good.rootOk hacc
  obtain ⟨r0', hr0', hs⟩ := hr.root
  rw [hr0] at hr0'
  cases hr0'
  rw [hs] at h5
  refine ⟨_, hr.tree h5, (uses_mapRules _).mpr ⟨i, ?_, by rw [orig_eq hir, hk]⟩⟩
  rcases List.mem_cons.mp hi with rfl | hi
  · exact .inl rfl
  · exact .inr (.inl (h3.traced_mpr (.inr hi)))

/-- Then the simulator returns that the input is accepted. -/
theorem reduced_is_accepted (g : Grammar T L) (p : SimParser T L) (fuel : Nat) (w : List T) (k : Nat)
    (hg : WellFormed g) (hp : SimParser.new fuel g = .ok p) (h : Reduces p w k) :
    ∃ N, ∀ fuel' ≥ N, (p.parseStream fuel' w : Outcome (LRTableError T L) _) = .ok true := by
  obtain ⟨F, kt, hr⟩ := ready hg hp
  obtain ⟨ss, ns, tr, h1, h2, -⟩ := h
  obtain ⟨c, h3, h4, rfl, hz⟩ := hr.run h1
  have hacc : Accepting p.grammar.cfg F.NodesFirst (tokMatch p.grammar) c := by
    rw [hz] at h2
    rcases step_sim (ε := LRTableError T L) hr.good h4 with ⟨hacc, e⟩ | ⟨-, e⟩ | ⟨_, _, _, _, _, e, -⟩
    · exact hacc
    · rw [e] at h2; cases h2
    · rw [e] at h2; cases h2
  obtain ⟨b, N, hN⟩ := C03.parse_terminates g p fuel w hg hp
  refine ⟨N, fun fuel' hf => ?_⟩
  rcases hr.result fuel' w with e | ⟨c', tr', h5, ⟨-, e⟩ | ⟨h6, e⟩⟩
  · rw [hN fuel' hf] at e; cases e
  · exact e
  · have := (h3.unique hr.good.noConflict hr.good.unique (.inl hacc) h5 (.inr h6)).1
    rw [this] at hacc
    exact absurd (accepting_iff.mp hacc) (stuck_iff.mp h6 _)

/-- If no action is missing, the simulator reduces by a rule exactly on the inputs with a parse tree in which the rule
occurs. -/
theorem reduced_iff_in_tree_partial (g : Grammar T L) (p : SimParser T L) (fuel : Nat) (w : List T) (k : Nat)
    (hg : WellFormed g) (hc : C07.ActionsComplete g) (hp : SimParser.new fuel g = .ok p) :
    Reduces p w k ↔ ∃ f, ParseTree g f w ∧ f.Uses k := by
  refine ⟨reduced_in_tree g p fuel w k hg hp, ?_⟩
  rintro ⟨f, hf, hu⟩
  obtain ⟨N, hN⟩ := C02.accepts_all_sentences_partial g p fuel w hg hc hp (language_iff_parseTree.mpr ⟨f, hf⟩)
  obtain ⟨ss, ns, z, tr, h1, h2⟩ := parse_run (hN N (Nat.le_refl _))
  obtain ⟨hz, -⟩ := C43.reductions_are_rightmost_derivation g p fuel w z ss ns tr hg hp h1 h2
  subst hz
  refine ⟨ss, ns, tr, h1, h2, ?_⟩
  obtain ⟨F, kt, hr⟩ := ready hg hp
  obtain ⟨c, h3, h4, rfl, hz⟩ := hr.run h1
  have hacc : Accepting p.grammar.cfg F.NodesFirst (tokMatch p.grammar) c := by
    rw [hz] at h2
    rcases step_sim (ε := LRTableError T L) hr.good h4 with ⟨hacc, e⟩ | ⟨-, e⟩ | ⟨_, _, _, _, _, e, -⟩
    · exact hacc
    · rw [e] at h2; cases h2
    · rw [e] at h2; cases h2
  obtain ⟨-, r0, hr0, -, h5⟩ := h3.sound hr.good.rootOk hacc
  obtain ⟨f', h6, rfl⟩ := hr.tree' hf
  obtain ⟨r0', hr0', hs⟩ := hr.root
  rw [hr0] at hr0'
  cases hr0'
  rw [← hs] at h6
  rw [h6.unique (hr.closed hc) hr.good.rootOk hr.good.rootOnce hr.good.noConflict hr.good.unique hr0 h5] at hu h6
  obtain ⟨i, hi, hk⟩ := (uses_mapRules _).mp hu
  have hex : ∃ r, p.grammar.cfg[i]? = some r := uses_rule h6 hi
  obtain ⟨r, hr1⟩ := hex
  obtain ⟨q, hq, -⟩ := cfg_get.mp hr1
  refine ⟨i, ?_, q, hq, by rw [← orig_eq hq, hk]⟩
  rcases hi with rfl | hi | hi
  · exact List.mem_cons_self
  · rcases h3.traced hi with h | h
    · exact absurd h (by simp [Config.start, Forest.ofTrees, Forest.Uses])
    · exact List.mem_cons_of_mem _ h
  · exact absurd hi (by simp [Forest.Uses])

/-- **C70, partial (simulator).** If every label derives something and no action is missing, then for every rule
there is an input that is accepted with a reduction by this rule. -/
theorem no_dead_rules_partial (g : Grammar T L) (p : SimParser T L) (fuel : Nat) (hg : WellFormed g)
    (hpr : Productive g.productions) (hc : C07.ActionsComplete g) (hp : SimParser.new fuel g = .ok p) (k : Nat)
    (hk : k < g.productions.length) : ∃ w, Reduces p w k := by
  have hi := (new_ok hp).1
  obtain ⟨f, w, hf, hu⟩ := tree_with_rule hi (rules_derive hi hg.noEndMarker hpr) hk
  exact ⟨w, (reduced_iff_in_tree_partial g p fuel w k hg hc hp).mpr ⟨f, parseTree_iff.mpr hf, hu⟩⟩

/-- The sample grammar: `a c b` takes all its rules. -/
example : ∃ p, SimParser.new 20 sampleLR = .ok p ∧ ∀ k < 4, ∃ w, Reduces p w k := by
  obtain ⟨p, h1, -⟩ := sampleLR_parser
  refine ⟨p, h1, fun k hk => no_dead_rules_partial sampleLR p 20 sampleLR_wellFormed ?_ sampleLR_complete.actions h1 k hk⟩
  have hA : Derives sampleLR.productions [.production 1] [] :=
    .prod (r := ⟨1, [.terminal .epsilon]⟩) (u := []) (w := []) (by decide) (.eps .nil) .nil
  have hB : Derives sampleLR.productions [.production 2] [9, 8] :=
    .prod (r := ⟨2, [.terminal (.token 9), .terminal (.token 8)]⟩) (u := [9, 8]) (w := []) (by decide)
      (.tok (.tok .nil)) .nil
  have hS : Derives sampleLR.productions [.production 0] [9, 8] := by
    refine .prod (r := ⟨0, [.production 1, .production 2]⟩) (u := [9, 8]) (w := []) (by decide) ?_ .nil
    exact .prod (r := ⟨1, [.terminal .epsilon]⟩) (u := []) (by decide) (.eps .nil) hB
  intro r hr
  simp only [sampleLR, List.mem_cons, List.not_mem_nil, or_false] at hr
  rcases hr with rfl | rfl | rfl | rfl
  · exact ⟨_, hS⟩
  · exact ⟨_, hA⟩
  · exact ⟨_, hA⟩
  · exact ⟨_, hB⟩

/-! ### Refutation -/

/-- `S -> A; A -> a A`: the label `A` derives nothing. -/
def barren : Grammar Nat Nat :=
  ⟨[⟨0, [.production 1]⟩, ⟨1, [.terminal (.token 7), .production 1]⟩]⟩

theorem barren_derives {α : List (Node Nat Nat)} {w : List Nat} (h : Derives barren.productions α w) :
    .production 1 ∉ α ∧ .production 0 ∉ α := by
  induction h with
  | nil => simp
  | tok _ ih => simpa using ih
  | eps _ ih => simpa using ih
  | prod hr _ _ ih1 ih2 =>
    simp only [barren, List.mem_cons, List.not_mem_nil, or_false] at hr
    rcases hr with rfl | rfl
    · exact absurd (by simp) ih1.1
    · exact absurd (by simp) ih1.1

/-- **C70 is false.** Labels that derive nothing are not reported: a parser for `S -> A; A -> a A` is built, which
rejects every input. -/
theorem no_dead_rules_refuted : WellFormed barren ∧ RootNotRecursive barren ∧ C07.FirstComplete barren ∧
    ∃ p, SimParser.new 20 barren = .ok p ∧ ∀ w k, ¬ Reduces p w k := by
  have hg : WellFormed barren := ⟨by unfold EpsilonLast; decide, by unfold NoEndMarker; decide⟩
  have hnew : ∃ p, SimParser.new 20 barren = .ok p := by
    have h : (match SimParser.new 20 barren with | .ok _ => true | _ => false) = true := by decide +kernel
    cases hp : SimParser.new 20 barren with
    | ok p => exact ⟨p, rfl⟩
    | _ => rw [hp] at h; cases h
  refine ⟨hg, ?_, ?_, ?_⟩
  · rintro root rest h
    cases h
    decide
  · have h : (do
        let ig ← IndexedGrammar.build barren
        let F ← FirstTable.build ig
        let (F', _) ← FirstTable.propagate ig F
        pure (F == F') : Outcome (LRTableError Nat Nat) Bool) = .ok true := by decide +kernel
    obtain ⟨ig, h2, h⟩ := Outcome.bind_eq_ok.mp h
    obtain ⟨F, h3, h⟩ := Outcome.bind_eq_ok.mp h
    obtain ⟨⟨F', b⟩, h4, h⟩ := Outcome.bind_eq_ok.mp h
    simp only [Outcome.pure_eq, Outcome.ok.injEq, beq_iff_eq] at h
    subst h
    exact C07.first_complete_if_stable_partial _ ig F b h2 h3 h4
  · obtain ⟨p, hp⟩ := hnew
    refine ⟨p, hp, fun w k hr => ?_⟩
    obtain ⟨f, hf, -⟩ := reduced_in_tree barren p 20 w k hg hp hr
    obtain ⟨root, rest, h1, h2⟩ := language_iff_parseTree.mpr ⟨f, hf⟩
    cases h1
    exact absurd (by simp) (barren_derives h2).2

/-- What the nodes of `S -> Y B; Y -> !; B -> A a; A -> !` derive. -/
def witnessYield : Node Nat Nat → List Nat
  | .terminal (.token t) => [t]
  | .terminal _ => []
  | .production l => if l = 0 ∨ l = 2 then [7] else []

theorem witness_derives {α : List (Node Nat Nat)} {w : List Nat} (h : Derives C07.witness.productions α w) :
    w = α.flatMap witnessYield := by
  induction h with
  | nil => rfl
  | tok _ ih => simp [witnessYield, ih]
  | eps _ ih => simp [witnessYield, ih]
  | prod hr _ _ ih1 ih2 =>
    simp only [C07.witness, List.mem_cons, List.not_mem_nil, or_false] at hr
    rcases hr with rfl | rfl | rfl | rfl <;> simp [witnessYield, ih1, ih2]

theorem witness_language {w : List Nat} (h : Language C07.witness w) : w = [7] := by
  obtain ⟨root, rest, h1, h2⟩ := h
  cases h1
  exact witness_derives h2

/-- **C70 is false also for grammars whose labels all derive something**, if FIRST sets are incomplete: no rule of
`S -> Y B; Y -> !; B -> A a; A -> !` is of any use, as its only sentence is rejected (C02). -/
theorem no_dead_rules_refuted_first : WellFormed C07.witness ∧ Productive C07.witness.productions ∧
    ∃ p, SimParser.new 20 C07.witness = .ok p ∧ ∀ w k, ¬ Reduces p w k := by
  obtain ⟨hg, -, -, p, hp, hrej⟩ := C02.accepts_all_sentences_refuted
  have hY : Derives C07.witness.productions [.production 1] [] :=
    .prod (r := ⟨1, [.terminal .epsilon]⟩) (u := []) (w := []) (by decide) (.eps .nil) .nil
  have hA : Derives C07.witness.productions [.production 3] [] :=
    .prod (r := ⟨3, [.terminal .epsilon]⟩) (u := []) (w := []) (by decide) (.eps .nil) .nil
  have hB : Derives C07.witness.productions [.production 2] [7] :=
    .prod (r := ⟨2, [.production 3, .terminal (.token 7)]⟩) (u := [7]) (w := []) (by decide)
      (.prod (r := ⟨3, [.terminal .epsilon]⟩) (u := []) (by decide) (.eps .nil) (.tok .nil)) .nil
  have hS : Derives C07.witness.productions [.production 0] [7] :=
    .prod (r := ⟨0, [.production 1, .production 2]⟩) (u := [7]) (w := []) (by decide)
      (.prod (r := ⟨1, [.terminal .epsilon]⟩) (u := []) (by decide) (.eps .nil) hB) .nil
  refine ⟨hg, ?_, p, hp, fun w k hr => ?_⟩
  · intro r hr
    simp only [C07.witness, List.mem_cons, List.not_mem_nil, or_false] at hr
    rcases hr with rfl | rfl | rfl | rfl
    · exact ⟨_, hS⟩
    · exact ⟨_, hY⟩
    · exact ⟨_, hB⟩
    · exact ⟨_, hA⟩
  · obtain ⟨f, hf, -⟩ := reduced_in_tree _ p 20 w k hg hp hr
    have hl := language_iff_parseTree.mpr ⟨f, hf⟩
    have hw := witness_language hl
    subst hw
    obtain ⟨N, h3⟩ := reduced_is_accepted _ p 20 _ k hg hp hr
    have := h3 (max N 20) (Nat.le_max_left _ _)
    rw [hrej _ (Nat.le_max_right _ _)] at this
    cases this

end

section
variable {P V E F' σ : Type} [DecidableEq P] {o : HashOrder} {lex : Lexer} {gi : GrammarInfo} {prog : Program}

/-- Running the constructor of rule `k` always fails. -/
def Fails (gi : GrammarInfo) (sem : Sem P V E σ) (k : Nat) : Prop :=
  ∀ vs w, ∃ e w', construct gi sem k vs w = (.error e, w')

/-- No constructor ever fails. -/
def Succeed (gi : GrammarInfo) (sem : Sem P V E σ) : Prop :=
  ∀ k vs w, ∃ v w', construct gi sem k vs w = (.ok v, w')

/-- **C70, partial (generated parsers).** If every rule derives some tokens, no action is missing and patterns do
not overlap, then for every rule there is an input with a parse tree in which the rule occurs, on which the constructor of
the rule is run: whatever the user code does, the parser ends, with an error of the user if this constructor always fails,
and with a value if no constructor fails. -/
theorem generated_no_dead_rules_partial (h : Generated o lex gi prog) (sem : Sem P V E σ) (hD : gi.Disjoint sem)
    (hc : C07.ActionsComplete gi.grammar) (hp : gi.ProductiveRules sem) (k : Nat) (hk : k < gi.productionRules.length) :
    ∃ W f, ParseTreeM gi.grammar (Matches sem gi.terminalType) f W ∧ f.Uses k ∧
      ∀ (sem' : Sem P V E σ), sem'.litVal = sem.litVal → sem'.pat = sem.pat →
      ∀ (debug : Bool) (into : F' → E) (items : Nat → Option (Item P F')) (w0 : σ),
        (∀ i a, W[i]? = some a → items i = some (.ok a)) → items W.length = none →
        ∃ N run, (∀ fuel ≥ N, prog.parseFallible debug sem' into items fuel w0 = .ok run) ∧
          (Fails gi sem' k → ∃ e, run.result = .error (.user e)) ∧
          (Succeed gi sem' → ∃ v, run.result = .ok v) := by
  obtain ⟨f, W, hf, hu⟩ := tree_with_rule (M := Matches sem gi.terminalType) h.grammar hp (k := k)
    (by simpa [GrammarInfo.grammar] using hk)
  refine ⟨W, f, hf, hu, fun sem' h1 h2 debug into items w0 hW hend => ?_⟩
  have hm : Matches sem' gi.terminalType = Matches sem gi.terminalType := matches_congr h1 h2
  have hD' : gi.Disjoint sem' := by
    intro a s s' h3 h4 h5 h6
    rw [hm] at h5 h6
    exact hD a s s' h3 h4 h5 h6
  obtain ⟨N, run, hN, hres⟩ := C19.sentences_are_evaluated_partial h debug sem' into items W f w0 hD' hc hW hend
    (by rw [hm]; exact hf)
  refine ⟨N, run, hN, fun hF => ?_, fun hS => ?_⟩
  · rcases hres with ⟨v, h3, -⟩ | ⟨e, -, h4⟩
    · obtain ⟨e, w', h5⟩ := eval_fails (tok := .tok) hF hu w0
      rw [value, h5] at h3
      cases h3
    · exact ⟨e, h4⟩
  · rcases hres with ⟨v, -, h4⟩ | ⟨e, h3, -⟩
    · exact ⟨v, h4⟩
    · obtain ⟨vs, w', h5⟩ := eval_succeeds (tok := .tok) hS f w0
      rw [value, h5] at h3
      cases h3

/-- The sample parser and its semantics: all four rules are of use. -/
example : ∃ gi prog, Generated .id Sample.lexer gi prog ∧ gi.Disjoint Sample.sem ∧ C07.ActionsComplete gi.grammar ∧
    gi.ProductiveRules Sample.sem ∧ gi.productionRules.length = 4 := by
  obtain ⟨gi, prog, h, h1, h2, -⟩ := Sample.generated
  exact ⟨gi, prog, h, Sample.disjoint h1 h2, (Sample.firstComplete h1).actions, Sample.productive h1 h2, by rw [h1]; rfl⟩

end

end Verif.C70
