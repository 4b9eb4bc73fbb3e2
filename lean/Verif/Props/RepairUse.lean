import Verif.Props.RepairMore
import Verif.Props.Nesting
import Verif.Props.Useful
import Verif.Props.OrderSample

/-!
# C88: rules that are of use and stacks that grow, with the change of the FIRST table
-/

set_option autoImplicit false
set_option linter.unusedSectionVars false

namespace Verif
open Spec

namespace GeneratedRepaired
variable {o : HashOrder} {lex : Lexer} {gi : GrammarInfo} {prog : Program}

theorem ctx_exact (h : GeneratedRepaired o lex gi prog) :
    ∃ F kt, F.NodesFirst = InFirst gi.indexedGrammar.cfg ∧ GenCtx o lex gi prog F kt := by
  have henc := (IndexedGrammar.build_ok h.grammar).1
  obtain ⟨fuel, hb⟩ := h.table
  obtain ⟨F, kt, hres, hfirst, hB⟩ := repaired_of_ok henc.wf hb
  refine ⟨F, kt, hfirst, ⟨henc, ⟨henc.wf, hres, henc.epsLast h.epsilonLast, ?_, henc.vocab, hB⟩, h.program⟩, h.compiles⟩
  intro r hr
  obtain ⟨i, hi⟩ := List.mem_iff_getElem?.mp hr
  obtain ⟨q, hq, rfl⟩ := cfg_get.mp hi
  exact henc.noEnd gi.noEndMarker q (List.mem_of_getElem? hq)

theorem tokMatch_eq {P V E σ : Type} [DecidableEq P] {sem : Sem P V E σ} (h : GeneratedRepaired o lex gi prog) :
    gi.tokMatch sem = idMatch gi.indexedGrammar (gi.Means sem) := by
  funext a k
  refine propext ⟨?_, ?_⟩
  · rintro ⟨t, h1, h2⟩
    obtain ⟨r, hr, hm⟩ := IndexedGrammar.build_used h.grammar t (List.mem_of_getElem? h1)
    exact ⟨t, h1, GrammarInfo.terminal_of_mem hr hm, h2⟩
  · rintro ⟨t, h1, h2, h3⟩
    exact ⟨t, h1, h3⟩

end GeneratedRepaired

namespace C88

section
variable {T L : Type} [DecidableEq T] [DecidableEq L] {g : Grammar T L} {p : SimParser T L}

/-- Runs of the simulator are runs of the canonical parser. -/
theorem run_of_good {F : FirstTable} {kt : KernelTable} (h : Good p.grammar F kt p.lrTable) {w : List T} {ss : List Nat}
    {ns : List INode} {z : List T} {tr : List Nat} (hr : SimRun p w ss ns z tr) :
    ∃ c : Config Nat Nat T, Steps p.grammar.cfg F.NodesFirst (tokMatch p.grammar) (.start w) c tr ∧
      Stk p.grammar F kt ss c.stack ∧ ns = c.stack.reverse ∧ z = c.input := by
  induction hr with
  | start => exact ⟨.start w, .refl _, .nil, rfl, rfl⟩
  | @step ss ss' ns ns' z z' tr _ he ih =>
    obtain ⟨c, h1, h2, rfl, rfl⟩ := ih
    rcases step_sim (ε := LRTableError T L) h h2 with ⟨h3, e⟩ | ⟨h3, e⟩ | ⟨c', o, ss'', h3, h4, e, e'⟩
    · rw [e] at he; cases he
    · rw [e] at he; cases he
    · rw [e] at he
      cases he
      refine ⟨c', ?_, h4, rfl, rfl⟩
      rw [e']
      exact h1.snoc h3

/-- **C88 (C70).** With the change, the simulator reduces by a rule exactly on the inputs with a parse tree in which the rule
occurs. -/
theorem reduced_iff_in_tree {n : Nat} (w : List T) (k : Nat) (hg : WellFormed g)
    (hp : SimParser.newRepaired n g = .ok p) : C70.Reduces p w k ↔ ∃ f, ParseTree g f w ∧ f.Uses k := by
  obtain ⟨F, kt, hr⟩ := ready hg hp
  obtain ⟨r0, hr0, hs⟩ := hr.good.root_rule
  constructor
  · rintro ⟨ss, ns, tr, h1, h2, i, hi, r, hir, hk⟩
    obtain ⟨c, h3, h4, rfl, hz⟩ := run_of_good hr.good h1
    have hacc : Accepting p.grammar.cfg F.NodesFirst (tokMatch p.grammar) c := by
      rw [hz] at h2
      rcases step_sim (ε := LRTableError T L) hr.good h4 with ⟨hacc, e⟩ | ⟨-, e⟩ | ⟨_, _, _, _, _, e, -⟩
      · exact hacc
      · rw [e] at h2; cases h2
      · rw [e] at h2; cases h2
    obtain ⟨-, r0', hr0', -, h5⟩ := h3.sound hr.good.rootOk hacc
    rw [hr0] at hr0'
    cases hr0'
    rw [hs] at h5
    refine ⟨_, hr.tree h5, (uses_mapRules _).mpr ⟨i, ?_, by rw [orig_eq hir, hk]⟩⟩
    rcases List.mem_cons.mp hi with rfl | hi
    · exact .inl rfl
    · exact .inr (.inl (h3.traced_mpr (.inr hi)))
  · rintro ⟨f, hf, hu⟩
    obtain ⟨f', h6, rfl⟩ := hr.tree' hf
    rw [← hs] at h6
    obtain ⟨c, tr, h3, -, hacc⟩ := h6.accepted hr.exact hr.good.rootOk hr.good.rootOnce hr0
    obtain ⟨-, r0', hr0', -, h5⟩ := h3.sound hr.good.rootOk hacc
    rw [hr0] at hr0'
    cases hr0'
    rw [h6.unique hr.exact hr.good.rootOk hr.good.rootOnce hr.good.noConflict hr.good.unique hr0 h5] at hu h6
    obtain ⟨ss, h8, h7, -⟩ := C86.run_of_steps hr.good h3
    simp only at h7
    have hdone : (p.step ss (rhs r0).reverse [] : Outcome (LRTableError T L) _) = .ok (.done true) := by
      rcases step_sim (ε := LRTableError T L) hr.good h8 with ⟨-, e⟩ | ⟨h9, -⟩ | ⟨_, _, _, h9, -⟩
      · exact e
      · exact absurd (accepting_iff.mp hacc) (stuck_iff.mp h9 _)
      · exact absurd hacc (h9.not_accepting hr.good.noConflict hr.good.unique)
    refine ⟨ss, _, tr, h7, hdone, ?_⟩
    obtain ⟨i, hi, hk⟩ := (uses_mapRules _).mp hu
    have hex : ∃ r, p.grammar.cfg[i]? = some r := uses_rule h6 hi
    obtain ⟨r, hr1⟩ := hex
    obtain ⟨q, hq, -⟩ := cfg_get.mp hr1
    refine ⟨i, ?_, q, hq, by rw [← orig_eq hq, hk]⟩
    rcases hi with rfl | hi | hi
    · exact List.mem_cons_self
    · rcases h3.traced hi with h | h
      · exact absurd h (by simp [Config.start, Forest.ofTrees, Forest.Uses])
      · exact List.mem_cons_of_mem _ h
    · exact absurd hi (by simp [Forest.Uses])

/-- **C88 (C70).** With the change, every rule of a grammar whose labels all derive something is of use: there is an input
that is accepted with a reduction by it. -/
theorem no_dead_rules {n : Nat} (hg : WellFormed g) (hpr : Productive g.productions)
    (hp : SimParser.newRepaired n g = .ok p) (k : Nat) (hk : k < g.productions.length) : ∃ w, C70.Reduces p w k := by
  have hi := (newRepaired_ok hp).1
  obtain ⟨f, w, hf, hu⟩ := C70.tree_with_rule hi (C70.rules_derive hi hg.noEndMarker hpr) hk
  exact ⟨w, (reduced_iff_in_tree w k hg hp).mpr ⟨f, parseTree_iff.mpr hf, hu⟩⟩

/-- **C88 (C87).** With the change, the stack is bounded exactly if all recursion of the grammar is left recursion, and
otherwise sentences fill a stack of any size. -/
theorem constant_stack_iff {n : Nat} (hg : WellFormed g) (hpr : Productive g.productions)
    (hp : SimParser.newRepaired n g = .ok p) :
    ((∃ B, ∀ w ss ns z tr, SimRun p w ss ns z tr → ss.length ≤ B) ↔ LeftOnly g.productions) ∧
      (¬ LeftOnly g.productions → ∀ m, ∃ w ss ns z tr, Language g w ∧ SimRun p w ss ns z tr ∧ m < ss.length) := by
  obtain ⟨F, kt, h⟩ := ready hg hp
  have hi := (newRepaired_ok hp).1
  have hprod : ProductiveM p.grammar.cfg (tokMatch p.grammar) := by
    rw [tokMatch_eq]
    refine productiveM h.enc hg.noEndMarker (fun t _ => ⟨t, rfl⟩) fun r hr => ?_
    obtain ⟨w, hw⟩ := hpr r hr
    obtain ⟨f, hf⟩ := hw.parses
    exact ⟨f, w, parses_iff_parsesM.mp hf⟩
  have grows : ¬ LeftOnly g.productions → ∀ m, ∃ w ss ns z tr, Language g w ∧ SimRun p w ss ns z tr ∧ m < ss.length := by
    intro hl m
    obtain ⟨w, c, tr, f, h1, h2, h3⟩ := C86.stack_ge hi hprod h.good.rootOk h.good.root_rule hl m
    obtain ⟨ss, -, h4, h5⟩ := C86.run_of_steps h.good (h1.mono h.exact)
    exact ⟨w, ss, _, _, _, language_iff_parseTree.mpr ⟨_, h.tree h3⟩, h4, by omega⟩
  refine ⟨⟨fun ⟨B, hB⟩ => ?_, fun hl => ⟨1 + longest g.productions * labelCount g.productions, ?_⟩⟩, grows⟩
  · by_contra hl
    obtain ⟨w, ss, ns, z, tr, -, h1, h2⟩ := grows hl B
    have := hB w ss ns z tr h1
    omega
  · intro w ss ns z tr hr
    obtain ⟨c, h1, h2, rfl, -⟩ := run_of_good h.good hr
    have h3 := C86.stack_le h.enc hl h1
    have h4 := h2.length
    omega

/-- **C88 (C61).** With the change, the simulator accepts exactly what the LR(1) parser of the textbook accepts. -/
theorem simulator_is_lr1 {n : Nat} (hg : WellFormed g) (hp : SimParser.newRepaired n g = .ok p) (w : List T) :
    ∃ b N, (∀ fuel ≥ N, (p.parseStream fuel w : Outcome (LRTableError T L) _) = .ok b) ∧
      (b = true ↔ C61.Accepts g (InFirst g.productions) w) := by
  obtain ⟨hi, ht⟩ := newRepaired_ok hp
  have henc := (IndexedGrammar.build_ok hi).1
  obtain ⟨F, kt, hF, hfirst, hB⟩ := repaired_of_ok henc.wf ht
  have hR : Good p.grammar F kt p.lrTable := ⟨henc.wf, hF, henc.wellFormed hg, henc.vocab, hB⟩
  have hS := sameFirst_true hi
  rw [← hfirst] at hS
  obtain ⟨c', tr', h1, h2⟩ := reaches_final (m := tokMatch p.grammar) hR.rootOk hR.justified hR.noEos _ (.start w) rfl .nil
  have hM := loop_terminates (ε := LRTableError T L) hR h1 h2 .nil
  have hn := (noConflict_iff henc hS).mp hR.noConflict
  have hu : Unique (fun a t : T => a = t) := by rintro a b b' rfl rfl; rfl
  have key : ∀ fuel ≥ tr'.length + w.length + 1,
      (C61.Accepts g (InFirst g.productions) w ∧ (p.parseStream fuel w : Outcome (LRTableError T L) _) = .ok true) ∨
      (¬ C61.Accepts g (InFirst g.productions) w ∧ (p.parseStream fuel w : Outcome (LRTableError T L) _) = .ok false) := by
    intro fuel hf
    have h0 : Stk p.grammar F kt [LRTable.rootState] (Config.start w : Config Nat Nat T).stack := .nil
    rcases loop_sim (ε := LRTableError T L) hR fuel (c := .start w) h0 with e | ⟨c, tr, k1, k2⟩
    · exact absurd e (hM fuel hf)
    · rw [tokMatch_eq] at k1 k2
      obtain ⟨d, k3, k4⟩ := steps_dec henc hS k1 (.start w)
      rcases k2 with ⟨k5, e⟩ | ⟨k5, e⟩
      · exact .inl ⟨⟨d, _, k3, accepting_dec henc hS k5 k4⟩, e⟩
      · refine .inr ⟨?_, e⟩
        rintro ⟨d', tr2, k6, k7⟩
        have k8 := stuck_dec henc hS k5 k4
        obtain ⟨rfl, -⟩ := k3.unique hn hu (.inr k8) k6 (.inl k7)
        exact stuck_iff.mp k8 _ (accepting_iff.mp k7)
  by_cases ha : C61.Accepts g (InFirst g.productions) w
  · exact ⟨true, _, fun fuel hf => (key fuel hf).elim (·.2) fun h => absurd ha h.1, by simp [ha]⟩
  · exact ⟨false, _, fun fuel hf => (key fuel hf).elim (fun h => absurd h.1 ha) (·.2), by simp [ha]⟩

end

section
variable {P V E F' σ : Type} [DecidableEq P] {o : HashOrder} {lex : Lexer} {gi : GrammarInfo} {prog : Program}

/-- **C88 (C70).** The same for generated parsers. -/
theorem generated_no_dead_rules (h : GeneratedRepaired o lex gi prog) (sem : Sem P V E σ) (hD : gi.Disjoint sem)
    (hp : gi.ProductiveRules sem) (k : Nat) (hk : k < gi.productionRules.length) :
    ∃ W f, ParseTreeM gi.grammar (Matches sem gi.terminalType) f W ∧ f.Uses k ∧
      ∀ (sem' : Sem P V E σ), sem'.litVal = sem.litVal → sem'.pat = sem.pat →
      ∀ (debug : Bool) (into : F' → E) (items : Nat → Option (Item P F')) (w0 : σ),
        (∀ i a, W[i]? = some a → items i = some (.ok a)) → items W.length = none →
        ∃ N run, (∀ fuel ≥ N, prog.parseFallible debug sem' into items fuel w0 = .ok run) ∧
          (C70.Fails gi sem' k → ∃ e, run.result = .error (.user e)) ∧
          (C70.Succeed gi sem' → ∃ v, run.result = .ok v) := by
  obtain ⟨f, W, hf, hu⟩ := C70.tree_with_rule (M := Matches sem gi.terminalType) h.grammar hp (k := k)
    (by simpa [GrammarInfo.grammar] using hk)
  refine ⟨W, f, hf, hu, fun sem' h1 h2 debug into items w0 hW hend => ?_⟩
  have hm : Matches sem' gi.terminalType = Matches sem gi.terminalType := matches_congr h1 h2
  have hD' : gi.Disjoint sem' := by
    intro a s s' h3 h4 h5 h6
    rw [hm] at h5 h6
    exact hD a s s' h3 h4 h5 h6
  obtain ⟨N, run, hN, hres, -⟩ := generated_evaluates_sentences h debug sem' into items W w0 hD' hW hend
  refine ⟨N, run, hN, fun hF => ?_, fun hS => ?_⟩
  · rcases hres f (by rw [hm]; exact hf) with ⟨v, h3, -⟩ | ⟨e, -, h4⟩
    · obtain ⟨e, w', h5⟩ := eval_fails (tok := .tok) hF hu w0
      rw [value, h5] at h3
      cases h3
    · exact ⟨e, h4⟩
  · rcases hres f (by rw [hm]; exact hf) with ⟨v, -, h4⟩ | ⟨e, h3, -⟩
    · exact ⟨v, h4⟩
    · obtain ⟨vs, w', h5⟩ := eval_succeeds (tok := .tok) hS f w0
      rw [value, h5] at h3
      cases h3

/-- **C88 (C87).** The same for generated parsers: if not all recursion is left recursion, sentences fill a stack of any
size. -/
theorem generated_stack_grows (h : GeneratedRepaired o lex gi prog) (debug : Bool) (sem : Sem P V E σ) (into : F' → E)
    (w0 : σ) (hD : gi.Disjoint sem) (hpr : gi.ProductiveRules sem)
    (hS : C70.Succeed gi sem) (hl : ¬ LeftOnly gi.grammar.productions) (n : Nat) :
    ∃ W, gi.Sentence sem W ∧ ∀ items : Nat → Option (Item P F'), (∀ i a, W[i]? = some a → items i = some (.ok a)) →
      items W.length = none → ∃ st w, GenReach debug sem into items prog w0 st w ∧ n < st.stack.length := by
  obtain ⟨F, kt, hF, hx⟩ := h.ctx
  have hprod : ProductiveM gi.indexedGrammar.cfg (gi.tokMatch sem) := by
    refine Verif.productiveM hx.enc gi.noEndMarker (fun t ht => ?_) fun r hr => ?_
    · obtain ⟨q, hq, hm⟩ := IndexedGrammar.build_used h.grammar t ht
      obtain ⟨f, w, hfw⟩ := hpr q hq
      exact ParsesM.matched hfw hm
    · obtain ⟨f, w, hfw⟩ := hpr r hr
      obtain ⟨i, hi⟩ := List.mem_iff_getElem?.mp hr
      exact ⟨_, _, .prod hi hfw .nil⟩
  obtain ⟨W, c, tr, f, h1, h2, h3⟩ := C86.stack_ge h.grammar hprod hx.good.rootOk hx.good.root_rule hl n
  refine ⟨W, ⟨_, parseTreeM_dec hx.enc h3⟩, fun items hW hend => ?_⟩
  obtain ⟨st, w, h4, h5⟩ := C86.reach_of_steps hx debug into w0 (h.unique hD) hS hW hend (h1.mono hF)
  exact ⟨st, w, h4, by omega⟩

/-- **C88 (C61).** With the change, generated parsers do exactly what the LR(1) parser of the textbook does. -/
theorem generated_is_lr1 (h : GeneratedRepaired o lex gi prog) (debug : Bool) (sem : Sem P V E σ) (into : F' → E)
    (items : Nat → Option (Item P F')) (W : List (Token P)) (w0 : σ) (hD : gi.Disjoint sem)
    (hW : ∀ i a, W[i]? = some a → items i = some (.ok a)) (hend : items W.length = none) :
    ∃ N run r z, (∀ fuel ≥ N, prog.parseFallible debug sem into items fuel w0 = .ok run) ∧
      run.result = resultOf r ∧ run.pulled + z.length = W.length + 1 ∧
      Ends gi.grammar.productions (InFirst gi.grammar.productions) (gi.Means sem) .tok (construct gi sem) w0 W
        r run.world z ∧
      ∀ r' w' z', Ends gi.grammar.productions (InFirst gi.grammar.productions) (gi.Means sem) .tok (construct gi sem) w0
        W r' w' z' → r' = r ∧ w' = run.world ∧ z' = z := by
  obtain ⟨K, hK⟩ := generated_linear h
  obtain ⟨run, hN⟩ := hK debug sem into items W w0 hW (by rw [hend]; intro a; simp)
  generalize K * (W.length + 1) = N at hN
  obtain ⟨F, kt, hfirst, hx⟩ := h.ctx_exact
  have hU := h.unique hD
  have hS := sameFirst_true h.grammar
  rw [← hfirst] at hS
  have hn := (noConflict_iff hx.enc hS).mp hx.good.noConflict
  obtain ⟨c, tr, st, w1, res, hfin⟩ := hx.finish (hN N (Nat.le_refl _)) hW
    (.inr (by intro a; rw [hend]; simp))
  have hno : ∀ f, st.next ≠ some (.error f) := by
    intro f e
    rw [hfin.next] at e
    rcases Nat.eq_or_lt_of_le (Nat.sub_le W.length c.input.length) with e' | hlt
    · rw [e', hend] at e; cases e
    · rw [hW _ _ (List.getElem?_eq_getElem hlt)] at e; cases e
  obtain ⟨vs, -, hvs⟩ := hfin.holds
  have hnode : ∀ {x : Except E (List (Val P V)) × σ},
      eval .tok (fun i => construct gi sem (gi.indexedGrammar.orig i)) (.node 0 (Forest.ofTrees c.trees) .nil) w0 = x →
      (∀ v w', x = (.ok [v], w') → construct gi sem (gi.indexedGrammar.orig 0) vs w1 = (.ok v, w')) ∧
      (∀ e w', x = (.error e, w') → construct gi sem (gi.indexedGrammar.orig 0) vs w1 = (.error e, w')) := by
    intro x hx'
    simp only [eval, hvs, andThen] at hx'
    rcases hcon : construct gi sem (gi.indexedGrammar.orig 0) vs w1 with ⟨_ | _, w2⟩ <;>
      rw [hcon] at hx' <;> simp only at hx' <;> subst hx' <;> simp
  have key : ∃ r, run.result = resultOf r ∧
      Ends gi.grammar.productions (InFirst gi.grammar.productions) (gi.Means sem) .tok (construct gi sem) w0 W r run.world
        c.input := by
    have hgen := hfin.gen
    have hsteps := hfin.steps
    have hM := h.tokMatch_eq (sem := sem)
    rw [hM] at hsteps
    rcases hfin.done with ⟨v', st', w', rfl, rfl⟩ | ⟨e, w', rfl, rfl⟩
    · cases hgen with
      | accept _ _ g1 g2 g3 g4 =>
        rw [hM] at g1
        exact ⟨.value v', rfl, ends_dec hx.enc hS (.accept hsteps hvs g1 ((hnode g4).1 _ _ rfl))⟩
    · cases hgen with
      | stream g => exact absurd g (hno _)
      | overlap _ g => exact absurd g.2.2 (not_overlap_of_unique hU)
      | stuck _ _ g =>
        rw [hM] at g
        exact ⟨.unexpected _, rfl, ends_dec hx.enc hS (.stuck hsteps hvs g)⟩
      | acceptFail _ _ g1 g2 g3 g4 =>
        rw [hM] at g1
        exact ⟨.failed _, rfl, ends_dec hx.enc hS (.acceptFail hsteps hvs g1 ((hnode g4).2 _ _ rfl))⟩
      | reduceFail g0 _ g1 g2 =>
        rw [hM] at g1
        exact ⟨.failed _, rfl, ends_dec hx.enc hS (.reduceFail hsteps hvs g1 g2)⟩
  obtain ⟨r, hr, he⟩ := key
  refine ⟨N, run, r, c.input, hN, hr, by rw [hfin.total]; exact hfin.pulled, he, fun r' w' z' h' => ?_⟩
  obtain ⟨rfl, rfl, rfl⟩ := he.unique hn hD.unique h'
  exact ⟨rfl, rfl, rfl⟩

end

/-! ### Order of rules, additional rules and other roots, for generated parsers -/

section
variable {P V E F' σ : Type} [DecidableEq P] {lex lex' : Lexer} {o o' : HashOrder} {gi gi' : GrammarInfo}
  {prog prog' : Program} {sem sem' : Sem P V E σ}

/-- **C88 (C62).** With the change, parsers generated for the same rules in different orders do the same. -/
theorem generated_order {π : Equiv.Perm Nat} (hG : GeneratedRepaired o lex gi prog)
    (hG' : GeneratedRepaired o' lex' gi' prog')
    (h : Reordered π gi.productionRules gi'.productionRules) (ht : gi'.terminalType = gi.terminalType)
    (debug debug' : Bool) (hs : SameMeaning π sem sem') (hD : gi.Disjoint sem)
    (into : F' → E) (items : Nat → Option (Item P F')) (W : List (Token P)) (w0 : σ)
    (hW : ∀ i a, W[i]? = some a → items i = some (.ok a)) (hend : items W.length = none) :
    ∃ N run run', (∀ fuel ≥ N, prog.parseFallible debug sem into items fuel w0 = .ok run ∧
        prog'.parseFallible debug' sem' into items fuel w0 = .ok run') ∧
      run'.result = run.result ∧ run'.world = run.world ∧ run'.pulled = run.pulled := by
  have hM := C62.means_order h ht hs
  have hD' : gi'.Disjoint sem' := by
    intro a s s' h1 h2 h3 h4
    rw [ht] at h3 h4
    exact hD a s s' ((C62.terminal_order h).mpr h1) ((C62.terminal_order h).mpr h2) (C62.matches_order hs.symm h3)
      (C62.matches_order hs.symm h4)
  obtain ⟨N, run, r, z, h1, h2, h3, h4, -⟩ := generated_is_lr1 hG debug sem into items W w0 hD hW hend
  obtain ⟨N', run', r', z', h1', h2', h3', -, h5'⟩ := generated_is_lr1 hG' debug' sem' into items W w0 hD' hW hend
  refine ⟨max N N', run, run', fun fuel hf => ⟨h1 fuel (by omega), h1' fuel (by omega)⟩, ?_⟩
  have hm : Reordered π gi.grammar.productions gi'.grammar.productions := h.map ARule.toLr
  have hfirst : ∀ α t, InFirst gi.grammar.productions α t ↔ InFirst gi'.grammar.productions α t :=
    fun α t => ⟨hm.moved.inFirst, hm.symm.moved.inFirst⟩
  have := hm.moved.ends (hm.moved.demands_iff hfirst) (apply' := construct gi' sem') (C62.construct_order h hs) h4
  rw [hM] at this
  obtain ⟨rfl, hw, rfl⟩ := h5' _ _ _ this
  exact ⟨h2'.trans h2.symm, hw.symm, by omega⟩

/-- **C88 (C72).** With the change, additional rules do not change what the generated parser does on the sentences of the
smaller grammar. -/
theorem generated_adding_rules {ρ : Nat → Nat} (hG : GeneratedRepaired o lex gi prog)
    (hG' : GeneratedRepaired o' lex' gi' prog')
    (h : Extends ρ gi.productionRules gi'.productionRules) (ht : gi'.terminalType = gi.terminalType)
    (hs : KeptMeaning ρ sem sem') (hD : gi'.Disjoint sem') (debug debug' : Bool) (into : F' → E)
    (items : Nat → Option (Item P F'))
    (W : List (Token P)) (w0 : σ) (hW : ∀ i a, W[i]? = some a → items i = some (.ok a)) (hend : items W.length = none)
    (hS : gi.Sentence sem W) :
    ∃ N run run', (∀ fuel ≥ N, prog.parseFallible debug sem into items fuel w0 = .ok run ∧
        prog'.parseFallible debug' sem' into items fuel w0 = .ok run') ∧
      run'.result = run.result ∧ run'.world = run.world := by
  obtain ⟨f, hf⟩ := hS
  obtain ⟨N, run, hN, hres, -⟩ := generated_evaluates_sentences hG debug sem into items W w0
    (C72.disjoint_of_extend h ht hs hD) hW hend
  obtain ⟨N', run', hN', hres', -⟩ := generated_evaluates_sentences hG' debug' sem' into items W w0 hD hW hend
  replace hres := hres f hf
  replace hres' := hres' _ (C72.tree_extend h ht hs hf)
  obtain ⟨root, rest, -, hd⟩ := hf
  rw [C72.value_extend h hs hd] at hres'
  refine ⟨max N N', run, run', fun fuel hf => ⟨hN fuel (by omega), hN' fuel (by omega)⟩, ?_⟩
  rcases hres with ⟨v, e1, e2⟩ | ⟨e, e1, e2⟩ <;> rcases hres' with ⟨v', e1', e2'⟩ | ⟨e', e1', e2'⟩ <;>
    rw [e1] at e1' <;> simp only [Prod.mk.injEq, Except.ok.injEq, Except.error.injEq, List.cons.injEq, and_true,
      reduceCtorEq, false_and] at e1'
  · exact ⟨by rw [e2, e2', e1'.1], e1'.2.symm⟩
  · exact ⟨by rw [e2, e2', e1'.1], e1'.2.symm⟩

/-- **C88 (C82).** With the change, the generated parser for a label evaluates the tree of the label as in the old grammar
and runs the constructor of the new root. -/
theorem generated_label {ρ : Nat → Nat} {s l : String} (h : RootedFile ρ s l gi gi') (hsl : s ≠ l)
    (hs : KeptBelow ρ sem sem')
    (hG' : GeneratedRepaired o lex gi' prog') (hD : gi'.Disjoint sem') (debug : Bool)
    (into : F' → E) (items : Nat → Option (Item P F')) (W : List (Token P)) (f : Forest (Token P)) (w0 : σ)
    (hW : ∀ i a, W[i]? = some a → items i = some (.ok a)) (hend : items W.length = none)
    (hf : ParsesM gi.grammar.productions (Matches sem gi.terminalType) f [.production l] W) :
    ∃ N run, (∀ fuel ≥ N, prog'.parseFallible debug sem' into items fuel w0 = .ok run) ∧
      ((∃ v, andThen (value gi sem f w0) (construct gi' sem' 0) = (.ok v, run.world) ∧ run.result = .ok v) ∨
        ∃ e, andThen (value gi sem f w0) (construct gi' sem' 0) = (.error e, run.world) ∧
          run.result = .error (.user e)) := by
  obtain ⟨c, k1, rfl⟩ := h.grammar.parses_new (fun a ha => by simp at ha; subst ha; exact .root) hf
  rw [C72.matches_congr hs.litVal hs.pat, ← h.terminals] at k1
  obtain ⟨rest', e'⟩ := C82.cons h.grammar
  have ht : ParseTreeM gi'.grammar (Matches sem' gi'.terminalType) (.node 0 c .nil) W := by
    refine ⟨_, _, e', ?_⟩
    have := ParsesM.prod h.grammar.root k1 .nil
    simpa using this
  obtain ⟨N, run, hN, hres, -⟩ := generated_evaluates_sentences hG' debug sem' into items W w0 hD hW hend
  replace hres := hres _ ht
  refine ⟨N, run, hN, ?_⟩
  rw [C82.value_root, C82.value_label h hs (by simpa using hsl) k1] at hres
  rcases hx : value gi sem (c.mapRules ρ) w0 with ⟨e | u, w1⟩
  · rw [hx] at hres
    simpa [andThen] using hres
  · rw [hx] at hres
    simp only [andThen] at hres ⊢
    rcases hy : construct gi' sem' 0 u w1 with ⟨e | v', w2⟩
    · rw [hy] at hres
      simpa using hres
    · rw [hy] at hres
      simpa using hres

end

/-! ### Concrete cases -/

/-- The grammar that has dead rules in the repository (`C70.no_dead_rules_refuted_first`) has none. -/
example : ∃ p, SimParser.newRepaired 20 C07.witness = .ok p ∧ ∀ k < 4, ∃ w, C70.Reduces p w k := by
  obtain ⟨p, h1, -⟩ := witness_accepted
  obtain ⟨h2, h3, -⟩ := C83.ll1_parser_refuted
  exact ⟨p, h1, fun k hk => no_dead_rules h2 h3 h1 k hk⟩

/-- The grammar whose parser never moves in the repository (`C86.stack_grows_refuted`) fills stacks of any size. -/
example : ∃ p, SimParser.newRepaired 20 C86.muted = .ok p ∧
    ∀ m, ∃ w ss ns z tr, Language C86.muted w ∧ SimRun p w ss ns z tr ∧ m < ss.length := by
  have h : (do
      let p ← SimParser.newRepaired 20 C86.muted
      p.parseStream 20 [7]) = Outcome.ok true := by decide +kernel
  obtain ⟨p, h1, -⟩ := Outcome.bind_eq_ok.mp h
  obtain ⟨⟨h2, h3, h4, -⟩, -⟩ := C86.stack_grows_refuted
  exact ⟨p, h1, (constant_stack_iff h2 h3 h1).2 h4⟩

/-- The generated sample parser recurses on the right. -/
example : ∃ gi prog, GeneratedRepaired .id Sample.lexer gi prog ∧ ∀ n, ∃ W, gi.Sentence C77.sem W ∧
    ∀ items : Nat → Option (Item Nat String), (∀ i a, W[i]? = some a → items i = some (.ok a)) →
      items W.length = none →
      ∃ st w, GenReach true C77.sem (id : String → String) items prog 0 st w ∧ n < st.stack.length := by
  obtain ⟨gi, prog, h0, h1, h2, -⟩ := Sample.generated
  have h := (generated_same_if_complete (Sample.firstComplete h1)).mpr h0
  have e : Matches C77.sem gi.terminalType = Matches Sample.sem gi.terminalType :=
    Verif.matches_congr (sem := Sample.sem) (sem' := C77.sem) rfl rfl
  refine ⟨gi, prog, h, generated_stack_grows h true C77.sem id 0 ?_ ?_ ?_ ?_⟩
  · unfold GrammarInfo.Disjoint
    rw [e]
    exact Sample.disjoint h1 h2
  · unfold GrammarInfo.ProductiveRules
    rw [e]
    exact Sample.productive h1 h2
  · intro k vs w
    unfold construct
    split
    · exact ⟨_, _, rfl⟩
    · dsimp only
      split
      · exact ⟨_, _, rfl⟩
      · split <;> exact ⟨_, _, rfl⟩
      · exact ⟨_, _, rfl⟩
  · have e : gi.grammar.productions = Sample.rules.map ARule.toLr := by unfold GrammarInfo.grammar; rw [h1]
    rw [e]
    exact fun h => h "L" "L" ⟨⟨"L", [.terminal (.token ⟨"Plus", .none⟩), .production "L"]⟩, by decide, rfl,
      [.terminal (.token ⟨"Plus", .none⟩)], [], by simp, rfl⟩ .refl

/-- The two rules whose exchange makes the parser of the repository accept what it rejected (`C62.generated_order_refuted`)
can be exchanged: both parsers accept `X`. -/
example : ∃ (gi : GrammarInfo) (prog : Program) (gi' : GrammarInfo) (prog' : Program),
    gi.productionRules = Sample.incomplete ∧ gi'.productionRules = Sample.exchanged ∧
    GeneratedRepaired .id Sample.lexer gi prog ∧ GeneratedRepaired .id Sample.lexer gi' prog' ∧
    ∃ N run run', (∀ fuel ≥ N,
        prog.parseFallible true Sample.sem1 id (Sample.stream [.unit "X"] none) fuel 0 = .ok run ∧
        prog'.parseFallible true Sample.sem1 id (Sample.stream [.unit "X"] none) fuel 0 = .ok run') ∧
      (∃ v, run.result = .ok v) ∧ run'.result = run.result := by
  obtain ⟨gi, prog, h, h1, h2, hD, run0, v, h3, h4⟩ := generated_witness_accepted
  obtain ⟨gi', prog', h', -, h1', h2', -⟩ := Sample.runs_ok (o := .id) (rules := Sample.exchanged)
    (labels := ["S", "Y", "B", "A"]) (sem := Sample.sem1) (ts := [.unit "X"]) (r := .ok .unit) (r' := .ok .unit)
    (by unfold EpsilonLast; decide) (by decide +kernel)
  have hG' := (generated_same_if_complete (Sample.complete_of_stable h1' (by decide +kernel))).mpr h'
  obtain ⟨N, run, run', hN, e, -⟩ := generated_order (π := Equiv.swap 2 3) h hG' (by rw [h1, h1']; exact Sample.exchange)
    (h2'.trans h2.symm) true true (Sample.sameMeaning 2 3) hD (id : String → String) (Sample.stream [.unit "X"] none)
    [.unit "X"] 0 (by
      intro i a hi
      match i, hi with
      | 0, hi => cases hi; rfl) rfl
  have : run = run0 := by
    have h5 := (hN (max N 50) (by omega)).1
    have h6 : prog.parseFallible true Sample.sem1 id (Sample.stream [.unit "X"] none) (max N 50) 0 = .ok run0 :=
      Program.loop_mono (Nat.le_max_right _ _) h3
    rw [h6] at h5
    cases h5
    rfl
  subst this
  exact ⟨gi, prog, gi', prog', h1, h1', h, hG', N, run, run', hN, ⟨v, h4⟩, e⟩

/-- The sample with a rule for `Minus` added. -/
example : ∃ (gi : GrammarInfo) (prog : Program) (gi' : GrammarInfo) (prog' : Program),
    GeneratedRepaired .id Sample.lexer gi prog ∧ GeneratedRepaired .id Sample.lexer gi' prog' ∧
      Extends C72.insertAt1 gi.productionRules gi'.productionRules ∧ gi'.terminalType = gi.terminalType ∧
      KeptMeaning C72.insertAt1 C72.telling C72.telling' ∧ gi'.Disjoint C72.telling' := by
  obtain ⟨gi, prog, h, h1, h2, -⟩ := Sample.generated
  obtain ⟨gi', prog', h', -, h1', h2', -⟩ := Sample.runs_ok (o := .id) (rules := C72.withMinus)
    (labels := ["S", "L"]) (sem := C72.telling') (ts := [.unit "Minus", .data "Num" 5]) (r := .ok (.user 0))
    (r' := .ok (.user 0)) (by unfold EpsilonLast; decide) (by decide +kernel)
  exact ⟨gi, prog, gi', prog', (generated_same_if_complete (Sample.firstComplete h1)).mpr h,
    (generated_same_if_complete (Sample.complete_of_stable h1' (by decide +kernel))).mpr h',
    by rw [h1, h1']; exact C72.withMinus_extends, h2'.trans h2.symm, C72.telling_kept, C72.withMinus_disjoint h1' h2'⟩

/-- The parser for `L` of `S => Minus L`. -/
example : ∃ (gi gi' : GrammarInfo) (prog' : Program), GeneratedRepaired .id Sample.lexer gi' prog' ∧
    RootedFile id "S" "L" gi gi' ∧ KeptBelow id C72.telling C72.telling ∧ gi'.Disjoint C72.telling := by
  obtain ⟨gi, -, -, -, h1, h2, -, -⟩ := Sample.runs_ok (o := .id) (rules := C82.minusRules)
    (labels := ["S", "L"]) (sem := C72.telling) (ts := [.unit "Plus"])
    (r := .error (.parseError (some (.unit "Plus")))) (r' := .error (.parseError (some (.unit "Plus"))))
    (by unfold EpsilonLast; decide) (by decide +kernel)
  obtain ⟨gi', prog', h', h1', h2', -⟩ := Sample.generated
  have : Matches C72.telling gi'.terminalType = Matches Sample.sem gi'.terminalType :=
    C72.matches_congr (sem := C72.telling) (sem' := Sample.sem) rfl rfl
  exact ⟨gi, gi', prog', (generated_same_if_complete (Sample.firstComplete h1')).mpr h',
    C82.minus_rooted h1 h1' (h2'.trans h2.symm), ⟨rfl, rfl, fun _ _ => rfl, fun _ _ => rfl⟩,
    by unfold GrammarInfo.Disjoint; rw [this]; exact Sample.disjoint h1' h2'⟩

end C88
end Verif
