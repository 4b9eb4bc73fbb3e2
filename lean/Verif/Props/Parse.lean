import Verif.Proof.Trees
import Verif.Props.Table

/-!
# C01–C05, C21, C22, C43, C44: the parse simulator
-/

set_option linter.unusedSectionVars false
set_option autoImplicit false

namespace Verif
open Spec
variable {T L : Type} [DecidableEq T] [DecidableEq L]

/-- `SimRun p w ss ns z tr`: parsing `w`, the simulator gets to the state stack `ss`, the node stack `ns`
(top first) and the remaining input `z`, having reduced the rules `tr`. -/
inductive SimRun (p : SimParser T L) (w : List T) : List Nat → List INode → List T → List Nat → Prop
  | start : SimRun p w [LRTable.rootState] [] w []
  | step {ss ss' : List Nat} {ns ns' : List INode} {z z' : List T} {tr : List Nat} :
      SimRun p w ss ns z tr →
      (p.step ss ns z : Outcome (LRTableError T L) _) = .ok (.continue ss' ns' z') →
      SimRun p w ss' ns' z' (tr ++ (p.reduction ss z).toList)

theorem new_ok {fuel : Nat} {g : Grammar T L} {p : SimParser T L} (h : SimParser.new fuel g = .ok p) :
    IndexedGrammar.build g = .ok p.grammar ∧ LRTable.build fuel p.grammar = .ok p.lrTable := by
  unfold SimParser.new at h
  rw [Outcome.bind_eq_ok] at h
  obtain ⟨ig, h1, h⟩ := h
  rw [Outcome.bind_eq_ok] at h
  obtain ⟨t, h2, h⟩ := h
  cases h
  exact ⟨h1, h2⟩

/-- More fuel does not change a result. -/
theorem loop_mono {ε : Type} {p : SimParser T L} {fuel fuel' : Nat} (hf : fuel ≤ fuel') {b : Bool} :
    ∀ {ss : List Nat} {ns : List INode} {z : List T}, (p.loop fuel ss ns z : Outcome ε _) = .ok b →
      (p.loop fuel' ss ns z : Outcome ε _) = .ok b := by
  induction fuel generalizing fuel' with
  | zero => intro ss ns z h; cases h
  | succ fuel ih =>
    intro ss ns z h
    obtain ⟨n, rfl⟩ : ∃ n, fuel' = n + 1 := ⟨fuel' - 1, by omega⟩
    unfold SimParser.loop at h ⊢
    rw [Outcome.bind_eq_ok] at h
    obtain ⟨r, h1, h2⟩ := h
    rw [h1, Outcome.ok_bind]
    cases r with
    | done b => exact h2
    | «continue» ss ns z => exact ih (by omega) h2

/-- A result is returned at the end of a run. -/
theorem parse_run {p : SimParser T L} {fuel : Nat} {w : List T} {b : Bool}
    (h : (p.parseStream fuel w : Outcome (LRTableError T L) _) = .ok b) :
    ∃ ss ns z tr, SimRun p w ss ns z tr ∧
      (p.step ss ns z : Outcome (LRTableError T L) _) = .ok (.done b) := by
  have key : ∀ fuel ss ns z tr, SimRun p w ss ns z tr →
      (p.loop fuel ss ns z : Outcome (LRTableError T L) _) = .ok b →
      ∃ ss ns z tr, SimRun p w ss ns z tr ∧
        (p.step ss ns z : Outcome (LRTableError T L) _) = .ok (.done b) := by
    intro fuel
    induction fuel with
    | zero => intro ss ns z tr _ h; cases h
    | succ fuel ih =>
      intro ss ns z tr hr h
      unfold SimParser.loop at h
      rw [Outcome.bind_eq_ok] at h
      obtain ⟨r, h1, h2⟩ := h
      cases r with
      | done b' => cases h2; exact ⟨ss, ns, z, tr, hr, h1⟩
      | «continue» ss' ns' z' => exact ih _ _ _ _ (.step hr h1) h2
  exact key fuel _ _ _ _ .start h

/-- A successfully created parser for a well-formed grammar. -/
structure Ready (g : Grammar T L) (p : SimParser T L) (F : FirstTable) (kt : KernelTable) : Prop where
  enc : IndexedGrammar.Encodes g p.grammar
  first : (FirstTable.build p.grammar : Outcome (LRTableError T L) _) = .ok F
  built : IndexedGrammar.build g = .ok p.grammar
  good : Good p.grammar F kt p.lrTable

theorem ready {fuel : Nat} {g : Grammar T L} {p : SimParser T L} (hg : WellFormed g)
    (h : SimParser.new fuel g = .ok p) : ∃ F kt, Ready g p F kt := by
  obtain ⟨h1, h2⟩ := new_ok h
  obtain ⟨F, kt, h3, h4⟩ := good_of_build h1 hg h2
  exact ⟨F, kt, (IndexedGrammar.build_ok h1).1, h3, h1, h4⟩

namespace Ready
variable {g : Grammar T L} {p : SimParser T L} {F : FirstTable} {kt : KernelTable} (h : Ready g p F kt)
include h

theorem closed (hc : C07.ActionsComplete g) : Covers p.grammar.cfg F.NodesFirst :=
  hc.covers h.built h.first

theorem root : ∃ r, p.grammar.cfg[0]? = some r ∧ r.symbol = 0 := h.good.root_rule

theorem run {w : List T} {ss : List Nat} {ns : List INode} {z : List T} {tr : List Nat}
    (hr : SimRun p w ss ns z tr) :
    ∃ c : Config Nat Nat T, Steps p.grammar.cfg F.NodesFirst (tokMatch p.grammar) (.start w) c tr ∧
      Stk p.grammar F kt ss c.stack ∧ ns = c.stack.reverse ∧ z = c.input := by
  induction hr with
  | start => exact ⟨.start w, .refl _, .nil, rfl, rfl⟩
  | @step ss ss' ns ns' z z' tr _ he ih =>
    obtain ⟨c, h1, h2, rfl, rfl⟩ := ih
    rcases step_sim (ε := LRTableError T L) h.good h2 with ⟨h3, e⟩ | ⟨h3, e⟩ | ⟨c', o, ss'', h3, h4, e, e'⟩
    · rw [e] at he; cases he
    · rw [e] at he; cases he
    · rw [e] at he
      cases he
      refine ⟨c', ?_, h4, rfl, rfl⟩
      rw [e']
      exact h1.snoc h3

/-- The result of parsing is what the canonical parser does. -/
theorem result (fuel : Nat) (w : List T) :
    (p.parseStream fuel w : Outcome (LRTableError T L) _) = .timeout ∨
    ∃ c tr, Steps p.grammar.cfg F.NodesFirst (tokMatch p.grammar) (.start w) c tr ∧
      ((Accepting p.grammar.cfg F.NodesFirst (tokMatch p.grammar) c ∧
          (p.parseStream fuel w : Outcome (LRTableError T L) _) = .ok true) ∨
        (Stuck p.grammar.cfg F.NodesFirst (tokMatch p.grammar) c ∧
          (p.parseStream fuel w : Outcome (LRTableError T L) _) = .ok false)) :=
  loop_sim h.good fuel (c := .start w) .nil

theorem tree {f : Forest T} {w : List T} (hp : ParsesM p.grammar.cfg (tokMatch p.grammar) f [.production 0] w) :
    ParseTree g (f.mapRules p.grammar.orig) w := by
  rw [tokMatch_eq] at hp
  exact parseTree_iff.mpr (parseTreeM_dec h.enc hp)

theorem tree' {f : Forest T} {w : List T} (hp : ParseTree g f w) :
    ∃ f', ParsesM p.grammar.cfg (tokMatch p.grammar) f' [.production 0] w ∧
      f'.mapRules p.grammar.orig = f := by
  rw [tokMatch_eq]
  exact parseTreeM_enc h.enc (parseTree_iff.mp hp)

theorem productive (hg : WellFormed g) (hp : Productive g.productions) :
    ProductiveM p.grammar.cfg (tokMatch p.grammar) := by
  rw [tokMatch_eq]
  refine productiveM h.enc hg.noEndMarker (fun t _ => ⟨t, rfl⟩) fun r hr => ?_
  obtain ⟨w, hw⟩ := hp r hr
  obtain ⟨f, hf⟩ := hw.parses
  exact ⟨f, w, parses_iff_parsesM.mp hf⟩

end Ready

/-- The sample grammar gives a parser, which accepts `c b` and `a a c b` and rejects `a b`. -/
theorem sampleLR_parser : ∃ p, SimParser.new 20 sampleLR = .ok p ∧
    (p.parseStream 30 [9, 8] : Outcome (LRTableError Nat Nat) _) = .ok true ∧
    (p.parseStream 30 [7, 7, 9, 8] : Outcome (LRTableError Nat Nat) _) = .ok true ∧
    (p.parseStream 30 [7, 8] : Outcome (LRTableError Nat Nat) _) = .ok false := by
  have h : (do
      let p ← SimParser.new 20 sampleLR
      let a ← p.parseStream 30 [9, 8]
      let b ← p.parseStream 30 [7, 7, 9, 8]
      let c ← p.parseStream 30 [7, 8]
      pure (a, b, c)) = Outcome.ok (true, true, false) := by decide +kernel
  rw [Outcome.bind_eq_ok] at h
  obtain ⟨p, h1, h⟩ := h
  rw [Outcome.bind_eq_ok] at h
  obtain ⟨a, h2, h⟩ := h
  rw [Outcome.bind_eq_ok] at h
  obtain ⟨b, h3, h⟩ := h
  rw [Outcome.bind_eq_ok] at h
  obtain ⟨c, h4, h⟩ := h
  cases h
  exact ⟨p, h1, h2, h3, h4⟩

/-- The FIRST sets of the sample grammar are complete. -/
theorem sampleLR_complete : C07.FirstComplete sampleLR := by
  obtain ⟨ig, hig⟩ : ∃ ig, IndexedGrammar.build sampleLR = .ok ig := ⟨_, rfl⟩
  refine C07.first_complete_if_directly_nullable_partial _ ig hig ?_ ?_
  · intro l hl
    rw [← first_iff] at hl
    have := First.nullable_sub (fun l => l == 1) (by decide) hl rfl
    simp only [List.all_cons, First.vanishes, List.all_nil, Bool.and_true, beq_iff_eq] at this
    subst this
    exact ⟨⟨1, [.terminal .epsilon]⟩, by decide, rfl, by simp [Spec.AllEpsilon]⟩
  · exact ⟨⟨1, [.terminal (.token 7), .production 1]⟩, by decide, 7, [], _, rfl, by simp [Spec.AllEpsilon]⟩

namespace C01

/-- **C01.** What the simulator accepts is in the language. -/
theorem accepts_only_sentences (g : Grammar T L) (p : SimParser T L) (fuel fuel' : Nat) (w : List T)
    (hg : WellFormed g) (hp : SimParser.new fuel g = .ok p)
    (ha : (p.parseStream fuel' w : Outcome (LRTableError T L) _) = .ok true) : Language g w := by
  obtain ⟨F, kt, h⟩ := ready hg hp
  rcases h.result fuel' w with e | ⟨c, tr, h1, ⟨h2, -⟩ | ⟨-, e⟩⟩
  · rw [e] at ha; cases ha
  · obtain ⟨-, r, h3, -, h4⟩ := h1.sound h.good.rootOk h2
    obtain ⟨r', h5, h6⟩ := h.root
    rw [h3] at h5
    cases h5
    rw [h6] at h4
    exact language_iff_parseTree.mpr ⟨_, h.tree h4⟩
  · rw [e] at ha; cases ha

/-- The hypotheses are met by the sample grammar and `a a c b`. -/
example : Language sampleLR [7, 7, 9, 8] := by
  obtain ⟨p, h1, -, h2, -⟩ := sampleLR_parser
  exact accepts_only_sentences _ p _ _ _ sampleLR_wellFormed h1 h2

end C01

namespace C03

/-- **C03.** On every input, parsing ends with a result that does not depend on the fuel. -/
theorem parse_terminates (g : Grammar T L) (p : SimParser T L) (fuel : Nat) (w : List T)
    (hg : WellFormed g) (hp : SimParser.new fuel g = .ok p) :
    ∃ b N, ∀ fuel' ≥ N, (p.parseStream fuel' w : Outcome (LRTableError T L) _) = .ok b := by
  obtain ⟨F, kt, h⟩ := ready hg hp
  obtain ⟨c, tr, h1, h2⟩ := reaches_final (m := tokMatch p.grammar) h.good.rootOk h.good.justified
    h.good.noEos _ (.start w) rfl .nil
  have hN := loop_terminates (ε := LRTableError T L) h.good h1 h2 .nil
  generalize tr.length + (Config.start w).input.length + 1 = N at hN
  have key : ∀ fuel' ≥ N,
      (Accepting p.grammar.cfg F.NodesFirst (tokMatch p.grammar) c ∧
          (p.parseStream fuel' w : Outcome (LRTableError T L) _) = .ok true) ∨
        (Stuck p.grammar.cfg F.NodesFirst (tokMatch p.grammar) c ∧
          (p.parseStream fuel' w : Outcome (LRTableError T L) _) = .ok false) := by
    intro fuel' hf
    rcases h.result fuel' w with e | ⟨c', tr', h3, h4⟩
    · exact absurd e (hN fuel' hf)
    · have hf' : Final p.grammar.cfg F.NodesFirst (tokMatch p.grammar) c' := h4.imp (·.1) (·.1)
      rw [(h1.unique h.good.noConflict h.good.unique h2 h3 hf').1]
      exact h4
  by_cases hst : Stuck p.grammar.cfg F.NodesFirst (tokMatch p.grammar) c
  · refine ⟨false, N, fun fuel' hf => ?_⟩
    rcases key fuel' hf with ⟨h5, -⟩ | ⟨-, e⟩
    · exact absurd (accepting_iff.mp h5) (stuck_iff.mp hst _)
    · exact e
  · refine ⟨true, N, fun fuel' hf => ?_⟩
    rcases key fuel' hf with ⟨-, e⟩ | ⟨h5, -⟩
    · exact e
    · exact absurd h5 hst

/-- The sample parser. -/
example : ∃ p b N, SimParser.new 20 sampleLR = .ok p ∧
    ∀ fuel ≥ N, (p.parseStream fuel [7, 9, 7, 8] : Outcome (LRTableError Nat Nat) _) = .ok b := by
  obtain ⟨p, h1, -⟩ := sampleLR_parser
  obtain ⟨b, N, h⟩ := parse_terminates _ p _ [7, 9, 7, 8] sampleLR_wellFormed h1
  exact ⟨p, b, N, h1, h⟩

/-- The root rule may mention the root: `S -> a S` has no sentences and its parser rejects `a a`. -/
example : WellFormed (⟨[⟨0, [.terminal (.token 7), .production 0]⟩]⟩ : Grammar Nat Nat) ∧
    (do
      let p ← SimParser.new 20 (⟨[⟨0, [.terminal (.token 7), .production 0]⟩]⟩ : Grammar Nat Nat)
      p.parseStream 20 [7, 7]) = Outcome.ok false := by
  refine ⟨⟨?_, ?_⟩, by decide +kernel⟩
  · unfold EpsilonLast; decide
  · unfold NoEndMarker; decide

end C03

namespace C04

/-- **C04.** Whatever the input and however long the simulator has been running, it has not panicked. -/
theorem parse_never_panics (g : Grammar T L) (p : SimParser T L) (fuel fuel' : Nat) (w : List T)
    (hg : WellFormed g) (hp : SimParser.new fuel g = .ok p) :
    (p.parseStream fuel' w : Outcome (LRTableError T L) _) = .timeout ∨
      ∃ b, (p.parseStream fuel' w : Outcome (LRTableError T L) _) = .ok b := by
  obtain ⟨F, kt, h⟩ := ready hg hp
  rcases h.result fuel' w with e | ⟨c, tr, -, ⟨-, e⟩ | ⟨-, e⟩⟩
  · exact .inl e
  · exact .inr ⟨_, e⟩
  · exact .inr ⟨_, e⟩

/-- The sample parser. -/
example : ∃ p, SimParser.new 20 sampleLR = .ok p ∧ WellFormed sampleLR := by
  obtain ⟨p, h1, -⟩ := sampleLR_parser
  exact ⟨p, h1, sampleLR_wellFormed⟩

end C04

namespace C02

/-- **C02, partial.** If no action is missing, every sentence is accepted. -/
theorem accepts_all_sentences_partial (g : Grammar T L) (p : SimParser T L) (fuel : Nat) (w : List T)
    (hg : WellFormed g) (hc : C07.ActionsComplete g) (hp : SimParser.new fuel g = .ok p)
    (hw : Language g w) :
    ∃ N, ∀ fuel' ≥ N, (p.parseStream fuel' w : Outcome (LRTableError T L) _) = .ok true := by
  obtain ⟨b, N, hN⟩ := C03.parse_terminates g p fuel w hg hp
  obtain ⟨F, kt, h⟩ := ready hg hp
  obtain ⟨f, hf⟩ := language_iff_parseTree.mp hw
  obtain ⟨f', hf', -⟩ := h.tree' hf
  obtain ⟨r, hr, hr0⟩ := h.root
  rw [← hr0] at hf'
  obtain ⟨c, tr, h1, -, h2⟩ := hf'.accepted (h.closed hc) h.good.rootOk h.good.rootOnce hr
  have hb : b = true := by
    rcases h.result N w with e | ⟨c', tr', h3, ⟨-, e⟩ | ⟨h4, e⟩⟩
    · rw [hN N (Nat.le_refl _)] at e; cases e
    · rw [hN N (Nat.le_refl _)] at e; cases e; rfl
    · have := (h1.unique h.good.noConflict h.good.unique (.inl h2) h3 (.inr h4)).1
      rw [this] at h2
      exact absurd (accepting_iff.mp h2) (stuck_iff.mp h4 _)
  exact ⟨N, by rw [← hb]; exact hN⟩

/-- Nullable labels at least have to be recognised: `S -> Y B; Y -> !; B -> A a; A -> !` is well formed and
its only sentence is `a`, but its parser rejects `a`. -/
theorem accepts_all_sentences_refuted :
    WellFormed C07.witness ∧ RootNotRecursive C07.witness ∧ Language C07.witness [7] ∧
    ∃ p, SimParser.new 20 C07.witness = .ok p ∧
      ∀ fuel ≥ 20, (p.parseStream fuel [7] : Outcome (LRTableError Nat Nat) _) = .ok false := by
  refine ⟨C07.first_complete_refuted.1, C07.first_complete_refuted.2.1, ?_, ?_⟩
  · refine ⟨_, _, rfl, ?_⟩
    have hA : Derives C07.witness.productions [.production 3] [] :=
      .prod (r := ⟨3, [.terminal .epsilon]⟩) (by decide) (.eps .nil) .nil
    have hB : Derives C07.witness.productions [.production 3, .terminal (.token 7)] [7] :=
      .prod (r := ⟨3, [.terminal .epsilon]⟩) (u := []) (by decide) (.eps .nil) (.tok .nil)
    have hS : Derives C07.witness.productions [.production 1, .production 2] [7] :=
      .prod (r := ⟨1, [.terminal .epsilon]⟩) (u := []) (by decide) (.eps .nil)
        (.prod (r := ⟨2, [.production 3, .terminal (.token 7)]⟩) (u := [7]) (by decide) hB .nil)
    exact .prod (r := ⟨0, [.production 1, .production 2]⟩) (u := [7]) (w := []) (by decide) hS .nil
  · have h : (do
        let p ← SimParser.new 20 C07.witness
        p.parseStream 20 [7]) = Outcome.ok false := by decide +kernel
    rw [Outcome.bind_eq_ok] at h
    obtain ⟨p, h1, h⟩ := h
    exact ⟨p, h1, fun fuel hf => loop_mono hf h⟩

/-- The hypotheses of the partial theorem are met by the sample grammar. -/
example : ∃ p, WellFormed sampleLR ∧ C07.ActionsComplete sampleLR ∧ SimParser.new 20 sampleLR = .ok p ∧
    Language sampleLR [7, 7, 9, 8] := by
  obtain ⟨p, h1, -, h2, -⟩ := sampleLR_parser
  exact ⟨p, sampleLR_wellFormed, sampleLR_complete.actions, h1,
    C01.accepts_only_sentences _ p _ _ _ sampleLR_wellFormed h1 h2⟩

end C02

namespace C05

/-- **C05, partial.** If the table can be built and no action is missing, the grammar is
unambiguous. -/
theorem unambiguous_partial (g : Grammar T L) (ig : IndexedGrammar T L) (t : LRTable) (fuel : Nat)
    (w : List T) (f f' : Forest T) (hg : WellFormed g) (hc : C07.ActionsComplete g)
    (hi : IndexedGrammar.build g = .ok ig) (hb : LRTable.build fuel ig = .ok t)
    (h1 : ParseTree g f w) (h2 : ParseTree g f' w) : f = f' := by
  have hp : SimParser.new fuel g = .ok ⟨ig, t⟩ := by
    unfold SimParser.new
    rw [hi, Outcome.ok_bind, hb, Outcome.ok_bind, Outcome.pure_eq]
  obtain ⟨F, kt, h⟩ := ready hg hp
  obtain ⟨f1, h3, rfl⟩ := h.tree' h1
  obtain ⟨f2, h4, rfl⟩ := h.tree' h2
  obtain ⟨r, hr, hr0⟩ := h.root
  rw [← hr0] at h3 h4
  rw [h3.unique (h.closed hc) h.good.rootOk h.good.rootOnce h.good.noConflict h.good.unique hr h4]

/-- **C05 is false.** `S -> x B C c; B -> b | Q; Q -> b; C -> D; D -> E; E -> !` is ambiguous, but a table
is built (see C07 for the reason). -/
theorem unambiguous_refuted :
    WellFormed C13.missed ∧ RootNotRecursive C13.missed ∧
    (∃ ig t, IndexedGrammar.build C13.missed = .ok ig ∧ LRTable.build 20 ig = .ok t) ∧
    ∃ f f', f ≠ f' ∧ ParseTree C13.missed f [1, 2, 3] ∧ ParseTree C13.missed f' [1, 2, 3] := by
  obtain ⟨h1, h1', ig, h2, ⟨t, h3⟩, -⟩ := C13.conflict_missed
  refine ⟨h1, h1', ⟨ig, t, h2, h3⟩, ?_⟩
  have hC : ParsesM C13.missed.productions (fun a t => a = t)
      (.node 4 (.node 5 (.node 6 .nil .nil) .nil) (.tok 3 .nil))
      [.production 2, .terminal (.token 3)] ([] ++ [3]) := by
    refine .prod (i := 4) (r := ⟨2, [.production 4]⟩) rfl ?_ (.tok rfl .nil)
    refine .prod (i := 5) (r := ⟨4, [.production 5]⟩) (u := []) (w := []) rfl ?_ .nil
    exact .prod (i := 6) (r := ⟨5, [.terminal .epsilon]⟩) (u := []) (w := []) rfl (.eps .nil) .nil
  have hB : ParsesM C13.missed.productions (fun a t => a = t) (.tok 2 .nil) [.terminal (.token 2)] [2] :=
    .tok rfl .nil
  have hQ : ParsesM C13.missed.productions (fun a t => a = t) (.node 3 (.tok 2 .nil) .nil)
      [.production 3] ([2] ++ []) := .prod (i := 3) (r := ⟨3, [.terminal (.token 2)]⟩) rfl hB .nil
  have top : ∀ c, ParsesM C13.missed.productions (fun a t => a = t) c
      [.terminal (.token 1), .production 1, .production 2, .terminal (.token 3)] [1, 2, 3] →
      ParseTree C13.missed (.node 0 c .nil) [1, 2, 3] := by
    intro c hc
    rw [parseTree_iff]
    exact ⟨_, _, rfl, .prod (i := 0) (u := [1, 2, 3]) (w := []) rfl hc .nil⟩
  refine ⟨_, _, ?_, top _ (.tok rfl (.prod (i := 1) (u := [2]) (w := [3]) (r := ⟨1, _⟩) rfl hB hC)),
    top _ (.tok rfl (.prod (i := 2) (u := [2]) (w := [3]) (r := ⟨1, _⟩) rfl hQ hC))⟩
  decide

/-- The sample grammar meets the hypotheses. -/
example : ∃ ig t, WellFormed sampleLR ∧ C07.ActionsComplete sampleLR ∧
    IndexedGrammar.build sampleLR = .ok ig ∧ LRTable.build 20 ig = .ok t ∧
    ∃ f, ParseTree sampleLR f [7, 7, 9, 8] := by
  obtain ⟨p, h1, -, h2, -⟩ := sampleLR_parser
  obtain ⟨h3, h4⟩ := new_ok h1
  exact ⟨_, _, sampleLR_wellFormed, sampleLR_complete.actions, h3, h4, language_iff_parseTree.mp
    (C01.accepts_only_sentences _ p _ _ _ sampleLR_wellFormed h1 h2)⟩

end C05

namespace C22

/-- **C22.** No reduction takes place on account of a token that is rejected: if the simulator gets stuck
with `z` left to read, then it has been in the same configuration ever since the first token of `z` became
the lookahead. -/
theorem no_reduction_before_rejection (g : Grammar T L) (p : SimParser T L) (fuel : Nat)
    (w z : List T) (ss ss' : List Nat) (ns ns' : List INode) (tr tr' : List Nat) (hg : WellFormed g)
    (hp : SimParser.new fuel g = .ok p) (h1 : SimRun p w ss ns z tr) (h2 : SimRun p w ss' ns' z tr')
    (hr : (p.step ss' ns' z : Outcome (LRTableError T L) _) = .ok (.done false)) :
    ss = ss' ∧ ns = ns' ∧ tr = tr' := by
  obtain ⟨F, kt, h⟩ := ready hg hp
  obtain ⟨c, h3, h4, rfl, rfl⟩ := h.run h1
  obtain ⟨c', h3', h4', rfl, hz⟩ := h.run h2
  have hst : Stuck p.grammar.cfg F.NodesFirst (tokMatch p.grammar) c' := by
    rw [hz] at hr
    rcases step_sim (ε := LRTableError T L) h.good h4' with ⟨-, e⟩ | ⟨hst, e⟩ | ⟨_, _, _, _, _, e, -⟩
    · rw [e] at hr; cases hr
    · exact hst
    · rw [e] at hr; cases hr
  have key : c = c' ∧ tr = tr' := by
    rcases h3.linear h.good.noConflict h.good.unique h3' with ⟨tr2, h5, rfl⟩ | ⟨tr2, h5, rfl⟩
    · cases h5 with
      | refl => simp
      | step h6 h7 =>
        exact absurd hst (stuck_after_shift h.good.rootOk h.good.justified h.good.noConflict
          h.good.unique h6 h7 hz.symm (NoDead.nil.steps h3))
    · obtain ⟨rfl, rfl⟩ := h5.final_eq h.good.noConflict h.good.unique (.inr hst)
      simp
  obtain ⟨rfl, rfl⟩ := key
  refine ⟨?_, rfl, rfl⟩
  -- the state stack is determined by the symbols
  have : ∀ {ss ss' : List Nat} {γ : List INode}, Stk p.grammar F kt ss γ → Stk p.grammar F kt ss' γ →
      ss = ss' := by
    intro ss ss' γ h5
    induction h5 generalizing ss' with
    | nil =>
      intro h6
      generalize hγ : ([] : List INode) = γ at h6
      cases h6 with
      | nil => rfl
      | snoc => simp at hγ
    | @snoc ss γ s X _ h7 ih =>
      intro h6
      generalize hγ : γ ++ [X] = γ' at h6
      cases h6 with
      | nil => simp at hγ
      | @snoc ss2 γ2 s2 X2 h8 h9 =>
        obtain ⟨rfl, e⟩ := List.append_inj' hγ rfl
        cases e
        rw [ih h8, h.good.built.at_unique h7 h9]
  exact this h4 h4'

end C22

namespace C21

/-- **C21, first half (simulator).** If every label derives something, then what the simulator has read at
any time is a prefix of a sentence. -/
theorem read_is_prefix (g : Grammar T L) (p : SimParser T L) (fuel : Nat) (w z : List T) (ss : List Nat)
    (ns : List INode) (tr : List Nat) (hg : WellFormed g) (hpr : Productive g.productions)
    (hp : SimParser.new fuel g = .ok p) (h1 : SimRun p w ss ns z tr) :
    ∃ u, w = u ++ z ∧ ∃ v, Language g (u ++ v) := by
  obtain ⟨F, kt, h⟩ := ready hg hp
  obtain ⟨c, h3, h4, rfl, rfl⟩ := h.run h1
  obtain ⟨r, hr, hr0⟩ := h.root
  obtain ⟨u, f, v, h5, h6⟩ := (Sane.start.steps h3).prefix (h.productive hg hpr) hr
  rw [hr0] at h6
  exact ⟨u, h5, v, language_iff_parseTree.mpr ⟨_, h.tree h6⟩⟩

/-- **C21, second half (simulator), partial.** If no action is missing and the simulator rejects with
`z` left to read, then the input read so far together with the next token (if any) is not a prefix of a
sentence, and it is not a sentence if there is no next token. -/
theorem rejected_is_no_prefix_partial (g : Grammar T L) (p : SimParser T L) (fuel : Nat) (u z : List T)
    (ss : List Nat) (ns : List INode) (tr : List Nat) (hg : WellFormed g) (hc : C07.ActionsComplete g)
    (hp : SimParser.new fuel g = .ok p) (h1 : SimRun p (u ++ z) ss ns z tr)
    (hr : (p.step ss ns z : Outcome (LRTableError T L) _) = .ok (.done false)) :
    match z with
    | [] => ¬ Language g u
    | a :: _ => ∀ v, ¬ Language g (u ++ a :: v) := by
  obtain ⟨F, kt, h⟩ := ready hg hp
  obtain ⟨c, h3, h4, rfl, hz⟩ := h.run h1
  obtain ⟨r, hr', hr0⟩ := h.root
  have hst : Stuck p.grammar.cfg F.NodesFirst (tokMatch p.grammar) c := by
    rw [hz] at hr
    rcases step_sim (ε := LRTableError T L) h.good h4 with ⟨-, e⟩ | ⟨hst, e⟩ | ⟨_, _, _, _, _, e, -⟩
    · rw [e] at hr; cases hr
    · exact hst
    · rw [e] at hr; cases hr
  have key := hst.no_sentence (h.closed hc) h.good.rootOk h.good.rootOnce h.good.noConflict
    h.good.unique hr' h3 hz.symm
  have hlang : ∀ v, Language g v → ∃ f, ParsesM p.grammar.cfg (tokMatch p.grammar) f [.production 0] v := by
    intro v hv
    obtain ⟨f, hf⟩ := language_iff_parseTree.mp hv
    obtain ⟨f', hf', -⟩ := h.tree' hf
    exact ⟨f', hf'⟩
  rw [hr0] at key
  cases z with
  | nil =>
    intro hl
    obtain ⟨f, hf⟩ := hlang _ hl
    exact key f [] (fun _ => rfl) (fun a z' h => by cases h) (by simpa using hf)
  | cons a z =>
    intro v hl
    obtain ⟨f, hf⟩ := hlang _ hl
    exact key f (a :: v) (fun h => by cases h) (fun b z' h => by cases h; exact ⟨v, rfl⟩) hf

/-- **The second half of C21 is false in general.** `a` is a sentence of `S -> Y B; Y -> !; B -> A a; A -> !`
but it is rejected as the very first token (see C07). -/
theorem rejected_is_no_prefix_refuted :
    WellFormed C07.witness ∧ RootNotRecursive C07.witness ∧ Language C07.witness [7] ∧
    ∃ p, SimParser.new 20 C07.witness = .ok p ∧
      (p.step [LRTable.rootState] [] [7] : Outcome (LRTableError Nat Nat) _) = .ok (.done false) := by
  refine ⟨C07.first_complete_refuted.1, C07.first_complete_refuted.2.1,
    C02.accepts_all_sentences_refuted.2.2.1, ?_⟩
  have h : (do
      let p ← SimParser.new 20 C07.witness
      p.step [LRTable.rootState] [] [7]) = Outcome.ok (.done false) := by decide +kernel
  rw [Outcome.bind_eq_ok] at h
  obtain ⟨p, h1, h⟩ := h
  exact ⟨p, h1, h⟩

/-- The sample grammar has only productive labels; `a b` is rejected. -/
example : Productive sampleLR.productions ∧ ∃ p ss ns z tr, SimParser.new 20 sampleLR = .ok p ∧
    SimRun p [7, 8] ss ns z tr ∧
    (p.step ss ns z : Outcome (LRTableError Nat Nat) _) = .ok (.done false) := by
  constructor
  · have hA : Derives sampleLR.productions [.production 1] [] :=
      .prod (r := ⟨1, [.terminal .epsilon]⟩) (u := []) (w := []) (by decide) (.eps .nil) .nil
    have hB : Derives sampleLR.productions [.production 2] [9, 8] :=
      .prod (r := ⟨2, [.terminal (.token 9), .terminal (.token 8)]⟩) (u := [9, 8]) (w := []) (by decide)
        (.tok (.tok .nil)) .nil
    have hS : Derives sampleLR.productions [.production 0] [9, 8] := by
      refine .prod (r := ⟨0, [.production 1, .production 2]⟩) (u := [9, 8]) (w := []) (by decide) ?_ .nil
      exact .prod (r := ⟨1, [.terminal .epsilon]⟩) (u := []) (by decide) (.eps .nil) hB
    intro r hr
    simp only [sampleLR, List.mem_cons, List.not_mem_nil, or_false] at hr
    rcases hr with rfl | rfl | rfl | rfl
    · exact ⟨_, hS⟩
    · exact ⟨_, hA⟩
    · exact ⟨_, hA⟩
    · exact ⟨_, hB⟩
  · obtain ⟨p, h1, -, -, h2⟩ := sampleLR_parser
    obtain ⟨ss, ns, z, tr, h3, h4⟩ := parse_run h2
    exact ⟨p, ss, ns, z, tr, h1, h3, h4⟩

end C21

namespace C43

/-- **C43.** At any time the node stack, read from the bottom, is a viable prefix (some item is valid for
it) and derives the tokens read so far. -/
theorem stack_derives_input (g : Grammar T L) (p : SimParser T L) (fuel : Nat) (w z : List T)
    (ss : List Nat) (ns : List INode) (tr : List Nat) (hg : WellFormed g)
    (hp : SimParser.new fuel g = .ok p) (h1 : SimRun p w ss ns z tr) :
    (∃ i d, Valid p.grammar.cfg ns.reverse i d) ∧
    ∃ u v, w = u ++ z ∧ List.Forall₂ (fun t k => p.grammar.vocab.idMap[k]? = some t) u v ∧
      Derives p.grammar.cfg ns.reverse v := by
  obtain ⟨F, kt, h⟩ := ready hg hp
  obtain ⟨c, h3, h4, rfl, rfl⟩ := h.run h1
  have hs := Sane.start.steps h3
  rw [List.reverse_reverse]
  refine ⟨hs.viable, ?_⟩
  obtain ⟨u, h5, rfl⟩ := hs.parses
  obtain ⟨v, h6, h7⟩ := h5.derives
  exact ⟨u, v, rfl, h6, h7⟩

/-- **C43.** On an accepted input, rule 0 followed by the rules reduced, in reverse order, is a rightmost
derivation of the input. -/
theorem reductions_are_rightmost_derivation (g : Grammar T L) (p : SimParser T L) (fuel : Nat)
    (w z : List T) (ss : List Nat) (ns : List INode) (tr : List Nat) (hg : WellFormed g)
    (hp : SimParser.new fuel g = .ok p) (h1 : SimRun p w ss ns z tr)
    (ha : (p.step ss ns z : Outcome (LRTableError T L) _) = .ok (.done true)) :
    z = [] ∧ ∃ v, List.Forall₂ (fun t k => p.grammar.vocab.idMap[k]? = some t) w v ∧
      RmSteps p.grammar.cfg (0 :: tr.reverse) [.production 0] (tokNodes v) := by
  obtain ⟨F, kt, h⟩ := ready hg hp
  obtain ⟨c, h3, h4, rfl, rfl⟩ := h.run h1
  have hacc : Accepting p.grammar.cfg F.NodesFirst (tokMatch p.grammar) c := by
    rcases step_sim (ε := LRTableError T L) h.good h4 with ⟨hacc, e⟩ | ⟨-, e⟩ | ⟨_, _, _, _, _, e, -⟩
    · exact hacc
    · rw [e] at ha; cases ha
    · rw [e] at ha; cases ha
  obtain ⟨hz, r, hr, hst, hparse⟩ := h3.sound h.good.rootOk hacc
  obtain ⟨r', hr', hr0⟩ := h.root
  rw [hr] at hr'
  cases hr'
  obtain ⟨v, h5, -⟩ := hparse.derives
  refine ⟨hz, v, h5, ?_⟩
  obtain ⟨v', h6, h7⟩ := h3.rightmost h.good.unique h5
  rw [hz] at h6
  cases h6
  rw [hst] at h7
  refine .step ?_ (by simpa [Config.start, tokNodes] using h7)
  have := RmStep.mk (P := p.grammar.cfg) (x := []) (y := []) hr
  rw [hr0] at this
  simpa [tokNodes] using this

/-- The sample parser accepts `a a c b`, so there is such a run. -/
example : ∃ p ss ns z tr, SimParser.new 20 sampleLR = .ok p ∧ SimRun p [7, 7, 9, 8] ss ns z tr ∧
    (p.step ss ns z : Outcome (LRTableError Nat Nat) _) = .ok (.done true) := by
  obtain ⟨p, h1, -, h2, -⟩ := sampleLR_parser
  obtain ⟨ss, ns, z, tr, h3, h4⟩ := parse_run h2
  exact ⟨p, ss, ns, z, tr, h1, h3, h4⟩

end C43

namespace C44

/-- `S -> A; A -> ! a`. -/
def mixed : Grammar Nat Nat :=
  ⟨[⟨0, [.production 1]⟩, ⟨1, [.terminal .epsilon, .terminal (.token 7)]⟩]⟩

/-- **C44 is false.** The language of `S -> A; A -> ! a` contains `a`, but its parser rejects `a`. -/
theorem mixed_epsilon_refuted :
    Language mixed [7] ∧ ∃ p, SimParser.new 20 mixed = .ok p ∧
      ∀ fuel ≥ 20, (p.parseStream fuel [7] : Outcome (LRTableError Nat Nat) _) = .ok false := by
  refine ⟨⟨_, _, rfl, ?_⟩, ?_⟩
  · have hA : Derives mixed.productions [.production 1] [7] :=
      .prod (r := ⟨1, [.terminal .epsilon, .terminal (.token 7)]⟩) (u := [7]) (w := []) (by decide)
        (.eps (.tok .nil)) .nil
    exact .prod (r := ⟨0, [.production 1]⟩) (u := [7]) (w := []) (by decide) hA .nil
  · have h : (do
        let p ← SimParser.new 20 mixed
        p.parseStream 20 [7]) = Outcome.ok false := by decide +kernel
    rw [Outcome.bind_eq_ok] at h
    obtain ⟨p, h1, h⟩ := h
    exact ⟨p, h1, fun fuel hf => loop_mono hf h⟩

/-- **C44, partial.** Epsilons at the end of rules are harmless: if only epsilons follow an epsilon
(`WellFormed`) and no action is missing, the parser decides the language that the rules denote. -/
theorem trailing_epsilon_partial (g : Grammar T L) (p : SimParser T L) (fuel : Nat) (w : List T)
    (hg : WellFormed g) (hc : C07.ActionsComplete g) (hp : SimParser.new fuel g = .ok p) :
    ∃ b N, (b = true ↔ Language g w) ∧
      ∀ fuel' ≥ N, (p.parseStream fuel' w : Outcome (LRTableError T L) _) = .ok b := by
  obtain ⟨b, N, hN⟩ := C03.parse_terminates g p fuel w hg hp
  refine ⟨b, N, ⟨?_, ?_⟩, hN⟩
  · rintro rfl
    exact C01.accepts_only_sentences g p fuel N w hg hp (hN N (Nat.le_refl _))
  · intro hw
    obtain ⟨M, hM⟩ := C02.accepts_all_sentences_partial g p fuel w hg hc hp hw
    have h1 := hN (max N M) (by omega)
    rw [hM (max N M) (by omega)] at h1
    cases h1
    rfl

/-- `S -> A b; A -> a A !; A -> ! !`. -/
def trailing : Grammar Nat Nat :=
  ⟨[⟨0, [.production 1, .terminal (.token 8)]⟩,
    ⟨1, [.terminal (.token 7), .production 1, .terminal .epsilon]⟩,
    ⟨1, [.terminal .epsilon, .terminal .epsilon]⟩]⟩

theorem trailing_wellFormed : WellFormed trailing := by
  refine ⟨?_, ?_⟩
  · unfold Spec.EpsilonLast; decide
  · unfold Spec.NoEndMarker; decide

/-- The hypotheses are met by `S -> A b; A -> a A !; A -> ! !`, which is not `EpsilonAlone`; its parser
accepts `a a b`. -/
example : ¬ EpsilonAlone trailing ∧ WellFormed trailing ∧ C07.ActionsComplete trailing ∧
    ∃ p, SimParser.new 20 trailing = .ok p ∧
      (p.parseStream 30 [7, 7, 8] : Outcome (LRTableError Nat Nat) _) = .ok true := by
  refine ⟨by unfold EpsilonAlone; decide, trailing_wellFormed, ?_, ?_⟩
  · obtain ⟨ig, hig⟩ : ∃ ig, IndexedGrammar.build trailing = .ok ig := ⟨_, rfl⟩
    refine (C07.first_complete_if_directly_nullable_partial _ ig hig ?_ ?_).actions
    · intro l hl
      rw [← first_iff] at hl
      have := First.nullable_sub (fun l => l == 1) (by decide) hl rfl
      simp only [List.all_cons, First.vanishes, List.all_nil, Bool.and_true, beq_iff_eq] at this
      subst this
      exact ⟨⟨1, [.terminal .epsilon, .terminal .epsilon]⟩, by decide, rfl, by simp [Spec.AllEpsilon]⟩
    · exact ⟨⟨1, [.terminal (.token 7), .production 1, .terminal .epsilon]⟩, by decide, 7, [], _, rfl,
        by simp [Spec.AllEpsilon]⟩
  · have h : (do
        let p ← SimParser.new 20 trailing
        p.parseStream 30 [7, 7, 8]) = Outcome.ok true := by decide +kernel
    rw [Outcome.bind_eq_ok] at h
    obtain ⟨p, h1, h⟩ := h
    exact ⟨p, h1, h⟩

end C44

end Verif
