import Verif.Proof.Mistakes
import Verif.Props.LL

/-!
# C85: well-known mistakes in grammars are noticed
-/

set_option linter.unusedSectionVars false
set_option autoImplicit false

namespace Verif.C85
open Spec

section
variable {T L : Type} [DecidableEq T] [DecidableEq L] {g : Grammar T L} {ig : IndexedGrammar T L}

theorem reachable {root : Rule T L} {rest : List (Rule T L)} (e : g.productions = root :: rest)
    (hi : IndexedGrammar.build g = .ok ig) : ∀ r ∈ g.productions, Reachable g.productions root.symbol r.symbol := by
  have hg : g = C10.gr root rest := by cases g; cases e; rfl
  have := ((C10.build_succeeds_iff root rest).mp ⟨ig, hg ▸ hi⟩).2.2
  rw [e]
  exact this

/-- **C85.** A grammar with one of the mistakes has two parse trees for some input. -/
theorem mistake_ambiguous (hg : WellFormed g) (hp : Productive g.productions) (hi : IndexedGrammar.build g = .ok ig)
    (hm : Mistake g.productions) : ∃ f f' w, f ≠ f' ∧ ParseTree g f w ∧ ParseTree g f' w := by
  obtain ⟨root, rest, e⟩ : ∃ root rest, g.productions = root :: rest := by
    cases h : g.productions with
    | nil => cases g; cases h; cases hi
    | cons root rest => exact ⟨root, rest, rfl⟩
  obtain ⟨f, f', w, hne, h1, h2⟩ := Mistakes.ambiguous hp (C81.nodesProductive hi hg.noEndMarker hp) (reachable e hi) hm
  exact ⟨f, f', w, hne, ⟨root, rest, e, h1⟩, ⟨root, rest, e, h2⟩⟩

/-- **C85.** It is not LR(1). -/
theorem mistake_not_lr1 (hg : WellFormed g) (hp : Productive g.productions) (hi : IndexedGrammar.build g = .ok ig)
    (hm : Mistake g.productions) : NotLR1 g.productions := by
  by_contra hl
  obtain ⟨f, f', w, hne, h1, h2⟩ := mistake_ambiguous hg hp hi hm
  exact hne (C81.lr1_unambiguous hg hp hi hl h1 h2)

/-- **C85, partial.** A conflict is reported. (Missing: grammars with missing actions, see `mistake_refused_refuted`.) -/
theorem mistake_refused_partial (hg : WellFormed g) (hp : Productive g.productions) (hi : IndexedGrammar.build g = .ok ig)
    (hc : C07.ActionsComplete g) (hm : Mistake g.productions) : ∃ N, ∀ fuel ≥ N, ∃ e, LRTable.build fuel ig = .err e := by
  obtain ⟨N, hN⟩ := C81.table_iff_lr1_partial hg hp hi hc
  exact ⟨N, fun fuel hf => (hN fuel hf).2.mpr (mistake_not_lr1 hg hp hi hm)⟩

end

section
variable {lex : Lexer} {tx : Text} {o : HashOrder}

/-- **C85, partial.** A file with one of the mistakes does not become a parser. (Missing: grammars with missing
actions.) -/
theorem mistake_file_partial {t : TokenStream} (hj : JointOk t) {ss : List Symbol} {f : GrammarFile} (hl : Lexes tx t ss)
    (hf : FileSyntax tx ss f) (hp : Productive f.grammar.productions) (hc : C07.ActionsComplete f.grammar)
    (hm : Mistake f.grammar.productions) (fuel : Nat) (gi : GrammarInfo) (prog : Program) :
    buildGrammar o lex tx fuel t ≠ .ok (gi, prog) := by
  intro h
  obtain ⟨ss', f', hl', hf', -, hgood⟩ := C47.good_of_ok hj h
  cases C36.unambiguous hl hl'
  cases C37.unambiguous hf hf'
  obtain ⟨root, rest, h1, h2, h3, h4, -⟩ := hgood.labels
  obtain ⟨hg, ig, hi⟩ := C81.file_indexed hf ⟨root, rest, h1, h2, h3, h4⟩
  exact lr1_of_noConflict (C81.rootUnused hi hp) (C81.rootOnce hi) (hc.noConflict.mp hgood.conflicts)
    (mistake_not_lr1 hg hp hi hm)

end

/-- `S -> Y B; Y -> ! | ! | Y | Y Y; B -> A a; A -> !`. -/
def unnoticed : Grammar Nat Nat :=
  ⟨[⟨0, [.production 1, .production 2]⟩, ⟨1, [.terminal .epsilon]⟩, ⟨1, [.terminal .epsilon]⟩, ⟨1, [.production 1]⟩,
    ⟨1, [.production 1, .production 1]⟩, ⟨2, [.production 3, .terminal (.token 7)]⟩, ⟨3, [.terminal .epsilon]⟩]⟩

theorem unnoticed_productive : Productive unnoticed.productions := by
  have hY : Derives unnoticed.productions [.production 1] [] :=
    .prod (r := ⟨1, [.terminal .epsilon]⟩) (u := []) (w := []) (by decide) (.eps .nil) .nil
  have hA : Derives unnoticed.productions [.production 3] [] :=
    .prod (r := ⟨3, [.terminal .epsilon]⟩) (u := []) (w := []) (by decide) (.eps .nil) .nil
  have hB : Derives unnoticed.productions [.production 2] [7] :=
    .prod (r := ⟨2, [.production 3, .terminal (.token 7)]⟩) (u := [7]) (w := []) (by decide) (hA.append (.tok .nil)) .nil
  have hS : Derives unnoticed.productions [.production 0] [7] :=
    .prod (r := ⟨0, [.production 1, .production 2]⟩) (u := [7]) (w := []) (by decide) (hY.append hB) .nil
  intro r hr
  simp only [unnoticed, List.mem_cons, List.not_mem_nil, or_false] at hr
  rcases hr with rfl | rfl | rfl | rfl | rfl | rfl | rfl
  exacts [⟨_, hS⟩, ⟨_, hY⟩, ⟨_, hY⟩, ⟨_, hY⟩, ⟨_, hY⟩, ⟨_, hB⟩, ⟨_, hA⟩]

/-- **C85 is false in general.** A grammar with all of these mistakes gets a table (finding 1). -/
theorem mistake_refused_refuted : WellFormed unnoticed ∧ Productive unnoticed.productions ∧ Twice unnoticed.productions ∧
    Circle unnoticed.productions ∧ BothSides unnoticed.productions ∧ Dangling unnoticed.productions ∧
    ∃ ig t, IndexedGrammar.build unnoticed = .ok ig ∧ LRTable.build 50 ig = .ok t := by
  refine ⟨⟨by unfold EpsilonLast; decide, by unfold NoEndMarker; decide⟩, unnoticed_productive, ?_, ?_, ?_, ?_, ?_⟩
  · exact ⟨1, 2, _, _, by decide, rfl, rfl, rfl, rfl⟩
  · exact ⟨1, .single ⟨⟨1, [.production 1]⟩, [], [], by decide, rfl, rfl, .nil, .nil⟩⟩
  · exact ⟨4, 4, _, _, [.production 1], [.production 1], rfl, rfl, rfl, rfl, rfl⟩
  · exact ⟨3, 4, _, _, [], [.production 1], by decide, rfl, rfl, rfl, rfl, rfl⟩
  · have h : (do
        let ig ← IndexedGrammar.build unnoticed
        let t ← LRTable.build 50 ig
        pure (decide (0 < t.numStates))) = Outcome.ok true := by decide +kernel
    obtain ⟨ig, h1, h⟩ := Outcome.bind_eq_ok.mp h
    obtain ⟨t, h2, -⟩ := Outcome.bind_eq_ok.mp h
    exact ⟨ig, t, h1, h2⟩

/-! ### The hypotheses can be met -/

/-- `S -> E; E -> E + E | n | i E | i E e E | F; F -> E`. -/
def wrong : Grammar Nat Nat :=
  ⟨[⟨0, [.production 1]⟩, ⟨1, [.production 1, .terminal (.token 10), .production 1]⟩, ⟨1, [.terminal (.token 11)]⟩,
    ⟨1, [.terminal (.token 12), .production 1]⟩,
    ⟨1, [.terminal (.token 12), .production 1, .terminal (.token 13), .production 1]⟩,
    ⟨1, [.production 2]⟩, ⟨2, [.production 1]⟩]⟩

theorem wrong_productive : Productive wrong.productions := by
  have hE : Derives wrong.productions [.production 1] [11] :=
    .prod (r := ⟨1, [.terminal (.token 11)]⟩) (u := [11]) (w := []) (by decide) (.tok .nil) .nil
  have hF : Derives wrong.productions [.production 2] [11] :=
    .prod (r := ⟨2, [.production 1]⟩) (u := [11]) (w := []) (by decide) hE .nil
  have hS : Derives wrong.productions [.production 0] [11] :=
    .prod (r := ⟨0, [.production 1]⟩) (u := [11]) (w := []) (by decide) hE .nil
  intro r hr
  simp only [wrong, List.mem_cons, List.not_mem_nil, or_false] at hr
  rcases hr with rfl | rfl | rfl | rfl | rfl | rfl | rfl
  exacts [⟨_, hS⟩, ⟨_, hE⟩, ⟨_, hE⟩, ⟨_, hE⟩, ⟨_, hE⟩, ⟨_, hE⟩, ⟨_, hF⟩]

theorem wrong_complete : C07.FirstComplete wrong := by
  have h : ((do
      let ig ← IndexedGrammar.build wrong
      let F ← FirstTable.build ig
      let (F', _) ← FirstTable.propagate ig F
      pure (F == F')) : Outcome (LRTableError Nat Nat) Bool) = .ok true := by decide +kernel
  obtain ⟨ig, h2, h⟩ := Outcome.bind_eq_ok.mp h
  obtain ⟨F, h3, h⟩ := Outcome.bind_eq_ok.mp h
  obtain ⟨⟨F', b⟩, h4, h⟩ := Outcome.bind_eq_ok.mp h
  simp only [Outcome.pure_eq, Outcome.ok.injEq, beq_iff_eq] at h
  subst h
  exact C07.first_complete_if_stable_partial _ ig F b h2 h3 h4

/-- The hypotheses of the theorems on grammars, with three of the mistakes (for the fourth, see above). -/
example : WellFormed wrong ∧ Productive wrong.productions ∧ (∃ ig, IndexedGrammar.build wrong = .ok ig) ∧
    C07.ActionsComplete wrong ∧ Circle wrong.productions ∧ BothSides wrong.productions ∧ Dangling wrong.productions := by
  refine ⟨⟨by unfold EpsilonLast; decide, by unfold NoEndMarker; decide⟩, wrong_productive, ⟨_, rfl⟩,
    wrong_complete.actions, ?_, ?_, ?_⟩
  · exact ⟨1, .tail (b := 2) (.single ⟨⟨1, [.production 2]⟩, [], [], by decide, rfl, rfl, .nil, .nil⟩)
      ⟨⟨2, [.production 1]⟩, [], [], by decide, rfl, rfl, .nil, .nil⟩⟩
  · exact ⟨1, 1, _, _, [.production 1, .terminal (.token 10)], [.terminal (.token 10), .production 1], rfl, rfl, rfl, rfl,
      rfl⟩
  · exact ⟨3, 4, _, _, [.terminal (.token 12)], [.terminal (.token 13), .production 1], by decide, rfl, rfl, rfl, rfl, rfl⟩

/-- The hypotheses of the theorem on files: `<S> => <A>; <A> => Num(..) | Num(..);`. -/
example : JointOk (C37.fileTokens GrammarSample.unprint C64.bad) ∧ ∃ ss,
    Lexes GrammarSample.tx (C37.fileTokens GrammarSample.unprint C64.bad) ss ∧ FileSyntax GrammarSample.tx ss C64.bad ∧
    Productive C64.bad.grammar.productions ∧ C07.ActionsComplete C64.bad.grammar ∧ Twice C64.bad.grammar.productions := by
  obtain ⟨hj, ss, hl, hf⟩ := C37.file_print C64.bad_printable
  refine ⟨hj, ss, hl, hf, ?_, ?_, ?_⟩
  · have hA : Derives C64.bad.grammar.productions [.production "A"] [(⟨"Num", .wildcard⟩ : Sym)] :=
      .prod (r := ⟨"A", [.terminal (.token ⟨"Num", .wildcard⟩)]⟩) (u := [(⟨"Num", .wildcard⟩ : Sym)]) (w := [])
        (by decide +kernel) (.tok .nil) .nil
    have hS : Derives C64.bad.grammar.productions [.production "S"] [(⟨"Num", .wildcard⟩ : Sym)] :=
      .prod (r := ⟨"S", [.production "A"]⟩) (u := [(⟨"Num", .wildcard⟩ : Sym)]) (w := []) (by decide +kernel) hA .nil
    intro r hr
    simp only [C64.bad, GrammarFile.grammar, GrammarFile.rules, Declaration.rules, List.flatMap_cons, List.flatMap_nil,
      List.map_cons, List.map_nil, List.cons_append, List.nil_append, ARule.toLr, List.mem_cons, List.not_mem_nil,
      or_false] at hr
    rcases hr with rfl | rfl | rfl
    exacts [⟨_, hS⟩, ⟨_, hA⟩, ⟨_, hA⟩]
  · have h : ((do
        let ig ← IndexedGrammar.build C64.bad.grammar
        let F ← FirstTable.build ig
        let (F', _) ← FirstTable.propagate ig F
        pure (F == F')) : Outcome (LRTableError Sym String) Bool) = .ok true := by decide +kernel
    obtain ⟨ig, h2, h⟩ := Outcome.bind_eq_ok.mp h
    obtain ⟨F, h3, h⟩ := Outcome.bind_eq_ok.mp h
    obtain ⟨⟨F', b⟩, h4, h⟩ := Outcome.bind_eq_ok.mp h
    simp only [Outcome.pure_eq, Outcome.ok.injEq, beq_iff_eq] at h
    subst h
    exact (C07.first_complete_if_stable_partial _ ig F b h2 h3 h4).actions
  · exact ⟨1, 2, _, _, by decide, rfl, rfl, rfl, rfl⟩

end Verif.C85
