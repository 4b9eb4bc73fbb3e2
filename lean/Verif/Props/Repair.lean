import Verif.Proof.Repair
import Verif.Props.RootExact
import Verif.Props.Label

/-!
# C88: what the three lines of the FIRST table are responsible for

`Model/Repair.lean` has the code with first_map.rs:47-49 changed, so that the addition of an epsilon counts as a
change. With it the properties that are only partially true of the code of the repository (C02, C05, C07, C13, C81)
hold without a condition.
-/

set_option linter.unusedSectionVars false
set_option autoImplicit false

namespace Verif
open Spec

namespace C88

section
variable {T L : Type} [DecidableEq T] [DecidableEq L] {g : Grammar T L} {ig : IndexedGrammar T L}

/-- **C88.** The changed loop ends, and the table it returns answers every question `first_set(label).has(token)` as the
definition of FIRST does. -/
theorem first_exact (hi : IndexedGrammar.build g = .ok ig) :
    ∃ F, (FirstTable.buildRepaired ig : Outcome (LRTableError T L) _) = .ok F ∧
      ∀ (i : Nat) (l : L) (k : AugTokId) (t : AugTok T), (ig.origLabel i : Outcome (LRTableError T L) L) = .ok l →
        (ig.vocab.idToToken k : Outcome (LRTableError T L) _) = .ok t →
        ∃ s b, (F.firstSet i : Outcome (LRTableError T L) VocabSet) = .ok s ∧
          (s.has k : Outcome (LRTableError T L) Bool) = .ok b ∧ (b = true ↔ InFirst g.productions [.production l] t) := by
  have henc := (IndexedGrammar.build_ok hi).1
  obtain ⟨F, eF, hF, hc⟩ := FirstTable.buildRepaired_spec (ε := LRTableError T L) henc.wf
  refine ⟨F, eF, fun i l k t hl ht => ?_⟩
  rw [origLabel_iff] at hl
  rw [idToToken_iff] at ht
  have hlt : i < ig.labelsCount := by
    rw [← IndexedGrammar.labels_length]; exact (List.getElem?_eq_some_iff.mp hl).1
  obtain ⟨s, e, -, hwf, hin⟩ := hF.wf.get (ε := LRTableError T L) hlt
  refine ⟨s, s.mem k, e, hwf.has_eq (EncTok.id_lt ht), ?_⟩
  rw [← hin, ← Verif.first_iff, henc.first_iff (α := [.production l]) (β := [.production i]) (.cons hl .nil) ht]
  constructor
  · intro h
    obtain ⟨r, hr, rfl, hj⟩ := hF.just _ _ h
    by_cases he : k = .epsilon
    · subst he; exact .skip hr hj.first .nil
    · exact .take hr hj.first he
  · intro hf
    rcases hc.complete hf with ⟨-, h⟩ | ⟨h, h0⟩
    · exact h
    · cases k with
      | epsilon => exact h
      | token k => exact absurd h0 (by simp [FirstTable.NodesFirst])
      | eos => exact absurd h0 (by simp [FirstTable.NodesFirst])

/-- **C88.** A table is returned exactly if the grammar has no LR(1) conflict (C13 without the condition) and reading the
root within the root rule cannot be taken for reading the whole. -/
theorem table_iff (hi : IndexedGrammar.build g = .ok ig) (he : EpsilonLast g) :
    ∃ N, ∀ fuel ≥ N,
      ((∃ t, LRTable.buildRepaired fuel ig = .ok t) ↔
        NoConflict g.productions (InFirst g.productions) ∧ ¬ RootOverlaps g.productions (InFirst g.productions)) ∧
      ((∃ e, LRTable.buildRepaired fuel ig = .err e) → ¬ NoConflict g.productions (InFirst g.productions)) ∧
      (LRTable.buildRepaired fuel ig = .panic → RootOverlaps g.productions (InFirst g.productions)) ∧
      LRTable.buildRepaired fuel ig ≠ .ub ∧ LRTable.buildRepaired fuel ig ≠ .timeout := by
  have henc := (IndexedGrammar.build_ok hi).1
  have heps := henc.epsLast he
  obtain ⟨F, eF, hF, hc⟩ := FirstTable.buildRepaired_spec (ε := LRTableError T L) henc.wf
  have hfirst := FirstTable.nodesFirst_true hF.just hc
  have hn := noConflict_iff henc (sameFirst_true hi)
  have ho := rootOverlaps_iff henc (sameFirst_true hi)
  rw [← hfirst] at hn ho
  refine ⟨stateBound ig F + 1, fun fuel hf => ?_⟩
  have h1 := states_sat henc.wf hF (X := RootOverlaps ig.cfg F.NodesFirst) (by
    by_cases h : RootOverlaps ig.cfg F.NodesFirst
    · exact .inr h
    · exact .inl (rootMild_of_not_overlaps henc.wf heps h)) fuel (by omega)
  have e : LRTable.buildRepaired fuel ig =
      (LRTable.initialTable ig >>= fun kt => LRTable.buildLoop ig F fuel 0 kt ⟨[], [], 0⟩) >>=
        fun r => pure r.1 := by
    unfold LRTable.buildRepaired
    rw [eF, Outcome.ok_bind]
    simp only [initialTable_eq henc.wf, Outcome.ok_bind]
  rw [e, ← hn, ← ho]
  generalize (LRTable.initialTable ig >>= fun kt => LRTable.buildLoop ig F fuel 0 kt ⟨[], [], 0⟩) = x at h1
  cases x with
  | ok r =>
    obtain ⟨t, kt⟩ := r
    have h1 : Built ig F kt t := h1
    simp only [Outcome.ok_bind, Outcome.pure_eq]
    refine ⟨⟨fun _ => ⟨h1.noConflict henc.wf hF.wf heps, h1.not_overlaps henc.wf hF.wf heps⟩, fun _ => ⟨t, rfl⟩⟩, ?_, ?_, ?_, ?_⟩ <;>
      simp
  | err e =>
    have h1 : Genuine ig F e := h1
    have h2 := (h1.spec henc.wf hF.wf heps).not_noConflict
    refine ⟨⟨?_, fun h => absurd h.1 h2⟩, fun _ => h2, ?_, ?_, ?_⟩ <;> simp
  | panic =>
    have h1 : RootOverlaps ig.cfg F.NodesFirst := h1
    refine ⟨⟨?_, fun h => absurd h1 h.2⟩, ?_, fun _ => h1, ?_, ?_⟩ <;> simp
  | ub => exact h1.elim
  | timeout => exact h1.elim

/-- **C88.** The grammars that get a table are the LR(1) grammars (C81 without the condition): the others get an error. -/
theorem table_iff_lr1 (hg : WellFormed g) (hp : Productive g.productions) (hi : IndexedGrammar.build g = .ok ig) :
    ∃ N, ∀ fuel ≥ N, ((∃ t, LRTable.buildRepaired fuel ig = .ok t) ↔ ¬ NotLR1 g.productions) ∧
      ((∃ e, LRTable.buildRepaired fuel ig = .err e) ↔ NotLR1 g.productions) := by
  obtain ⟨N, hN⟩ := table_iff hi hg.epsilonLast
  have key := C81.noConflict_iff_lr1 (C81.nodesProductive hi hg.noEndMarker hp) hg.noEndMarker (C81.rootUnused hi hp)
    (C81.rootOnce hi)
  have hno : ¬ RootOverlaps g.productions (InFirst g.productions) := by
    rintro ⟨r, d, β, hr, hd, -⟩
    refine C81.rootUnused hi hp r hr r (List.mem_of_getElem? hr) ?_
    have : .production r.symbol ∈ rhs r := List.mem_of_mem_drop (by rw [hd]; simp)
    exact (List.mem_filter.mp this).1
  refine ⟨N, fun fuel hf => ?_⟩
  obtain ⟨h1, h2, h3, h4, h5⟩ := hN fuel hf
  have h1' : (∃ t, LRTable.buildRepaired fuel ig = .ok t) ↔ ¬ NotLR1 g.productions := by
    rw [h1, key]; exact ⟨fun h => h.1, fun h => ⟨h, hno⟩⟩
  refine ⟨h1', fun h => ?_, fun h => ?_⟩
  · by_contra hl
    exact h2 h (key.mpr hl)
  · cases hb : LRTable.buildRepaired fuel ig with
    | ok t => exact absurd h (h1'.mp ⟨t, hb⟩)
    | err e => exact ⟨e, rfl⟩
    | panic => exact absurd (h3 hb) hno
    | ub => exact absurd hb h4
    | timeout => exact absurd hb h5

/-- A parser of the changed code. -/
structure Ready (g : Grammar T L) (p : SimParser T L) (F : FirstTable) (kt : KernelTable) : Prop where
  enc : IndexedGrammar.Encodes g p.grammar
  good : Good p.grammar F kt p.lrTable
  exact : Covers p.grammar.cfg F.NodesFirst

theorem ready {p : SimParser T L} {fuel : Nat} (hg : WellFormed g) (h : SimParser.newRepaired fuel g = .ok p) :
    ∃ F kt, Ready g p F kt := by
  unfold SimParser.newRepaired at h
  rw [Outcome.bind_eq_ok] at h
  obtain ⟨ig, h1, h⟩ := h
  rw [Outcome.bind_eq_ok] at h
  obtain ⟨t, h2, h⟩ := h
  cases h
  have henc := (IndexedGrammar.build_ok h1).1
  obtain ⟨F, kt, hF, hfirst, hB⟩ := repaired_of_ok henc.wf h2
  refine ⟨F, kt, henc, ⟨henc.wf, hF, henc.wellFormed hg, henc.vocab, hB⟩, ?_⟩
  intro γ x a hd
  rw [hfirst]
  exact hd

namespace Ready
variable {p : SimParser T L} {F : FirstTable} {kt : KernelTable} (h : Ready g p F kt)
include h

theorem tree {f : Forest T} {w : List T} (hp : ParsesM p.grammar.cfg (tokMatch p.grammar) f [.production 0] w) :
    ParseTree g (f.mapRules p.grammar.orig) w := by
  rw [tokMatch_eq] at hp
  exact parseTree_iff.mpr (parseTreeM_dec h.enc hp)

theorem tree' {f : Forest T} {w : List T} (hp : ParseTree g f w) :
    ∃ f', ParsesM p.grammar.cfg (tokMatch p.grammar) f' [.production 0] w ∧
      f'.mapRules p.grammar.orig = f := by
  rw [tokMatch_eq]
  exact parseTreeM_enc h.enc (parseTree_iff.mp hp)

end Ready

/-- **C88.** The simulator of the changed code accepts exactly the sentences, on every input (C01, C02, C03 and C04 without
a condition). -/
theorem accepts_exactly_sentences (hg : WellFormed g) {p : SimParser T L} {fuel : Nat}
    (hp : SimParser.newRepaired fuel g = .ok p) (w : List T) :
    ∃ b N, (∀ fuel' ≥ N, (p.parseStream fuel' w : Outcome (LRTableError T L) _) = .ok b) ∧ (b = true ↔ Language g w) := by
  obtain ⟨F, kt, h⟩ := ready hg hp
  obtain ⟨r, hr, hr0⟩ := h.good.root_rule
  obtain ⟨c, tr, h1, h2⟩ := reaches_final (m := tokMatch p.grammar) h.good.rootOk h.good.justified
    h.good.noEos _ (.start w) rfl .nil
  have hN := loop_terminates (ε := LRTableError T L) h.good h1 h2 .nil
  generalize tr.length + (Config.start w).input.length + 1 = N at hN
  have key : ∀ fuel' ≥ N,
      (Accepting p.grammar.cfg F.NodesFirst (tokMatch p.grammar) c ∧
          (p.parseStream fuel' w : Outcome (LRTableError T L) _) = .ok true) ∨
        (Stuck p.grammar.cfg F.NodesFirst (tokMatch p.grammar) c ∧
          (p.parseStream fuel' w : Outcome (LRTableError T L) _) = .ok false) := by
    intro fuel' hf
    have h0 : Stk p.grammar F kt [LRTable.rootState] (Config.start w : Config Nat Nat T).stack := .nil
    rcases loop_sim (ε := LRTableError T L) h.good fuel' (c := .start w) h0 with e | ⟨c', tr', h3, h4⟩
    · exact absurd e (hN fuel' hf)
    · have hf' : Final p.grammar.cfg F.NodesFirst (tokMatch p.grammar) c' := h4.imp (·.1) (·.1)
      rw [(h1.unique h.good.noConflict h.good.unique h2 h3 hf').1]
      exact h4
  have sentence : Accepting p.grammar.cfg F.NodesFirst (tokMatch p.grammar) c ↔ Language g w := by
    constructor
    · intro ha
      obtain ⟨-, r', h3, -, h4⟩ := h1.sound h.good.rootOk ha
      rw [hr] at h3
      cases h3
      rw [hr0] at h4
      exact language_iff_parseTree.mpr ⟨_, h.tree h4⟩
    · intro hw
      obtain ⟨f, hf⟩ := language_iff_parseTree.mp hw
      obtain ⟨f', hf', -⟩ := h.tree' hf
      rw [← hr0] at hf'
      obtain ⟨c', tr', h3, -, h4⟩ := hf'.accepted h.exact h.good.rootOk h.good.rootOnce hr
      rw [(h1.unique h.good.noConflict h.good.unique h2 h3 (.inl h4)).1]
      exact h4
  by_cases hst : Stuck p.grammar.cfg F.NodesFirst (tokMatch p.grammar) c
  · refine ⟨false, N, fun fuel' hf => ?_, ?_⟩
    · rcases key fuel' hf with ⟨h5, -⟩ | ⟨-, e⟩
      · exact absurd (accepting_iff.mp h5) (stuck_iff.mp hst _)
      · exact e
    · refine ⟨by simp, fun hw => ?_⟩
      exact absurd (accepting_iff.mp (sentence.mpr hw)) (stuck_iff.mp hst _)
  · refine ⟨true, N, fun fuel' hf => ?_, ?_⟩
    · rcases key fuel' hf with ⟨-, e⟩ | ⟨h5, -⟩
      · exact e
      · exact absurd h5 hst
    · rcases key N (Nat.le_refl _) with ⟨h5, -⟩ | ⟨h5, -⟩
      · exact ⟨fun _ => sentence.mp h5, fun _ => rfl⟩
      · exact absurd h5 hst

/-- **C88.** A grammar for which the changed code gives a parser is unambiguous (C05 without the condition). -/
theorem unambiguous (hg : WellFormed g) {p : SimParser T L} {fuel : Nat} (hp : SimParser.newRepaired fuel g = .ok p)
    {w : List T} {f f' : Forest T} (h1 : ParseTree g f w) (h2 : ParseTree g f' w) : f = f' := by
  obtain ⟨F, kt, h⟩ := ready hg hp
  obtain ⟨f1, h3, rfl⟩ := h.tree' h1
  obtain ⟨f2, h4, rfl⟩ := h.tree' h2
  obtain ⟨r, hr, hr0⟩ := h.good.root_rule
  rw [← hr0] at h3 h4
  rw [h3.unique h.exact h.good.rootOk h.good.rootOnce h.good.noConflict h.good.unique hr h4]

/-- **C88.** Nothing changes for the grammars whose FIRST sets the code gets right: the parser (or error) is the same. -/
theorem same_if_complete (hi : IndexedGrammar.build g = .ok ig) (hc : C07.FirstComplete g) (fuel : Nat) :
    (FirstTable.buildRepaired ig : Outcome (LRTableError T L) _) = FirstTable.build ig ∧
      LRTable.buildRepaired fuel ig = LRTable.build fuel ig ∧ SimParser.newRepaired fuel g = SimParser.new fuel g := by
  have henc := (IndexedGrammar.build_ok hi).1
  obtain ⟨F, eF, hF, hcl⟩ := FirstTable.buildRepaired_spec (ε := LRTableError T L) henc.wf
  obtain ⟨F', eF', hF'⟩ := FirstTable.build_spec (ε := LRTableError T L) henc.wf
  have heq : F = F' := by
    refine hF.wf.ext hF'.wf fun l t => ?_
    have user : ∀ {G : FirstTable}, G.WF ig.labelsCount ig.vocab.size → G.Justified ig.cfg → G.In l t →
        F'.In l t ∧ F.In l t := by
      intro G hG hJ hin
      obtain ⟨hl, ht⟩ := hG.in_lt hin
      have hf : First ig.cfg [.production l] t := by
        obtain ⟨r, hr, rfl, hj⟩ := hJ _ _ hin
        by_cases he : t = .epsilon
        · subst he; exact .skip hr hj.first .nil
        · exact .take hr hj.first he
      refine ⟨?_, ?_⟩
      · obtain ⟨a, ha⟩ : ∃ a, ig.labels[l]? = some a := by
          rw [← IndexedGrammar.labels_length] at hl
          exact ⟨_, List.getElem?_eq_getElem hl⟩
        obtain ⟨x, hx⟩ : ∃ x, EncTok ig.vocab.idMap x t := by
          cases t with
          | epsilon => exact ⟨.epsilon, trivial⟩
          | eos => exact ⟨.eos, trivial⟩
          | token k =>
            have hk : k < ig.vocab.idMap.length := by
              simpa [Label.id, Vocab.size] using ht
            exact ⟨.token ig.vocab.idMap[k], List.getElem?_eq_getElem hk⟩
        rw [← henc.first_iff (α := [.production a]) (β := [.production l]) (.cons ha .nil) hx] at hf
        exact (recorded_iff hi eF' ha hx).mp (hc a x (Verif.first_iff.mp hf))
      · rcases hcl.complete hf with ⟨-, h⟩ | ⟨h, h0⟩
        · exact h
        · cases t with
          | epsilon => exact h
          | token k => exact absurd h0 (by simp [FirstTable.NodesFirst])
          | eos => exact absurd h0 (by simp [FirstTable.NodesFirst])
    exact ⟨fun h => (user hF.wf hF.just h).1, fun h => (user hF'.wf hF'.just h).2⟩
  subst heq
  have h2 : LRTable.buildRepaired fuel ig = LRTable.build fuel ig := by
    unfold LRTable.buildRepaired LRTable.build LRTable.buildWithKernels
    rw [eF, eF', Outcome.ok_bind, Outcome.ok_bind]
    cases LRTable.initialTable ig <;> rfl
  refine ⟨by rw [eF, eF'], h2, ?_⟩
  unfold SimParser.newRepaired SimParser.new
  rw [hi, Outcome.ok_bind, Outcome.ok_bind, h2]

/-- **C88.** No parser that is right is lost: if the parser of the repository accepts every sentence and the grammar is
unambiguous (equivalently, no action is missing, see C77), the changed code gives a parser too and the two agree on every
input. -/
theorem right_parsers_kept (hg : WellFormed g) (hp : Productive g.productions) (hc : C07.ActionsComplete g)
    {p : SimParser T L} {fuel : Nat} (hn : SimParser.new fuel g = .ok p) :
    ∃ N, ∀ n ≥ N, ∃ p', SimParser.newRepaired n g = .ok p' ∧ ∀ w, ∃ b M, ∀ m ≥ M,
      (p.parseStream m w : Outcome (LRTableError T L) _) = .ok b ∧
      (p'.parseStream m w : Outcome (LRTableError T L) _) = .ok b := by
  obtain ⟨hi, ht⟩ := new_ok hn
  obtain ⟨N, hN⟩ := table_iff_lr1 hg hp hi
  refine ⟨N, fun n hle => ?_⟩
  obtain ⟨t, e⟩ := (hN n hle).1.mpr (C81.table_is_lr1_partial hg hp hi hc ht)
  have hnew : SimParser.newRepaired n g = .ok ⟨p.grammar, t⟩ := by
    unfold SimParser.newRepaired
    rw [hi, Outcome.ok_bind, e, Outcome.ok_bind, Outcome.pure_eq]
  refine ⟨_, hnew, fun w => ?_⟩
  obtain ⟨b, M, h1, h2⟩ := accepts_exactly_sentences hg hnew w
  obtain ⟨b', M', h3⟩ := C03.parse_terminates g p fuel w hg hn
  have : b = b' := by
    cases b' with
    | true => exact h2.mpr (C01.accepts_only_sentences g p fuel M' w hg hn (h3 M' (Nat.le_refl _)))
    | false =>
      cases b with
      | false => rfl
      | true =>
        obtain ⟨K, hK⟩ := C02.accepts_all_sentences_partial g p fuel w hg hc hn (h2.mp rfl)
        have k1 := hK (max K M') (Nat.le_max_left ..)
        rw [h3 (max K M') (Nat.le_max_right ..)] at k1
        cases k1
  subst this
  exact ⟨b, max M M', fun m hm => ⟨h3 m (by omega), h1 m (by omega)⟩⟩

end

/-! The grammars that refute C02, C05, C07, C13 and C81 for the code of the repository. -/

/-- The only sentence of `S -> Y B; Y -> !; B -> A a; A -> !`, which the parser of the repository rejects
(`C02.accepts_all_sentences_refuted`), is accepted. -/
theorem witness_accepted : ∃ p, SimParser.newRepaired 20 C07.witness = .ok p ∧
    (p.parseStream 20 [7] : Outcome (LRTableError Nat Nat) _) = .ok true := by
  have h : (do
      let p ← SimParser.newRepaired 20 C07.witness
      p.parseStream 20 [7]) = Outcome.ok true := by decide +kernel
  rw [Outcome.bind_eq_ok] at h
  exact h

/-- The ambiguous grammar for which the code of the repository gives a table (`C05.unambiguous_refuted`) is refused, with
the error that names the two rules in conflict. -/
theorem missed_refused : SimParser.newRepaired 20 C13.missed = .err (.reduceConflict 3 1 (.token 3)) := by
  decide +kernel

/-- The hypotheses are met by the two grammars and by the sample, whose parser does not change. -/
example : WellFormed C07.witness ∧ (∃ ig, IndexedGrammar.build C07.witness = .ok ig) ∧
    NotLR1 C13.missed.productions ∧ SimParser.newRepaired 20 sampleLR = SimParser.new 20 sampleLR := by
  refine ⟨C07.first_complete_refuted.1, C07.first_complete_refuted.2.2.1, ?_, ?_⟩
  · obtain ⟨ig, hi⟩ : ∃ ig, IndexedGrammar.build C13.missed = .ok ig := ⟨_, rfl⟩
    obtain ⟨hg, -⟩ := C13.conflict_missed
    have h := missed_refused
    unfold SimParser.newRepaired at h
    obtain ⟨N, hN⟩ := table_iff_lr1 hg C81.missed_productive hi
    by_contra hl
    obtain ⟨t, ht⟩ := (hN (max N 20) (Nat.le_max_left ..)).1.mpr hl
    have hp : SimParser.newRepaired (max N 20) C13.missed = .ok ⟨ig, t⟩ := by
      unfold SimParser.newRepaired
      rw [hi, Outcome.ok_bind, ht, Outcome.ok_bind, Outcome.pure_eq]
    obtain ⟨-, -, -, f, f', hne, h1, h2⟩ := C05.unambiguous_refuted
    exact hne (unambiguous hg hp h1 h2)
  · obtain ⟨p, h1, -⟩ := sampleLR_parser
    exact (same_if_complete (new_ok h1).1 sampleLR_complete 20).2.2

end C88
end Verif
