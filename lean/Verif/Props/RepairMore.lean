import Verif.Props.RepairGen
import Verif.Props.Mistakes
import Verif.Props.Merged
import Verif.Props.Extend

/-!
# C88: what else holds with the change of the FIRST table
-/

set_option autoImplicit false
set_option linter.unusedSectionVars false

namespace Verif
open Spec

namespace C88

section
variable {T L : Type} [DecidableEq T] [DecidableEq L] {g g' : Grammar T L} {ig : IndexedGrammar T L}

/-- A parser of the changed code decides the language of its grammar. -/
def Decides (g : Grammar T L) (p : SimParser T L) : Prop :=
  ∀ w, ∃ b N, (∀ fuel ≥ N, (p.parseStream fuel w : Outcome (LRTableError T L) _) = .ok b) ∧ (b = true ↔ Language g w)

theorem newRepaired_of {t : LRTable} {fuel : Nat} (hi : IndexedGrammar.build g = .ok ig)
    (ht : LRTable.buildRepaired fuel ig = .ok t) : SimParser.newRepaired fuel g = .ok ⟨ig, t⟩ := by
  unfold SimParser.newRepaired
  rw [hi, Outcome.ok_bind, ht, Outcome.ok_bind, Outcome.pure_eq]

theorem newRepaired_ok {p : SimParser T L} {fuel : Nat} (h : SimParser.newRepaired fuel g = .ok p) :
    IndexedGrammar.build g = .ok p.grammar ∧ LRTable.buildRepaired fuel p.grammar = .ok p.lrTable := by
  unfold SimParser.newRepaired at h
  obtain ⟨ig, h1, h⟩ := Outcome.bind_eq_ok.mp h
  obtain ⟨t, h2, h⟩ := Outcome.bind_eq_ok.mp h
  cases h
  exact ⟨h1, h2⟩

/-- **C88 (C81).** With the change, an LR(1) grammar gets a parser, which decides its language. -/
theorem lr1_parser (hg : WellFormed g) (hp : Productive g.productions) (hi : IndexedGrammar.build g = .ok ig)
    (hl : ¬ NotLR1 g.productions) : ∃ N, ∀ fuel ≥ N, ∃ p, SimParser.newRepaired fuel g = .ok p ∧ Decides g p := by
  obtain ⟨N, hN⟩ := table_iff_lr1 hg hp hi
  refine ⟨N, fun fuel hf => ?_⟩
  obtain ⟨t, ht⟩ := (hN fuel hf).1.mpr hl
  have hn := newRepaired_of hi ht
  exact ⟨_, hn, fun w => accepts_exactly_sentences hg hn w⟩

/-- **C88 (C83).** With the change, every LL(1) grammar gets a parser that decides its language. -/
theorem ll1_parser (hg : WellFormed g) (hp : Productive g.productions) (hi : IndexedGrammar.build g = .ok ig)
    (hl : LL1 g.productions) : ∃ N, ∀ fuel ≥ N, ∃ p, SimParser.newRepaired fuel g = .ok p ∧ Decides g p :=
  lr1_parser hg hp hi (C83.ll1_is_lr1 hg hp hi hl)

/-- **C88 (C84).** With the change, every LALR(1) grammar gets a parser that decides its language. -/
theorem lalr1_parser (hg : WellFormed g) (hp : Productive g.productions) (hi : IndexedGrammar.build g = .ok ig)
    (hl : LALR1 g.productions) : ∃ N, ∀ fuel ≥ N, ∃ p, SimParser.newRepaired fuel g = .ok p ∧ Decides g p :=
  lr1_parser hg hp hi (C84.lalr1_is_lr1 hp hi hl)

/-- **C88 (C85).** With the change, a conflict is reported for every grammar with one of the mistakes. -/
theorem mistake_refused (hg : WellFormed g) (hp : Productive g.productions) (hi : IndexedGrammar.build g = .ok ig)
    (hm : Mistake g.productions) : ∃ N, ∀ fuel ≥ N, ∃ e, LRTable.buildRepaired fuel ig = .err e := by
  obtain ⟨N, hN⟩ := table_iff_lr1 hg hp hi
  exact ⟨N, fun fuel hf => (hN fuel hf).2.mpr (C85.mistake_not_lr1 hg hp hi hm)⟩

/-- **C88 (C82).** With the change, if a grammar gets a parser then so does the grammar with another of its labels as the
root, and this parser decides what the label derives. -/
theorem label_parser {root : Rule T L} {rest : List (Rule T L)} {ρ : Nat → Nat} {s l : L} {p : SimParser T L} {n : Nat}
    (hg : WellFormed g) (hp : Productive g.productions) (hn : SimParser.newRepaired n g = .ok p)
    (e : g.productions = root :: rest) (hl : Reachable g.productions root.symbol l)
    (h : RootedAt ρ s l g.productions g'.productions) :
    ∃ N, ∀ fuel ≥ N, ∃ p', SimParser.newRepaired fuel g' = .ok p' ∧ ∀ w, ∃ b M,
      (∀ fuel' ≥ M, (p'.parseStream fuel' w : Outcome (LRTableError T L) _) = .ok b) ∧
        (b = true ↔ Derives g.productions [.production l] w) := by
  obtain ⟨hi, ht⟩ := newRepaired_ok hn
  obtain ⟨ig', hi'⟩ := C82.label_builds hi e hl h
  have hlr : ¬ NotLR1 g.productions := by
    have henc := (IndexedGrammar.build_ok hi).1
    obtain ⟨F, kt, hF, hfirst, hB⟩ := repaired_of_ok henc.wf ht
    have hn := noConflict_iff henc (sameFirst_true hi)
    rw [← hfirst] at hn
    exact (C81.noConflict_iff_lr1 (C81.nodesProductive hi hg.noEndMarker hp) hg.noEndMarker (C81.rootUnused hi hp)
      (C81.rootOnce hi)).mp (hn.mp (hB.noConflict henc.wf hF.wf (henc.epsLast hg.epsilonLast)))
  obtain ⟨is, δ, z, hform⟩ := reachable_form (C81.nodesProductive hi hg.noEndMarker hp) hl
  obtain ⟨N, hN⟩ := lr1_parser (C82.wellFormed hg h) (C82.productive hi hp e hl h) hi' fun hn =>
    hlr (h.notLR1 (C82.new_ne hi e hl h) (C81.rootUnused hi hp) (by rw [e]; rfl) hform hn)
  refine ⟨N, fun fuel hf => ?_⟩
  obtain ⟨p', h1, h2⟩ := hN fuel hf
  refine ⟨p', h1, fun w => ?_⟩
  obtain ⟨b, M, h3, h4⟩ := h2 w
  refine ⟨b, M, h3, h4.trans ?_⟩
  rw [← h.derives_iff (C82.new_ne hi e hl h)]
  obtain ⟨rest', e'⟩ := C82.cons h
  constructor
  · rintro ⟨root', rest'', e'', hd⟩
    rw [e'] at e''
    cases e''
    exact hd
  · exact fun hd => ⟨_, _, e', hd⟩

theorem not_rootOverlaps (hr : RootNotRecursive g) : ¬ RootOverlaps g.productions (InFirst g.productions) := by
  rintro ⟨r, d, β, h0, hd, -⟩
  cases hp : g.productions with
  | nil => rw [hp] at h0; cases h0
  | cons root rest =>
    have h1 := h0
    rw [hp] at h1
    cases h1
    refine hr _ rest hp ?_
    have : .production r.symbol ∈ rhs r := List.mem_of_mem_drop (by rw [hd]; simp)
    exact (List.mem_filter.mp this).1

/-- **C88 (C62).** With the change, the order of the rules does not matter: in another order (the root rule first) there is a
parser just if there was one, and it accepts the same. -/
theorem order {π : Equiv.Perm Nat} {ig' : IndexedGrammar T L} (h : Reordered π g.productions g'.productions)
    (hg : WellFormed g) (hr : RootNotRecursive g) (hi : IndexedGrammar.build g = .ok ig)
    (hi' : IndexedGrammar.build g' = .ok ig') :
    ∃ N, ∀ fuel ≥ N, ((∃ t, LRTable.buildRepaired fuel ig = .ok t) ↔ ∃ t, LRTable.buildRepaired fuel ig' = .ok t) ∧
      ∀ p p', SimParser.newRepaired fuel g = .ok p → SimParser.newRepaired fuel g' = .ok p' → ∀ w, ∃ b M, ∀ fuel' ≥ M,
        (p.parseStream fuel' w : Outcome (LRTableError T L) _) = .ok b ∧
        (p'.parseStream fuel' w : Outcome (LRTableError T L) _) = .ok b := by
  have hg' : WellFormed g' := ⟨C62.epsilonLast_order h hg.epsilonLast, fun r hr => hg.noEndMarker r (h.mem_iff.mpr hr)⟩
  obtain ⟨N, hN⟩ := table_iff hi hg.epsilonLast
  obtain ⟨N', hN'⟩ := table_iff hi' hg'.epsilonLast
  have hno := not_rootOverlaps hr
  have hno' := not_rootOverlaps (C62.rootNotRecursive_order h hr)
  have hc : NoConflict g.productions (InFirst g.productions) ↔ NoConflict g'.productions (InFirst g'.productions) :=
    ⟨h.symm.moved.noConflict fun α t => h.symm.moved.inFirst, h.moved.noConflict fun α t => h.moved.inFirst⟩
  refine ⟨max N N', fun fuel hf => ⟨?_, fun p p' hp hp' w => ?_⟩⟩
  · rw [(hN fuel (by omega)).1, (hN' fuel (by omega)).1, hc]
    exact ⟨fun h => ⟨h.1, hno'⟩, fun h => ⟨h.1, hno⟩⟩
  · obtain ⟨b, M, h1, h2⟩ := accepts_exactly_sentences hg hp w
    obtain ⟨b', M', h3, h4⟩ := accepts_exactly_sentences hg' hp' w
    have hL : Language g w ↔ Language g' w := ⟨C72.language h.moved.extends', C72.language h.symm.moved.extends'⟩
    have hb : b' = b := by
      rw [Bool.eq_iff_iff, h4, h2, hL]
    subst hb
    exact ⟨_, max M M', fun fuel' hf' => ⟨h1 fuel' (by omega), h3 fuel' (by omega)⟩⟩

/-- **C88 (C72).** With the change, adding rules keeps what was accepted, and a grammar with some of the rules gets a table if
the grammar with all of them does. -/
theorem adding_rules {ρ : Nat → Nat} {ig' : IndexedGrammar T L} (h : Extends ρ g.productions g'.productions)
    (hg' : WellFormed g') (hr : RootNotRecursive g') (hi : IndexedGrammar.build g = .ok ig)
    (hi' : IndexedGrammar.build g' = .ok ig') :
    ∃ N, ∀ fuel ≥ N, ((∃ t, LRTable.buildRepaired fuel ig' = .ok t) → ∃ t, LRTable.buildRepaired fuel ig = .ok t) ∧
      ∀ p p', SimParser.newRepaired fuel g = .ok p → SimParser.newRepaired fuel g' = .ok p' → ∀ w,
        ∃ b b' M, (∀ fuel' ≥ M, (p.parseStream fuel' w : Outcome (LRTableError T L) _) = .ok b ∧
          (p'.parseStream fuel' w : Outcome (LRTableError T L) _) = .ok b') ∧ (b = true → b' = true) := by
  have hg : WellFormed g := ⟨fun r hr => hg'.epsilonLast r (h.mem hr), fun r hr => hg'.noEndMarker r (h.mem hr)⟩
  obtain ⟨N, hN⟩ := table_iff hi hg.epsilonLast
  obtain ⟨N', hN'⟩ := table_iff hi' hg'.epsilonLast
  refine ⟨max N N', fun fuel hf => ⟨?_, fun p p' hp hp' w => ?_⟩⟩
  · rw [(hN fuel (by omega)).1, (hN' fuel (by omega)).1]
    exact fun hc => ⟨h.noConflict (fun α t => h.inFirst) hc.1, not_rootOverlaps (C72.rootNotRecursive h hr)⟩
  · obtain ⟨b, M, h1, h2⟩ := accepts_exactly_sentences hg hp w
    obtain ⟨b', M', h3, h4⟩ := accepts_exactly_sentences hg' hp' w
    exact ⟨b, b', max M M', fun fuel' hf' => ⟨h1 fuel' (by omega), h3 fuel' (by omega)⟩,
      fun hb => h4.mpr (C72.language h (h2.mp hb))⟩

end

/-! ### Concrete cases -/

/-- The LL(1) grammar whose only sentence the parser of the repository rejects gets a parser that is right. -/
example : ∃ N, ∀ fuel ≥ N, ∃ p, SimParser.newRepaired fuel C07.witness = .ok p ∧ Decides C07.witness p := by
  obtain ⟨h1, h2, h3, -⟩ := C83.ll1_parser_refuted
  obtain ⟨ig, hi⟩ := C07.first_complete_refuted.2.2.1
  exact ll1_parser h1 h2 hi h3

/-- The grammar with all four mistakes for which there is a table (`C85.mistake_refused_refuted`) is refused. -/
example : ∃ ig N, IndexedGrammar.build C85.unnoticed = .ok ig ∧ ∀ fuel ≥ N, ∃ e, LRTable.buildRepaired fuel ig = .err e := by
  obtain ⟨h1, h2, h3, -, -, -, ig, -, hi, -⟩ := C85.mistake_refused_refuted
  obtain ⟨N, hN⟩ := mistake_refused h1 h2 hi (.inl h3)
  exact ⟨ig, N, hi, hN⟩

/-- The grammar that has a table in one order only (`C62.table_order_refuted`) is treated alike in both orders. -/
example : ∃ (π : Equiv.Perm Nat) (g g' : Grammar Nat Nat) (ig ig' : IndexedGrammar Nat Nat) (N : Nat),
    Reordered π g.productions g'.productions ∧ (∃ t, LRTable.build 20 ig = .ok t) ∧ (∃ e, LRTable.build 20 ig' = .err e) ∧
    ∀ fuel ≥ N, (∃ t, LRTable.buildRepaired fuel ig = .ok t) ↔ ∃ t, LRTable.buildRepaired fuel ig' = .ok t := by
  obtain ⟨π, g, g', ig, ig', h, hg, hr, hi, hi', h1, h2⟩ := C62.table_order_refuted
  obtain ⟨N, hN⟩ := order h hg hr hi hi'
  exact ⟨π, g, g', ig, ig', N, h, h1, h2, fun fuel hf => (hN fuel hf).1⟩

/-- The rule that makes the parser of the repository reject a sentence (`C72.adding_rules_keeps_sentences_refuted`) does no
harm. -/
example : (do
    let p ← SimParser.newRepaired 40 (⟨C72.small⟩ : Grammar Nat Nat)
    let p' ← SimParser.newRepaired 40 (⟨C72.small ++ [C72.added]⟩ : Grammar Nat Nat)
    let a ← p.parseStream 40 [20, 21]
    let b ← p'.parseStream 40 [20, 21]
    pure (a, b)) = (Outcome.ok (true, true) : Outcome (LRTableError Nat Nat) _) := by decide +kernel

/-- `S -> A B; A -> a A | !; B -> c b` with the root `A`. -/
example : ∃ N, ∀ fuel ≥ N, ∃ p', SimParser.newRepaired fuel C82.sampleA = .ok p' ∧ ∀ w, ∃ b M,
    (∀ fuel' ≥ M, (p'.parseStream fuel' w : Outcome (LRTableError Nat Nat) _) = .ok b) ∧
      (b = true ↔ Derives sampleLR.productions [.production 1] w) := by
  obtain ⟨ig, t, h1, h2⟩ := C81.sampleLR_table
  obtain ⟨N, hN⟩ := lr1_parser sampleLR_wellFormed C81.sampleLR_productive h1
    (C81.table_is_lr1_partial sampleLR_wellFormed C81.sampleLR_productive h1 sampleLR_complete.actions h2)
  obtain ⟨p, hp, -⟩ := hN N (Nat.le_refl _)
  exact label_parser sampleLR_wellFormed C81.sampleLR_productive hp rfl
    (.step (r := ⟨0, [.production 1, .production 2]⟩) .root (by decide) (by simp)) C82.sampleA_rooted

end C88
end Verif
