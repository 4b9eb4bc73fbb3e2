import Verif.Proof.RootExact
import Verif.Props.Conflict

/-!
# C09 and C13 for every grammar: when the construction of the table panics
-/

set_option linter.unusedSectionVars false
set_option autoImplicit false

namespace Verif
open Spec

section
variable {T L : Type} [DecidableEq T] [DecidableEq L] {g : Grammar T L} {ig : IndexedGrammar T L}

theorem build_exact_indexed (hg : IndexedGrammar.build g = .ok ig) (he : EpsilonLast g) :
    ∃ F, (FirstTable.build ig : Outcome (LRTableError T L) _) = .ok F ∧ ∃ N, ∀ fuel ≥ N,
      (∀ t, LRTable.build fuel ig = .ok t →
        NoConflict ig.cfg F.NodesFirst ∧ ¬ RootOverlaps ig.cfg F.NodesFirst) ∧
      (∀ e, LRTable.build fuel ig = .err e → ¬ NoConflict ig.cfg F.NodesFirst) ∧
      (LRTable.build fuel ig = .panic → RootOverlaps ig.cfg F.NodesFirst) ∧
      LRTable.build fuel ig ≠ .ub ∧ LRTable.build fuel ig ≠ .timeout := by
  have henc := (IndexedGrammar.build_ok hg).1
  have heps := henc.epsLast he
  obtain ⟨F, eF, hres, hsat⟩ := buildWithKernels_sat' henc.wf
    (X := fun F => RootOverlaps ig.cfg F.NodesFirst) fun F => by
      by_cases h : RootOverlaps ig.cfg F.NodesFirst
      · exact .inr h
      · exact .inl (rootMild_of_not_overlaps henc.wf heps h)
  refine ⟨F, eF, stateBound ig F + 1, fun fuel hf => ?_⟩
  have h1 := hsat fuel (by omega)
  unfold LRTable.build
  cases h : LRTable.buildWithKernels fuel ig with
  | ok r =>
    obtain ⟨t, kt⟩ := r
    rw [h] at h1
    have h1 : Built ig F kt t := h1
    simp only [Outcome.ok_bind, Outcome.pure_eq]
    refine ⟨fun _ _ => ⟨h1.noConflict henc.wf hres.wf heps, h1.not_overlaps henc.wf hres.wf heps⟩, ?_, ?_, ?_, ?_⟩ <;>
      simp
  | err e =>
    rw [h] at h1
    have h1 : Genuine ig F e := h1
    refine ⟨by simp, fun _ _ => (h1.spec henc.wf hres.wf heps).not_noConflict, ?_, ?_, ?_⟩ <;> simp
  | panic =>
    rw [h] at h1
    exact ⟨by simp, by simp, fun _ => h1, by simp, by simp⟩
  | ub => rw [h] at h1; exact h1.elim
  | timeout => rw [h] at h1; exact h1.elim

/-- The same in terms of the user's grammar. -/
theorem build_exact_user (hg : IndexedGrammar.build g = .ok ig) (he : EpsilonLast g) :
    ∃ N, ∀ fuel ≥ N,
      (∀ t, LRTable.build fuel ig = .ok t →
        NoConflict g.productions (seqFirst (Recorded g)) ∧ ¬ RootOverlaps g.productions (seqFirst (Recorded g))) ∧
      (∀ e, LRTable.build fuel ig = .err e → ¬ NoConflict g.productions (seqFirst (Recorded g))) ∧
      (LRTable.build fuel ig = .panic → RootOverlaps g.productions (seqFirst (Recorded g))) ∧
      LRTable.build fuel ig ≠ .ub ∧ LRTable.build fuel ig ≠ .timeout := by
  obtain ⟨F, hF, h⟩ := build_exact_indexed hg he
  have henc := (IndexedGrammar.build_ok hg).1
  rwa [noConflict_iff henc (sameFirst_recorded hg hF), rootOverlaps_iff henc (sameFirst_recorded hg hF)] at h
end

namespace C09
section
variable {T L : Type} [DecidableEq T] [DecidableEq L] {g : Grammar T L} {ig : IndexedGrammar T L}

/-- **C09, partial: when the construction panics.** It panics only if the root rule names its own label as
its first symbol or at a place where a token may follow, and then it never returns a table: if the grammar
has no conflict besides, the panic is certain. FIRST sets as recorded by the code. -/
theorem build_panics_exactly_partial (hg : IndexedGrammar.build g = .ok ig) (he : EpsilonLast g) :
    ∃ N, ∀ fuel ≥ N,
      (LRTable.build fuel ig = .panic → RootOverlaps g.productions (seqFirst (Recorded g))) ∧
      (RootOverlaps g.productions (seqFirst (Recorded g)) →
        LRTable.build fuel ig = .panic ∨ ∃ e, LRTable.build fuel ig = .err e) ∧
      (NoConflict g.productions (seqFirst (Recorded g)) →
        (LRTable.build fuel ig = .panic ↔ RootOverlaps g.productions (seqFirst (Recorded g)))) := by
  obtain ⟨N, hN⟩ := build_exact_user hg he
  refine ⟨N, fun fuel hf => ?_⟩
  obtain ⟨h1, h2, h3, h4, h5⟩ := hN fuel hf
  have hover : RootOverlaps g.productions (seqFirst (Recorded g)) →
      LRTable.build fuel ig = .panic ∨ ∃ e, LRTable.build fuel ig = .err e := by
    intro ho
    cases h : LRTable.build fuel ig with
    | ok t => exact absurd ho (h1 t h).2
    | err e => exact .inr ⟨e, rfl⟩
    | panic => exact .inl rfl
    | ub => exact absurd h h4
    | timeout => exact absurd h h5
  refine ⟨h3, hover, fun hn => ⟨h3, fun ho => (hover ho).resolve_right ?_⟩⟩
  rintro ⟨e, h⟩
  exact h2 e h hn
end

/-! Concrete cases. `S -> a S B; B -> !` has a table; `S -> a S b` does not, although nothing conflicts in it.
Where the grammar has a conflict besides, either of the two is met first. -/

/-- The result of building the table of a grammar: the number of states. -/
def states (g : Grammar Nat Nat) : Outcome (LRTableError Nat Nat) Nat := do
  let ig ← IndexedGrammar.build g
  let t ← LRTable.build 30 ig
  pure t.numStates

/-- `S -> a S B; B -> !`. -/
def rightRoot : Grammar Nat Nat :=
  ⟨[⟨0, [.terminal (.token 7), .production 0, .production 1]⟩, ⟨1, [.terminal .epsilon]⟩]⟩

/-- `S -> a S b`. -/
def middleRoot : Grammar Nat Nat :=
  ⟨[⟨0, [.terminal (.token 7), .production 0, .terminal (.token 8)]⟩]⟩

theorem rightRoot_builds : states rightRoot = .ok 4 := by decide +kernel

theorem middleRoot_panics : states middleRoot = .panic := by decide +kernel

/-- `middleRoot` meets the hypotheses, and its root rule is one of those described. -/
example : EpsilonLast middleRoot ∧ (∃ ig, IndexedGrammar.build middleRoot = .ok ig) ∧
    RootOverlaps middleRoot.productions (seqFirst (Recorded middleRoot)) :=
  ⟨by unfold EpsilonLast; decide, ⟨_, rfl⟩,
    ⟨_, 1, [.terminal (.token 8)], rfl, rfl, .inr ⟨8, rfl⟩⟩⟩

/-- `rightRoot` meets them too; its root rule mentions the root but is none of those. -/
example : EpsilonLast rightRoot ∧ ¬ RootNotRecursive rightRoot ∧
    (∃ ig t, IndexedGrammar.build rightRoot = .ok ig ∧ LRTable.build 30 ig = .ok t) ∧
    ¬ RootOverlaps rightRoot.productions (seqFirst (Recorded rightRoot)) := by
  have he : EpsilonLast rightRoot := by unfold EpsilonLast; decide
  have h := rightRoot_builds
  obtain ⟨ig, h1, h⟩ := Outcome.bind_eq_ok.mp h
  obtain ⟨t, h2, -⟩ := Outcome.bind_eq_ok.mp h
  refine ⟨he, ?_, ⟨ig, t, h1, h2⟩, ?_⟩
  · intro hr
    have := hr ⟨0, [.terminal (.token 7), .production 0, .production 1]⟩ [⟨1, [.terminal .epsilon]⟩] rfl
    exact absurd this (by decide)
  · obtain ⟨N, hN⟩ := build_exact_user h1 he
    have h3 : LRTable.build (max N 30) ig = .ok t := by
      obtain ⟨kt, hk⟩ := build_eq.mp h2
      exact build_eq.mpr ⟨kt, by rw [buildWithKernels_fuel (f := 30) (by omega) (by rw [hk]; simp), hk]⟩
    exact ((hN (max N 30) (by omega)).1 t h3).2

/-- `S -> S A; A -> a; A -> a` has a conflict and panics; `S -> A x S x; A -> a; A -> B; B -> a` has a conflict,
overlaps, and is refused with an error. -/
theorem panic_or_conflict :
    states ⟨[⟨0, [.production 0, .production 1]⟩, ⟨1, [.terminal (.token 7)]⟩, ⟨1, [.terminal (.token 7)]⟩]⟩ = .panic ∧
    ∃ e, states ⟨[⟨0, [.production 1, .terminal (.token 1), .production 0, .terminal (.token 1)]⟩,
      ⟨1, [.terminal (.token 7)]⟩, ⟨1, [.production 2]⟩, ⟨2, [.terminal (.token 7)]⟩]⟩ = .err e := by
  refine ⟨by decide +kernel, .reduceConflict 3 1 (.token 1), by decide +kernel⟩

end C09

namespace C13
section
variable {T L : Type} [DecidableEq T] [DecidableEq L] {g : Grammar T L} {ig : IndexedGrammar T L}

/-- **C13, whatever the root rule.** A table is returned exactly when no two items that are valid after the
same symbols demand different actions on one lookahead and reading the root within the root rule cannot be
taken for reading the whole; every error is a conflict. -/
theorem table_iff (hg : IndexedGrammar.build g = .ok ig) (he : EpsilonLast g) :
    ∃ N, ∀ fuel ≥ N,
      ((∃ t, LRTable.build fuel ig = .ok t) ↔
        NoConflict g.productions (seqFirst (Recorded g)) ∧ ¬ RootOverlaps g.productions (seqFirst (Recorded g))) ∧
      ((∃ e, LRTable.build fuel ig = .err e) → ¬ NoConflict g.productions (seqFirst (Recorded g))) ∧
      (¬ NoConflict g.productions (seqFirst (Recorded g)) →
        ¬ RootOverlaps g.productions (seqFirst (Recorded g)) → ∃ e, LRTable.build fuel ig = .err e) := by
  obtain ⟨N, hN⟩ := build_exact_user hg he
  refine ⟨N, fun fuel hf => ?_⟩
  obtain ⟨h1, h2, h3, h4, h5⟩ := hN fuel hf
  refine ⟨⟨fun ⟨t, h⟩ => h1 t h, fun ⟨hn, ho⟩ => ?_⟩, fun ⟨e, h⟩ => h2 e h, fun hn ho => ?_⟩
  · cases h : LRTable.build fuel ig with
    | ok t => exact ⟨t, rfl⟩
    | err e => exact absurd hn (h2 e h)
    | panic => exact absurd (h3 h) ho
    | ub => exact absurd h h4
    | timeout => exact absurd h h5
  · cases h : LRTable.build fuel ig with
    | ok t => exact absurd (h1 t h).1 hn
    | err e => exact ⟨e, rfl⟩
    | panic => exact absurd (h3 h) ho
    | ub => exact absurd h h4
    | timeout => exact absurd h h5
end
end C13
end Verif
