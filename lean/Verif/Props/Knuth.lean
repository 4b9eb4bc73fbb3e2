import Verif.Proof.Knuth
import Verif.Props.Table

/-!
# C42: conflicts are reported only for grammars that are not LR(1)
-/

set_option linter.unusedSectionVars false
set_option autoImplicit false

namespace Verif
open Spec
variable {T L : Type} [DecidableEq T] [DecidableEq L]

namespace C42

/-- **C42.** If the construction of the table fails for a grammar without unproductive labels, then the
grammar is not LR(1) in Knuth's sense: two rightmost sentential forms agree up to and including one symbol
of lookahead but their handles differ. -/
theorem conflict_not_lr1 (g : Grammar T L) (ig : IndexedGrammar T L) (fuel : Nat) (e : LRTableError T L)
    (hg : WellFormed g) (hp : Productive g.productions) (hi : IndexedGrammar.build g = .ok ig)
    (hb : LRTable.build fuel ig = .err e) : NotLR1 g.productions := by
  have henc := (IndexedGrammar.build_ok hi).1
  have hwf := henc.wellFormed hg
  obtain ⟨F, -, hres, hG⟩ := genuine_of_err henc.wf (buildWithKernels_of_build hb)
  have hno := (hG.spec henc.wf hres.wf (henc.epsLast hg.epsilonLast)).not_noConflict
  have hpr := nodesProductive henc hg.noEndMarker hp
  have hsound := firstSound hpr hres.just (noEos_of hwf)
  exact notLR1_dec henc (notLR1_of_conflict hpr hsound (rootUnused_of henc.wf hpr) (noEos_of hwf) hno)

/-- `S -> A; A -> A A | a`. -/
def pairs : Grammar Nat Nat :=
  ⟨[⟨0, [.production 1]⟩, ⟨1, [.production 1, .production 1]⟩, ⟨1, [.terminal (.token 7)]⟩]⟩

/-- The hypotheses are met by `S -> A; A -> A A | a`, which is therefore not LR(1). -/
example : NotLR1 pairs.productions := by
  obtain ⟨ig, hig⟩ : ∃ ig, IndexedGrammar.build pairs = .ok ig := ⟨_, rfl⟩
  have h : (do
      let ig ← IndexedGrammar.build pairs
      LRTable.build 20 ig) = Outcome.err (.shiftReduceConflict 1 (.token 7)) := by decide +kernel
  rw [hig, Outcome.ok_bind] at h
  refine conflict_not_lr1 pairs ig 20 _ ⟨?_, ?_⟩ ?_ hig h
  · unfold Spec.EpsilonLast; decide
  · unfold Spec.NoEndMarker; decide
  · have hA : Derives pairs.productions [.production 1] [7] :=
      .prod (r := ⟨1, [.terminal (.token 7)]⟩) (u := [7]) (w := []) (by decide) (.tok .nil) .nil
    have hS : Derives pairs.productions [.production 0] [7] :=
      .prod (r := ⟨0, [.production 1]⟩) (u := [7]) (w := []) (by decide) hA .nil
    intro r hr
    simp only [pairs, List.mem_cons, List.not_mem_nil, or_false] at hr
    rcases hr with rfl | rfl | rfl
    · exact ⟨_, hS⟩
    · exact ⟨_, hA⟩
    · exact ⟨_, hA⟩

end C42

end Verif
