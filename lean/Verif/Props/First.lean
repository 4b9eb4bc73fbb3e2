import Verif.Proof.FirstMap
import Verif.Proof.Transport

/-!
# C06 (FIRST sets are sound), C07 (FIRST sets are complete: refuted, with partial results)
-/

set_option linter.unusedSectionVars false
set_option autoImplicit false

namespace Verif
variable {T L : Type} [DecidableEq T] [DecidableEq L]

/-- `FirstTable::build_from_grammar(IndexedGrammar::build(g))` records the terminal `t` for the label `l`:
the answer of `first_set(label).has(token)` for the ids of `l` and `t`. -/
def Recorded (g : Grammar T L) (l : L) (t : AugTok T) : Prop :=
  ∃ (ig : IndexedGrammar T L) (F : FirstTable) (i : Nat) (k : AugTokId) (s : VocabSet),
    IndexedGrammar.build g = .ok ig ∧ (FirstTable.build ig : Outcome (LRTableError T L) FirstTable) = .ok F ∧
    (ig.origLabel i : Outcome (LRTableError T L) L) = .ok l ∧ (ig.vocab.idToToken k : Outcome (LRTableError T L) _) = .ok t ∧
    (F.firstSet i : Outcome (LRTableError T L) VocabSet) = .ok s ∧ (s.has k : Outcome (LRTableError T L) Bool) = .ok true

theorem origLabel_iff {ig : IndexedGrammar T L} {i : Nat} {l : L} :
    (ig.origLabel i : Outcome (LRTableError T L) L) = .ok l ↔ ig.labels[i]? = some l := by
  simp only [IndexedGrammar.origLabel, Outcome.bind_eq_ok, Outcome.index_eq_ok, Outcome.pure_eq,
    Outcome.ok.injEq, IndexedGrammar.labels, List.getElem?_map, Option.map_eq_some_iff]

theorem idToToken_iff {ε : Type} {v : Vocab T} {k : AugTokId} {t : AugTok T} :
    (v.idToToken k : Outcome ε _) = .ok t ↔ EncTok v.idMap t k := by
  cases k with
  | token k =>
    simp only [Vocab.idToToken, Outcome.bind_eq_ok, Outcome.index_eq_ok, Outcome.pure_eq,
      Outcome.ok.injEq]
    cases t <;> simp [EncTok]
  | epsilon => cases t <;> simp [Vocab.idToToken, EncTok]
  | eos => cases t <;> simp [Vocab.idToToken, EncTok]

/-- `Recorded` in terms of the table. -/
theorem recorded_iff {g : Grammar T L} {ig : IndexedGrammar T L} {F : FirstTable}
    (hg : IndexedGrammar.build g = .ok ig) (hF : (FirstTable.build ig : Outcome (LRTableError T L) _) = .ok F)
    {i : Nat} {k : AugTokId} {l : L} {t : AugTok T} (hl : ig.labels[i]? = some l)
    (ht : EncTok ig.vocab.idMap t k) : Recorded g l t ↔ F.In i k := by
  have henc := (IndexedGrammar.build_ok hg).1
  obtain ⟨F1, hF1, hres⟩ := FirstTable.build_spec (ε := LRTableError T L) henc.wf
  rw [hF] at hF1
  cases hF1
  have hi : i < ig.labelsCount := by
    rw [← IndexedGrammar.labels_length]; exact (List.getElem?_eq_some_iff.mp hl).1
  constructor
  · rintro ⟨ig', F', i', k', s, h1, h2, h3, h4, h5, h6⟩
    rw [hg] at h1
    cases h1
    rw [hF] at h2
    cases h2
    rw [origLabel_iff] at h3
    rw [idToToken_iff] at h4
    cases henc.label_inj hl h3
    cases EncTok.inj henc.vocab.nodup ht h4
    obtain ⟨s', e, hs, hwf, hin⟩ := hres.wf.get (ε := LRTableError T L) hi
    rw [FirstTable.firstSet, e] at h5
    cases h5
    rw [hwf.has_eq (EncTok.id_lt ht)] at h6
    exact (hin k).mpr (Outcome.ok.inj h6)
  · intro hin
    obtain ⟨s, e, hs, hwf, hin'⟩ := hres.wf.get (ε := LRTableError T L) hi
    refine ⟨ig, F, i, k, s, hg, hF, origLabel_iff.mpr hl, idToToken_iff.mpr ht, e, ?_⟩
    rw [hwf.has_eq (EncTok.id_lt ht), (hin' k).mp hin]

namespace C06

/-- **C06.** What the FIRST table records is true: a recorded token begins a sentential form derived from
the label, a recorded epsilon means that the label derives the empty sequence. -/
theorem first_sound (g : Grammar T L) (l : L) (t : AugTok T) (h : Recorded g l t) :
    Spec.InFirst g.productions [.production l] t := by
  obtain ⟨ig, F, i, k, s, hg, hF, hl, ht, hs, hm⟩ := id h
  have henc := (IndexedGrammar.build_ok hg).1
  rw [origLabel_iff] at hl
  rw [idToToken_iff] at ht
  rw [recorded_iff hg hF hl ht] at h
  obtain ⟨F1, hF1, hres⟩ := FirstTable.build_spec (ε := LRTableError T L) henc.wf
  rw [hF] at hF1
  cases hF1
  rw [← first_iff, henc.first_iff (α := [.production l]) (β := [.production i]) (.cons hl .nil) ht]
  obtain ⟨r, hr, rfl, hj⟩ := hres.just _ _ h
  by_cases he : k = .epsilon
  · subst he; exact .skip hr hj.first .nil
  · exact .take hr hj.first he

/-- The grammar `S -> A B; A -> a A | !; B -> A b`. -/
def sample : Grammar Nat Nat :=
  ⟨[⟨0, [.production 1, .production 2]⟩, ⟨1, [.terminal (.token 7), .production 1]⟩,
    ⟨1, [.terminal .epsilon]⟩, ⟨2, [.production 1, .terminal (.token 8)]⟩]⟩

/-- Records both tokens for the root, and epsilon for `A`. -/
example : Recorded sample 0 (.token 7) ∧ Recorded sample 0 (.token 8) ∧ Recorded sample 1 .epsilon := by
  refine ⟨⟨_, _, 0, .token 0, _, rfl, rfl, rfl, rfl, rfl, ?_⟩, ⟨_, _, 0, .token 1, _, rfl, rfl, rfl, rfl, rfl, ?_⟩,
    ⟨_, _, 1, .epsilon, _, rfl, rfl, rfl, rfl, rfl, ?_⟩⟩ <;> decide +kernel

end C06

namespace C07

/-- Completeness of FIRST for one grammar. -/
def FirstComplete (g : Grammar T L) : Prop :=
  ∀ l t, Spec.InFirst g.productions [.production l] t → Recorded g l t

/-- `S -> Y B; Y -> !; B -> A a; A -> !`. -/
def witness : Grammar Nat Nat :=
  ⟨[⟨0, [.production 1, .production 2]⟩, ⟨1, [.terminal .epsilon]⟩,
    ⟨2, [.production 3, .terminal (.token 7)]⟩, ⟨3, [.terminal .epsilon]⟩]⟩

/-- The answer of `first_set(label i).has(token k)`. -/
def query (g : Grammar T L) (i : Nat) (k : AugTokId) : Outcome (LRTableError T L) Bool := do
  let ig ← IndexedGrammar.build g
  let F ← FirstTable.build ig
  let s ← F.firstSet i
  s.has k

/-- **C07 is false.** `B` derives `a` in the grammar `S -> Y B; Y -> !; B -> A a; A -> !`, but the table does
not record it: adding epsilon for `A` does not count as a change, so the loop stops after the first round. -/
theorem first_complete_refuted :
    Spec.WellFormed witness ∧ Spec.RootNotRecursive witness ∧ (∃ ig, IndexedGrammar.build witness = .ok ig) ∧
    Spec.InFirst witness.productions [.production 2] (.token 7) ∧ ¬ Recorded witness 2 (.token 7) := by
  refine ⟨⟨?_, ?_⟩, ?_, ⟨_, rfl⟩, ?_, ?_⟩
  · unfold Spec.EpsilonLast; decide
  · unfold Spec.NoEndMarker; decide
  · rintro root rest h
    cases h
    decide
  · rw [← first_iff]
    refine .take (r := ⟨2, [.production 3, .terminal (.token 7)]⟩) (by decide) ?_ (by simp)
    exact .skip (r := ⟨3, [.terminal .epsilon]⟩) (by decide) (.eps .nil) (.term (by simp))
  · intro h
    have hq : query witness 2 (.token 0) = .ok false := by decide +kernel
    have hl : (do let ig ← IndexedGrammar.build witness; ig.origLabel 2) = .ok 2 := by decide +kernel
    have ht : (do let ig ← IndexedGrammar.build witness; ig.vocab.idToToken (.token 0)) =
        .ok (.token 7) := by decide +kernel
    obtain ⟨ig, F, i, k, s, hg, hF, h3, h4, h5, h6⟩ := h
    have henc := (IndexedGrammar.build_ok hg).1
    rw [hg, Outcome.ok_bind] at hl ht
    rw [origLabel_iff] at hl
    rw [idToToken_iff] at ht
    have hr : Recorded witness 2 (.token 7) := ⟨ig, F, i, k, s, hg, hF, h3, h4, h5, h6⟩
    rw [recorded_iff hg hF hl ht] at hr
    obtain ⟨F1, hF1, hres⟩ := FirstTable.build_spec (ε := LRTableError Nat Nat) henc.wf
    rw [hF] at hF1
    cases hF1
    have hlt : 2 < ig.labelsCount := (hres.wf.in_lt hr).1
    obtain ⟨s', e, hs, hwf, hin⟩ := hres.wf.get (ε := LRTableError Nat Nat) hlt
    rw [query, hg, Outcome.ok_bind, hF, Outcome.ok_bind, FirstTable.firstSet, e, Outcome.ok_bind,
      hwf.has_eq (EncTok.id_lt ht), (hin _).mp hr] at hq
    cases hq

/-- From closedness of the table to completeness. -/
theorem complete_of_closed {g : Grammar T L} {ig : IndexedGrammar T L} {F : FirstTable}
    (hg : IndexedGrammar.build g = .ok ig)
    (hF : (FirstTable.build ig : Outcome (LRTableError T L) _) = .ok F)
    (hc : FirstTable.Closed ig.cfg F) : FirstComplete g := by
  intro l t ht
  have henc := (IndexedGrammar.build_ok hg).1
  rw [← first_iff] at ht
  obtain ⟨i, hi⟩ : ∃ i, ig.labels[i]? = some l := by
    cases ht with
    | skip hr _ _ =>
      obtain ⟨j, hj⟩ := List.mem_iff_getElem?.mp hr
      obtain ⟨r, -, -, h, -⟩ := henc.exists_rule hj
      exact ⟨_, h⟩
    | take hr _ _ =>
      obtain ⟨j, hj⟩ := List.mem_iff_getElem?.mp hr
      obtain ⟨r, -, -, h, -⟩ := henc.exists_rule hj
      exact ⟨_, h⟩
  obtain ⟨k, hk⟩ := henc.first_tok ht (by simp)
  rw [recorded_iff hg hF hi hk]
  rw [henc.first_iff (α := [.production l]) (β := [.production i]) (.cons hi .nil) hk] at ht
  rcases hc.complete ht with ⟨-, h⟩ | ⟨h, rfl⟩
  · exact h
  · exact h

/-- A table for which all true facts are recorded is closed. -/
theorem closed_of_complete {g : Grammar T L} {ig : IndexedGrammar T L} {F : FirstTable}
    (hg : IndexedGrammar.build g = .ok ig)
    (hF : (FirstTable.build ig : Outcome (LRTableError T L) _) = .ok F)
    (hc : FirstComplete g) : FirstTable.Closed ig.cfg F := by
  have henc := (IndexedGrammar.build_ok hg).1
  obtain ⟨F1, hF1, hres⟩ := FirstTable.build_spec (ε := LRTableError T L) henc.wf
  rw [hF] at hF1
  cases hF1
  refine .of_complete hres.just fun i k hf => ?_
  obtain ⟨l, hl⟩ := henc.label_of_first hf
  obtain ⟨t, ht⟩ := henc.first_tok' hf (by simp)
  rw [← recorded_iff hg hF hl ht]
  apply hc
  rw [← first_iff, henc.first_iff (α := [.production l]) (β := [.production i]) (.cons hl .nil) ht]
  exact hf

/-- **C07, partial: stable tables.** If one more propagation round leaves the computed table as it is, the
FIRST sets are complete. (Missing: the code does not make sure that this is the case.) -/
theorem first_complete_if_stable_partial (g : Grammar T L) (ig : IndexedGrammar T L) (F : FirstTable)
    (changed : Bool) (hg : IndexedGrammar.build g = .ok ig)
    (hF : (FirstTable.build ig : Outcome (LRTableError T L) _) = .ok F)
    (hs : (FirstTable.propagate ig F : Outcome (LRTableError T L) _) = .ok (F, changed)) :
    FirstComplete g := by
  have henc := (IndexedGrammar.build_ok hg).1
  obtain ⟨F1, hF1, hres⟩ := FirstTable.build_spec (ε := LRTableError T L) henc.wf
  rw [hF] at hF1
  cases hF1
  obtain ⟨F', c, e, hR⟩ := FirstTable.propagate_spec (ε := LRTableError T L) henc.wf hres.wf hres.just
  rw [hs] at e
  cases e
  exact complete_of_closed hg hF hR.closed

/-- **C07, exactly when it holds**: the FIRST sets of a grammar are complete if and only if one more round of
propagation would leave the computed table as it is. -/
theorem first_complete_iff_stable (g : Grammar T L) (ig : IndexedGrammar T L) (F : FirstTable)
    (hg : IndexedGrammar.build g = .ok ig)
    (hF : (FirstTable.build ig : Outcome (LRTableError T L) _) = .ok F) :
    FirstComplete g ↔ (FirstTable.propagate ig F : Outcome (LRTableError T L) _) = .ok (F, false) := by
  refine ⟨fun hc => ?_, first_complete_if_stable_partial g ig F false hg hF⟩
  have hcl := closed_of_complete hg hF hc
  have henc := (IndexedGrammar.build_ok hg).1
  obtain ⟨F1, hF1, hres⟩ := FirstTable.build_spec (ε := LRTableError T L) henc.wf
  rw [hF] at hF1
  cases hF1
  obtain ⟨F', c, e, hR⟩ := FirstTable.propagate_spec (ε := LRTableError T L) henc.wf hres.wf hres.just
  have hin : ∀ i k, F'.In i k ↔ F.In i k := by
    refine fun i k => ⟨fun h => ?_, fun h => hR.le _ _ h⟩
    obtain ⟨r, hr, rfl, hj⟩ := hR.just _ _ h
    have hf : First ig.cfg [.production r.symbol] k := by
      by_cases he : k = .epsilon
      · subst he; exact .skip hr hj.first .nil
      · exact .take hr hj.first he
    rcases hcl.complete hf with ⟨-, h'⟩ | ⟨h', rfl⟩
    · exact h'
    · exact h'
  have hch : c = false := by
    cases c with
    | false => rfl
    | true =>
      rcases hR.progress rfl with h | ⟨l, t, -, h1, h2⟩
      · cases h
      · exact absurd ((hin l t).mp h2) h1
  rw [e, hch, FirstTable.WF.ext hR.wf hres.wf hin]

/-- **C07, partial: no nullable labels.** -/
theorem first_complete_if_not_nullable_partial (g : Grammar T L) (ig : IndexedGrammar T L)
    (hg : IndexedGrammar.build g = .ok ig)
    (hn : ∀ l, ¬ Spec.InFirst g.productions [.production l] .epsilon) : FirstComplete g := by
  have henc := (IndexedGrammar.build_ok hg).1
  obtain ⟨F, hF, hres⟩ := FirstTable.build_spec (ε := LRTableError T L) henc.wf
  refine complete_of_closed hg hF (FirstTable.closed_of_not_nullable hres fun i hf => ?_)
  obtain ⟨l, hl⟩ := henc.label_of_first hf
  apply hn l
  rw [← first_iff, henc.first_iff (α := [.production l]) (β := [.production i]) (t := .epsilon)
    (i := .epsilon) (.cons hl .nil) trivial]
  exact hf

/-- **C07, partial: directly nullable labels.** If every label that derives the empty sequence has a rule
of its own consisting of epsilons only, and some rule begins with a token, the FIRST sets are complete. -/
theorem first_complete_if_directly_nullable_partial (g : Grammar T L) (ig : IndexedGrammar T L)
    (hg : IndexedGrammar.build g = .ok ig)
    (hn : ∀ l, Spec.InFirst g.productions [.production l] .epsilon →
      ∃ r ∈ g.productions, r.symbol = l ∧ Spec.AllEpsilon r.rule)
    (ht : ∃ r ∈ g.productions, ∃ t : T, Spec.BeginsWith r.rule (.token t)) : FirstComplete g := by
  have henc := (IndexedGrammar.build_ok hg).1
  obtain ⟨F, hF, hres⟩ := FirstTable.build_spec (ε := LRTableError T L) henc.wf
  refine complete_of_closed hg hF (FirstTable.closed_of_direct henc.wf hF ?_ ?_)
  · intro i hf
    obtain ⟨l, hl⟩ := henc.label_of_first hf
    rw [← henc.first_iff (α := [.production l]) (β := [.production i]) (t := .epsilon)
      (i := .epsilon) (.cons hl .nil) trivial, first_iff] at hf
    obtain ⟨p, hp, rfl, ha⟩ := hn l hf
    obtain ⟨j, hj⟩ := List.mem_iff_getElem?.mp hp
    obtain ⟨k, r, hr, -, rfl, hnodes⟩ := henc.rule_of_production hj hl
    refine ⟨r.rule, IndexedGrammar.Encodes.mem_cfg (List.mem_of_getElem? hr), rfl, ?_⟩
    exact IndexedGrammar.Encodes.allEpsilon_enc hnodes ha
  · obtain ⟨p, hp, t, pre, rest, hrule, hpre⟩ := ht
    obtain ⟨j, hj⟩ := List.mem_iff_getElem?.mp hp
    obtain ⟨r, hr, -, -, hnodes⟩ := henc.exists_rule hj
    rw [hrule] at hnodes
    obtain ⟨pre', rest', h1, h2, e⟩ := IndexedGrammar.Encodes.forall₂_append_left hnodes
    refine ⟨r.rule, IndexedGrammar.Encodes.mem_cfg hr, ?_⟩
    cases h2 with
    | cons hn h2 =>
      rename_i n β
      cases n with
      | production l => simp [EncNode] at hn
      | terminal k =>
        cases k <;> simp [EncNode, EncTok] at hn
        exact ⟨_, by simp, pre', β, e, IndexedGrammar.Encodes.allEpsilon_enc h1 hpre⟩

/-- The sample grammar `S -> A B; A -> a A | !; B -> A b` meets the hypotheses of the last theorem. -/
example : FirstComplete C06.sample := by
  refine first_complete_if_directly_nullable_partial C06.sample _ rfl ?_ ?_
  · intro l hl
    rw [← first_iff] at hl
    have := First.nullable_sub (fun l => l == 1) (by decide) hl rfl
    simp only [List.all_cons, First.vanishes, List.all_nil, Bool.and_true, beq_iff_eq] at this
    subst this
    exact ⟨⟨1, [.terminal .epsilon]⟩, by decide, rfl, by simp [Spec.AllEpsilon]⟩
  · exact ⟨⟨1, [.terminal (.token 7), .production 1]⟩, by decide, 7, [], _, rfl, by simp [Spec.AllEpsilon]⟩

/-- It also meets those of the first one: propagating once more returns the same table. -/
example : ((do
    let ig ← IndexedGrammar.build C06.sample
    let F ← FirstTable.build ig
    let (F', _) ← FirstTable.propagate ig F
    pure (F == F')) : Outcome (LRTableError Nat Nat) Bool) = .ok true := by decide +kernel

/-- `S -> A; A -> A a | b` has no nullable label. -/
example : FirstComplete (⟨[⟨0, [.production 1]⟩, ⟨1, [.production 1, .terminal (.token 7)]⟩,
    ⟨1, [.terminal (.token 8)]⟩]⟩ : Grammar Nat Nat) := by
  refine first_complete_if_not_nullable_partial _ _ rfl fun l hl => ?_
  rw [← first_iff] at hl
  simpa [First.vanishes] using First.nullable_sub (fun _ => false) (by decide) hl rfl

end C07
end Verif
