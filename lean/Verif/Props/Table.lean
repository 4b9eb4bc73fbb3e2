import Verif.Props.Closure
import Verif.Props.Actions

/-!
# C08 (construction terminates), C09 (never panics: refuted, partial), C13 (conflicts), C14 (table is well
formed), C15 (states)
-/

set_option linter.unusedSectionVars false
set_option autoImplicit false

namespace Verif
variable {T L : Type} [DecidableEq T] [DecidableEq L]

/-- `S -> A B; A -> a A | !; B -> c b`, used as a concrete case below. -/
def sampleLR : Grammar Nat Nat :=
  ⟨[⟨0, [.production 1, .production 2]⟩, ⟨1, [.terminal (.token 7), .production 1]⟩,
    ⟨1, [.terminal .epsilon]⟩, ⟨2, [.terminal (.token 9), .terminal (.token 8)]⟩]⟩

/-- The sample is accepted and has seven states. -/
theorem sampleLR_builds : ((do
    let ig ← IndexedGrammar.build sampleLR
    let t ← LRTable.build 20 ig
    pure t.numStates) : Outcome (LRTableError Nat Nat) _) = .ok 7 := by decide +kernel

theorem sampleLR_wellFormed : Spec.WellFormed sampleLR := by
  refine ⟨?_, ?_⟩
  · unfold Spec.EpsilonLast; decide
  · unfold Spec.NoEndMarker; decide

theorem sampleLR_rootNotRecursive : Spec.RootNotRecursive sampleLR := by
  rintro root rest h
  cases h
  decide

theorem buildWithKernels_of_build {fuel : Nat} {ig : IndexedGrammar T L} {e : LRTableError T L}
    (h : LRTable.build fuel ig = .err e) : LRTable.buildWithKernels fuel ig = .err e := by
  unfold LRTable.build at h
  rw [Outcome.bind_eq_err] at h
  rcases h with h | ⟨a, -, h⟩
  · exact h
  · cases h

namespace C08

/-- **C08.** Building the table terminates: from some amount of fuel on, the result is no longer "out of
fuel" and does not change. The FIRST computation (and, within it, the closures) need no unbounded fuel at
all. -/
theorem build_terminates (g : Grammar T L) (ig : IndexedGrammar T L)
    (hg : IndexedGrammar.build g = .ok ig) :
    (∃ F, (FirstTable.build ig : Outcome (LRTableError T L) _) = .ok F) ∧
    ∃ N, LRTable.build N ig ≠ .timeout ∧ ∀ fuel ≥ N, LRTable.build fuel ig = LRTable.build N ig := by
  have henc := (IndexedGrammar.build_ok hg).1
  obtain ⟨F, eF, -, hsat⟩ := buildWithKernels_sat (X := True) henc.wf (.inr trivial)
  refine ⟨⟨F, eF⟩, stateBound ig F + 1, ?_⟩
  have h1 := hsat (stateBound ig F + 1) (by omega)
  have hne : LRTable.buildWithKernels (stateBound ig F + 1) ig ≠ .timeout := by
    intro e; rw [e] at h1; exact h1
  refine ⟨?_, fun fuel hf => ?_⟩
  · unfold LRTable.build
    intro e
    rw [Outcome.bind_eq_timeout] at e
    rcases e with e | ⟨a, -, e⟩
    · exact hne e
    · cases e
  · unfold LRTable.build
    rw [buildWithKernels_fuel hf hne]

/-- The closure of any kernel within the grammar is computed without running out of fuel. -/
theorem closure_terminates (g : Grammar T L) (ig : IndexedGrammar T L) (F : FirstTable) (k : Kernel)
    (hg : IndexedGrammar.build g = .ok ig)
    (hF : (FirstTable.build ig : Outcome (LRTableError T L) _) = .ok F)
    (hk : ∀ p ∈ k.positions, PositionOf ig p) :
    (Closure.followSets k ig F : Outcome (LRTableError T L) _) ≠ .timeout := by
  obtain ⟨m, e, -⟩ := C34.closure_exact g ig F k hg hF hk
  rw [e]; simp

end C08

namespace C09

/-- `S -> S a` passes the validation but makes the construction panic. -/
theorem build_panics :
    ∃ ig : IndexedGrammar Nat Nat,
      IndexedGrammar.build ⟨[⟨0, [.production 0, .terminal (.token 7)]⟩]⟩ = .ok ig ∧
      ∀ fuel ≥ 3, LRTable.build fuel ig = .panic := by
  refine ⟨_, rfl, fun fuel hf => ?_⟩
  unfold LRTable.build
  rw [buildWithKernels_fuel (f := 3) hf (by decide +kernel)]
  decide +kernel

/-- **C09, partial.** If the root rule does not mention the root label, building the table returns a table
or an error and never panics. (The library checks only the other rules for such references, see
`build_panics`.) -/
theorem build_never_panics_partial (g : Grammar T L) (ig : IndexedGrammar T L) (fuel : Nat)
    (hg : IndexedGrammar.build g = .ok ig) (hr : Spec.RootNotRecursive g) :
    LRTable.build fuel ig ≠ .panic ∧ LRTable.build fuel ig ≠ .ub := by
  have henc := (IndexedGrammar.build_ok hg).1
  obtain ⟨F, -, -, hsat⟩ := buildWithKernels_sat (X := False) henc.wf (.inl (henc.rootFree hr))
  have h1 := hsat (max fuel (stateBound ig F + 1)) (by omega)
  have key : LRTable.buildWithKernels fuel ig ≠ .panic ∧ LRTable.buildWithKernels fuel ig ≠ .ub := by
    constructor
    · intro e
      rw [buildWithKernels_fuel (le_max_left fuel _) (by rw [e]; simp), e] at h1
      exact h1
    · intro e
      rw [buildWithKernels_fuel (le_max_left fuel _) (by rw [e]; simp), e] at h1
      exact h1
  unfold LRTable.build
  cases h : LRTable.buildWithKernels fuel ig with
  | ok r => simp
  | err e => simp
  | panic => exact absurd h key.1
  | ub => exact absurd h key.2
  | timeout => simp

/-- **C09.** If the root rule does not name its own label, there is a table or one of the conflicts, and no undefined
behaviour. -/
theorem build_returns_table_or_conflict (g : Grammar T L) (ig : IndexedGrammar T L)
    (hg : IndexedGrammar.build g = .ok ig) (hr : Spec.RootNotRecursive g) :
    ∃ N, ∀ fuel ≥ N, (∃ t, LRTable.build fuel ig = .ok t) ∨
      (∃ r r' tok, LRTable.build fuel ig = .err (.reduceConflict r r' tok)) ∨
      (∃ r tok, LRTable.build fuel ig = .err (.shiftReduceConflict r tok)) ∨
      (∃ tok, LRTable.build fuel ig = .err (.shiftConflict tok)) := by
  obtain ⟨-, N, hN, hst⟩ := C08.build_terminates g ig hg
  refine ⟨N, fun fuel hf => ?_⟩
  obtain ⟨h1, h2⟩ := build_never_panics_partial g ig fuel hg hr
  rw [← hst fuel hf] at hN
  cases h : LRTable.build fuel ig with
  | ok t => exact .inl ⟨t, rfl⟩
  | panic => exact absurd h h1
  | ub => exact absurd h h2
  | timeout => exact absurd h hN
  | err e =>
    right
    have henc := (IndexedGrammar.build_ok hg).1
    obtain ⟨F, -, -, k, items, groups, -, -, -, hc⟩ :=
      genuine_of_err henc.wf (buildWithKernels_of_build h)
    have key : ∀ t a b, EntryBuilder.Reports ig e t a b →
        (∃ r r' tok, e = .reduceConflict r r' tok) ∨ (∃ r tok, e = .shiftReduceConflict r tok) ∨
          (∃ tok, e = .shiftConflict tok) := by
      rintro t a b ⟨tok, -, h⟩
      cases a <;> cases b <;> simp only at h
      all_goals subst h; simp
    have hk : (∃ r r' tok, e = .reduceConflict r r' tok) ∨ (∃ r tok, e = .shiftReduceConflict r tok) ∨
        (∃ tok, e = .shiftConflict tok) := by
      rcases hc with ⟨_, _, _, _, _, _, _, _, _, _, _, _, _, h⟩ | ⟨_, _, _, _, _, _, _, _, _, _, h | h⟩
      · exact key _ _ _ h
      · exact key _ _ _ h
      · exact key _ _ _ h
    rcases hk with ⟨r, r', tok, rfl⟩ | ⟨r, tok, rfl⟩ | ⟨tok, rfl⟩
    · exact .inl ⟨r, r', tok, rfl⟩
    · exact .inr (.inl ⟨r, tok, rfl⟩)
    · exact .inr (.inr ⟨tok, rfl⟩)

/-- The sample grammar is one whose root is not recursive. -/
example : Spec.RootNotRecursive sampleLR := sampleLR_rootNotRecursive

end C09

namespace C13

/-- **C13.** The construction fails with an error exactly when two items that are valid after some sequence
of symbols demand different actions on the same lookahead. FIRST sets as computed by the code (`F`). -/
theorem conflict_error_iff (g : Grammar T L) (ig : IndexedGrammar T L) (F : FirstTable)
    (hg : IndexedGrammar.build g = .ok ig) (he : Spec.EpsilonLast g) (hr : Spec.RootNotRecursive g)
    (hF : (FirstTable.build ig : Outcome (LRTableError T L) _) = .ok F) :
    ∃ N, ∀ fuel ≥ N, ((∃ e, LRTable.build fuel ig = .err e) ↔
        ¬ Spec.NoConflict ig.cfg (Spec.seqFirst F.In)) ∧
      ((∃ t, LRTable.build fuel ig = .ok t) ↔ Spec.NoConflict ig.cfg (Spec.seqFirst F.In)) := by
  have henc := (IndexedGrammar.build_ok hg).1
  rw [seqFirst_eq]
  obtain ⟨N, hN⟩ := C09.build_returns_table_or_conflict g ig hg hr
  refine ⟨N, fun fuel hf => ?_⟩
  have hok : ∀ t, LRTable.build fuel ig = .ok t → Spec.NoConflict ig.cfg F.NodesFirst := by
    intro t ht
    obtain ⟨kt, hkt⟩ := build_eq.mp ht
    obtain ⟨F', eF', hres, hB⟩ := built_of_ok henc.wf hkt
    rw [hF] at eF'
    cases eF'
    exact hB.noConflict henc.wf hres.wf (henc.epsLast he)
  have herr : ∀ e, LRTable.build fuel ig = .err e → ¬ Spec.NoConflict ig.cfg F.NodesFirst := by
    intro e ht
    obtain ⟨F', eF', hres, hG⟩ := genuine_of_err henc.wf (buildWithKernels_of_build ht)
    rw [hF] at eF'
    cases eF'
    exact (hG.spec henc.wf hres.wf (henc.epsLast he)).not_noConflict
  have hcases : (∃ t, LRTable.build fuel ig = .ok t) ∨ ∃ e, LRTable.build fuel ig = .err e := by
    rcases hN fuel hf with h | ⟨_, _, _, h⟩ | ⟨_, _, h⟩ | ⟨_, h⟩
    · exact .inl h
    · exact .inr ⟨_, h⟩
    · exact .inr ⟨_, h⟩
    · exact .inr ⟨_, h⟩
  refine ⟨⟨fun ⟨e, h⟩ => herr e h, fun h => ?_⟩, ⟨fun ⟨t, h⟩ => hok t h, fun h => ?_⟩⟩
  · rcases hcases with ⟨t, ht⟩ | h'
    · exact absurd (hok t ht) h
    · exact h'
  · rcases hcases with h' | ⟨e, ht⟩
    · exact h'
    · exact absurd h (herr e ht)

/-- **C13.** The rules and the lookahead named by the error are those of two conflicting items (rule 0
stands for acceptance); a shift/shift conflict is never reported. -/
theorem conflict_error_names (g : Grammar T L) (ig : IndexedGrammar T L) (F : FirstTable) (fuel : Nat)
    (e : LRTableError T L) (hg : IndexedGrammar.build g = .ok ig) (he : Spec.EpsilonLast g)
    (hF : (FirstTable.build ig : Outcome (LRTableError T L) _) = .ok F)
    (hb : LRTable.build fuel ig = .err e) :
    ∃ (γ : List INode) (t : AugTokId) (tok : AugTok T),
      (ig.vocab.idToToken t : Outcome (LRTableError T L) _) = .ok tok ∧
      ((∃ i j, i ≠ j ∧ e = .reduceConflict i j tok ∧
          Spec.Demands ig.cfg (Spec.seqFirst F.In) γ t (Spec.endAct i) ∧
          Spec.Demands ig.cfg (Spec.seqFirst F.In) γ t (Spec.endAct j)) ∨
        (∃ i, e = .shiftReduceConflict i tok ∧
          Spec.Demands ig.cfg (Spec.seqFirst F.In) γ t .shift ∧
          Spec.Demands ig.cfg (Spec.seqFirst F.In) γ t (Spec.endAct i))) := by
  have henc := (IndexedGrammar.build_ok hg).1
  rw [seqFirst_eq]
  obtain ⟨F', eF', hres, hG⟩ := genuine_of_err henc.wf (buildWithKernels_of_build hb)
  rw [hF] at eF'
  cases eF'
  exact hG.spec henc.wf hres.wf (henc.epsLast he)

/-- **C13, partial: true LR(1) conflicts.** If no action is missing, an error is reported exactly
when the grammar has an LR(1) conflict (with the true FIRST sets). -/
theorem conflict_error_iff_lr1_partial (g : Grammar T L) (ig : IndexedGrammar T L)
    (hg : IndexedGrammar.build g = .ok ig) (he : Spec.EpsilonLast g) (hr : Spec.RootNotRecursive g)
    (hc : C07.ActionsComplete g) :
    ∃ N, ∀ fuel ≥ N, ((∃ e, LRTable.build fuel ig = .err e) ↔
        ¬ Spec.NoConflict ig.cfg (Spec.InFirst ig.cfg)) ∧
      ((∃ t, LRTable.build fuel ig = .ok t) ↔ Spec.NoConflict ig.cfg (Spec.InFirst ig.cfg)) := by
  obtain ⟨⟨F, hF⟩, -⟩ := C08.build_terminates g ig hg
  have henc := (IndexedGrammar.build_ok hg).1
  have := conflict_error_iff g ig F hg he hr hF
  rwa [seqFirst_eq, noConflict_iff henc (sameFirst_recorded hg hF), hc.noConflict,
    ← noConflict_iff henc (sameFirst_true hg)] at this

/-- `S -> x B C c; B -> b; B -> Q; Q -> b; C -> D; D -> E; E -> !`. -/
def missed : Grammar Nat Nat :=
  ⟨[⟨0, [.terminal (.token 1), .production 1, .production 2, .terminal (.token 3)]⟩,
    ⟨1, [.terminal (.token 2)]⟩, ⟨1, [.production 3]⟩, ⟨3, [.terminal (.token 2)]⟩,
    ⟨2, [.production 4]⟩, ⟨4, [.production 5]⟩, ⟨5, [.terminal .epsilon]⟩]⟩

/-- **C13 with the true FIRST sets is false.** A reduce/reduce conflict of the grammar `missed` is not
reported (because the FIRST sets are incomplete, C07): the table is built. -/
theorem conflict_missed :
    Spec.WellFormed missed ∧ Spec.RootNotRecursive missed ∧ ∃ ig, IndexedGrammar.build missed = .ok ig ∧
      (∃ t, LRTable.build 20 ig = .ok t) ∧ ¬ Spec.NoConflict ig.cfg (Spec.InFirst ig.cfg) := by
  refine ⟨⟨?_, ?_⟩, ?_, ?_⟩
  · unfold Spec.EpsilonLast; decide
  · unfold Spec.NoEndMarker; decide
  · rintro root rest h
    cases h
    decide
  · obtain ⟨ig, hig⟩ : ∃ ig, IndexedGrammar.build missed = .ok ig := ⟨_, rfl⟩
    refine ⟨ig, hig, ?_, ?_⟩
    · have h : (do let ig ← IndexedGrammar.build missed; let _ ← LRTable.build 20 ig; pure ()) =
          Outcome.ok () := by decide +kernel
      rw [hig, Outcome.ok_bind, Outcome.bind_eq_ok] at h
      obtain ⟨t, ht, -⟩ := h
      exact ⟨t, ht⟩
    · have hcfg : (do let ig ← IndexedGrammar.build missed; pure ig.cfg) =
          (Outcome.ok [⟨0, [.terminal (.token 0), .production 1, .production 3, .terminal (.token 1)]⟩,
            ⟨1, [.terminal (.token 2)]⟩, ⟨1, [.production 2]⟩, ⟨2, [.terminal (.token 2)]⟩,
            ⟨3, [.production 4]⟩, ⟨4, [.production 5]⟩, ⟨5, [.terminal .epsilon]⟩] :
            Outcome (LRTableError Nat Nat) _) := by decide +kernel
      rw [hig, Outcome.ok_bind, Outcome.pure_eq, Outcome.ok.injEq] at hcfg
      rw [hcfg]
      generalize hP : ([⟨0, _⟩, ⟨1, _⟩, ⟨1, _⟩, ⟨2, _⟩, ⟨3, _⟩, ⟨4, _⟩, ⟨5, _⟩] : List (Rule Nat Nat)) = P
      have hfirst : Spec.InFirst P [.production 3, .terminal (.token 1)] (.token 1) := by
        rw [← first_iff]
        subst hP
        refine .skip (r := ⟨3, [.production 4]⟩) (by decide) ?_ (.term (by simp))
        refine .skip (r := ⟨4, [.production 5]⟩) (by decide) ?_ .nil
        exact .skip (r := ⟨5, [.terminal .epsilon]⟩) (by decide) (.eps .nil) .nil
      have hnil : Spec.InFirst P [] .epsilon := by rw [← first_iff]; exact .nil
      have h0 : P[0]? = some ⟨0, [.terminal (.token 0), .production 1, .production 3,
        .terminal (.token 1)]⟩ := by subst hP; rfl
      have h1 : P[1]? = some ⟨1, [.terminal (.token 2)]⟩ := by subst hP; rfl
      have h2 : P[2]? = some ⟨1, [.production 2]⟩ := by subst hP; rfl
      have h3 : P[3]? = some ⟨2, [.terminal (.token 2)]⟩ := by subst hP; rfl
      have hx : Spec.Valid P ([] ++ [.terminal (.token 0)]) 0 1 := .move .root h0 rfl
      have hB : Spec.ValidLook P (Spec.InFirst P) [.terminal (.token 0)] 1 0 (.token 1) :=
        .closeFirst hx h0 rfl h1 (by simp) hfirst
      have hB' : Spec.ValidLook P (Spec.InFirst P) [.terminal (.token 0)] 2 0 (.token 1) :=
        .closeFirst hx h0 rfl h2 (by simp) hfirst
      have hQ : Spec.ValidLook P (Spec.InFirst P) [.terminal (.token 0)] 3 0 (.token 1) :=
        .closePass hB' h2 rfl h3 hnil
      intro hno
      have := hno [.terminal (.token 0), .terminal (.token 2)] (.token 1) (.reduce 1) (.reduce 3)
        (.reduce h1 (by simp) (.move hB h1 rfl)) (.reduce h3 (by simp) (.move hQ h3 rfl))
      cases this

/-- A conflict that is reported: `S -> A; A -> A A | a`. -/
example : ((do
    let ig ← IndexedGrammar.build (⟨[⟨0, [.production 1]⟩, ⟨1, [.production 1, .production 1]⟩,
      ⟨1, [.terminal (.token 7)]⟩]⟩ : Grammar Nat Nat)
    LRTable.build 20 ig) : Outcome (LRTableError Nat Nat) _) =
    .err (.shiftReduceConflict 1 (.token 7)) := by decide +kernel

end C13

namespace C14

/-- **C14.** Entries of a built table: rows are complete; targets of shift and goto exist and are not the
root state; reductions name existing rules other than the root rule; acceptance occurs on end of stream
only; there is no action on epsilon; without end-of-stream marker in the rules, end of stream is never
shifted. -/
theorem table_well_formed (g : Grammar T L) (ig : IndexedGrammar T L) (fuel : Nat) (t : LRTable)
    (hg : IndexedGrammar.build g = .ok ig) (hb : LRTable.build fuel ig = .ok t) :
    t.actionTable.length = t.numStates * ig.vocab.size ∧
    t.gotoTable.length = t.numStates * ig.labelsCount ∧ 0 < t.numStates ∧
    (∀ s < t.numStates, ∀ tok, Label.id tok < ig.vocab.size →
      ∃ o, (t.getAction s tok : Outcome (LRTableError T L) _) = .ok o ∧
        (tok = .epsilon → o = none) ∧
        (∀ s', o = some (.shift s') → 0 < s' ∧ s' < t.numStates ∧ (Spec.NoEndMarker g → tok ≠ .eos)) ∧
        (∀ i, o = some (.reduce i) → 0 < i ∧ i < ig.rules.length) ∧
        (o = some .accept → tok = .eos)) ∧
    (∀ s < t.numStates, ∀ l < ig.labelsCount,
      ∃ o, (t.getGoto s l : Outcome (LRTableError T L) _) = .ok o ∧
        ∀ s', o = some s' → 0 < s' ∧ s' < t.numStates) := by
  have henc := (IndexedGrammar.build_ok hg).1
  obtain ⟨kt, hkt⟩ := build_eq.mp hb
  obtain ⟨F, -, hres, hB⟩ := built_of_ok henc.wf hkt
  have hnz : ∀ {items : List Position} {X : INode} {s' : Nat}, (∃ p ∈ items, p.cat ig = some X) →
      kt.states[s']? = some (EntryBuilder.nextOf ig items (some X)) → 0 < s' ∧ s' < t.numStates := by
    rintro items X s' ⟨p, hp, hc⟩ hs'
    constructor
    · apply Nat.pos_of_ne_zero
      rintro rfl
      rw [hB.init] at hs'
      exact nextOf_ne_root hp hc (Option.some.inj hs').symm
    · rw [hB.all]; exact (List.getElem?_eq_some_iff.mp hs').1
  refine ⟨by rw [hB.lenA, Nat.mul_comm], by rw [hB.lenG, Nat.mul_comm], hB.pos, ?_, ?_⟩
  · intro s hs tok htok
    obtain ⟨o, h1, h2⟩ := hB.getAction_eq (ε := LRTableError T L) hs htok
    obtain ⟨k, items, hrow⟩ := hB.row s hs
    have hreach := hB.reach k (List.mem_of_getElem? hrow.kernel)
    have hok := (hreach.items henc.wf hres.wf hrow.itemsOf).ok
    have hend : ∀ a, o = some a → (∀ id, a ≠ .shift id) →
        ∃ p ∈ items, p.cat ig = none ∧ EntryBuilder.EndWants p tok a := fun a ha hne =>
      (hrow.ends tok a htok hne).mp (by rw [h1, ha])
    have hshift : ∀ s', o = some (.shift s') → (∃ p ∈ items, p.cat ig = some (.terminal tok)) ∧
        kt.states[s']? = some (EntryBuilder.nextOf ig items (some (.terminal tok))) := fun s' ha =>
      (hrow.shift tok s' htok).mp (by rw [h1, ha])
    have hcat : ∀ p ∈ items, p.cat ig = some (.terminal tok) →
        tok ≠ .epsilon ∧ ∃ r ∈ ig.rules, .terminal tok ∈ r.nodes := by
      intro p hp hc
      unfold Position.cat firstNode at hc
      refine ⟨?_, (hok p hp).mem_nodes (List.mem_of_find?_eq_some hc)⟩
      rintro rfl
      have := List.find?_some hc
      simp [Node.isEpsilon] at this
    refine ⟨o, h2, ?_, ?_, ?_, ?_⟩
    · rintro rfl
      cases o with
      | none => rfl
      | some a =>
        exfalso
        cases a with
        | shift s' =>
          obtain ⟨⟨p, hp, hc⟩, -⟩ := hshift s' rfl
          exact (hcat p hp hc).1 rfl
        | reduce i =>
          obtain ⟨p, hp, -, ⟨-, h, -⟩ | ⟨-, h, -⟩⟩ := hend _ rfl (by simp)
          · cases h
          · rw [(hok p hp).noEps] at h; cases h
        | accept =>
          obtain ⟨p, hp, -, ⟨-, h, -⟩ | ⟨-, h, -⟩⟩ := hend _ rfl (by simp)
          · cases h
          · rw [(hok p hp).noEps] at h; cases h
    · intro s' ho
      obtain ⟨hx, hs'⟩ := hshift s' ho
      obtain ⟨a1, a2⟩ := hnz hx hs'
      refine ⟨a1, a2, ?_⟩
      rintro hne rfl
      obtain ⟨p, hp, hc⟩ := hx
      obtain ⟨-, r, hr, hm⟩ := hcat p hp hc
      exact henc.noEnd hne r hr hm
    · intro i ho
      obtain ⟨p, hp, -, ⟨-, -, h⟩ | ⟨h0, -, h⟩⟩ := hend _ ho (by simp)
      · cases h
      · cases h
        exact ⟨Nat.pos_of_ne_zero h0, (hok p hp).rule⟩
    · intro ho
      obtain ⟨p, hp, -, ⟨-, h, -⟩ | ⟨-, -, h⟩⟩ := hend _ ho (by simp)
      · exact h
      · cases h
  · intro s hs l hl
    obtain ⟨o, h1, h2⟩ := hB.getGoto_eq (ε := LRTableError T L) hs hl
    obtain ⟨k, items, hrow⟩ := hB.row s hs
    refine ⟨o, h2, fun s' ho => ?_⟩
    obtain ⟨hx, hs'⟩ := (hrow.goto l s' hl).mp (by rw [h1, ho])
    exact hnz hx hs'

/-- The sample grammar has a table (`sampleLR_builds`). -/
example : ∃ ig t, IndexedGrammar.build sampleLR = .ok ig ∧ LRTable.build 20 ig = .ok t := by
  have h := sampleLR_builds
  rw [Outcome.bind_eq_ok] at h
  obtain ⟨ig, h1, h⟩ := h
  rw [Outcome.bind_eq_ok] at h
  obtain ⟨t, h2, -⟩ := h
  exact ⟨ig, t, h1, h2⟩

end C14

namespace C15

/-- State `s` is reached from state 0 by reading the symbols `γ` along shift and goto entries. -/
inductive Reads (ig : IndexedGrammar T L) (t : LRTable) : List INode → Nat → Prop
  | nil : Reads ig t [] LRTable.rootState
  | shift {γ : List INode} {s s' : Nat} {tok : AugTokId} : Reads ig t γ s → Label.id tok < ig.vocab.size →
      (t.getAction s tok : Outcome (LRTableError T L) _) = .ok (some (.shift s')) →
      Reads ig t (γ ++ [.terminal tok]) s'
  | goto {γ : List INode} {s s' l : Nat} : Reads ig t γ s → l < ig.labelsCount →
      (t.getGoto s l : Outcome (LRTableError T L) _) = .ok (some s') →
      Reads ig t (γ ++ [.production l]) s'

variable {ig : IndexedGrammar T L} {F : FirstTable} {kt : KernelTable} {t : LRTable}

theorem Reads.at (hw : ig.WF) (hF : F.WF ig.labelsCount ig.vocab.size) (he : EpsLast ig)
    (hB : Built ig F kt t) {γ : List INode} {s : Nat} (h : Reads ig t γ s) : At ig F kt γ s := by
  induction h with
  | nil => exact hB.at_nil
  | shift _ h1 h2 ih => exact (((hB.entries hw hF he ih).shift _ _ _ h1).mp h2).2
  | goto _ h1 h2 ih => exact (((hB.entries hw hF he ih).goto _ _ _ h1).mp h2).2

theorem reads_of_at (hw : ig.WF) (hF : F.WF ig.labelsCount ig.vocab.size) (he : EpsLast ig)
    (hB : Built ig F kt t) {γ : List INode} {k : Kernel} (h : KPath ig F γ k) :
    ∀ s, kt.states[s]? = some k → Reads ig t γ s := by
  induction h with
  | nil =>
    intro s hs
    rw [getElem?_inj_of_nodup hB.wf.nodup hs hB.init]
    exact .nil
  | @snoc γ k items X p h1 h2 h3 h4 ih =>
    intro s' hs'
    obtain ⟨s, hs⟩ := hB.mem_of_reach h1.reach
    have hat : At ig F kt γ s := ⟨k, h1, hs⟩
    have hE := hB.entries hw hF he hat
    have hat' : At ig F kt (γ ++ [X]) s' := ⟨_, .snoc h1 h2 h3 h4, hs'⟩
    have hok := (h1.reach.items hw hF h2).ok
    have hc := h1.closureOf hw hF he h2
    have hrange := (hok p h3).cat_inRange hw
    rw [h4] at hrange
    cases X with
    | terminal tok =>
      exact .shift (ih s hs) hrange ((hE.shift _ tok s' hrange).mpr
        ⟨(demands_shift he hok hc).mpr ⟨p, h3, h4⟩, hat'⟩)
    | production l =>
      refine .goto (ih s hs) hrange ((hE.goto _ l s' hrange).mpr ⟨?_, hat'⟩)
      obtain ⟨q, hq⟩ := (hok p h3).cfg
      rw [he.cat_eq hq] at h4
      cases hd : (Spec.rhs q).drop p.position with
      | nil => rw [hd] at h4; cases h4
      | cons Y β =>
        rw [hd] at h4
        cases h4
        exact ⟨_, _, q, β, hc.valid p h3, hq, hd⟩

/-- **C15.** The states of a built table are the sets of LR(1) items that are valid after reading some
sequence of symbols:
* ids are dense and every state is reached from state 0;
* a sequence can be read exactly when some item is valid after it;
* two sequences lead to the same state exactly when the same items with the same lookaheads are valid after
  them;
* state 0 is reached by the empty sequence only. -/
theorem states_are_item_sets (g : Grammar T L) (ig : IndexedGrammar T L) (F : FirstTable) (fuel : Nat)
    (t : LRTable) (hg : IndexedGrammar.build g = .ok ig) (he : Spec.EpsilonLast g)
    (hr : Spec.RootNotRecursive g)
    (hF : (FirstTable.build ig : Outcome (LRTableError T L) _) = .ok F)
    (hb : LRTable.build fuel ig = .ok t) :
    (∀ s, s < t.numStates ↔ ∃ γ, Reads ig t γ s) ∧
    (∀ γ, (∃ s, Reads ig t γ s) ↔ ∃ i d, Spec.Valid ig.cfg γ i d) ∧
    (∀ γ s γ' s', Reads ig t γ s → Reads ig t γ' s' →
      (s = s' ↔ (∀ i d, Spec.Valid ig.cfg γ i d ↔ Spec.Valid ig.cfg γ' i d) ∧
        ∀ i d tok, Spec.ValidLook ig.cfg (Spec.seqFirst F.In) γ i d tok ↔
          Spec.ValidLook ig.cfg (Spec.seqFirst F.In) γ' i d tok)) ∧
    (∀ γ, Reads ig t γ 0 → γ = []) := by
  have henc := (IndexedGrammar.build_ok hg).1
  have hw := henc.wf
  obtain ⟨kt, hkt⟩ := build_eq.mp hb
  obtain ⟨F', eF', hres, hB⟩ := built_of_ok hw hkt
  rw [hF] at eF'
  cases eF'
  rw [seqFirst_eq]
  have heps : EpsLast ig := henc.epsLast he
  have hroot : RootFree ig := henc.rootFree hr
  have hF' := hres.wf
  refine ⟨fun s => ⟨fun hs => ?_, ?_⟩, fun γ => ⟨?_, ?_⟩, ?_, ?_⟩
  · obtain ⟨γ, k, h1, h2⟩ := hB.exists_at hs
    exact ⟨γ, reads_of_at hw hF' heps hB h1 s h2⟩
  · rintro ⟨γ, h⟩
    exact (hB.entries hw hF' heps (h.at hw hF' heps hB)).lt
  · rintro ⟨s, h⟩
    obtain ⟨k, hk, -⟩ := h.at hw hF' heps hB
    exact hk.valid hw hF' heps
  · rintro ⟨i, d, h⟩
    obtain ⟨s, k, h1, h2⟩ := hB.at_of_valid hw hF' heps h
    exact ⟨s, reads_of_at hw hF' heps hB h1 s h2⟩
  · intro γ s γ' s' h h'
    obtain ⟨k, hk, hs⟩ := h.at hw hF' heps hB
    obtain ⟨k', hk', hs'⟩ := h'.at hw hF' heps hB
    constructor
    · rintro rfl
      rw [hs] at hs'
      cases hs'
      obtain ⟨items, hi⟩ := itemsOf_total hw hF' hk.reach
      have hc := hk.closureOf hw hF' heps hi
      have hc' := hk'.closureOf hw hF' heps hi
      refine ⟨fun i d => ⟨fun hv => ?_, fun hv => ?_⟩, fun i d tok => ⟨fun hv => ?_, fun hv => ?_⟩⟩
      · obtain ⟨p, hp, rfl, rfl⟩ := hc.all _ _ hv; exact hc'.valid p hp
      · obtain ⟨p, hp, rfl, rfl⟩ := hc'.all _ _ hv; exact hc.valid p hp
      · obtain ⟨p, hp, rfl, rfl, ht⟩ := hc.allLook _ _ _ hv; exact hc'.look p hp _ ht
      · obtain ⟨p, hp, rfl, rfl, ht⟩ := hc'.allLook _ _ _ hv; exact hc.look p hp _ ht
    · rintro ⟨hv, hl⟩
      cases hk.eq_of_same_items hw hF' heps hroot hk' hv hl
      exact getElem?_inj_of_nodup hB.wf.nodup hs hs'
  · intro γ h
    obtain ⟨k, hk, hs⟩ := h.at hw hF' heps hB
    rw [hB.init] at hs
    cases hs
    cases hk' : γ using List.reverseRecOn with
    | nil => rfl
    | append_singleton γ X =>
      subst hk'
      obtain ⟨k', items, p, -, -, h3, h4, h5⟩ := hk.snoc_inv
      exact absurd h5.symm (nextOf_ne_root h3 h4)

end C15
end Verif
