import Verif.Model.Repair
import Verif.Proof.Simulator

/-!
# The changed FIRST table is exact
-/

set_option linter.unusedSectionVars false
set_option autoImplicit false

namespace Verif
open Spec

namespace FirstTable

section
variable {ε : Type} {labels vocab l : Nat} {P : List (Rule Nat Nat)}

/-- Effect of one or more rules being propagated: as `Round`, but every change is reported. -/
structure Reported (P : List (Rule Nat Nat)) (labels vocab : Nat) (rules : List (Rule Nat Nat))
    (F F' : FirstTable) (changed changed' : Bool) : Prop where
  wf : WF labels vocab F'
  just : Justified P F'
  le : Le F F'
  new : ∀ l t, In F' l t → In F l t ∨ changed' = true
  progress : changed' = true → changed = true ∨ ∃ l t, ¬ In F l t ∧ In F' l t
  keep : changed = true → changed' = true
  closed : ∀ r ∈ rules, ∀ t, NodesFirst F r.rule t → In F' r.symbol t

theorem addEpsilonRepaired_spec (hl : l < labels) (hv : 2 ≤ vocab) {F : FirstTable} (hF : WF labels vocab F)
    (changed : Bool) :
    ∃ F' changed', (addEpsilonRepaired l F changed : Outcome ε _) = .ok (F', changed') ∧ WF labels vocab F' ∧
      (∀ l' t, In F' l' t ↔ In F l' t ∨ (l' = l ∧ t = .epsilon)) ∧
      (changed' = true ↔ changed = true ∨ ¬ In F l .epsilon) := by
  obtain ⟨s, es, hs0, hs, hin⟩ := hF.get (ε := ε) hl
  have hv0 : Label.id (AugTok.epsilon : AugTokId) < vocab := by show 0 < vocab; omega
  cases hm : s.mem .epsilon with
  | true =>
    have h0 : In F l .epsilon := (hin _).mpr hm
    refine ⟨F, changed, by simp [addEpsilonRepaired, es, hs.has_eq hv0, hm], hF, fun l' t => ?_, ?_⟩
    · constructor
      · exact .inl
      · rintro (h | ⟨rfl, rfl⟩)
        · exact h
        · exact h0
    · simp [h0]
  | false =>
    have h0 : ¬ In F l .epsilon := by rw [hin, hm]; simp
    obtain ⟨F', e, hF', hin'⟩ := addEpsilon_spec (ε := ε) hl hv hF
    refine ⟨F', true, ?_, hF', hin', by simp [h0]⟩
    obtain ⟨s', es', -⟩ := hs.insert_eq (ε := ε) hv0
    simp only [addEpsilon, es, es', Outcome.ok_bind, Outcome.pure_eq, Outcome.ok.injEq] at e
    subst e
    simp [addEpsilonRepaired, es, hs.has_eq hv0, hm, es']

theorem propagateRulesRepaired_spec (hl : l < labels) (hv : 2 ≤ vocab) (rs : List IRule)
    (hrange : ∀ r ∈ rs, ∀ n ∈ r.nodes, n.InRange labels vocab)
    (hrs : ∀ r ∈ rs, r.rule ∈ P ∧ r.symbol = l)
    {F : FirstTable} (hF : WF labels vocab F) (hJ : Justified P F) (changed : Bool) :
    ∃ F' changed', (propagateRulesRepaired l rs F changed : Outcome ε _) = .ok (F', changed') ∧
      Reported P labels vocab (rs.map (·.rule)) F F' changed changed' := by
  induction rs generalizing F changed with
  | nil =>
    exact ⟨F, changed, rfl, hF, hJ, Le.refl F, fun _ _ h => .inl h, .inl, id, by simp⟩
  | cons r rs ih =>
    obtain ⟨hr, hsym⟩ := hrs r List.mem_cons_self
    obtain ⟨F1, c1, p1, e1, h1, h2, h3, h4, h5, h6, h7, h8, h9⟩ :=
      propagateNodes_spec (ε := ε) hl hv r.nodes [] (hrange r List.mem_cons_self) r.rule hr rfl hsym hF hJ
        rfl changed
    obtain ⟨F2, c2, e2, hF2, hJ2, hle2, hnew2, hprog2, hkeep2, hcl2⟩ : ∃ F2 c2,
        ((if p1 = true then addEpsilonRepaired l F1 c1 else pure (F1, c1)) : Outcome ε _) = .ok (F2, c2) ∧
        WF labels vocab F2 ∧ Justified P F2 ∧ Le F1 F2 ∧
        (∀ l' t, In F2 l' t → In F1 l' t ∨ c2 = true) ∧
        (c2 = true → c1 = true ∨ ∃ l t, ¬ In F1 l t ∧ In F2 l t) ∧ (c1 = true → c2 = true) ∧
        (p1 = true → In F2 l .epsilon) := by
      cases p1 with
      | false => exact ⟨F1, c1, rfl, h1, h2, Le.refl _, fun _ _ h => .inl h, .inl, id, by simp⟩
      | true =>
        obtain ⟨F2, c2, e2, hF2, hin, hc⟩ := addEpsilonRepaired_spec (ε := ε) hl hv h1 c1
        have hle : Le F1 F2 := fun l' t h => (hin l' t).mpr (.inl h)
        have heps : In F2 l .epsilon := (hin _ _).mpr (.inr ⟨rfl, rfl⟩)
        refine ⟨F2, c2, by simpa using e2, hF2, ?_, hle, ?_, ?_, fun h => hc.mpr (.inl h), fun _ => heps⟩
        · apply h2.extend hle hr
          intro l' t h
          rcases (hin l' t).mp h with h | ⟨ha, rfl⟩
          · exact .inl h
          · exact .inr ⟨ha.trans hsym.symm, h9 rfl⟩
        · intro l' t h
          rcases (hin l' t).mp h with h | ⟨rfl, rfl⟩
          · exact .inl h
          · by_cases h0 : In F1 l' .epsilon
            · exact .inl h0
            · exact .inr (hc.mpr (.inr h0))
        · intro h
          rcases hc.mp h with h | h
          · exact .inl h
          · exact .inr ⟨l, .epsilon, h, heps⟩
    obtain ⟨F', c', e', hR⟩ := ih (fun r hr => hrange r (List.mem_cons_of_mem _ hr))
      (fun r hr => hrs r (List.mem_cons_of_mem _ hr)) hF2 hJ2 c2
    have hle := h3.trans hle2
    refine ⟨F', c', by
      cases p1
      · simp only [Bool.false_eq_true, if_false, Outcome.pure_eq, Outcome.ok.injEq, Prod.mk.injEq] at e2
        obtain ⟨rfl, rfl⟩ := e2
        simp only [propagateRulesRepaired, e1, Outcome.ok_bind, Bool.false_eq_true, if_false,
          Outcome.pure_eq, e']
      · simp only [if_true] at e2
        simp only [propagateRulesRepaired, e1, Outcome.ok_bind, e2, if_true, e'],
      hR.wf, hR.just, hle.trans hR.le, ?_, ?_, fun h => hR.keep (hkeep2 (h6 h)), ?_⟩
    · intro l' t h
      rcases hR.new l' t h with h | h
      · rcases hnew2 l' t h with h | h
        · rcases h4 l' t h with h | ⟨-, h⟩
          · exact .inl h
          · exact .inr (hR.keep (hkeep2 h))
        · exact .inr (hR.keep h)
      · exact .inr h
    · intro h
      rcases hR.progress h with h | ⟨l', t, ha, hb⟩
      · rcases hprog2 h with h | ⟨l', t, ha, hb⟩
        · rcases h5 h with h | ⟨t, ha, hb⟩
          · exact .inl h
          · exact .inr ⟨l, t, ha, hR.le _ _ (hle2 _ _ hb)⟩
        · exact .inr ⟨l', t, fun h => ha (h3 _ _ h), hR.le _ _ hb⟩
      · exact .inr ⟨l', t, fun h => ha (hle _ _ h), hb⟩
    · intro q hq t ht
      rw [List.map_cons, List.mem_cons] at hq
      rcases hq with rfl | hq
      · have hs : r.rule.symbol = l := hsym
        rw [hs]
        by_cases hne : t = .epsilon
        · subst hne; exact hR.le _ _ (hcl2 (h8 ht))
        · exact hR.le _ _ (hle2 _ _ (h7 t hne ht))
      · exact hR.closed q hq t (ht.mono hle)

end

section
variable {ε T L : Type} [DecidableEq T] [DecidableEq L] {ig : IndexedGrammar T L}

theorem propagateLabelsRepaired_spec (h : ig.WF) (ls : List Nat) (hls : ∀ l ∈ ls, l < ig.labelsCount)
    {F : FirstTable} (hF : WF ig.labelsCount ig.vocab.size F) (hJ : Justified ig.cfg F)
    (changed : Bool) :
    ∃ F' changed', (propagateLabelsRepaired ig ls F changed : Outcome ε _) = .ok (F', changed') ∧
      Reported ig.cfg ig.labelsCount ig.vocab.size (ig.cfg.filter fun r => decide (r.symbol ∈ ls))
        F F' changed changed' := by
  induction ls generalizing F changed with
  | nil =>
    exact ⟨F, changed, rfl, hF, hJ, Le.refl F, fun _ _ h => .inl h, .inl, id, by simp⟩
  | cons l ls ih =>
    obtain ⟨rs, ers, hrs⟩ := h.rules_eq (ε := ε) (hls l List.mem_cons_self)
    have hrs' : ∀ r ∈ rs, r.rule ∈ ig.cfg ∧ r.symbol = l := fun r hr =>
      ⟨List.mem_map.mpr ⟨r, ((hrs r).mp hr).1, rfl⟩, ((hrs r).mp hr).2⟩
    obtain ⟨F1, c1, e1, hR1⟩ := propagateRulesRepaired_spec (ε := ε) (hls l List.mem_cons_self)
      (show 2 ≤ ig.vocab.size by simp [Vocab.size]) rs
      (fun r hr n hn => by
        exact h.node r ((hrs r).mp hr).1 n hn) hrs' hF hJ changed
    obtain ⟨F', c', e', hR⟩ := ih (fun l' hl' => hls l' (List.mem_cons_of_mem _ hl')) hR1.wf hR1.just c1
    refine ⟨F', c', by simp only [propagateLabelsRepaired, ers, Outcome.ok_bind, e1, e'],
      hR.wf, hR.just, hR1.le.trans hR.le, ?_, ?_, fun h => hR.keep (hR1.keep h), ?_⟩
    · intro l' t hi
      rcases hR.new l' t hi with hi | hi
      · rcases hR1.new l' t hi with hi | hi
        · exact .inl hi
        · exact .inr (hR.keep hi)
      · exact .inr hi
    · intro hc
      rcases hR.progress hc with hc | ⟨l', t, ha, hb⟩
      · rcases hR1.progress hc with hc | ⟨l', t, ha, hb⟩
        · exact .inl hc
        · exact .inr ⟨l', t, ha, hR.le _ _ hb⟩
      · exact .inr ⟨l', t, fun hi => ha (hR1.le _ _ hi), hb⟩
    · intro r hr t ht
      rw [List.mem_filter, decide_eq_true_eq, List.mem_cons] at hr
      obtain ⟨hr, hs | hs⟩ := hr
      · refine hR.le _ _ (hR1.closed r ?_ t ht)
        obtain ⟨q, hq, rfl⟩ := List.mem_map.mp hr
        exact List.mem_map.mpr ⟨q, (hrs q).mpr ⟨hq, hs⟩, rfl⟩
      · exact hR.closed r (List.mem_filter.mpr ⟨hr, by simpa using hs⟩) t (ht.mono hR1.le)

theorem buildLoopRepaired_spec (h : ig.WF) (fuel : Nat) {F : FirstTable}
    (hF : WF ig.labelsCount ig.vocab.size F) (hJ : Justified ig.cfg F)
    (hfuel : ig.labelsCount * ig.vocab.size < fuel + size ig.labelsCount ig.vocab.size F) :
    ∃ F', (buildLoopRepaired ig fuel F : Outcome ε _) = .ok F' ∧ Result ig F' ∧ Closed ig.cfg F' := by
  induction fuel generalizing F with
  | zero =>
    have := countPairs_le ig.labelsCount ig.vocab.size fun l t =>
      ((F[l]?).map fun s => s.mem (AugTok.ofId t)).getD false
    unfold size at hfuel
    omega
  | succ fuel ih =>
    obtain ⟨F1, c, e, hR⟩ := propagateLabelsRepaired_spec (ε := ε) h ig.allLabels
      (by simp [IndexedGrammar.allLabels]) hF hJ false
    cases c with
    | false =>
      have heq : F = F1 := hF.ext hR.wf fun l t =>
        ⟨hR.le l t, fun hi => (hR.new l t hi).resolve_right (by simp)⟩
      subst heq
      have hcl : Closed ig.cfg F := by
        intro r hr t ht
        refine hR.closed r (List.mem_filter.mpr ⟨hr, ?_⟩) t ht
        obtain ⟨q, hq, rfl⟩ := List.mem_map.mp hr
        obtain ⟨i, hi, rfl⟩ := List.mem_iff_getElem.mp hq
        simpa [IndexedGrammar.allLabels] using h.symbol _ (List.getElem_mem hi)
      exact ⟨F, by simp [buildLoopRepaired, e], ⟨hF, hJ, F, hF, hJ, hF, hJ, Le.refl F, fun _ _ h => .inl h,
        by simp, by simp, hcl⟩, hcl⟩
    | true =>
      rcases hR.progress rfl with h0 | ⟨l, t, h1, h2⟩
      · cases h0
      have := size_lt hR.wf hR.le h1 h2
      obtain ⟨F', e', hres⟩ := ih hR.wf hR.just (by omega)
      exact ⟨F', by simp [buildLoopRepaired, e, e'], hres⟩

theorem buildRepaired_spec (h : ig.WF) :
    ∃ F, (buildRepaired ig : Outcome ε _) = .ok F ∧ Result ig F ∧ Closed ig.cfg F :=
  buildLoopRepaired_spec (ε := ε) h (ig.labelsCount * ig.vocab.size + 1) init_WF
    (fun l t hi => absurd hi not_in_init) (by omega)

/-- A table that is justified and closed gives the true FIRST sets. -/
theorem nodesFirst_true {F : FirstTable} (hJ : Justified ig.cfg F) (hc : Closed ig.cfg F) :
    F.NodesFirst = InFirst ig.cfg := by
  funext α t
  refine propext ⟨fun h => Verif.first_iff.mp (h.just hJ).first, fun h => hc.complete (Verif.first_iff.mpr h)⟩

end
end FirstTable

section
variable {T L : Type} [DecidableEq T] [DecidableEq L] {ig : IndexedGrammar T L} {F : FirstTable}

/-- The construction of the states from any FIRST table. -/
theorem states_sat (hw : ig.WF) (hF : F.Result ig) {X : Prop} (hX : RootMild ig F ∨ X) (fuel : Nat)
    (hfuel : stateBound ig F < fuel) :
    (LRTable.initialTable ig >>= fun kt => LRTable.buildLoop ig F fuel 0 kt ⟨[], [], 0⟩).Sat
      (fun (table, kt) => Built ig F kt table) (Genuine ig F) X := by
  simp only [initialTable_eq hw, Outcome.ok_bind]
  refine (buildLoop_sat hw hF.wf hX fuel (table := ⟨[], [], 0⟩) ⟨⟨rfl, by simp⟩, rfl, ?_, by simp, by simp,
    by simp, by simp⟩ (by simpa using hfuel)).mono ?_ (fun _ h => h) fun h => h
  · intro k hk
    simp only [List.mem_singleton] at hk
    subst hk; exact .root
  · rintro ⟨table, kt⟩ ⟨h1, h2⟩
    exact ⟨h1, h2⟩

theorem states_fuel (hw : ig.WF) {f f' : Nat} (hle : f ≤ f')
    (h : (LRTable.initialTable ig >>= fun kt => LRTable.buildLoop ig F f 0 kt ⟨[], [], 0⟩) ≠ .timeout) :
    (LRTable.initialTable ig >>= fun kt => LRTable.buildLoop ig F f' 0 kt ⟨[], [], 0⟩) =
      LRTable.initialTable ig >>= fun kt => LRTable.buildLoop ig F f 0 kt ⟨[], [], 0⟩ := by
  simp only [initialTable_eq hw, Outcome.ok_bind] at h ⊢
  exact buildLoop_fuel hle h

/-- A changed table that was built. -/
theorem repaired_of_ok (hw : ig.WF) {fuel : Nat} {table : LRTable}
    (h : LRTable.buildRepaired fuel ig = .ok table) :
    ∃ F kt, F.Result ig ∧ F.NodesFirst = InFirst ig.cfg ∧ Built ig F kt table := by
  obtain ⟨F, eF, hF, hc⟩ := FirstTable.buildRepaired_spec (ε := LRTableError T L) hw
  unfold LRTable.buildRepaired at h
  rw [eF, Outcome.ok_bind, Outcome.bind_eq_ok] at h
  obtain ⟨kt0, hk0, h⟩ := h
  rw [Outcome.bind_eq_ok] at h
  obtain ⟨⟨t, kt⟩, h1, h2⟩ := h
  cases h2
  refine ⟨F, kt, hF, FirstTable.nodesFirst_true hF.just hc, ?_⟩
  have e : (LRTable.initialTable ig >>= fun kt => LRTable.buildLoop ig F fuel 0 kt ⟨[], [], 0⟩) = .ok (table, kt) := by
    rw [hk0, Outcome.ok_bind, h1]
  have h3 := states_sat hw hF (X := True) (.inr trivial) (max fuel (stateBound ig F + 1)) (by omega)
  rw [states_fuel hw (le_max_left _ _) (by rw [e]; simp), e] at h3
  exact h3

end
end Verif
