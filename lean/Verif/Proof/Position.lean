import Verif.Model.Position
import Verif.Proof.FirstMap

/-!
# Lemmas about positions, kernels and the kernel table
-/

set_option linter.unusedSectionVars false
set_option autoImplicit false

namespace Verif

open FirstTable in
/-- The lookaheads of a label that is followed by `rest` in an item with lookaheads `L`. -/
def FollowOf (F : FirstTable) (rest : List INode) (L : AugTokId → Prop) (t : AugTokId) : Prop :=
  (t ≠ .epsilon ∧ NodesFirst F rest t) ∨ (NodesFirst F rest .epsilon ∧ L t)

section Follow
variable {ε : Type} {labels vocab : Nat} {F : FirstTable}
open FirstTable

theorem followSetLoop_spec (hF : WF labels vocab F) (hv : 2 ≤ vocab) (nodes : List INode)
    (hrange : ∀ n ∈ nodes, n.InRange labels vocab) {ts : VocabSet} (hts : ts.WF vocab)
    (heps : ts.mem .epsilon = false) :
    ∃ ts' passed, (followSetLoop F nodes ts : Outcome ε (VocabSet × Bool)) = .ok (ts', passed) ∧
      ts'.WF vocab ∧ ts'.mem .epsilon = false ∧
      (∀ t, ts'.mem t = true ↔ ts.mem t = true ∨ (t ≠ .epsilon ∧ NodesFirst F nodes t)) ∧
      (passed = true ↔ NodesFirst F nodes .epsilon) := by
  induction nodes generalizing ts with
  | nil =>
    refine ⟨ts, true, rfl, hts, heps, fun t => ?_, by simp [NodesFirst]⟩
    simp only [NodesFirst]
    constructor
    · exact .inl
    · rintro (h | ⟨h1, h2⟩)
      · exact h
      · exact absurd h2 h1
  | cons n nodes ih =>
    have hn := hrange n List.mem_cons_self
    have hrange' : ∀ n ∈ nodes, n.InRange labels vocab := fun m hm => hrange m (List.mem_cons_of_mem _ hm)
    have hterm : ∀ tk : AugTokId, tk ≠ .epsilon → n = .terminal tk →
        ∃ ts', (ts.insert tk : Outcome ε VocabSet) = .ok ts' ∧ ts'.WF vocab ∧
          ts'.mem .epsilon = false ∧ ∀ t, ts'.mem t = true ↔ ts.mem t = true ∨ t = tk := by
      rintro tk htk rfl
      obtain ⟨ts', e, hwf, hmem⟩ := hts.insert_eq (ε := ε) (t := tk) hn
      refine ⟨ts', e, hwf, ?_, fun t => by rw [hmem]; simp⟩
      rw [hmem, heps]; simpa using htk.symm
    match n, hn, hterm with
    | .terminal .epsilon, _, _ =>
      obtain ⟨ts', p, e, h⟩ := ih hrange' hts heps
      exact ⟨ts', p, e, h⟩
    | .terminal (.token k), _, hterm =>
      obtain ⟨ts', e, h1, h2, h3⟩ := hterm (.token k) (by simp) rfl
      refine ⟨ts', false, by simp [followSetLoop, e], h1, h2, fun t => ?_, by simp [NodesFirst]⟩
      rw [h3]
      simp only [NodesFirst]
      constructor
      · rintro (h | rfl)
        · exact .inl h
        · exact .inr ⟨by simp, rfl⟩
      · rintro (h | ⟨-, h⟩)
        · exact .inl h
        · exact .inr h
    | .terminal .eos, _, hterm =>
      obtain ⟨ts', e, h1, h2, h3⟩ := hterm .eos (by simp) rfl
      refine ⟨ts', false, by simp [followSetLoop, e], h1, h2, fun t => ?_, by simp [NodesFirst]⟩
      rw [h3]
      simp only [NodesFirst]
      constructor
      · rintro (h | rfl)
        · exact .inl h
        · exact .inr ⟨by simp, rfl⟩
      · rintro (h | ⟨-, h⟩)
        · exact .inl h
        · exact .inr h
    | .production l, hn, _ =>
      have hl : l < labels := hn
      obtain ⟨s, es, -, hs, hin⟩ := hF.get (ε := ε) hl
      have hv0 : Label.id (AugTok.epsilon : AugTokId) < vocab := by show 0 < vocab; omega
      have hm := hts.merge hs
      simp only [followSetLoop, firstSet, es, Outcome.ok_bind, hs.has_eq hv0]
      cases hse : s.mem .epsilon with
      | false =>
        refine ⟨(ts.merge s).1, false, rfl, hm, ?_, fun t => ?_, ?_⟩
        · rw [VocabSet.mem_merge hts hs, heps, hse]; rfl
        · rw [VocabSet.mem_merge hts hs, Bool.or_eq_true]
          simp only [NodesFirst, hin]
          constructor
          · rintro (h | h)
            · exact .inl h
            · have : t ≠ .epsilon := by rintro rfl; rw [hse] at h; cases h
              exact .inr ⟨this, .inl ⟨this, h⟩⟩
          · rintro (h | ⟨-, ⟨-, h⟩ | ⟨h, -⟩⟩)
            · exact .inl h
            · exact .inr h
            · rw [hse] at h; cases h
        · simp only [NodesFirst, hin, hse]; simp
      | true =>
        simp only [Bool.not_true, Bool.false_eq_true, if_false]
        obtain ⟨ts1, e1, hwf1, hmem1⟩ := hm.clear_eq (ε := ε) hv0
        have heps1 : ts1.mem .epsilon = false := by rw [hmem1]; simp
        obtain ⟨ts', p, e, h1, h2, h3, h4⟩ := ih hrange' hwf1 heps1
        refine ⟨ts', p, by simp [e1, e], h1, h2, fun t => ?_, ?_⟩
        · rw [h3, hmem1, Bool.and_eq_true, VocabSet.mem_merge hts hs, Bool.or_eq_true]
          simp only [NodesFirst, hin, hse]
          constructor
          · rintro (⟨h | h, hne⟩ | ⟨h, h'⟩)
            · exact .inl h
            · have hne : t ≠ .epsilon := by simpa using hne
              exact .inr ⟨hne, .inl ⟨hne, h⟩⟩
            · exact .inr ⟨h, .inr ⟨trivial, h'⟩⟩
          · rintro (h | ⟨hne, ⟨-, h⟩ | ⟨-, h⟩⟩)
            · have hne : t ≠ .epsilon := by rintro rfl; rw [heps] at h; cases h
              exact .inl ⟨.inl h, by simpa using hne⟩
            · exact .inl ⟨.inr h, by simpa using hne⟩
            · exact .inr ⟨hne, h⟩
        · rw [h4]
          simp only [NodesFirst, hin, hse]
          constructor
          · exact fun h => .inr ⟨trivial, h⟩
          · rintro (⟨h, -⟩ | ⟨-, h⟩)
            · exact absurd rfl h
            · exact h

/-- `follow_set_for_rule` computes `FollowOf`. -/
theorem followSetForRule_spec (hF : WF labels vocab F) (hv : 2 ≤ vocab) (rest : List INode)
    (hrange : ∀ n ∈ rest, n.InRange labels vocab) {s : VocabSet} (hs : s.WF vocab) :
    ∃ s', (followSetForRule rest s F vocab : Outcome ε VocabSet) = .ok s' ∧ s'.WF vocab ∧
      ∀ t, s'.mem t = true ↔ FollowOf F rest (fun t => s.mem t = true) t := by
  obtain ⟨ts, p, e, h1, h2, h3, h4⟩ :=
    followSetLoop_spec (ε := ε) hF hv rest hrange (VocabSet.new_WF vocab) (VocabSet.mem_new _ _)
  cases p with
  | true =>
    refine ⟨(ts.merge s).1, by simp [followSetForRule, e], h1.merge hs, fun t => ?_⟩
    rw [VocabSet.mem_merge h1 hs, Bool.or_eq_true, h3]
    have := h4.mp rfl
    simp [FollowOf, this]
  | false =>
    refine ⟨ts, by simp [followSetForRule, e], h1, fun t => ?_⟩
    rw [h3]
    have : ¬ NodesFirst F rest .epsilon := fun h => by simpa using h4.mpr h
    simp [FollowOf, this]

theorem FollowOf.mono {rest : List INode} {L L' : AugTokId → Prop} (h : ∀ t, L t → L' t)
    {t : AugTokId} (hf : FollowOf F rest L t) : FollowOf F rest L' t := by
  rcases hf with h1 | ⟨h1, h2⟩
  · exact .inl h1
  · exact .inr ⟨h1, h _ h2⟩

end Follow

/-! ### Positions -/

section Pos
variable {ε T L : Type} [DecidableEq T] [DecidableEq L] {ig : IndexedGrammar T L}

/-- The nodes after the dot. -/
def Position.tail (ig : IndexedGrammar T L) (p : Position) : List INode :=
  match ig.rules[p.rule]? with
  | some r => r.nodes.drop p.position
  | none => []

/-- The position lies inside an existing rule and its follow set is a set of tokens without epsilon. -/
structure Position.OK (ig : IndexedGrammar T L) (p : Position) : Prop where
  rule : p.rule < ig.rules.length
  pos : p.position ≤ (ig.rules[p.rule]).nodes.length
  follow : p.followSet.WF ig.vocab.size
  noEps : p.followSet.mem .epsilon = false

theorem Position.OK.tail_eq {p : Position} (h : p.OK ig) :
    p.tail ig = (ig.rules[p.rule]'h.rule).nodes.drop p.position := by
  simp [Position.tail, List.getElem?_eq_getElem h.rule]

/-- First node that is not epsilon. -/
def firstNode (nodes : List INode) : Option INode := nodes.find? fun n => !n.isEpsilon

namespace Position

theorem OK.nextNode_eq {p : Position} (h : p.OK ig) :
    (p.nextNode ig : Outcome ε _) = .ok (firstNode (p.tail ig)) := by
  rw [h.tail_eq]
  simp [nextNode, IndexedGrammar.productionRule, Outcome.index_of_lt h.rule, sliceFrom, h.pos,
    firstNode]

theorem OK.atEnd_eq {p : Position} (h : p.OK ig) :
    (p.atEndOfRule ig : Outcome ε _) = .ok (firstNode (p.tail ig)).isNone := by
  simp [atEndOfRule, h.nextNode_eq]

theorem OK.advance_eq {p : Position} (h : p.OK ig) (hn : firstNode (p.tail ig) ≠ none) :
    (p.advance ig : Outcome ε _) = .ok { p with position := p.position + 1 } ∧
      OK ig { p with position := p.position + 1 } := by
  have h1 : (firstNode (p.tail ig)).isNone = false := by
    cases hf : firstNode (p.tail ig) with
    | none => exact absurd hf hn
    | some _ => rfl
  refine ⟨by simp [advance, h.atEnd_eq, h1], h.rule, ?_, h.follow, h.noEps⟩
  show p.position + 1 ≤ (ig.rules[p.rule]'h.rule).nodes.length
  by_contra hc
  apply hn
  rw [h.tail_eq, List.drop_eq_nil_of_le (by omega)]
  rfl

theorem OK.range (hw : ig.WF) {p : Position} (h : p.OK ig) :
    ∀ n ∈ p.tail ig, n.InRange ig.labelsCount ig.vocab.size := by
  intro n hn
  rw [h.tail_eq] at hn
  exact hw.node _ (List.getElem_mem h.rule) n (List.mem_of_mem_drop hn)

theorem OK.advanced_tail {p : Position} (h : p.OK ig) :
    Position.tail ig { p with position := p.position + 1 } = (p.tail ig).drop 1 := by
  rw [h.tail_eq]
  simp [Position.tail, List.getElem?_eq_getElem h.rule, List.drop_drop]

theorem OK.nextProductionLabel_eq (hw : ig.WF) {F : FirstTable}
    (hF : F.WF ig.labelsCount ig.vocab.size) {p : Position} (h : p.OK ig) :
    (∀ l rest, p.tail ig ≠ .production l :: rest) ∧
      (p.nextProductionLabel ig F : Outcome ε _) = .ok none ∨
    ∃ l rest s, p.tail ig = .production l :: rest ∧ l < ig.labelsCount ∧
      (p.nextProductionLabel ig F : Outcome ε _) = .ok (some (l, s)) ∧ s.WF ig.vocab.size ∧
      ∀ t, s.mem t = true ↔ FollowOf F rest (fun t => p.followSet.mem t = true) t := by
  have htail := h.tail_eq
  have hbase : ∀ (x : List INode), p.tail ig = x → (p.nextProductionLabel ig F : Outcome ε _) =
      (match maybeFirstProductionLabel x with
      | none => pure none
      | some label => do
        let rest ← sliceFrom (ig.rules[p.rule]'h.rule).nodes (p.position + 1)
        let followSet ← followSetForRule rest p.followSet F ig.vocab.size
        pure (some (label, followSet))) := by
    intro x hx
    rw [← hx, htail]
    simp only [nextProductionLabel, IndexedGrammar.productionRule, Outcome.index_of_lt h.rule,
      Outcome.ok_bind, sliceFrom, h.pos, if_true, Outcome.pure_eq]
    rfl
  cases ht : p.tail ig with
  | nil => exact .inl ⟨by simp, by rw [hbase _ ht]; rfl⟩
  | cons n rest =>
    cases n with
    | terminal t => exact .inl ⟨by simp, by rw [hbase _ ht]; rfl⟩
    | production l =>
      right
      have hrange := h.range hw
      rw [ht] at hrange
      have hlen : p.position + 1 ≤ (ig.rules[p.rule]'h.rule).nodes.length := by
        rw [htail] at ht
        have := congrArg List.length ht
        rw [List.length_drop, List.length_cons] at this
        omega
      have hrest : (ig.rules[p.rule]'h.rule).nodes.drop (p.position + 1) = rest := by
        rw [htail] at ht
        rw [← List.drop_drop, ht]; rfl
      obtain ⟨s, e, hs, hm⟩ := followSetForRule_spec (ε := ε) hF
        (show 2 ≤ ig.vocab.size by simp [Vocab.size]) rest
        (fun n hn => hrange n (List.mem_cons_of_mem _ hn)) h.follow
      refine ⟨l, rest, s, rfl, hrange _ List.mem_cons_self, ?_, hs, hm⟩
      rw [hbase _ ht]
      simp [maybeFirstProductionLabel, sliceFrom, hlen, hrest, e]

theorem newTopLevel_eq {r : Nat} (hr : r < ig.rules.length) :
    ∃ s, (newTopLevel r ig.vocab.size : Outcome ε _) = .ok ⟨r, 0, s⟩ ∧
      OK ig ⟨r, 0, s⟩ ∧ ∀ t, s.mem t = true ↔ t = .eos := by
  have hlt : Label.id (AugTok.eos : AugTokId) < ig.vocab.size := by
    show 1 < _; simp [Vocab.size]
  obtain ⟨s, e, hs, hm⟩ := (VocabSet.new_WF ig.vocab.size).insert_eq (ε := ε) hlt
  refine ⟨s, by simp [newTopLevel, e], ⟨hr, by simp, hs, ?_⟩, ?_⟩
  · rw [hm]; simp
  · intro t; rw [hm]; simp

theorem advanceAll_eq (ps : List Position) (h : ∀ p ∈ ps, p.OK ig)
    (hn : ∀ p ∈ ps, firstNode (p.tail ig) ≠ none) :
    (advanceAll ig ps : Outcome ε _) = .ok (ps.map fun p => { p with position := p.position + 1 }) := by
  induction ps with
  | nil => rfl
  | cons p ps ih =>
    have h1 := (h p List.mem_cons_self).advance_eq (ε := ε) (hn p List.mem_cons_self)
    simp [advanceAll, h1.1, ih (fun q hq => h q (List.mem_cons_of_mem _ hq))
      (fun q hq => hn q (List.mem_cons_of_mem _ hq))]

end Position

end Pos

/-! ### Sorting -/

namespace Kernel

theorem insertSorted_perm (p : Position) (l : List Position) : (insertSorted p l).Perm (p :: l) := by
  induction l with
  | nil => exact .refl _
  | cons q qs ih =>
    simp only [insertSorted]
    split
    · exact .refl _
    · exact (ih.cons q).trans (.swap _ _ _)

theorem sortPositions_perm (l : List Position) : (sortPositions l).Perm l := by
  induction l with
  | nil => exact .refl _
  | cons p ps ih => exact (insertSorted_perm p _).trans (ih.cons p)

theorem keyLe_total (p q : Position) : Position.keyLe p q = true ∨ Position.keyLe q p = true := by
  simp only [Position.keyLe, Bool.or_eq_true, Bool.and_eq_true, decide_eq_true_eq, beq_iff_eq]
  omega

theorem keyLe_trans {p q r : Position} (h1 : Position.keyLe p q = true)
    (h2 : Position.keyLe q r = true) : Position.keyLe p r = true := by
  simp only [Position.keyLe, Bool.or_eq_true, Bool.and_eq_true, decide_eq_true_eq, beq_iff_eq] at *
  omega

theorem keyLe_antisymm {p q : Position} (h1 : Position.keyLe p q = true)
    (h2 : Position.keyLe q p = true) : p.key = q.key := by
  simp only [Position.keyLe, Bool.or_eq_true, Bool.and_eq_true, decide_eq_true_eq, beq_iff_eq] at *
  simp only [Position.key, Prod.mk.injEq]
  omega

theorem insertSorted_sorted {p : Position} {l : List Position}
    (h : l.Pairwise fun a b => Position.keyLe a b = true) :
    (insertSorted p l).Pairwise fun a b => Position.keyLe a b = true := by
  induction l with
  | nil => simp [insertSorted]
  | cons q qs ih =>
    rw [List.pairwise_cons] at h
    simp only [insertSorted]
    split
    · rename_i hpq
      rw [List.pairwise_cons]
      refine ⟨?_, List.pairwise_cons.mpr h⟩
      intro a ha
      rcases List.mem_cons.mp ha with rfl | ha
      · exact hpq
      · exact keyLe_trans hpq (h.1 a ha)
    · rename_i hpq
      rw [List.pairwise_cons]
      refine ⟨?_, ih h.2⟩
      intro a ha
      rcases List.mem_cons.mp ((insertSorted_perm p qs).mem_iff.mp ha) with rfl | ha
      · rcases keyLe_total a q with h' | h'
        · exact absurd h' hpq
        · exact h'
      · exact h.1 a ha

theorem sortPositions_sorted (l : List Position) :
    (sortPositions l).Pairwise fun a b => Position.keyLe a b = true := by
  induction l with
  | nil => exact .nil
  | cons p ps ih => exact insertSorted_sorted ih

theorem sorted_unique {l l' : List Position} (hp : l.Perm l')
    (hs : l.Pairwise fun a b => Position.keyLe a b = true)
    (hs' : l'.Pairwise fun a b => Position.keyLe a b = true)
    (hk : (l.map Position.key).Nodup) : l = l' := by
  induction l generalizing l' with
  | nil => exact (List.nil_perm.mp hp).symm
  | cons a l ih =>
    cases l' with
    | nil => exact absurd hp.length_eq (by simp)
    | cons b l' =>
      rw [List.pairwise_cons] at hs hs'
      rw [List.map_cons, List.nodup_cons] at hk
      have hab : a = b := by
        by_contra hne
        have ha : a ∈ l' := by
          rcases List.mem_cons.mp (hp.mem_iff.mp List.mem_cons_self) with h | h
          · exact absurd h hne
          · exact h
        have hb : b ∈ l := by
          rcases List.mem_cons.mp (hp.mem_iff.mpr List.mem_cons_self) with h | h
          · exact absurd h.symm hne
          · exact h
        exact hk.1 (List.mem_map.mpr ⟨b, hb, (keyLe_antisymm (hs.1 b hb) (hs'.1 a ha)).symm⟩)
      subst hab
      rw [ih (List.Perm.cons_inv hp) hs.2 hs'.2 hk.2]

theorem mem_new {l : List Position} {p : Position} : p ∈ (new l).positions ↔ p ∈ l :=
  (sortPositions_perm l).mem_iff

end Kernel

/-! ### The kernel table -/

namespace KernelTable

/-- The table numbers the states. -/
structure WF (t : KernelTable) : Prop where
  table : t.table = t.states.zipIdx
  nodup : t.states.Nodup

theorem new_WF : new.WF := ⟨rfl, List.nodup_nil⟩

theorem WF.getOrInsert {t : KernelTable} (h : t.WF) (k : Kernel) :
    (t.getOrInsert k).1.WF ∧ t.states <+: (t.getOrInsert k).1.states ∧
      (t.getOrInsert k).1.states[(t.getOrInsert k).2]? = some k ∧
      ∀ k' ∈ (t.getOrInsert k).1.states, k' ∈ t.states ∨ k' = k := by
  have hlen : t.table.length = t.states.length := by rw [h.table]; simp
  unfold KernelTable.getOrInsert
  simp only
  cases hl : t.table.lookup k with
  | some id =>
    rw [h.table, lookup_zipIdx_zero h.nodup] at hl
    exact ⟨h, List.prefix_rfl, hl, fun k' hk' => .inl hk'⟩
  | none =>
    rw [h.table, lookup_zipIdx_none] at hl
    refine ⟨⟨?_, ?_⟩, List.prefix_append _ _, ?_, ?_⟩
    · simp only [zipIdx_snoc, hlen, ← h.table]
    · rw [List.nodup_append]
      refine ⟨h.nodup, by simp, ?_⟩
      rintro a ha b hb rfl
      rw [List.mem_singleton] at hb
      subst hb; exact hl ha
    · simp only [hlen]; simp
    · intro k' hk'
      simpa using hk'

theorem WF.getOrInsert_of_mem {t : KernelTable} (h : t.WF) {k : Kernel} {i : Nat}
    (hi : t.states[i]? = some k) : t.getOrInsert k = (t, i) := by
  unfold KernelTable.getOrInsert
  have : t.table.lookup k = some i := by rw [h.table, lookup_zipIdx_zero h.nodup]; exact hi
  simp [this]

end KernelTable
end Verif
