import Verif.Proof.IndexedGrammar

/-!
# Lemmas about indexing a grammar: structure of the result, connectedness, `build`
-/

set_option linter.unusedSectionVars false

namespace Verif

/-- The node refers to existing labels and tokens. -/
def INode.InRange (labels vocab : Nat) : INode → Prop
  | .production l => l < labels
  | .terminal t => Label.id t < vocab

namespace IndexedGrammar
variable {T L : Type} [DecidableEq T] [DecidableEq L]

/-- Structural facts about indexed grammars that do not involve the original grammar. -/
structure WF (ig : IndexedGrammar T L) : Prop where
  pos : 0 < ig.labelsCount
  range : ∀ (l : Nat) (m : RuleMetadata L), ig.ruleMetadata[l]? = some m → m.startIndex < m.endIndex ∧
    m.endIndex ≤ ig.rules.length ∧
    ∀ (i : Nat) (r : IRule), ig.rules[i]? = some r → (r.symbol = l ↔ m.startIndex ≤ i ∧ i < m.endIndex)
  symbol : ∀ r ∈ ig.rules, r.symbol < ig.labelsCount
  node : ∀ r ∈ ig.rules, ∀ n ∈ r.nodes, n.InRange ig.labelsCount ig.vocab.size
  root : ∀ (i : Nat) (r : IRule), ig.rules[i]? = some r → (r.symbol = 0 ↔ i = 0)
  rootRef : ∀ (i : Nat) (r : IRule), ig.rules[i]? = some r → i ≠ 0 → .production 0 ∉ r.nodes

/-- The rules as plain context-free rules. -/
def cfg (ig : IndexedGrammar T L) : List (Rule Nat Nat) := ig.rules.map (·.rule)

section
variable {ε : Type} {ig : IndexedGrammar T L}

theorem productionRules_eq (is : List Nat) (h : ∀ i ∈ is, i < ig.rules.length) :
    ∃ rs, (ig.productionRules is : Outcome ε (List IRule)) = .ok rs ∧
      List.Forall₂ (fun i r => ig.rules[i]? = some r) is rs := by
  induction is with
  | nil => exact ⟨[], rfl, .nil⟩
  | cons i is ih =>
    obtain ⟨rs, e, hf⟩ := ih fun j hj => h j (List.mem_cons_of_mem _ hj)
    have hi := h i List.mem_cons_self
    refine ⟨ig.rules[i] :: rs, ?_, .cons (List.getElem?_eq_getElem hi) hf⟩
    simp [productionRules, productionRule, Outcome.index_of_lt hi, e]

theorem WF.ruleIds_eq (h : ig.WF) {l : Nat} (hl : l < ig.labelsCount) :
    ∃ is, (ig.ruleIdsForLabel l : Outcome ε (List Nat)) = .ok is ∧ is ≠ [] ∧ is.Nodup ∧
      ∀ i, i ∈ is ↔ ∃ r, ig.rules[i]? = some r ∧ r.symbol = l := by
  have hl' : l < ig.ruleMetadata.length := hl
  obtain ⟨h1, h2, h3⟩ := h.range l _ (List.getElem?_eq_getElem hl')
  refine ⟨_, by simp only [ruleIdsForLabel, Outcome.index_of_lt hl', Outcome.ok_bind]; rfl, ?_, ?_, ?_⟩
  · intro e
    rw [List.range'_eq_nil_iff] at e
    omega
  · exact List.nodup_range'
  · intro i
    rw [List.mem_range'_1]
    constructor
    · intro hi
      have hlt : i < ig.rules.length := by omega
      exact ⟨_, List.getElem?_eq_getElem hlt, (h3 i _ (List.getElem?_eq_getElem hlt)).mpr (by omega)⟩
    · rintro ⟨r, hr, hs⟩
      have := (h3 i r hr).mp hs
      omega

theorem WF.rules_eq (h : ig.WF) {l : Nat} (hl : l < ig.labelsCount) :
    ∃ rs, (ig.rulesForLabel l : Outcome ε (List IRule)) = .ok rs ∧
      ∀ r, r ∈ rs ↔ r ∈ ig.rules ∧ r.symbol = l := by
  obtain ⟨is, e, -, -, his⟩ := h.ruleIds_eq (ε := ε) hl
  obtain ⟨rs, ers, hf⟩ := productionRules_eq (ε := ε) (ig := ig) is fun i hi => by
    obtain ⟨r, hr, -⟩ := (his i).mp hi
    exact (List.getElem?_eq_some_iff.mp hr).1
  refine ⟨rs, by simp [rulesForLabel, e, ers], fun r => ?_⟩
  constructor
  · intro hr
    obtain ⟨j, hj, rfl⟩ := List.mem_iff_getElem.mp hr
    have hj' : j < is.length := by rw [hf.length_eq]; exact hj
    have h1 := hf.get hj' hj
    simp only [List.get_eq_getElem] at h1
    obtain ⟨r', hr', hs⟩ := (his _).mp (List.getElem_mem hj')
    rw [h1] at hr'
    simp only [Option.some.injEq] at hr'
    rw [← hr'] at hs
    exact ⟨List.mem_of_getElem? h1, hs⟩
  · rintro ⟨hr, hs⟩
    obtain ⟨i, hi⟩ := List.mem_iff_getElem?.mp hr
    have := (his i).mpr ⟨r, hi, hs⟩
    obtain ⟨j, hj, rfl⟩ := List.mem_iff_getElem.mp this
    have hj' : j < rs.length := by rw [← hf.length_eq]; exact hj
    have h1 := hf.get hj hj'
    simp only [List.get_eq_getElem] at h1
    rw [hi] at h1
    simp only [Option.some.injEq] at h1
    rw [h1]; exact List.getElem_mem hj'

/-! ### Connectedness -/

/-- Invariant of the exploration: marked labels `set`, labels still to be explored `stack`. -/
structure Explore (ig : IndexedGrammar T L) (set : BitSet) (stack : List Nat) : Prop where
  wf : set.WF
  len : set.len = ig.labelsCount
  root : set.mem 0 = true
  stack : ∀ l ∈ stack, set.mem l = true
  reach : ∀ l, set.mem l = true → Spec.Reachable ig.cfg 0 l

theorem exploreNodes_spec (nodes : List INode) {set : BitSet} {stack : List Nat}
    (hinv : Explore ig set stack)
    (hrange : ∀ n ∈ nodes, n.InRange ig.labelsCount ig.vocab.size)
    (hreach : ∀ l, .production l ∈ nodes → Spec.Reachable ig.cfg 0 l) :
    ∃ set' stack', (exploreNodes nodes set stack : Outcome ε (BitSet × List Nat)) = .ok (set', stack') ∧
      Explore ig set' stack' ∧ (∀ l, set.mem l = true → set'.mem l = true) ∧
      (∀ l, .production l ∈ nodes → set'.mem l = true) ∧
      (∀ l, set'.mem l = true → set.mem l = true ∨ l ∈ stack') ∧ (∀ l ∈ stack, l ∈ stack') ∧
      stack'.length + countBelow ig.labelsCount set.mem =
        stack.length + countBelow ig.labelsCount set'.mem := by
  induction nodes generalizing set stack with
  | nil => exact ⟨set, stack, rfl, hinv, fun _ h => h, by simp, fun _ h => .inl h, fun _ h => h, rfl⟩
  | cons n nodes ih =>
    have hr' : ∀ n ∈ nodes, n.InRange ig.labelsCount ig.vocab.size :=
      fun n hn => hrange n (List.mem_cons_of_mem _ hn)
    have hre' : ∀ l, .production l ∈ nodes → Spec.Reachable ig.cfg 0 l :=
      fun l hl => hreach l (List.mem_cons_of_mem _ hl)
    cases n with
    | terminal t =>
      obtain ⟨s', st', e, h1, h2, h3, h4, h5, h6⟩ := ih hinv hr' hre'
      refine ⟨s', st', by simpa [exploreNodes] using e, h1, h2, ?_, h4, h5, h6⟩
      intro l hl
      simp at hl
      exact h3 l hl
    | production l =>
      have hl : l < ig.labelsCount := hrange _ List.mem_cons_self
      have hl' : l < set.len := by rw [hinv.len]; exact hl
      have hhas := BitSet.has_eq (ε := ε) hinv.wf hl'
      cases hm : set.mem l with
      | true =>
        obtain ⟨s', st', e, h1, h2, h3, h4, h5, h6⟩ := ih hinv hr' hre'
        refine ⟨s', st', by simpa [exploreNodes, hhas, hm] using e, h1, h2, ?_, h4, h5, h6⟩
        intro l' hl'
        simp only [List.mem_cons, Node.production.injEq] at hl'
        rcases hl' with rfl | hl'
        · exact h2 _ hm
        · exact h3 l' hl'
      | false =>
        obtain ⟨s1, e1, hwf1, hlen1, hm1⟩ := BitSet.set_eq (ε := ε) hinv.wf hl'
        have hmono : ∀ l', set.mem l' = true → s1.mem l' = true := by
          intro l' h'; rw [hm1, h']; rfl
        have hml : s1.mem l = true := by rw [hm1]; simp
        have hinv1 : Explore ig s1 (l :: stack) := by
          refine ⟨hwf1, hlen1.trans hinv.len, hmono _ hinv.root, ?_, ?_⟩
          · intro l' h'
            rcases List.mem_cons.mp h' with rfl | h'
            · exact hml
            · exact hmono _ (hinv.stack _ h')
          · intro l' h'
            rw [hm1, Bool.or_eq_true, beq_iff_eq] at h'
            rcases h' with h' | rfl
            · exact hinv.reach _ h'
            · exact hreach _ List.mem_cons_self
        obtain ⟨s', st', e, h1, h2, h3, h4, h5, h6⟩ := ih hinv1 hr' hre'
        refine ⟨s', st', by simpa [exploreNodes, hhas, hm, e1] using e, h1,
          fun l' h' => h2 _ (hmono _ h'), ?_, ?_, fun l' h' => h5 _ (List.mem_cons_of_mem _ h'), ?_⟩
        · intro l' hl'
          simp only [List.mem_cons, Node.production.injEq] at hl'
          rcases hl' with rfl | hl'
          · exact h2 _ hml
          · exact h3 l' hl'
        · intro l' h'
          rcases h4 l' h' with h' | h'
          · rw [hm1, Bool.or_eq_true, beq_iff_eq] at h'
            rcases h' with h' | rfl
            · exact .inl h'
            · exact .inr (h5 _ List.mem_cons_self)
          · exact .inr h'
        · have := countBelow_insert (N := ig.labelsCount) (f := set.mem) (g := s1.mem) hl hm hm1
          simp only [List.length_cons] at h6
          omega

theorem exploreRules_spec (h : ig.WF) (rs : List IRule) {set : BitSet} {stack : List Nat}
    (hinv : Explore ig set stack) (hrs : ∀ r ∈ rs, r ∈ ig.rules)
    (hreach : ∀ r ∈ rs, Spec.Reachable ig.cfg 0 r.symbol) :
    ∃ set' stack', (exploreRules rs set stack : Outcome ε (BitSet × List Nat)) = .ok (set', stack') ∧
      Explore ig set' stack' ∧ (∀ l, set.mem l = true → set'.mem l = true) ∧
      (∀ r ∈ rs, ∀ l, .production l ∈ r.nodes → set'.mem l = true) ∧
      (∀ l, set'.mem l = true → set.mem l = true ∨ l ∈ stack') ∧ (∀ l ∈ stack, l ∈ stack') ∧
      stack'.length + countBelow ig.labelsCount set.mem =
        stack.length + countBelow ig.labelsCount set'.mem := by
  induction rs generalizing set stack with
  | nil => exact ⟨set, stack, rfl, hinv, fun _ h => h, by simp, fun _ h => .inl h, fun _ h => h, rfl⟩
  | cons r rs ih =>
    have hmem := hrs r List.mem_cons_self
    obtain ⟨s1, st1, e1, a1, a2, a3, a4, a5, a6⟩ := exploreNodes_spec (ε := ε) r.nodes hinv
      (h.node r hmem) fun l hl => .step (hreach r List.mem_cons_self)
        (List.mem_map_of_mem (f := fun r : IRule => r.rule) hmem) hl
    obtain ⟨s', st', e, h1, h2, h3, h4, h5, h6⟩ := ih a1
      (fun q hq => hrs q (List.mem_cons_of_mem _ hq)) fun q hq => hreach q (List.mem_cons_of_mem _ hq)
    refine ⟨s', st', by simp [exploreRules, e1, e], h1, fun l hl => h2 l (a2 l hl), ?_, ?_,
      fun l hl => h5 l (a5 l hl), by omega⟩
    · intro q hq l hl
      rcases List.mem_cons.mp hq with rfl | hq
      · exact h2 l (a3 l hl)
      · exact h3 q hq l hl
    · intro l hl
      rcases h4 l hl with hl | hl
      · rcases a4 l hl with hl | hl
        · exact .inl hl
        · exact .inr (h5 l hl)
      · exact .inr hl

theorem exploreLoop_spec (h : ig.WF) (fuel : Nat) {set : BitSet} {stack : List Nat}
    (hinv : Explore ig set stack)
    (hdone : ∀ l, set.mem l = true → l ∈ stack ∨
      ∀ r ∈ ig.rules, r.symbol = l → ∀ l', .production l' ∈ r.nodes → set.mem l' = true)
    (hfuel : stack.length + ig.labelsCount < fuel + countBelow ig.labelsCount set.mem) :
    ∃ set', (exploreLoop ig fuel set stack : Outcome ε BitSet) = .ok set' ∧ set'.WF ∧
      set'.len = ig.labelsCount ∧ ∀ l, set'.mem l = true ↔ Spec.Reachable ig.cfg 0 l := by
  induction fuel generalizing set stack with
  | zero =>
    have := countBelow_le ig.labelsCount set.mem
    omega
  | succ fuel ih =>
    cases stack with
    | nil =>
      refine ⟨set, rfl, hinv.wf, hinv.len, fun l => ⟨hinv.reach l, fun hr => ?_⟩⟩
      induction hr with
      | root => exact hinv.root
      | step _ hr hl ih =>
        rcases hdone _ ih with h' | h'
        · simp at h'
        · obtain ⟨r, hr', rfl⟩ := List.mem_map.mp hr
          exact h' r hr' rfl _ hl
    | cons l stack =>
      have hm := hinv.stack l List.mem_cons_self
      have hlt : l < ig.labelsCount := by rw [← hinv.len]; exact hinv.wf.bound l hm
      obtain ⟨rs, ers, hrs⟩ := h.rules_eq (ε := ε) hlt
      have hinv0 : Explore ig set stack :=
        ⟨hinv.wf, hinv.len, hinv.root, fun l' h' => hinv.stack l' (List.mem_cons_of_mem _ h'), hinv.reach⟩
      obtain ⟨s1, st1, e1, a1, a2, a3, a4, a5, a6⟩ := exploreRules_spec (ε := ε) h rs hinv0
        (fun r hr => ((hrs r).mp hr).1) fun r hr => by
          rw [((hrs r).mp hr).2]; exact hinv.reach l hm
      have hhas := BitSet.has_eq (ε := ε) hinv.wf (b := l) (by rw [hinv.len]; exact hlt)
      have hstep : (exploreLoop ig (fuel + 1) set (l :: stack) : Outcome ε BitSet)
          = exploreLoop ig fuel s1 st1 := by
        simp [exploreLoop, hhas, hm, ers, e1]
      rw [hstep]
      apply ih a1
      · intro l' hl'
        rcases a4 l' hl' with h' | h'
        · rcases hdone l' h' with h'' | h''
          · rcases List.mem_cons.mp h'' with rfl | h''
            · refine .inr fun r hr hs l2 hl2 => ?_
              exact a3 r ((hrs r).mpr ⟨hr, hs⟩) l2 hl2
            · exact .inl (a5 _ h'')
          · exact .inr fun r hr hs l2 hl2 => a2 _ (h'' r hr hs l2 hl2)
        · exact .inl h'
      · simp only [List.length_cons] at hfuel
        omega

theorem disconnected_spec {set : BitSet} (hwf : set.WF) (ls : List L) (k : Nat)
    (hlen : ∀ i, i < ls.length → k + i < set.len) :
    (disconnected set (ls.zipIdx k) : Outcome ε (List L)) =
      .ok (((ls.zipIdx k).filter fun p => !set.mem p.2).map (·.1)) := by
  induction ls generalizing k with
  | nil => rfl
  | cons a ls ih =>
    have hk : k < set.len := by simpa using hlen 0 (by simp)
    have := ih (k + 1) fun i hi => by
      have := hlen (i + 1) (by simp; omega)
      omega
    simp only [List.zipIdx_cons, disconnected, BitSet.has_eq (ε := ε) hwf hk, this, Outcome.ok_bind,
      Outcome.pure_eq, List.filter_cons]
    cases set.mem k <;> simp

/-- `verify_connected`: succeeds exactly when all labels are reachable, otherwise reports those that are
not. -/
theorem verifyConnected_spec (h : ig.WF) (labels : List L) (hlen : labels.length = ig.labelsCount) :
    ((∀ l, l < ig.labelsCount → Spec.Reachable ig.cfg 0 l) ∧
      ig.verifyConnected labels.zipIdx = .ok ()) ∨
    (∃ ls, ig.verifyConnected labels.zipIdx = .err (.notConnected ls) ∧ ls ≠ [] ∧
      List.Sublist ls labels ∧
      ∀ l, l ∈ ls ↔ ∃ j, labels[j]? = some l ∧ ¬ Spec.Reachable ig.cfg 0 j) := by
  obtain ⟨s0, e0, hwf0, hlen0, hm0⟩ := BitSet.set_eq (ε := LRTableError T L)
    (BitSet.new_WF ig.labelsCount) (b := 0) h.pos
  have hmem0 : ∀ c, s0.mem c = (c == 0) := by
    intro c; rw [hm0, BitSet.mem_new, Bool.false_or]
  have hinv : Explore ig s0 [0] := by
    refine ⟨hwf0, hlen0, by simp [hmem0], by simp [hmem0], ?_⟩
    intro l hl
    rw [hmem0, beq_iff_eq] at hl
    subst hl; exact .root
  obtain ⟨s, e, hwf, hls, hm⟩ := exploreLoop_spec (ε := LRTableError T L) h (ig.labelsCount + 1) hinv
    (by intro l hl; rw [hmem0, beq_iff_eq] at hl; subst hl; exact .inl (by simp))
    (by
      have := countBelow_insert (N := ig.labelsCount) (f := fun _ => false) (g := s0.mem) (b := 0)
        h.pos rfl (by intro c; simp [hmem0])
      simp only [List.length_singleton]; omega)
  obtain ⟨b, hb, hfull⟩ := BitSet.full_eq (ε := LRTableError T L) hwf
  rw [hls] at hfull
  have hred : ig.verifyConnected labels.zipIdx =
      if b = true then .ok () else
        (do let ls ← disconnected s labels.zipIdx; .err (.notConnected ls)) := by
    simp only [verifyConnected, rootLabel, e0, e, hb, Outcome.ok_bind, Outcome.pure_eq]
  rw [hred]
  cases b with
  | true =>
    left
    exact ⟨fun l hl => (hm l).mp (hfull.mp rfl l hl), rfl⟩
  | false =>
    right
    have hd := disconnected_spec (ε := LRTableError T L) hwf labels 0 (by
      intro i hi; rw [hls, ← hlen]; omega)
    rw [hd]
    refine ⟨_, rfl, ?_, ?_, ?_⟩
    · intro hnil
      have : ∀ l, l < ig.labelsCount → s.mem l = true := by
        intro l hl
        cases hml : s.mem l with
        | true => rfl
        | false =>
          exfalso
          rw [List.map_eq_nil_iff, List.filter_eq_nil_iff] at hnil
          have hl' : l < labels.length := by omega
          have hmem : (labels[l], l) ∈ labels.zipIdx := by
            rw [List.mem_zipIdx_iff_getElem?]
            exact List.getElem?_eq_getElem hl'
          have := hnil _ hmem
          simp [hml] at this
      exact absurd (hfull.mpr this) (by simp)
    · have h1 : List.Sublist ((labels.zipIdx.filter fun p => !s.mem p.2).map (·.1))
          (labels.zipIdx.map (·.1)) := List.Sublist.map _ List.filter_sublist
      have h2 : labels.zipIdx.map (·.1) = labels := by
        rw [List.zipIdx_map_fst]
      rw [h2] at h1
      exact h1
    · intro l
      rw [List.mem_map]
      constructor
      · rintro ⟨⟨l', j⟩, hj, rfl⟩
        rw [List.mem_filter] at hj
        refine ⟨j, ?_, ?_⟩
        · have := hj.1; rw [List.mem_zipIdx_iff_getElem?] at this; exact this
        · rw [← hm]; simpa using hj.2
      · rintro ⟨j, hj, hr⟩
        refine ⟨(l, j), ?_, rfl⟩
        rw [List.mem_filter]
        refine ⟨by rw [List.mem_zipIdx_iff_getElem?]; exact hj, ?_⟩
        rw [← hm] at hr
        simpa using hr

end
end IndexedGrammar
end Verif
