import Verif.Model.Closure
import Verif.Proof.Position

/-!
# The closure of a kernel: what `closure_follow_sets` computes
-/

set_option linter.unusedSectionVars false
set_option autoImplicit false

namespace Verif

section
variable {T L : Type} [DecidableEq T] [DecidableEq L]
open FirstTable

/-- Labels that the closure of a kernel expands. -/
inductive ClosureLabel (ig : IndexedGrammar T L) (K : List Position) : Nat → Prop
  | kernel {p : Position} {l : Nat} {rest : List INode} : p ∈ K → p.tail ig = .production l :: rest →
      ClosureLabel ig K l
  | step {r : IRule} {l : Nat} {rest : List INode} : ClosureLabel ig K r.symbol → r ∈ ig.rules →
      r.nodes = .production l :: rest → ClosureLabel ig K l

/-- Lookahead tokens of the labels that the closure expands. -/
inductive ClosureTok (ig : IndexedGrammar T L) (F : FirstTable) (K : List Position) :
    Nat → AugTokId → Prop
  | kernel {p : Position} {l : Nat} {rest : List INode} {t : AugTokId} : p ∈ K →
      p.tail ig = .production l :: rest → FollowOf F rest (fun t => p.followSet.mem t = true) t →
      ClosureTok ig F K l t
  | first {r : IRule} {l : Nat} {rest : List INode} {t : AugTokId} : ClosureLabel ig K r.symbol →
      r ∈ ig.rules → r.nodes = .production l :: rest → t ≠ .epsilon → NodesFirst F rest t →
      ClosureTok ig F K l t
  | pass {r : IRule} {l : Nat} {rest : List INode} {t : AugTokId} : ClosureTok ig F K r.symbol t →
      r ∈ ig.rules → r.nodes = .production l :: rest → NodesFirst F rest .epsilon →
      ClosureTok ig F K l t

theorem ClosureTok.label {ig : IndexedGrammar T L} {F : FirstTable} {K : List Position} {l : Nat}
    {t : AugTokId} (h : ClosureTok ig F K l t) : ClosureLabel ig K l := by
  induction h with
  | kernel hp ht _ => exact .kernel hp ht
  | first hl hr hn _ _ => exact .step hl hr hn
  | pass _ hr hn _ ih => exact .step ih hr hn

end

namespace FollowMap
variable {ε : Type} {labels vocab : Nat} {m m' : FollowMap} {l : Nat} {t : AugTokId}

/-- Well-formed follow map. -/
structure OK (labels vocab : Nat) (m : FollowMap) : Prop where
  wf : m.WF labels
  sets : ∀ l s, m.lookup l = some s → s.WF vocab

/-- The label has an entry. -/
def Has (m : FollowMap) (l : Nat) : Prop := ∃ s, m.lookup l = some s

/-- The token is in the entry of the label. -/
def In (m : FollowMap) (l : Nat) (t : AugTokId) : Prop := ∃ s, m.lookup l = some s ∧ s.mem t = true

/-- Extension of follow maps. -/
structure Le (m m' : FollowMap) : Prop where
  has : ∀ l, Has m l → Has m' l
  mem : ∀ l t, In m l t → In m' l t

theorem Le.refl (m : FollowMap) : Le m m := ⟨fun _ h => h, fun _ _ h => h⟩
theorem Le.trans {m m' m'' : FollowMap} (h : Le m m') (h' : Le m' m'') : Le m m'' :=
  ⟨fun l x => h'.has l (h.has l x), fun l t x => h'.mem l t (h.mem l t x)⟩

theorem In.has (h : In m l t) : Has m l := by
  obtain ⟨s, hs, -⟩ := h; exact ⟨s, hs⟩

theorem new_OK : OK labels vocab (SparseMap.new labels) :=
  ⟨SparseMap.new_WF _, fun l s h => by simp [SparseMap.lookup_new] at h⟩

theorem not_has_new : ¬ Has (SparseMap.new labels) l := by
  rintro ⟨s, h⟩; simp [SparseMap.lookup_new] at h

theorem OK.has_lt (h : OK labels vocab m) (hh : Has m l) : l < labels := by
  obtain ⟨s, hs⟩ := hh
  obtain ⟨k, hk, hid⟩ := h.wf.lookup_eq_some.mp hs
  have h1 := h.wf.id_lt hk
  have h2 : k = l := hid
  subst h2
  exact h1

theorem OK.has_iff (h : OK labels vocab m) : Has m l ↔ l ∈ m.map.map (·.1) := by
  unfold Has
  constructor
  · rintro ⟨s, hs⟩
    obtain ⟨k, hk, hid⟩ := h.wf.lookup_eq_some.mp hs
    have h2 : k = l := hid
    subst h2
    exact List.mem_map.mpr ⟨_, hk, rfl⟩
  · intro hm
    obtain ⟨⟨k, s⟩, he, rfl⟩ := List.mem_map.mp hm
    exact ⟨s, h.wf.lookup_eq_some.mpr ⟨k, he, rfl⟩⟩

theorem OK.length_le (h : OK labels vocab m) : m.map.length ≤ labels := by
  have h1 := length_le_of_nodup_lt (n := labels) h.wf.nodup_ids (by
    intro x hx
    obtain ⟨e, he, rfl⟩ := List.mem_map.mp hx
    exact h.wf.id_lt he)
  simpa using h1

theorem OK.keys_nodup (h : OK labels vocab m) : (m.map.map (·.1)).Nodup := h.wf.nodup_ids

/-- Merging a set into the entry of a label, creating it if needed. -/
theorem OK.mergeInsert (h : OK labels vocab m) {l : Nat} (hl : l < labels) {f : VocabSet}
    (hf : f.WF vocab) :
    ∃ m' ins, (m.modifyOrInsert l (VocabSet.new vocab) fun s => (s.merge f).1 :
        Outcome ε (FollowMap × Bool)) = .ok (m', ins) ∧
      OK labels vocab m' ∧ Has m' l ∧ (∀ l', l' ≠ l → (Has m' l' ↔ Has m l')) ∧
      (∀ l' t, In m' l' t ↔ In m l' t ∨ (l' = l ∧ f.mem t = true)) ∧
      (ins = true ↔ ¬ Has m l) ∧
      m'.map.length = m.map.length + (if ins then 1 else 0) := by
  obtain ⟨m', ins, e, hwf, hlook, hins, -, hkeys⟩ := h.wf.modifyOrInsert_eq (ε := ε) (k := l) hl
    (VocabSet.new vocab) fun s => (s.merge f).1
  have hlook' : ∀ l', m'.lookup l' = if l' = l then
      some ((((m.lookup l).getD (VocabSet.new vocab)).merge f).1) else m.lookup l' := hlook
  have hcur : ((m.lookup l).getD (VocabSet.new vocab)).WF vocab := by
    cases hc : m.lookup l with
    | none => exact VocabSet.new_WF _
    | some s => exact h.sets _ _ hc
  refine ⟨m', ins, e, ⟨hwf, ?_⟩, ?_, ?_, ?_, ?_, ?_⟩
  · intro l' s hs
    rw [hlook'] at hs
    split at hs
    · simp only [Option.some.injEq] at hs
      rw [← hs]; exact hcur.merge hf
    · exact h.sets _ _ hs
  · exact ⟨_, (hlook' l).trans (if_pos rfl)⟩
  · intro l' hl'
    simp only [Has, hlook', if_neg hl']
  · intro l' t
    unfold In
    rw [hlook']
    split
    · rename_i e'
      subst e'
      simp only [Option.some.injEq, exists_eq_left', VocabSet.mem_merge hcur hf, Bool.or_eq_true,
        true_and]
      cases hc : m.lookup l' with
      | none => simp
      | some s => simp
    · rename_i hne
      simp [hne]
  · rw [hins]
    unfold Has
    cases m.lookup l <;> simp
  · have := congrArg List.length hkeys
    rw [List.length_map] at this
    rw [this]
    cases ins <;> simp

/-- Making sure that a label has an entry. -/
theorem OK.ensure (h : OK labels vocab m) {l : Nat} (hl : l < labels) :
    ∃ m' ins, (m.modifyOrInsert l (VocabSet.new vocab) id :
        Outcome ε (FollowMap × Bool)) = .ok (m', ins) ∧
      OK labels vocab m' ∧ Has m' l ∧ (∀ l', l' ≠ l → (Has m' l' ↔ Has m l')) ∧
      (∀ l' t, In m' l' t ↔ In m l' t) ∧
      (ins = true ↔ ¬ Has m l) ∧
      m'.map.length = m.map.length + (if ins then 1 else 0) := by
  obtain ⟨m', ins, e, hwf, hlook, hins, -, hkeys⟩ := h.wf.modifyOrInsert_eq (ε := ε) (k := l) hl
    (VocabSet.new vocab) id
  have hlook' : ∀ l', m'.lookup l' = if l' = l then
      some ((m.lookup l).getD (VocabSet.new vocab)) else m.lookup l' := hlook
  refine ⟨m', ins, e, ⟨hwf, ?_⟩, ?_, ?_, ?_, ?_, ?_⟩
  · intro l' s hs
    rw [hlook'] at hs
    split at hs
    · simp only [Option.some.injEq] at hs
      subst hs
      cases hc : m.lookup l with
      | none => exact VocabSet.new_WF _
      | some s => exact h.sets _ _ hc
    · exact h.sets _ _ hs
  · exact ⟨_, (hlook' l).trans (if_pos rfl)⟩
  · intro l' hl'
    simp only [Has, hlook', if_neg hl']
  · intro l' t
    unfold In
    rw [hlook']
    split
    · rename_i e'
      subst e'
      cases hc : m.lookup l' with
      | none => simp
      | some s => simp
    · rfl
  · rw [hins]
    unfold Has
    cases m.lookup l <;> simp
  · have := congrArg List.length hkeys
    rw [List.length_map] at this
    rw [this]
    cases ins <;> simp

/-- Merging into an existing entry. -/
theorem OK.mergeAt (h : OK labels vocab m) {l : Nat} (hl : Has m l) {f : VocabSet}
    (hf : f.WF vocab) :
    ∃ m' c, (Closure.mergeAt m l f : Outcome ε (FollowMap × Bool)) = .ok (m', c) ∧
      OK labels vocab m' ∧ m'.map.map (·.1) = m.map.map (·.1) ∧
      (∀ l' t, In m' l' t ↔ In m l' t ∨ (l' = l ∧ f.mem t = true)) ∧
      (c = true → ∃ t, f.mem t = true ∧ ¬ In m l t) ∧
      (c = false → m' = m) := by
  obtain ⟨o, ho, hs, hn⟩ := h.wf.maybeIndex_eq (ε := ε) (k := l) (h.has_lt hl)
  obtain ⟨s, hs0⟩ := hl
  cases o with
  | none => rw [hn rfl] at hs0; cases hs0
  | some i =>
    obtain ⟨⟨k, s'⟩, he, hid, hlk⟩ := hs i rfl
    have hk : k = l := hid
    subst hk
    rw [hs0] at hlk
    simp only [Option.some.injEq] at hlk
    subst hlk
    have hsw := h.sets _ _ hs0
    have hlook : ∀ l', SparseMap.lookup { m with map := m.map.set i (k, (s.merge f).1) } l' =
        if l' = k then some (s.merge f).1 else m.lookup l' := h.wf.lookup_setValue he _
    refine ⟨{ m with map := m.map.set i (k, (s.merge f).1) }, (s.merge f).2, ?_, ⟨h.wf.setValue he _, ?_⟩,
      SparseMap.keys_setValue he _, ?_, ?_, ?_⟩
    · simp [Closure.mergeAt, ho, Outcome.index, he]
    · intro l' s1 hs1
      rw [hlook] at hs1
      split at hs1
      · simp only [Option.some.injEq] at hs1
        rw [← hs1]; exact hsw.merge hf
      · exact h.sets _ _ hs1
    · intro l' t
      unfold In
      rw [hlook]
      split
      · rename_i e'
        subst e'
        simp [hs0, VocabSet.mem_merge hsw hf]
      · rename_i hne
        simp [hne]
    · intro hc
      obtain ⟨t, h1, h2⟩ := (VocabSet.merge_modified hsw hf).mp hc
      refine ⟨t, h1, ?_⟩
      rintro ⟨s2, hs2, hm⟩
      rw [hs0] at hs2
      simp only [Option.some.injEq] at hs2
      subst hs2
      rw [h2] at hm; cases hm
    · intro hc
      have : (s.merge f).1 = s := VocabSet.merge_not_modified hsw hf hc
      rw [this]
      have hi := List.getElem?_eq_some_iff.mp he
      obtain ⟨hi, hie⟩ := hi
      have : m.map.set i (k, s) = m.map := by rw [← hie]; exact List.set_getElem_self hi
      rw [this]

end FollowMap

namespace Closure
variable {ε T L : Type} [DecidableEq T] [DecidableEq L] {ig : IndexedGrammar T L} {F : FirstTable}
  {K : List Position}
open FollowMap

/-- The map holds only what the closure needs. -/
structure Sound (ig : IndexedGrammar T L) (F : FirstTable) (K : List Position) (m : FollowMap) : Prop where
  label : ∀ l, Has m l → ClosureLabel ig K l
  tok : ∀ l t, FollowMap.In m l t → ClosureTok ig F K l t

abbrev MapOK (ig : IndexedGrammar T L) (m : FollowMap) : Prop := OK ig.labelsCount ig.vocab.size m

theorem kernelLoop_spec (hw : ig.WF) (hF : F.WF ig.labelsCount ig.vocab.size) (ps : List Position)
    (hps : ∀ p ∈ ps, p ∈ K ∧ p.OK ig) {m : FollowMap} {stack : List Nat} (hm : MapOK ig m)
    (hs : Sound ig F K m) (hst : ∀ l, Has m l ↔ l ∈ stack) (hlen : stack.length = m.map.length) :
    ∃ m' stack', (kernelLoop ig F ps m stack : Outcome ε _) = .ok (m', stack') ∧ MapOK ig m' ∧
      Sound ig F K m' ∧ (∀ l, Has m' l ↔ l ∈ stack') ∧ stack'.length = m'.map.length ∧ Le m m' ∧
      ∀ p ∈ ps, ∀ l rest, p.tail ig = .production l :: rest →
        Has m' l ∧ ∀ t, FollowOf F rest (fun t => p.followSet.mem t = true) t → FollowMap.In m' l t := by
  induction ps generalizing m stack with
  | nil => exact ⟨m, stack, rfl, hm, hs, hst, hlen, Le.refl _, by simp⟩
  | cons p ps ih =>
    obtain ⟨hpK, hp⟩ := hps p List.mem_cons_self
    have hps' := fun q hq => hps q (List.mem_cons_of_mem p hq)
    rcases hp.nextProductionLabel_eq (ε := ε) hw hF with ⟨hno, e⟩ | ⟨l, rest, s, htail, hl, e, hsw, hmem⟩
    · obtain ⟨m', stack', e', h1, h2, h3, h4, h5, h6⟩ := ih hps' hm hs hst hlen
      refine ⟨m', stack', by simp [kernelLoop, e, e'], h1, h2, h3, h4, h5, ?_⟩
      intro q hq l rest ht
      rcases List.mem_cons.mp hq with rfl | hq
      · exact absurd ht (hno l rest)
      · exact h6 q hq l rest ht
    · obtain ⟨m1, ins, e1, hm1, hhas, hother, hin, hins, hl1⟩ := hm.mergeInsert (ε := ε) hl hsw
      have hle : Le m m1 := ⟨fun l' h' => by
        by_cases hll : l' = l
        · subst hll; exact hhas
        · exact (hother l' hll).mpr h', fun l' t h' => (hin l' t).mpr (.inl h')⟩
      have hs1 : Sound ig F K m1 := by
        constructor
        · intro l' h'
          by_cases hll : l' = l
          · subst hll; exact .kernel hpK htail
          · exact hs.label _ ((hother l' hll).mp h')
        · intro l' t h'
          rcases (hin l' t).mp h' with h' | ⟨rfl, h'⟩
          · exact hs.tok _ _ h'
          · exact .kernel hpK htail ((hmem t).mp h')
      have hst1 : ∀ l', Has m1 l' ↔ l' ∈ (if ins then l :: stack else stack) := by
        intro l'
        by_cases hll : l' = l
        · subst hll
          refine ⟨fun _ => ?_, fun _ => hhas⟩
          cases hi : ins with
          | true => simp
          | false =>
            simp only [Bool.false_eq_true, if_false]
            refine (hst l').mp ?_
            by_contra hno
            rw [hins.mpr hno] at hi; cases hi
        · rw [hother l' hll, hst]
          cases ins <;> simp [hll]
      have hlen1 : (if ins then l :: stack else stack).length = m1.map.length := by
        rw [hl1]; cases ins <;> simp [hlen]
      obtain ⟨m', stack', e', h1, h2, h3, h4, h5, h6⟩ := ih hps' hm1 hs1 hst1 hlen1
      refine ⟨m', stack', by simp [kernelLoop, e, e1, e'], h1, h2, h3, h4, hle.trans h5, ?_⟩
      intro q hq l2 rest2 ht
      rcases List.mem_cons.mp hq with rfl | hq
      · rw [htail] at ht
        simp only [List.cons.injEq, Node.production.injEq] at ht
        obtain ⟨rfl, rfl⟩ := ht
        exact ⟨h5.has _ hhas, fun t ht => h5.mem _ _ ((hin _ _).mpr (.inr ⟨rfl, (hmem t).mpr ht⟩))⟩
      · exact h6 q hq l2 rest2 ht

theorem maybeFirst_some {nodes : List INode} {l : Nat}
    (h : maybeFirstProductionLabel nodes = some l) : ∃ rest, nodes = .production l :: rest := by
  cases nodes with
  | nil => cases h
  | cons n rest =>
    cases n with
    | terminal t => cases h
    | production l' =>
      simp only [maybeFirstProductionLabel, Option.some.injEq] at h
      subst h; exact ⟨rest, rfl⟩

theorem exploreRules_spec (hw : ig.WF) {l0 : Nat} (hl0 : ClosureLabel ig K l0) (rs : List IRule)
    (hrs : ∀ r ∈ rs, r ∈ ig.rules ∧ r.symbol = l0) {m : FollowMap} {stack : List Nat}
    (hm : MapOK ig m) (hs : Sound ig F K m) (hst : ∀ l ∈ stack, Has m l) :
    ∃ m' stack', (exploreRules ig.vocab.size rs m stack : Outcome ε _) = .ok (m', stack') ∧
      MapOK ig m' ∧ Sound ig F K m' ∧ (∀ l ∈ stack', Has m' l) ∧
      (∀ l, Has m' l → Has m l ∨ l ∈ stack') ∧ (∀ l ∈ stack, l ∈ stack') ∧ Le m m' ∧
      stack'.length + m.map.length = stack.length + m'.map.length ∧
      (∀ r ∈ rs, ∀ l rest, r.nodes = .production l :: rest → Has m' l) := by
  induction rs generalizing m stack with
  | nil => exact ⟨m, stack, rfl, hm, hs, hst, fun l h => .inl h, fun l h => h, Le.refl _, rfl, by simp⟩
  | cons r rs ih =>
    obtain ⟨hr, hsym⟩ := hrs r List.mem_cons_self
    have hrs' := fun q hq => hrs q (List.mem_cons_of_mem r hq)
    cases hf : maybeFirstProductionLabel r.nodes with
    | none =>
      obtain ⟨m', stack', e', h1, h2, h3, h4, h5, h6, h7, h8⟩ := ih hrs' hm hs hst
      refine ⟨m', stack', by simp [exploreRules, hf, e'], h1, h2, h3, h4, h5, h6, h7, ?_⟩
      intro q hq l rest hn
      rcases List.mem_cons.mp hq with rfl | hq
      · rw [hn] at hf; cases hf
      · exact h8 q hq l rest hn
    | some l =>
      obtain ⟨rest, hn⟩ := maybeFirst_some hf
      have hl : l < ig.labelsCount := hw.node r hr (.production l) (by rw [hn]; simp)
      obtain ⟨m1, ins, e1, hm1, hhas, hother, hin, hins, hl1⟩ := hm.ensure (ε := ε) hl
      have hle : Le m m1 := ⟨fun l' h' => by
        by_cases hll : l' = l
        · subst hll; exact hhas
        · exact (hother l' hll).mpr h', fun l' t h' => (hin l' t).mpr h'⟩
      have hs1 : Sound ig F K m1 := by
        constructor
        · intro l' h'
          by_cases hll : l' = l
          · subst hll; exact .step (hsym ▸ hl0) hr hn
          · exact hs.label _ ((hother l' hll).mp h')
        · intro l' t h'
          exact hs.tok _ _ ((hin l' t).mp h')
      have hst1 : ∀ l' ∈ (if ins then l :: stack else stack), Has m1 l' := by
        intro l' hl'
        cases ins with
        | true =>
          rcases List.mem_cons.mp hl' with rfl | hl'
          · exact hhas
          · exact hle.has _ (hst _ hl')
        | false => exact hle.has _ (hst _ hl')
      obtain ⟨m', stack', e', h1, h2, h3, h4, h5, h6, h7, h8⟩ := ih hrs' hm1 hs1 hst1
      refine ⟨m', stack', by simp [exploreRules, hf, e1, e'], h1, h2, h3, ?_, ?_, hle.trans h6, ?_, ?_⟩
      · intro l' h'
        rcases h4 l' h' with h' | h'
        · by_cases hll : l' = l
          · subst hll
            cases hi : ins with
            | true => right; apply h5; simp [hi]
            | false =>
              left
              by_contra hno
              rw [hins.mpr hno] at hi; cases hi
          · exact .inl ((hother l' hll).mp h')
        · exact .inr h'
      · intro l' hl'
        apply h5
        cases ins
        · exact hl'
        · exact List.mem_cons_of_mem _ hl'
      · cases ins <;> simp at h7 hl1 <;> omega
      · intro q hq l2 rest2 hn2
        rcases List.mem_cons.mp hq with rfl | hq
        · rw [hn] at hn2
          simp only [List.cons.injEq, Node.production.injEq] at hn2
          obtain ⟨rfl, -⟩ := hn2
          exact h6.has _ hhas
        · exact h8 q hq l2 rest2 hn2

/-- All labels that begin rules of `l` have an entry. -/
def Explored (ig : IndexedGrammar T L) (m : FollowMap) (l : Nat) : Prop :=
  ∀ r ∈ ig.rules, r.symbol = l → ∀ l' rest, r.nodes = .production l' :: rest → Has m l'

theorem exploreLoop_spec (hw : ig.WF) (fuel : Nat) {m : FollowMap} {stack : List Nat}
    (hm : MapOK ig m) (hs : Sound ig F K m) (hst : ∀ l ∈ stack, Has m l)
    (hex : ∀ l, Has m l → l ∈ stack ∨ Explored ig m l)
    (hfuel : ig.labelsCount + stack.length < fuel + m.map.length) :
    ∃ m', (exploreLoop ig fuel m stack : Outcome ε _) = .ok m' ∧ MapOK ig m' ∧ Sound ig F K m' ∧
      Le m m' ∧ ∀ l, Has m' l → Explored ig m' l := by
  induction fuel generalizing m stack with
  | zero => have := hm.length_le; omega
  | succ fuel ih =>
    cases stack with
    | nil =>
      refine ⟨m, rfl, hm, hs, Le.refl _, fun l hl => ?_⟩
      rcases hex l hl with h | h
      · cases h
      · exact h
    | cons l0 stack =>
      have hh0 := hst l0 List.mem_cons_self
      obtain ⟨rs, ers, hrs⟩ := hw.rules_eq (ε := ε) (hm.has_lt hh0)
      obtain ⟨m1, stack1, e1, h1, h2, h3, h4, h5, h6, h7, h8⟩ := exploreRules_spec (ε := ε) hw
        (hs.label l0 hh0) rs (fun r hr => (hrs r).mp hr) hm hs
        (fun l hl => hst l (List.mem_cons_of_mem _ hl))
      obtain ⟨m', e', g1, g2, g3, g4⟩ := ih h1 h2 h3 (fun l hl => by
        rcases h4 l hl with hl | hl
        · rcases hex l hl with h | h
          · rcases List.mem_cons.mp h with rfl | h
            · exact .inr fun r hr hsym l' rest hn => h8 r ((hrs r).mpr ⟨hr, hsym⟩) l' rest hn
            · exact .inl (h5 _ h)
          · exact .inr fun r hr hsym l' rest hn => h6.has _ (h r hr hsym l' rest hn)
        · exact .inl hl) (by simp only [List.length_cons] at hfuel; omega)
      exact ⟨m', by simp [exploreLoop, ers, e1, e'], g1, g2, h6.trans g3, g4⟩

/-- The map is closed under the rules in `rs` of label `l`. -/
def ClosedUnder (F : FirstTable) (m : FollowMap) (r : IRule) : Prop :=
  ∀ l' rest, r.nodes = .production l' :: rest →
    ∀ t, FollowOf F rest (FollowMap.In m r.symbol) t → FollowMap.In m l' t

theorem propagateRules_spec (hw : ig.WF) (hF : F.WF ig.labelsCount ig.vocab.size) {l0 : Nat}
    (rs : List IRule) (hrs : ∀ r ∈ rs, r ∈ ig.rules ∧ r.symbol = l0) {m : FollowMap} (c : Bool)
    (hm : MapOK ig m) (hs : Sound ig F K m) (hl0 : Has m l0)
    (hex : ∀ l, Has m l → Explored ig m l) :
    ∃ m' c', (propagateRules F ig.vocab.size l0 rs m c : Outcome ε _) = .ok (m', c') ∧
      MapOK ig m' ∧ Sound ig F K m' ∧ m'.map.map (·.1) = m.map.map (·.1) ∧
      (∀ l t, FollowMap.In m l t → FollowMap.In m' l t) ∧
      (c' = true → c = true ∨ ∃ l t, ¬ FollowMap.In m l t ∧ FollowMap.In m' l t) ∧
      (c' = false → c = false ∧ m' = m ∧ ∀ r ∈ rs, ClosedUnder F m r) := by
  induction rs generalizing m c with
  | nil => exact ⟨m, c, rfl, hm, hs, rfl, fun _ _ h => h, fun h => .inl h, fun h => ⟨h, rfl, by simp⟩⟩
  | cons r rs ih =>
    obtain ⟨hr, hsym⟩ := hrs r List.mem_cons_self
    have hrs' := fun q hq => hrs q (List.mem_cons_of_mem r hq)
    cases hf : maybeFirstProductionLabel r.nodes with
    | none =>
      obtain ⟨m', c', e', h1, h2, h3, h4, h5, h6⟩ := ih hrs' c hm hs hl0 hex
      refine ⟨m', c', by simp [propagateRules, hf, e'], h1, h2, h3, h4, h5, fun hc => ?_⟩
      obtain ⟨g1, g2, g3⟩ := h6 hc
      refine ⟨g1, g2, fun q hq => ?_⟩
      rcases List.mem_cons.mp hq with rfl | hq
      · intro l' rest hn
        rw [hn] at hf; cases hf
      · exact g3 q hq
    | some l =>
      obtain ⟨rest, hn⟩ := maybeFirst_some hf
      have hl : Has m l := hex l0 hl0 r hr hsym l rest hn
      obtain ⟨s0, hs0⟩ := id hl0
      have hs0w := hm.sets _ _ hs0
      have hin0 : ∀ t, FollowMap.In m l0 t ↔ s0.mem t = true := fun t => by simp [FollowMap.In, hs0]
      have hrange : ∀ n ∈ rest, n.InRange ig.labelsCount ig.vocab.size := fun n hn' =>
        hw.node r hr n (by rw [hn]; exact List.mem_cons_of_mem _ hn')
      obtain ⟨f, ef, hfw, hfm⟩ := followSetForRule_spec (ε := ε) hF
        (show 2 ≤ ig.vocab.size by simp [Vocab.size]) rest hrange hs0w
      have hfm' : ∀ t, f.mem t = true ↔ FollowOf F rest (FollowMap.In m r.symbol) t := by
        intro t
        rw [hfm]
        have : (fun t => s0.mem t = true) = FollowMap.In m r.symbol := by
          funext t; rw [hsym]; exact propext (hin0 t).symm
        rw [this]
      obtain ⟨m1, c1, e1, hm1, hkeys, hin, hc1, hc1'⟩ := hm.mergeAt (ε := ε) hl hfw
      have hhas : ∀ l, Has m1 l ↔ Has m l := fun l => by rw [hm1.has_iff, hm.has_iff, hkeys]
      have hs1 : Sound ig F K m1 := by
        constructor
        · intro l' h'; exact hs.label _ ((hhas _).mp h')
        · intro l' t h'
          rcases (hin l' t).mp h' with h' | ⟨rfl, h'⟩
          · exact hs.tok _ _ h'
          · rcases (hfm' t).mp h' with ⟨g1, g2⟩ | ⟨g1, g2⟩
            · exact .first (hs.label _ (hsym ▸ hl0)) hr hn g1 g2
            · exact .pass (hs.tok _ _ g2) hr hn g1
      obtain ⟨m', c', e', h1, h2, h3, h4, h5, h6⟩ := ih hrs' (c1 || c) hm1 hs1 ((hhas _).mpr hl0)
        (fun l hl q hq hqs l' rest' hn' => (hhas _).mpr (hex l ((hhas _).mp hl) q hq hqs l' rest' hn'))
      have hrw : (propagateRules F ig.vocab.size l0 (r :: rs) m c : Outcome ε _) = .ok (m', c') := by
        have hget := hm.wf.get_eq (ε := ε) (k := l0) (hm.has_lt hl0)
        rw [hs0] at hget
        have hsl : (Position.sliceFrom r.nodes 1 : Outcome ε _) = .ok rest := by
          rw [hn]; simp [Position.sliceFrom]
        simp only [propagateRules, hf, hget, Outcome.ok_bind, Outcome.unwrap, hsl, ef, e1, e']
      refine ⟨m', c', hrw, h1, h2, h3.trans hkeys, fun l' t h' => h4 _ _ ((hin _ _).mpr (.inl h')), ?_, ?_⟩
      · intro hc
        rcases h5 hc with h' | ⟨l', t, g1, g2⟩
        · rw [Bool.or_eq_true] at h'
          rcases h' with h' | h'
          · obtain ⟨t, g1, g2⟩ := hc1 h'
            exact .inr ⟨l, t, g2, h4 _ _ ((hin _ _).mpr (.inr ⟨rfl, g1⟩))⟩
          · exact .inl h'
        · exact .inr ⟨l', t, fun h' => g1 ((hin _ _).mpr (.inl h')), g2⟩
      · intro hc
        obtain ⟨g1, g2, g3⟩ := h6 hc
        rw [Bool.or_eq_false_iff] at g1
        obtain ⟨g1, g1'⟩ := g1
        have hmm := hc1' g1
        subst hmm
        refine ⟨g1', g2, fun q hq => ?_⟩
        rcases List.mem_cons.mp hq with rfl | hq
        · intro l' rest' hn' t ht
          rw [hn] at hn'
          simp only [List.cons.injEq, Node.production.injEq] at hn'
          obtain ⟨rfl, rfl⟩ := hn'
          exact (hin _ _).mpr (.inr ⟨rfl, (hfm' t).mpr ht⟩)
        · exact g3 q hq

theorem propagateLabels_spec (hw : ig.WF) (hF : F.WF ig.labelsCount ig.vocab.size)
    (labels : List Nat) {m : FollowMap} (c : Bool) (hlab : ∀ l ∈ labels, Has m l)
    (hm : MapOK ig m) (hs : Sound ig F K m) (hex : ∀ l, Has m l → Explored ig m l) :
    ∃ m' c', (propagateLabels ig F labels m c : Outcome ε _) = .ok (m', c') ∧
      MapOK ig m' ∧ Sound ig F K m' ∧ m'.map.map (·.1) = m.map.map (·.1) ∧
      (∀ l t, FollowMap.In m l t → FollowMap.In m' l t) ∧
      (c' = true → c = true ∨ ∃ l t, ¬ FollowMap.In m l t ∧ FollowMap.In m' l t) ∧
      (c' = false → c = false ∧ m' = m ∧
        ∀ r ∈ ig.rules, r.symbol ∈ labels → ClosedUnder F m r) := by
  induction labels generalizing m c with
  | nil => exact ⟨m, c, rfl, hm, hs, rfl, fun _ _ h => h, fun h => .inl h, fun h => ⟨h, rfl, by simp⟩⟩
  | cons l0 labels ih =>
    have hl0 := hlab l0 List.mem_cons_self
    obtain ⟨rs, ers, hrs⟩ := hw.rules_eq (ε := ε) (hm.has_lt hl0)
    obtain ⟨m1, c1, e1, h1, h2, h3, h4, h5, h6⟩ := propagateRules_spec (ε := ε) hw hF rs
      (fun r hr => (hrs r).mp hr) c hm hs hl0 hex
    have hhas : ∀ l, Has m1 l ↔ Has m l := fun l => by rw [h1.has_iff, hm.has_iff, h3]
    obtain ⟨m', c', e', g1, g2, g3, g4, g5, g6⟩ := ih c1
      (fun l hl => (hhas l).mpr (hlab l (List.mem_cons_of_mem _ hl))) h1 h2
      (fun l hl q hq hqs l' rest' hn' => (hhas _).mpr (hex l ((hhas _).mp hl) q hq hqs l' rest' hn'))
    refine ⟨m', c', by simp [propagateLabels, ers, e1, e'], g1, g2, g3.trans h3,
      fun l t h => g4 _ _ (h4 _ _ h), ?_, ?_⟩
    · intro hc
      rcases g5 hc with h' | ⟨l', t, k1, k2⟩
      · rcases h5 h' with h' | ⟨l', t, k1, k2⟩
        · exact .inl h'
        · exact .inr ⟨l', t, k1, g4 _ _ k2⟩
      · exact .inr ⟨l', t, fun h' => k1 (h4 _ _ h'), k2⟩
    · intro hc
      obtain ⟨k1, k2, k3⟩ := g6 hc
      obtain ⟨j1, j2, j3⟩ := h6 k1
      subst j2
      refine ⟨j1, k2, fun r hr hmem => ?_⟩
      rcases List.mem_cons.mp hmem with hsym | hmem
      · exact j3 r ((hrs r).mpr ⟨hr, hsym⟩)
      · exact k3 r hr hmem

/-- Number of recorded pairs. -/
noncomputable def size (labels vocab : Nat) (m : FollowMap) : Nat :=
  countPairs labels vocab fun l t => ((m.lookup l).map fun s => s.mem (AugTok.ofId t)).getD false

theorem in_iff_fn {m : FollowMap} {l t : Nat} :
    (((m.lookup l).map fun s => s.mem (AugTok.ofId t)).getD false) = true ↔
      FollowMap.In m l (AugTok.ofId t) := by
  unfold FollowMap.In
  cases m.lookup l <;> simp

theorem size_lt {labels vocab : Nat} {m m' : FollowMap} (h' : OK labels vocab m')
    (hle : ∀ l t, FollowMap.In m l t → FollowMap.In m' l t)
    {l : Nat} {t : AugTokId} (h1 : ¬ FollowMap.In m l t) (h2 : FollowMap.In m' l t) :
    size labels vocab m < size labels vocab m' := by
  have hl : l < labels := h'.has_lt h2.has
  obtain ⟨s, hs, hm⟩ := id h2
  have ht := (h'.sets _ _ hs).lt hm
  refine countPairs_lt (fun i j h => ?_) hl ht ?_ ?_
  · rw [in_iff_fn] at h ⊢; exact hle _ _ h
  · rw [Bool.eq_false_iff, ne_eq, in_iff_fn, AugTok.ofId_id]; exact h1
  · rw [in_iff_fn, AugTok.ofId_id]; exact h2

theorem propagateLoop_spec (hw : ig.WF) (hF : F.WF ig.labelsCount ig.vocab.size)
    (labels : List Nat) (fuel : Nat) {m : FollowMap} (hlab : ∀ l, l ∈ labels ↔ Has m l)
    (hm : MapOK ig m) (hs : Sound ig F K m) (hex : ∀ l, Has m l → Explored ig m l)
    (hfuel : ig.labelsCount * ig.vocab.size < fuel + size ig.labelsCount ig.vocab.size m) :
    ∃ m', (propagateLoop ig F labels fuel m : Outcome ε _) = .ok m' ∧
      MapOK ig m' ∧ Sound ig F K m' ∧ m'.map.map (·.1) = m.map.map (·.1) ∧
      (∀ l t, FollowMap.In m l t → FollowMap.In m' l t) ∧
      ∀ r ∈ ig.rules, Has m' r.symbol → ClosedUnder F m' r := by
  induction fuel generalizing m with
  | zero =>
    have := countPairs_le ig.labelsCount ig.vocab.size fun l t =>
      ((m.lookup l).map fun s => s.mem (AugTok.ofId t)).getD false
    unfold size at hfuel
    omega
  | succ fuel ih =>
    obtain ⟨m1, c, e, h1, h2, h3, h4, h5, h6⟩ := propagateLabels_spec (ε := ε) hw hF labels false
      (fun l hl => (hlab l).mp hl) hm hs hex
    cases c with
    | false =>
      obtain ⟨-, rfl, g3⟩ := h6 rfl
      exact ⟨m1, by simp [propagateLoop, e], h1, h2, rfl, fun _ _ h => h,
        fun r hr hh => g3 r hr ((hlab _).mpr hh)⟩
    | true =>
      have hhas : ∀ l, Has m1 l ↔ Has m l := fun l => by rw [h1.has_iff, hm.has_iff, h3]
      rcases h5 rfl with h | ⟨l, t, g1, g2⟩
      · cases h
      have := size_lt h1 h4 g1 g2
      obtain ⟨m', e', k1, k2, k3, k4, k5⟩ := ih (fun l => by rw [hlab, hhas]) h1 h2
        (fun l hl q hq hqs l' rest' hn' => (hhas _).mpr (hex l ((hhas _).mp hl) q hq hqs l' rest' hn'))
        (by omega)
      exact ⟨m', by simp [propagateLoop, e, e'], k1, k2, k3.trans h3,
        fun l t h => k4 _ _ (h4 _ _ h), k5⟩

/-- The map returned by `closure_follow_sets`: exactly the labels and lookaheads of the closure. -/
structure Result (ig : IndexedGrammar T L) (F : FirstTable) (K : List Position) (m : FollowMap) :
    Prop where
  ok : MapOK ig m
  has : ∀ l, Has m l ↔ ClosureLabel ig K l
  mem : ∀ l t, FollowMap.In m l t ↔ ClosureTok ig F K l t

theorem followSets_spec (hw : ig.WF) (hF : F.WF ig.labelsCount ig.vocab.size) (k : Kernel)
    (hk : ∀ p ∈ k.positions, p.OK ig) :
    ∃ m, (followSets k ig F : Outcome ε _) = .ok m ∧ Result ig F k.positions m := by
  obtain ⟨m1, st, e1, a1, a2, a3, a4, a5, a6⟩ := kernelLoop_spec (ε := ε) (K := k.positions) hw hF
    k.positions (fun p hp => ⟨hp, hk p hp⟩) new_OK
    ⟨fun l h => absurd h not_has_new, fun l t h => absurd h.has not_has_new⟩
    (stack := []) (fun l => ⟨fun h => absurd h not_has_new, fun h => by cases h⟩) rfl
  obtain ⟨m2, e2, b1, b2, b3, b4⟩ := exploreLoop_spec (ε := ε) (stack := st) hw (ig.labelsCount + 1) a1 a2
    (fun l hl => (a3 l).mpr hl) (fun l hl => .inl ((a3 l).mp hl)) (by omega)
  obtain ⟨m3, e3, c1, c2, c3, c4, c5⟩ := propagateLoop_spec (ε := ε) hw hF
    (m2.iter.map (·.1)) (ig.labelsCount * ig.vocab.size + 1) (fun l => b1.has_iff.symm) b1 b2 b4
    (by omega)
  have hhas : ∀ l, Has m3 l ↔ Has m2 l := fun l => by rw [c1.has_iff, b1.has_iff, c3]
  have hlab : ∀ l, ClosureLabel ig k.positions l → Has m3 l := by
    intro l h
    induction h with
    | kernel hp ht => exact (hhas _).mpr (b3.has _ (a6 _ hp _ _ ht).1)
    | step _ hr hn ih => exact (hhas _).mpr (b4 _ ((hhas _).mp ih) _ hr rfl _ _ hn)
  refine ⟨m3, by simp [followSets, e1, e2, e3], c1, fun l => ⟨c2.label l, hlab l⟩,
    fun l t => ⟨c2.tok l t, fun h => ?_⟩⟩
  induction h with
  | kernel hp ht hf => exact c4 _ _ (b3.mem _ _ ((a6 _ hp _ _ ht).2 _ hf))
  | first hl hr hn hne hf => exact c5 _ hr (hlab _ hl) _ _ hn _ (.inl ⟨hne, hf⟩)
  | pass _ hr hn hf ih => exact c5 _ hr ih.has _ _ hn _ (.inr ⟨hf, ih⟩)

theorem Result.noEps {m : FollowMap} (h : Result ig F K m) (hK : ∀ p ∈ K, p.OK ig) {l : Nat}
    {s : VocabSet} (hs : m.lookup l = some s) : s.mem .epsilon = false := by
  have key : ∀ l t, ClosureTok ig F K l t → t ≠ .epsilon := by
    intro l t ht
    induction ht with
    | kernel hp ht hf =>
      rcases hf with ⟨h1, -⟩ | ⟨-, h1⟩
      · exact h1
      · rintro rfl
        rw [(hK _ hp).noEps] at h1; cases h1
    | first _ _ _ hne _ => exact hne
    | pass _ _ _ _ ih => exact ih
  cases he : s.mem .epsilon with
  | false => rfl
  | true => exact absurd rfl (key l _ ((h.mem l _).mp ⟨s, hs, he⟩))

end Closure
end Verif
