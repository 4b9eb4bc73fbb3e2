import Verif.Proof.Automaton

/-!
# Conflicts reported by the table construction are conflicts of the specification
-/

set_option linter.unusedSectionVars false
set_option autoImplicit false

namespace Verif

section
variable {T L : Type} [DecidableEq T] [DecidableEq L] {ig : IndexedGrammar T L} {F : FirstTable}
open EntryBuilder Partition Spec

/-- Apart from the root rule, closures contain no dotted rule twice. -/
theorem items_once (hw : ig.WF) {k : Kernel} {items : List Position} (hok : ∀ p ∈ k.positions, p.OK ig)
    (h0 : k = rootKernel ig ∨ ∀ p ∈ k.positions, 0 < p.position)
    (hi : Items ig F k.positions items) {x : Nat × Nat} (hx : x.1 ≠ 0 ∨ RootFree ig)
    (hk : keyCount k.positions x ≤ 1) : keyCount items x ≤ 1 := by
  obtain ⟨ps, rfl, hnd, hp0⟩ := hi.added
  have h1 := keyCount_of_nodup hnd x
  have hsplit : keyCount (k.positions ++ ps) x = keyCount k.positions x + keyCount ps x := by
    simp [keyCount, List.countP_append]
  rw [hsplit]
  have : keyCount k.positions x = 0 ∨ keyCount ps x = 0 := by
    by_cases hx2 : x.2 = 0
    · rcases h0 with rfl | h0
      · by_cases hx1 : x.1 = 0
        · right
          have hr : RootFree ig := hx.resolve_left fun h => h hx1
          unfold keyCount
          rw [List.countP_eq_zero]
          intro p hp hkey
          simp only [Position.key, beq_iff_eq] at hkey
          obtain ⟨-, r, g1, g2⟩ := hp0 p hp
          have : p.rule = 0 := by rw [← hx1, ← hkey]
          rw [this] at g1
          exact absurd ((hw.root 0 r g1).mpr rfl) (g2.ne_root hr hok)
        · left
          unfold keyCount
          rw [List.countP_eq_zero]
          intro p hp hkey
          simp only [rootKernel, List.mem_singleton] at hp
          subst hp
          simp only [Position.key, beq_iff_eq] at hkey
          subst hkey
          exact hx1 rfl
      · left
        unfold keyCount
        rw [List.countP_eq_zero]
        intro p hp hkey
        simp only [Position.key, beq_iff_eq] at hkey
        subst hkey
        have := h0 p hp
        simp only at hx2
        omega
    · right
      unfold keyCount
      rw [List.countP_eq_zero]
      intro p hp hkey
      simp only [Position.key, beq_iff_eq] at hkey
      subst hkey
      exact hx2 (hp0 p hp).1
  omega

theorem Reach.once (hw : ig.WF) (hF : F.WF ig.labelsCount ig.vocab.size) {k : Kernel}
    (h : Reach ig F k) {x : Nat × Nat} (hx : x.1 ≠ 0 ∨ RootFree ig) :
    Verif.keyCount k.positions x ≤ 1 := by
  induction h generalizing x with
  | root => exact keyCount_of_nodup (by simp [rootKernel]) x
  | @step k items n p hr hi hp hc ih =>
    refine (keyCount_next items (some n) x).trans ?_
    split
    · omega
    · exact items_once hw (hr.ok hw hF) hr.pos (hr.items hw hF hi) hx (ih hx)

theorem Reach.keys_nodup (hw : ig.WF) (hF : F.WF ig.labelsCount ig.vocab.size) (hr : RootFree ig)
    {k : Kernel} (h : Reach ig F k) : (k.positions.map Position.key).Nodup := by
  rw [List.nodup_iff_count_le_one]
  intro x
  have := h.once hw hF (x := x) (.inr hr)
  unfold Verif.keyCount at this
  unfold List.count
  rw [List.countP_map]
  refine (le_of_eq ?_).trans this
  apply List.countP_congr
  intro p _
  simp

theorem Reach.sorted {k : Kernel} (h : Reach ig F k) :
    k.positions.Pairwise fun a b => Position.keyLe a b = true := by
  cases h with
  | root => simp [rootKernel]
  | step _ _ _ _ => exact Kernel.sortPositions_sorted _

theorem keyCount_pair {l d rest : List Position} {p q : Position} (hl : l = d ++ p :: rest) (hq : q ∈ d)
    (hk : p.key = q.key) : 2 ≤ keyCount l p.key := by
  subst hl
  unfold keyCount
  rw [List.countP_append, List.countP_cons]
  have : 0 < d.countP fun r => r.key == p.key := by
    rw [List.countP_pos_iff]
    exact ⟨q, hq, by simp [hk]⟩
  simp only [beq_self_eq_true, if_true]
  omega

/-- A reported conflict, in terms of the specification. -/
def SpecConflict (ig : IndexedGrammar T L) (first : List INode → AugTokId → Prop)
    (e : LRTableError T L) : Prop :=
  ∃ (γ : List INode) (t : AugTokId) (tok : AugTok T),
    (ig.vocab.idToToken t : Outcome (LRTableError T L) _) = .ok tok ∧
    ((∃ i j, i ≠ j ∧ e = .reduceConflict i j tok ∧ Demands ig.cfg first γ t (endAct i) ∧
        Demands ig.cfg first γ t (endAct j)) ∨
      (∃ i, e = .shiftReduceConflict i tok ∧ Demands ig.cfg first γ t .shift ∧
        Demands ig.cfg first γ t (endAct i)))

theorem endWants_demands (he : EpsLast ig) {γ : List INode} {items : List Position}
    (hok : ∀ p ∈ items, p.OK ig) (hi : ClosureOf ig F γ items) {p : Position} (hp : p ∈ items)
    (hc : p.cat ig = none) {t : AugTokId} {a : Action} (hw : EndWants p t a) :
    Demands ig.cfg F.NodesFirst γ t (endAct p.rule) := by
  rcases hw with ⟨h0, ht, rfl⟩ | ⟨h0, ht, rfl⟩
  · rw [h0]
    exact ((demands_end he hok hi).2).mpr ⟨p, hp, hc, .inl ⟨h0, ht, rfl⟩⟩
  · unfold endAct
    rw [if_neg h0]
    exact ((demands_end he hok hi).1 _).mpr ⟨p, hp, hc, .inr ⟨h0, ht, rfl⟩⟩

theorem Genuine.spec (hw : ig.WF) (hF : F.WF ig.labelsCount ig.vocab.size) (he : EpsLast ig)
    {e : LRTableError T L} (h : Genuine ig F e) : SpecConflict ig F.NodesFirst e := by
  obtain ⟨k, items, groups, hr, hit, hg, hcl⟩ := h
  obtain ⟨γ, hγ⟩ := hr.kpath
  have hi := hr.items hw hF hit
  have hc := hγ.closureOf hw hF he hit
  have hmem : ∀ c ps, (c, ps) ∈ groups → ∀ p ∈ ps, p ∈ items ∧ p.cat ig = c := by
    intro c ps hps p hp
    rw [hg.eq c ps hps, List.mem_filter] at hp
    exact ⟨hp.1, by simpa using hp.2⟩
  rcases hcl with ⟨ps, hps, d, p, rest, hd, q, hq, t, a, a', ha, ha', hrep⟩ |
      ⟨ps, qs, t, id, hps, hqs, p, hp, a, ha, hrep⟩
  · obtain ⟨hpi, hpc⟩ := hmem _ _ hps p (by rw [hd]; simp)
    obtain ⟨hqi, hqc⟩ := hmem _ _ hps q (by rw [hd]; simp [hq])
    obtain ⟨tok, htok, hrep⟩ := hrep
    have hdp := endWants_demands he hi.ok hc hpi hpc ha
    have hdq := endWants_demands he hi.ok hc hqi hqc ha'
    refine ⟨γ, t, tok, htok, .inl ⟨p.rule, q.rule, ?_, ?_, hdp, hdq⟩⟩
    · intro hpq
      rcases ha with ⟨h0, -, rfl⟩ | ⟨h0, -, rfl⟩
      · exact hrep
      · have hkey : p.key = q.key := by
          obtain ⟨r, hr'⟩ := (hi.ok p hpi).cfg
          have e1 := (cat_none_iff he hc hpi hr').mp hpc
          rw [hpq] at hr'
          have e2 := (cat_none_iff he hc hqi hr').mp hqc
          simp only [Position.key, hpq, e1, e2]
        have h2 := keyCount_pair hd hq hkey
        have hsub : keyCount ps p.key ≤ keyCount items p.key := by
          rw [hg.eq _ _ hps]
          exact List.Sublist.countP_le List.filter_sublist
        have := items_once (x := p.key) hw (hr.ok hw hF) hr.pos hi (.inl h0)
          (hr.once hw hF (.inl h0))
        omega
    · rcases ha with ⟨h0, -, rfl⟩ | ⟨h0, -, rfl⟩
      · exact hrep.elim
      · rcases ha' with ⟨h0', -, rfl⟩ | ⟨h0', -, rfl⟩
        · rw [h0']; exact hrep
        · exact hrep
  · obtain ⟨hpi, hpc⟩ := hmem _ _ hps p hp
    have hdp := endWants_demands he hi.ok hc hpi hpc ha
    obtain ⟨q, hq⟩ := List.exists_mem_of_ne_nil qs (hg.nonempty _ _ hqs)
    obtain ⟨hqi, hqc⟩ := hmem _ _ hqs q hq
    have hds := (demands_shift he hi.ok hc (t := t)).mpr ⟨q, hqi, hqc⟩
    rcases hrep with ⟨tok, htok, hrep⟩ | ⟨tok, htok, hrep⟩
    · refine ⟨γ, t, tok, htok, .inr ⟨p.rule, ?_, hds, hdp⟩⟩
      rcases ha with ⟨h0, -, rfl⟩ | ⟨h0, -, rfl⟩
      · exact hrep.elim
      · exact hrep
    · refine ⟨γ, t, tok, htok, .inr ⟨p.rule, ?_, hds, hdp⟩⟩
      rcases ha with ⟨h0, -, rfl⟩ | ⟨h0, -, rfl⟩
      · rw [h0]; exact hrep
      · exact hrep

theorem SpecConflict.not_noConflict {first : List INode → AugTokId → Prop} {e : LRTableError T L}
    (h : SpecConflict ig first e) : ¬ NoConflict ig.cfg first := by
  obtain ⟨γ, t, tok, -, ⟨i, j, hne, -, h1, h2⟩ | ⟨i, -, h1, h2⟩⟩ := h
  · intro hn
    have := hn _ _ _ _ h1 h2
    unfold endAct at this
    split at this <;> split at this <;> first | omega | (cases this; exact hne rfl) | cases this
  · intro hn
    have := hn _ _ _ _ h1 h2
    unfold endAct at this
    split at this <;> cases this

/-! ### Equality of states -/

/-- Two kernels of reachable states with the same items are equal. -/
theorem Reach.ext (hw : ig.WF) (hF : F.WF ig.labelsCount ig.vocab.size) (hr : RootFree ig)
    {k k' : Kernel} (h : Reach ig F k) (h' : Reach ig F k')
    (hmem : ∀ p, p ∈ k.positions ↔ p ∈ k'.positions) : k = k' := by
  have h1 := h.keys_nodup hw hF hr
  have h2 := h'.keys_nodup hw hF hr
  have hp : k.positions.Perm k'.positions :=
    (List.perm_ext_iff_of_nodup (List.Nodup.of_map _ h1) (List.Nodup.of_map _ h2)).mpr hmem
  have := Kernel.sorted_unique hp h.sorted h'.sorted h1
  cases k
  cases k'
  simp only at this
  rw [this]

/-- The root item occurs only at the start. -/
theorem Spec.Valid.root_nil (hw : ig.WF) (hr : RootFree ig) {γ : List INode} {i d : Nat}
    (h : Valid ig.cfg γ i d) (hi : i = 0) (hd : d = 0) : γ = [] := by
  cases h with
  | root => rfl
  | @close _ _ _ j r r' β h1 h2 h3 h4 =>
    subst hi
    obtain ⟨q, hq, rfl, hm, -⟩ := node_mem_of_drop h2 h3
    obtain ⟨r'', hr'', rfl⟩ := cfg_get.mp h4
    have := (hw.root 0 r'' hr'').mpr rfl
    unfold IRule.symbol at this
    rw [this] at hm
    exact absurd hm (hr q hq)
  | move _ _ _ => cases hd

/-- What has been read determines the state only through the items that are valid. -/
theorem KPath.eq_of_same_items (hw : ig.WF) (hF : F.WF ig.labelsCount ig.vocab.size) (he : EpsLast ig)
    (hr : RootFree ig) {γ γ' : List INode} {k k' : Kernel} (h : KPath ig F γ k) (h' : KPath ig F γ' k')
    (hv : ∀ i d, Valid ig.cfg γ i d ↔ Valid ig.cfg γ' i d)
    (hl : ∀ i d t, ValidLook ig.cfg F.NodesFirst γ i d t ↔ ValidLook ig.cfg F.NodesFirst γ' i d t) :
    k = k' := by
  have hnil : ∀ {γ : List INode}, Valid ig.cfg γ 0 0 → γ = [] := fun h => Valid.root_nil hw hr h rfl rfl
  have key : ∀ {γ γ' : List INode} {k k' : Kernel}, KPath ig F γ k → KPath ig F γ' k' →
      (∀ i d, Valid ig.cfg γ i d ↔ Valid ig.cfg γ' i d) →
      (∀ i d t, ValidLook ig.cfg F.NodesFirst γ i d t ↔ ValidLook ig.cfg F.NodesFirst γ' i d t) →
      ∀ p ∈ k.positions, p ∈ k'.positions := by
    intro γ γ' k k' h h' hv hl p hp
    have hK := h.kernelOf hw hF he
    have hK' := h'.kernelOf hw hF he
    have hok := h.reach.ok hw hF p hp
    have hfollow : ∀ {γ : List INode} {k : Kernel}, KPath ig F γ k → ∀ q ∈ k.positions,
        0 < q.position → ∀ t, q.followSet.mem t = true ↔
          ValidLook ig.cfg F.NodesFirst γ q.rule q.position t := by
      intro γ k h q hq hpos t
      have hK := h.kernelOf hw hF he
      refine ⟨hK.look q hq t, fun hv => ?_⟩
      obtain ⟨d, hd⟩ : ∃ d, q.position = d + 1 := ⟨q.position - 1, by omega⟩
      rw [hd] at hv
      obtain ⟨q', hq', e1, e2, e3⟩ := hK.allLook _ _ _ hv
      have : q' = q := by
        have hnd := h.reach.keys_nodup hw hF hr
        exact List.inj_on_of_nodup_map hnd hq' hq (by simp [Position.key, e1, e2, hd])
      rw [← this]; exact e3
    by_cases h0 : p.position = 0
    · rcases h.reach.pos with rfl | hpos
      · simp only [rootKernel, List.mem_singleton] at hp
        subst hp
        exact hK'.root (hnil ((hv 0 0).mp (hK.valid (rootPosition ig) (by simp [rootKernel]))))
      · have := hpos p hp
        omega
    · obtain ⟨d, hd⟩ : ∃ d, p.position = d + 1 := ⟨p.position - 1, by omega⟩
      have hvp := (hv _ _).mp (hK.valid p hp)
      rw [hd] at hvp
      obtain ⟨q, hq, e1, e2⟩ := hK'.all _ _ hvp
      have : q = p := by
        have hf : q.followSet = p.followSet := by
          refine VocabSet.ext (h'.reach.ok hw hF q hq).follow hok.follow fun t => ?_
          rw [Bool.eq_iff_iff, hfollow h' q hq (by omega), hfollow h p hp (by omega), e1, e2, hd, hl]
        cases q
        cases p
        simp only at e1 e2 hd hf
        rw [e1, e2, hd, hf]
      rw [← this]; exact hq
  exact h.reach.ext hw hF hr h'.reach fun p =>
    ⟨key h h' hv hl p, key h' h (fun i d => (hv i d).symm) (fun i d t => (hl i d t).symm) p⟩

end
end Verif
