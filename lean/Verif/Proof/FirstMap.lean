import Verif.Model.FirstMap
import Verif.Proof.Vocabulary
import Verif.Proof.IndexedGrammar2
import Verif.Proof.First

/-!
# The FIRST table: invariants of `first_map.rs`
-/

set_option linter.unusedSectionVars false
set_option autoImplicit false

namespace Verif

namespace FirstTable

/-- `t` is recorded for label `l`. -/
def In (F : FirstTable) (l : Nat) (t : AugTokId) : Prop := ∃ s, F[l]? = some s ∧ s.mem t = true

/-- Shape of a FIRST table. -/
structure WF (labels vocab : Nat) (F : FirstTable) : Prop where
  length : F.length = labels
  sets : ∀ s ∈ F, s.WF vocab

variable {ε : Type} {labels vocab : Nat} {F F' : FirstTable} {l : Nat} {t : AugTokId}

theorem WF.get (h : WF labels vocab F) (hl : l < labels) :
    ∃ s, (Outcome.index F l : Outcome ε VocabSet) = .ok s ∧ F[l]? = some s ∧ s.WF vocab ∧
      ∀ t, In F l t ↔ s.mem t = true := by
  have hl' : l < F.length := h.length ▸ hl
  refine ⟨F[l], Outcome.index_of_lt hl', List.getElem?_eq_getElem hl', h.sets _ (List.getElem_mem hl'),
    fun t => ?_⟩
  simp [In, List.getElem?_eq_getElem hl']

theorem WF.setEntry (h : WF labels vocab F) {s : VocabSet} (hs : s.WF vocab) :
    WF labels vocab (F.set l s) := by
  refine ⟨by rw [List.length_set]; exact h.length, fun x hx => ?_⟩
  rcases List.mem_or_eq_of_mem_set hx with hx | rfl
  · exact h.sets _ hx
  · exact hs

theorem WF.in_set (h : WF labels vocab F) (hl : l < labels) {s : VocabSet} {l' : Nat} :
    In (F.set l s) l' t ↔ if l' = l then s.mem t = true else In F l' t := by
  have hl' : l < F.length := h.length ▸ hl
  unfold In
  by_cases e : l' = l
  · subst e; simp [List.getElem?_set_self hl']
  · rw [List.getElem?_set_ne (Ne.symm e)]; simp [e]

theorem WF.in_lt (h : WF labels vocab F) (hi : In F l t) : l < labels ∧ Label.id t < vocab := by
  obtain ⟨s, hs, hm⟩ := hi
  exact ⟨h.length ▸ (List.getElem?_eq_some_iff.mp hs).1, (h.sets s (List.mem_of_getElem? hs)).lt hm⟩

theorem WF.ext (h : WF labels vocab F) (h' : WF labels vocab F')
    (hh : ∀ l t, In F l t ↔ In F' l t) : F = F' := by
  apply List.ext_getElem (h.length.trans h'.length.symm)
  intro i h1 h2
  refine VocabSet.ext (h.sets _ (List.getElem_mem h1)) (h'.sets _ (List.getElem_mem h2)) fun t => ?_
  have := hh i t
  simp only [In, List.getElem?_eq_getElem h1, List.getElem?_eq_getElem h2, Option.some.injEq,
    exists_eq_left'] at this
  exact Bool.eq_iff_iff.mpr this

/-- `t` may begin (or, for epsilon, `nodes` may vanish), going by the table. -/
def NodesFirst (F : FirstTable) : List INode → AugTokId → Prop
  | [], t => t = .epsilon
  | .terminal .epsilon :: α, t => NodesFirst F α t
  | .terminal (.token k) :: _, t => t = .token k
  | .terminal .eos :: _, t => t = .eos
  | .production l :: α, t => (t ≠ .epsilon ∧ In F l t) ∨ (In F l .epsilon ∧ NodesFirst F α t)

/-- Derivation that `t` begins `nodes` all of whose steps are recorded in the table. -/
inductive Just (P : List (Rule Nat Nat)) (F : FirstTable) : List INode → AugTokId → Prop
  | nil : Just P F [] .epsilon
  | eps {α t} : Just P F α t → Just P F (.terminal .epsilon :: α) t
  | term {t α} : t ≠ .epsilon → Just P F (.terminal t :: α) t
  | skip {r α t} : r ∈ P → In F r.symbol .epsilon → Just P F r.rule .epsilon → Just P F α t →
      Just P F (.production r.symbol :: α) t
  | take {r α t} : r ∈ P → In F r.symbol t → Just P F r.rule t → t ≠ .epsilon →
      Just P F (.production r.symbol :: α) t

variable {P : List (Rule Nat Nat)}

/-- Every entry of the table is justified. -/
def Justified (P : List (Rule Nat Nat)) (F : FirstTable) : Prop :=
  ∀ l t, In F l t → ∃ r ∈ P, r.symbol = l ∧ Just P F r.rule t

/-- `F'` contains `F`. -/
def Le (F F' : FirstTable) : Prop := ∀ l t, In F l t → In F' l t

theorem Le.refl (F : FirstTable) : Le F F := fun _ _ h => h
theorem Le.trans {F F' F'' : FirstTable} (h : Le F F') (h' : Le F' F'') : Le F F'' :=
  fun l t hi => h' l t (h l t hi)

theorem Just.mono (h : Le F F') {α : List INode} (hj : Just P F α t) : Just P F' α t := by
  induction hj with
  | nil => exact .nil
  | eps _ ih => exact .eps ih
  | term h => exact .term h
  | skip hr hi _ _ ih1 ih2 => exact .skip hr (h _ _ hi) ih1 ih2
  | take hr hi _ hne ih => exact .take hr (h _ _ hi) ih hne

theorem Just.first {α : List INode} (hj : Just P F α t) : First P α t := by
  induction hj with
  | nil => exact .nil
  | eps _ ih => exact .eps ih
  | term h => exact .term h
  | skip hr hi _ _ ih1 ih2 => exact .skip hr ih1 ih2
  | take hr hi _ hne ih => exact .take hr ih hne

theorem NodesFirst.mono (h : Le F F') {α : List INode} (hj : NodesFirst F α t) :
    NodesFirst F' α t := by
  induction α with
  | nil => exact hj
  | cons n α ih =>
    match n, hj with
    | .terminal .epsilon, hj => exact ih hj
    | .terminal (.token k), hj => exact hj
    | .terminal .eos, hj => exact hj
    | .production l, hj =>
      rcases hj with ⟨h1, h2⟩ | ⟨h1, h2⟩
      · exact .inl ⟨h1, h _ _ h2⟩
      · exact .inr ⟨h _ _ h1, ih h2⟩

theorem NodesFirst.just (hF : Justified P F) {α : List INode} (hj : NodesFirst F α t) :
    Just P F α t := by
  induction α with
  | nil => cases hj; exact .nil
  | cons n α ih =>
    match n, hj with
    | .terminal .epsilon, hj => exact .eps (ih hj)
    | .terminal (.token k), hj => cases hj; exact .term (by simp)
    | .terminal .eos, hj => cases hj; exact .term (by simp)
    | .production l, hj =>
      rcases hj with ⟨h1, h2⟩ | ⟨h1, h2⟩
      · obtain ⟨r, hr, rfl, hj⟩ := hF _ _ h2
        exact .take hr h2 hj h1
      · obtain ⟨r, hr, rfl, hj⟩ := hF _ _ h1
        exact .skip hr h1 hj (ih h2)

theorem Just.nodesFirst {α : List INode} (hj : Just P F α t) : NodesFirst F α t := by
  induction hj with
  | nil => rfl
  | eps _ ih => exact ih
  | @term t α hne =>
    cases t with
    | token k => rfl
    | epsilon => exact absurd rfl hne
    | eos => rfl
  | skip _ hi _ _ _ ih => exact .inr ⟨hi, ih⟩
  | take _ hi _ hne _ => exact .inl ⟨hne, hi⟩

theorem NodesFirst.append {α β : List INode} :
    NodesFirst F (α ++ β) t ↔
      (t ≠ .epsilon ∧ NodesFirst F α t) ∨ (NodesFirst F α .epsilon ∧ NodesFirst F β t) := by
  induction α with
  | nil =>
    simp only [List.nil_append, NodesFirst, true_and]
    constructor
    · exact .inr
    · rintro (⟨h1, h2⟩ | h)
      · exact absurd h2 h1
      · exact h
  | cons n α ih =>
    match n with
    | .terminal .epsilon => exact ih
    | .terminal (.token k) =>
      simp only [List.cons_append, NodesFirst]
      constructor
      · rintro rfl; exact .inl ⟨by simp, rfl⟩
      · rintro (⟨-, h⟩ | ⟨h, -⟩)
        · exact h
        · cases h
    | .terminal .eos =>
      simp only [List.cons_append, NodesFirst]
      constructor
      · rintro rfl; exact .inl ⟨by simp, rfl⟩
      · rintro (⟨-, h⟩ | ⟨h, -⟩)
        · exact h
        · cases h
    | .production l =>
      simp only [List.cons_append, NodesFirst, ih]
      constructor
      · rintro (⟨h1, h2⟩ | ⟨h1, ⟨h2, h3⟩ | ⟨h2, h3⟩⟩)
        · exact .inl ⟨h1, .inl ⟨h1, h2⟩⟩
        · exact .inl ⟨h2, .inr ⟨h1, h3⟩⟩
        · exact .inr ⟨.inr ⟨h1, h2⟩, h3⟩
      · rintro (⟨h1, ⟨-, h2⟩ | ⟨h2, h3⟩⟩ | ⟨⟨h1, -⟩ | ⟨h1, h2⟩, h3⟩)
        · exact .inl ⟨h1, h2⟩
        · exact .inr ⟨h2, .inl ⟨h1, h3⟩⟩
        · exact absurd rfl h1
        · exact .inr ⟨h1, .inr ⟨h2, h3⟩⟩

/-- Adding justified entries for the symbol of a rule keeps the table justified. -/
theorem Justified.extend (hF : Justified P F) (hle : Le F F') {r : Rule Nat Nat} (hr : r ∈ P)
    (hnew : ∀ l t, In F' l t → In F l t ∨ (l = r.symbol ∧ NodesFirst F r.rule t)) :
    Justified P F' := by
  intro l t hi
  rcases hnew l t hi with h | ⟨rfl, h⟩
  · obtain ⟨r', hr', e, hj⟩ := hF l t h
    exact ⟨r', hr', e, hj.mono hle⟩
  · exact ⟨r, hr, rfl, (h.just hF).mono hle⟩

/-- Effect of `propagateNodes`. -/
theorem propagateNodes_spec (hl : l < labels) (hv : 2 ≤ vocab) (nodes pre : List INode)
    (hrange : ∀ n ∈ nodes, n.InRange labels vocab) (r : Rule Nat Nat) (hr : r ∈ P)
    (hrule : pre ++ nodes = r.rule) (hsym : r.symbol = l)
    {F : FirstTable} (hF : WF labels vocab F) (hJ : Justified P F)
    (hpre : NodesFirst F pre .epsilon) (changed : Bool) :
    ∃ F' changed' passed,
      (propagateNodes l nodes F changed : Outcome ε _) = .ok (F', changed', passed) ∧
      WF labels vocab F' ∧ Justified P F' ∧ Le F F' ∧
      (∀ l' t, In F' l' t → In F l' t ∨ (t ≠ .epsilon ∧ changed' = true)) ∧
      (changed' = true → changed = true ∨ ∃ t, ¬ In F l t ∧ In F' l t) ∧
      (changed = true → changed' = true) ∧
      (∀ t, t ≠ .epsilon → NodesFirst F nodes t → In F' l t) ∧
      (NodesFirst F nodes .epsilon → passed = true) ∧
      (passed = true → NodesFirst F' r.rule .epsilon) := by
  induction nodes generalizing F changed pre with
  | nil =>
    refine ⟨F, changed, true, rfl, hF, hJ, Le.refl F, fun _ _ h => .inl h, .inl, id, ?_, fun _ => rfl,
      fun _ => ?_⟩
    · intro t hne h; exact absurd h hne
    · rw [← hrule, List.append_nil]; exact hpre
  | cons n nodes ih =>
    have hn := hrange n List.mem_cons_self
    have hrange' : ∀ n ∈ nodes, n.InRange labels vocab := fun m hm => hrange m (List.mem_cons_of_mem _ hm)
    have hrule' : (pre ++ [n]) ++ nodes = r.rule := by simp [← hrule]
    have hterm : ∀ tk : AugTokId, tk ≠ .epsilon → n = .terminal tk →
        ∃ F' changed' passed,
        (do let firstSet ← Outcome.index F l
            if !(← firstSet.has tk) then
              let firstSet ← firstSet.insert tk
              pure (F.set l firstSet, true, false)
            else
              pure (F, changed, false) : Outcome ε _) = .ok (F', changed', passed) ∧
        WF labels vocab F' ∧ Justified P F' ∧ Le F F' ∧
        (∀ l' t, In F' l' t → In F l' t ∨ (t ≠ .epsilon ∧ changed' = true)) ∧
        (changed' = true → changed = true ∨ ∃ t, ¬ In F l t ∧ In F' l t) ∧
        (changed = true → changed' = true) ∧ In F' l tk ∧ passed = false := by
      intro tk htk e
      subst e
      obtain ⟨s, es, -, hs, hin⟩ := hF.get (ε := ε) hl
      have hlt : Label.id tk < vocab := hn
      rw [es, Outcome.ok_bind, hs.has_eq hlt, Outcome.ok_bind]
      cases hm : s.mem tk with
      | true =>
        exact ⟨F, changed, false, rfl, hF, hJ, Le.refl F, fun _ _ h => .inl h, .inl, id,
          (hin tk).mpr hm, rfl⟩
      | false =>
        obtain ⟨s', es', hs', hmem⟩ := hs.insert_eq (ε := ε) hlt
        have hle : Le F (F.set l s') := by
          intro l' t hi
          rw [hF.in_set hl]
          split
          · next e => subst e; rw [hmem, (hin t).mp hi]; rfl
          · exact hi
        have hnew : ∀ l' t, In (F.set l s') l' t → In F l' t ∨ (l' = l ∧ t = tk) := by
          intro l' t hi
          rw [hF.in_set hl] at hi
          split at hi
          · next e =>
            subst e
            rw [hmem, Bool.or_eq_true] at hi
            rcases hi with hi | hi
            · exact .inl ((hin t).mpr hi)
            · exact .inr ⟨rfl, by simpa using hi⟩
          · exact .inl hi
        have htkin : In (F.set l s') l tk := by rw [hF.in_set hl]; simp [hmem]
        refine ⟨F.set l s', true, false, by simp [es'], hF.setEntry hs', ?_, hle, ?_, ?_, fun _ => rfl,
          htkin, rfl⟩
        · apply hJ.extend hle hr
          intro l' t hi
          rcases hnew l' t hi with h | ⟨e1, e2⟩
          · exact .inl h
          · subst e2
            refine .inr ⟨e1.trans hsym.symm, ?_⟩
            rw [← hrule, NodesFirst.append]
            refine .inr ⟨hpre, ?_⟩
            cases t with
            | token k => rfl
            | epsilon => exact absurd rfl htk
            | eos => rfl
        · intro l' t hi
          rcases hnew l' t hi with h | ⟨-, rfl⟩
          · exact .inl h
          · exact .inr ⟨htk, rfl⟩
        · intro _
          exact .inr ⟨tk, by rw [hin]; simp [hm], htkin⟩
    match n, hn, hrule', hterm with
    | .terminal .epsilon, _, hrule', _ =>
      obtain ⟨F', c', p', e, h1, h2, h3, h4, h5, h6, h7, h8, h9⟩ :=
        ih (pre ++ [.terminal .epsilon]) hrange' hrule' hF hJ
          (by rw [NodesFirst.append]; exact .inr ⟨hpre, rfl⟩) changed
      exact ⟨F', c', p', e, h1, h2, h3, h4, h5, h6, fun t hne h => h7 t hne h, fun h => h8 h, h9⟩
    | .terminal (.token k), _, _, hterm =>
      obtain ⟨F', c', p', e, h1, h2, h3, h4, h5, h6, h7, h8⟩ := hterm (.token k) (by simp) rfl
      refine ⟨F', c', p', e, h1, h2, h3, h4, h5, h6, ?_, ?_, ?_⟩
      · rintro t - h; cases h; exact h7
      · intro h; cases h
      · intro h; rw [h8] at h; cases h
    | .terminal .eos, _, _, hterm =>
      obtain ⟨F', c', p', e, h1, h2, h3, h4, h5, h6, h7, h8⟩ := hterm .eos (by simp) rfl
      refine ⟨F', c', p', e, h1, h2, h3, h4, h5, h6, ?_, ?_, ?_⟩
      · rintro t - h; cases h; exact h7
      · intro h; cases h
      · intro h; rw [h8] at h; cases h
    | .production nl, hn, hrule', _ =>
      have hnl : nl < labels := hn
      obtain ⟨ns, ens, -, hns, hnin⟩ := hF.get (ε := ε) hnl
      have hv0 : Label.id (AugTok.epsilon : AugTokId) < vocab := by
        show 0 < vocab; omega
      obtain ⟨cs, ecs, hcs, hcmem⟩ := hns.clear_eq (ε := ε) hv0
      obtain ⟨s, es, -, hs, hin⟩ := hF.get (ε := ε) hl
      have hms := hs.merge hcs
      have hle : Le F (F.set l (s.merge cs).1) := by
        intro l' t hi
        rw [hF.in_set hl]
        split
        · next e => subst e; rw [VocabSet.mem_merge hs hcs, (hin t).mp hi]; rfl
        · exact hi
      have hnew : ∀ l' t, In (F.set l (s.merge cs).1) l' t →
          In F l' t ∨ (l' = l ∧ t ≠ .epsilon ∧ In F nl t ∧ ¬ In F l t) := by
        intro l' t hi
        by_cases hold : In F l' t
        · exact .inl hold
        rw [hF.in_set hl] at hi
        split at hi
        · next e =>
          subst e
          rw [VocabSet.mem_merge hs hcs, Bool.or_eq_true] at hi
          rcases hi with hi | hi
          · exact .inl ((hin t).mpr hi)
          · rw [hcmem, Bool.and_eq_true] at hi
            exact .inr ⟨rfl, by simpa using hi.2, (hnin t).mpr hi.1, hold⟩
        · exact .inl hi
      have htake : ∀ t, t ≠ .epsilon → In F nl t → In (F.set l (s.merge cs).1) l t := by
        intro t hne h
        rw [hF.in_set hl, if_pos rfl, VocabSet.mem_merge hs hcs, hcmem, (hnin t).mp h]
        simp [hne]
      have hF1 := hF.setEntry (l := l) hms
      have hJ1 : Justified P (F.set l (s.merge cs).1) := by
        apply hJ.extend hle hr
        intro l' t hi
        rcases hnew l' t hi with h | ⟨e1, h1, h2, -⟩
        · exact .inl h
        · refine .inr ⟨e1.trans hsym.symm, ?_⟩
          rw [← hrule, NodesFirst.append]
          exact .inr ⟨hpre, .inl ⟨h1, h2⟩⟩
      have hmod : (s.merge cs).2 = true ↔ ∃ t, ¬ In F l t ∧ In (F.set l (s.merge cs).1) l t := by
        rw [VocabSet.merge_modified hs hcs]
        constructor
        · rintro ⟨t, h1, h2⟩
          refine ⟨t, by rw [hin]; simp [h2], ?_⟩
          rw [hF.in_set hl, if_pos rfl, VocabSet.mem_merge hs hcs, h1]; simp
        · rintro ⟨t, h1, h2⟩
          rw [hF.in_set hl, if_pos rfl, VocabSet.mem_merge hs hcs, Bool.or_eq_true] at h2
          rw [hin] at h1
          rcases h2 with h2 | h2
          · exact absurd h2 h1
          · exact ⟨t, h2, by simpa using h1⟩
      have hnew' : ∀ l' t, In (F.set l (s.merge cs).1) l' t →
          In F l' t ∨ (t ≠ .epsilon ∧ (s.merge cs).2 = true) := by
        intro l' t hi
        rcases hnew l' t hi with h | ⟨e1, h1, h2, h3⟩
        · exact .inl h
        · subst e1
          exact .inr ⟨h1, hmod.mpr ⟨t, h3, hi⟩⟩
      simp only [propagateNodes, ens, Outcome.ok_bind, hns.has_eq hv0, ecs, es]
      cases hm : ns.mem .epsilon with
      | false =>
        refine ⟨_, _, _, rfl, hF1, hJ1, hle, ?_, ?_, ?_, ?_, ?_, ?_⟩
        · intro l' t hi
          rcases hnew' l' t hi with h | ⟨h1, h2⟩
          · exact .inl h
          · exact .inr ⟨h1, by simp [h2]⟩
        · intro h
          rw [Bool.or_eq_true] at h
          rcases h with h | h
          · exact .inr (hmod.mp h)
          · exact .inl h
        · intro h; simp [h]
        · intro t hne h
          rcases h with ⟨-, h⟩ | ⟨h, -⟩
          · exact htake t hne h
          · rw [hnin, hm] at h; cases h
        · intro h
          rcases h with ⟨h, -⟩ | ⟨h, -⟩
          · exact absurd rfl h
          · rw [hnin, hm] at h; cases h
        · intro h; cases h
      | true =>
        simp only [Bool.not_true, Bool.false_eq_true, if_false]
        have heps : In F nl .epsilon := (hnin _).mpr hm
        obtain ⟨F', c', p', e, h1, h2, h3, h4, h5, h6, h7, h8, h9⟩ :=
          ih (pre ++ [.production nl]) hrange' hrule' hF1 hJ1 (by
            apply NodesFirst.mono hle
            rw [NodesFirst.append]; exact .inr ⟨hpre, .inr ⟨heps, rfl⟩⟩) ((s.merge cs).2 || changed)
        refine ⟨F', c', p', e, h1, h2, hle.trans h3, ?_, ?_, ?_, ?_, ?_, h9⟩
        · intro l' t hi
          rcases h4 l' t hi with h | h
          · rcases hnew' l' t h with h | ⟨ha, hb⟩
            · exact .inl h
            · exact .inr ⟨ha, h6 (by simp [hb])⟩
          · exact .inr h
        · intro hc
          rcases h5 hc with h | ⟨t, ha, hb⟩
          · rw [Bool.or_eq_true] at h
            rcases h with h | h
            · obtain ⟨t, ha, hb⟩ := hmod.mp h
              exact .inr ⟨t, ha, h3 _ _ hb⟩
            · exact .inl h
          · exact .inr ⟨t, fun h => ha (hle _ _ h), hb⟩
        · intro h; exact h6 (by simp [h])
        · intro t hne h
          rcases h with ⟨-, h⟩ | ⟨-, h⟩
          · exact h3 _ _ (htake t hne h)
          · exact h7 t hne (h.mono hle)
        · intro h
          rcases h with ⟨h, -⟩ | ⟨-, h⟩
          · exact absurd rfl h
          · exact h8 (h.mono hle)

theorem addEpsilon_spec (hl : l < labels) (hv : 2 ≤ vocab) (hF : WF labels vocab F) :
    ∃ F', (addEpsilon l F : Outcome ε FirstTable) = .ok F' ∧ WF labels vocab F' ∧
      ∀ l' t, In F' l' t ↔ In F l' t ∨ (l' = l ∧ t = .epsilon) := by
  obtain ⟨s, es, -, hs, hin⟩ := hF.get (ε := ε) hl
  have hv0 : Label.id (AugTok.epsilon : AugTokId) < vocab := by show 0 < vocab; omega
  obtain ⟨s', es', hs', hmem⟩ := hs.insert_eq (ε := ε) hv0
  refine ⟨F.set l s', by simp [addEpsilon, es, es'], hF.setEntry hs', fun l' t => ?_⟩
  rw [hF.in_set hl]
  split
  · next e => subst e; rw [hmem, hin]; simp
  · next e => simp [e]

/-- Effect of one or more rules being propagated: the common part of the specifications. -/
structure Round (P : List (Rule Nat Nat)) (labels vocab : Nat) (rules : List (Rule Nat Nat))
    (F F' : FirstTable) (changed changed' : Bool) : Prop where
  wf : WF labels vocab F'
  just : Justified P F'
  le : Le F F'
  new : ∀ l t, In F' l t → In F l t ∨ t = .epsilon ∨ changed' = true
  progress : changed' = true → changed = true ∨ ∃ l t, t ≠ .epsilon ∧ ¬ In F l t ∧ In F' l t
  keep : changed = true → changed' = true
  closed : ∀ r ∈ rules, ∀ t, NodesFirst F r.rule t → In F' r.symbol t

theorem propagateRules_spec (hl : l < labels) (hv : 2 ≤ vocab) (rs : List IRule)
    (hrange : ∀ r ∈ rs, ∀ n ∈ r.nodes, n.InRange labels vocab)
    (hrs : ∀ r ∈ rs, r.rule ∈ P ∧ r.symbol = l)
    {F : FirstTable} (hF : WF labels vocab F) (hJ : Justified P F) (changed : Bool) :
    ∃ F' changed', (propagateRules l rs F changed : Outcome ε _) = .ok (F', changed') ∧
      Round P labels vocab (rs.map (·.rule)) F F' changed changed' := by
  induction rs generalizing F changed with
  | nil =>
    exact ⟨F, changed, rfl, hF, hJ, Le.refl F, fun _ _ h => .inl h, .inl, id, by simp⟩
  | cons r rs ih =>
    obtain ⟨hr, hsym⟩ := hrs r List.mem_cons_self
    obtain ⟨F1, c1, p1, e1, h1, h2, h3, h4, h5, h6, h7, h8, h9⟩ :=
      propagateNodes_spec (ε := ε) hl hv r.nodes [] (hrange r List.mem_cons_self) r.rule hr rfl hsym hF hJ
        rfl changed
    obtain ⟨F2, e2, hF2, hJ2, hle2, hnew2, hcl2⟩ : ∃ F2,
        ((if p1 = true then addEpsilon l F1 else pure F1) : Outcome ε FirstTable) = .ok F2 ∧
        WF labels vocab F2 ∧ Justified P F2 ∧ Le F1 F2 ∧
        (∀ l' t, In F2 l' t → In F1 l' t ∨ t = .epsilon) ∧ (p1 = true → In F2 l .epsilon) := by
      cases p1 with
      | false => exact ⟨F1, rfl, h1, h2, Le.refl _, fun _ _ h => .inl h, by simp⟩
      | true =>
        obtain ⟨F2, e2, hF2, hin⟩ := addEpsilon_spec (ε := ε) hl hv h1
        have hle : Le F1 F2 := fun l' t h => (hin l' t).mpr (.inl h)
        refine ⟨F2, by simpa using e2, hF2, ?_, hle, ?_, fun _ => (hin _ _).mpr (.inr ⟨rfl, rfl⟩)⟩
        · apply h2.extend hle hr
          intro l' t h
          rcases (hin l' t).mp h with h | ⟨ha, rfl⟩
          · exact .inl h
          · exact .inr ⟨ha.trans hsym.symm, h9 rfl⟩
        · intro l' t h
          rcases (hin l' t).mp h with h | ⟨-, h⟩
          · exact .inl h
          · exact .inr h
    obtain ⟨F', c', e', hR⟩ := ih (fun r hr => hrange r (List.mem_cons_of_mem _ hr))
      (fun r hr => hrs r (List.mem_cons_of_mem _ hr)) hF2 hJ2 c1
    have hle := h3.trans hle2
    refine ⟨F', c', by
      cases p1
      · simp only [Bool.false_eq_true, if_false, Outcome.pure_eq, Outcome.ok.injEq] at e2
        simp only [propagateRules, e1, Outcome.ok_bind, e2, Bool.false_eq_true, if_false,
          Outcome.pure_eq, e']
      · simp only [if_true] at e2
        simp only [propagateRules, e1, Outcome.ok_bind, e2, if_true, e'],
      hR.wf, hR.just, hle.trans hR.le, ?_, ?_, fun h => hR.keep (h6 h), ?_⟩
    · intro l' t h
      rcases hR.new l' t h with h | h
      · rcases hnew2 l' t h with h | h
        · rcases h4 l' t h with h | ⟨-, h⟩
          · exact .inl h
          · exact .inr (.inr (hR.keep h))
        · exact .inr (.inl h)
      · exact .inr h
    · intro h
      rcases hR.progress h with h | ⟨l', t, hne, ha, hb⟩
      · rcases h5 h with h | ⟨t, ha, hb⟩
        · exact .inl h
        · exact .inr ⟨l, t, ((h4 _ _ hb).resolve_left ha).1, ha, hR.le _ _ (hle2 _ _ hb)⟩
      · exact .inr ⟨l', t, hne, fun h => ha (hle _ _ h), hb⟩
    · intro q hq t ht
      rw [List.map_cons, List.mem_cons] at hq
      rcases hq with rfl | hq
      · have hs : r.rule.symbol = l := hsym
        rw [hs]
        by_cases hne : t = .epsilon
        · subst hne; exact hR.le _ _ (hcl2 (h8 ht))
        · exact hR.le _ _ (hle2 _ _ (h7 t hne ht))
      · exact hR.closed q hq t (ht.mono hle)

end FirstTable

namespace FirstTable

variable {ε T L : Type} [DecidableEq T] [DecidableEq L] {ig : IndexedGrammar T L}

theorem propagateLabels_spec (h : ig.WF) (ls : List Nat) (hls : ∀ l ∈ ls, l < ig.labelsCount)
    {F : FirstTable} (hF : WF ig.labelsCount ig.vocab.size F) (hJ : Justified ig.cfg F)
    (changed : Bool) :
    ∃ F' changed', (propagateLabels ig ls F changed : Outcome ε _) = .ok (F', changed') ∧
      Round ig.cfg ig.labelsCount ig.vocab.size (ig.cfg.filter fun r => decide (r.symbol ∈ ls))
        F F' changed changed' := by
  induction ls generalizing F changed with
  | nil =>
    exact ⟨F, changed, rfl, hF, hJ, Le.refl F, fun _ _ h => .inl h, .inl, id, by simp⟩
  | cons l ls ih =>
    obtain ⟨rs, ers, hrs⟩ := h.rules_eq (ε := ε) (hls l List.mem_cons_self)
    have hrs' : ∀ r ∈ rs, r.rule ∈ ig.cfg ∧ r.symbol = l := fun r hr =>
      ⟨List.mem_map.mpr ⟨r, ((hrs r).mp hr).1, rfl⟩, ((hrs r).mp hr).2⟩
    obtain ⟨F1, c1, e1, hR1⟩ := propagateRules_spec (ε := ε) (hls l List.mem_cons_self)
      (show 2 ≤ ig.vocab.size by simp [Vocab.size]) rs
      (fun r hr n hn => by
        exact h.node r ((hrs r).mp hr).1 n hn) hrs' hF hJ changed
    obtain ⟨F', c', e', hR⟩ := ih (fun l' hl' => hls l' (List.mem_cons_of_mem _ hl')) hR1.wf hR1.just c1
    refine ⟨F', c', by simp only [propagateLabels, ers, Outcome.ok_bind, e1, e'],
      hR.wf, hR.just, hR1.le.trans hR.le, ?_, ?_, fun h => hR.keep (hR1.keep h), ?_⟩
    · intro l' t hi
      rcases hR.new l' t hi with hi | hi
      · rcases hR1.new l' t hi with hi | hi | hi
        · exact .inl hi
        · exact .inr (.inl hi)
        · exact .inr (.inr (hR.keep hi))
      · exact .inr hi
    · intro hc
      rcases hR.progress hc with hc | ⟨l', t, hne, ha, hb⟩
      · rcases hR1.progress hc with hc | ⟨l', t, hne, ha, hb⟩
        · exact .inl hc
        · exact .inr ⟨l', t, hne, ha, hR.le _ _ hb⟩
      · exact .inr ⟨l', t, hne, fun hi => ha (hR1.le _ _ hi), hb⟩
    · intro r hr t ht
      rw [List.mem_filter, decide_eq_true_eq, List.mem_cons] at hr
      obtain ⟨hr, hs | hs⟩ := hr
      · refine hR.le _ _ (hR1.closed r ?_ t ht)
        obtain ⟨q, hq, rfl⟩ := List.mem_map.mp hr
        exact List.mem_map.mpr ⟨q, (hrs q).mpr ⟨hq, hs⟩, rfl⟩
      · exact hR.closed r (List.mem_filter.mpr ⟨hr, by simpa using hs⟩) t (ht.mono hR1.le)

theorem propagate_spec (h : ig.WF) {F : FirstTable} (hF : WF ig.labelsCount ig.vocab.size F)
    (hJ : Justified ig.cfg F) :
    ∃ F' changed, (propagate ig F : Outcome ε _) = .ok (F', changed) ∧
      Round ig.cfg ig.labelsCount ig.vocab.size ig.cfg F F' false changed := by
  obtain ⟨F', c, e, hR⟩ := propagateLabels_spec (ε := ε) h ig.allLabels
    (by simp [IndexedGrammar.allLabels]) hF hJ false
  refine ⟨F', c, e, hR.wf, hR.just, hR.le, hR.new, hR.progress, hR.keep, ?_⟩
  intro r hr t ht
  refine hR.closed r (List.mem_filter.mpr ⟨hr, ?_⟩) t ht
  obtain ⟨q, hq, rfl⟩ := List.mem_map.mp hr
  obtain ⟨i, hi, rfl⟩ := List.mem_iff_getElem.mp hq
  simpa [IndexedGrammar.allLabels] using h.symbol _ (List.getElem_mem hi)

/-- Number of recorded pairs. -/
noncomputable def size (labels vocab : Nat) (F : FirstTable) : Nat :=
  countPairs labels vocab fun l t => ((F[l]?).map fun s => s.mem (AugTok.ofId t)).getD false

theorem in_iff_fn {F : FirstTable} {l t : Nat} :
    (((F[l]?).map fun s => s.mem (AugTok.ofId t)).getD false) = true ↔ In F l (AugTok.ofId t) := by
  unfold In
  cases F[l]? <;> simp

theorem size_lt {labels vocab : Nat} {F F' : FirstTable} (h' : WF labels vocab F') (hle : Le F F')
    {l : Nat} {t : AugTokId} (h1 : ¬ In F l t) (h2 : In F' l t) :
    size labels vocab F < size labels vocab F' := by
  obtain ⟨hl, ht⟩ := h'.in_lt h2
  refine countPairs_lt (fun i j h => ?_) hl ht ?_ ?_
  · rw [in_iff_fn] at h ⊢; exact hle _ _ h
  · rw [Bool.eq_false_iff, ne_eq, in_iff_fn, AugTok.ofId_id]; exact h1
  · rw [in_iff_fn, AugTok.ofId_id]; exact h2

/-- What is known of the table that the loop returns: it was obtained from `F0` by a round that reported
no change. -/
structure Result (ig : IndexedGrammar T L) (F : FirstTable) : Prop where
  wf : WF ig.labelsCount ig.vocab.size F
  just : Justified ig.cfg F
  last : ∃ F0, WF ig.labelsCount ig.vocab.size F0 ∧ Justified ig.cfg F0 ∧
    Round ig.cfg ig.labelsCount ig.vocab.size ig.cfg F0 F false false

theorem buildLoop_spec (h : ig.WF) (fuel : Nat) {F : FirstTable}
    (hF : WF ig.labelsCount ig.vocab.size F) (hJ : Justified ig.cfg F)
    (hfuel : ig.labelsCount * ig.vocab.size < fuel + size ig.labelsCount ig.vocab.size F) :
    ∃ F', (buildLoop ig fuel F : Outcome ε _) = .ok F' ∧ Result ig F' ∧ Le F F' ∧
      ∃ F0, Le F F0 ∧ WF ig.labelsCount ig.vocab.size F0 ∧
        Round ig.cfg ig.labelsCount ig.vocab.size ig.cfg F0 F' false false := by
  induction fuel generalizing F with
  | zero =>
    have := countPairs_le ig.labelsCount ig.vocab.size fun l t =>
      ((F[l]?).map fun s => s.mem (AugTok.ofId t)).getD false
    unfold size at hfuel
    omega
  | succ fuel ih =>
    obtain ⟨F1, c, e, hR⟩ := propagate_spec (ε := ε) h hF hJ
    cases c with
    | false =>
      exact ⟨F1, by simp [buildLoop, e], ⟨hR.wf, hR.just, F, hF, hJ, hR⟩, hR.le,
        F, Le.refl F, hF, hR⟩
    | true =>
      rcases hR.progress rfl with h0 | ⟨l, t, -, h1, h2⟩
      · cases h0
      have := size_lt hR.wf hR.le h1 h2
      obtain ⟨F', e', hres, hle, F0, hle0, hF0, hR0⟩ := ih hR.wf hR.just (by omega)
      exact ⟨F', by simp [buildLoop, e, e'], hres, hR.le.trans hle, F0, hR.le.trans hle0, hF0, hR0⟩

theorem init_WF : WF ig.labelsCount ig.vocab.size (init ig) :=
  ⟨by simp [init], fun s hs => by
    rw [init] at hs; rw [List.eq_of_mem_replicate hs]; exact VocabSet.new_WF _⟩

theorem not_in_init {l : Nat} {t : AugTokId} : ¬ In (init ig) l t := by
  rintro ⟨s, hs, hm⟩
  have := List.eq_of_mem_replicate (List.mem_of_getElem? hs)
  subst this
  simp at hm

/-- The FIRST table is always built, and its entries are justified. -/
theorem build_spec (h : ig.WF) :
    ∃ F, (build ig : Outcome ε _) = .ok F ∧ Result ig F := by
  obtain ⟨F, e, hr, -, -⟩ := buildLoop_spec (ε := ε) h (ig.labelsCount * ig.vocab.size + 1) init_WF
    (fun l t hi => absurd hi not_in_init) (by omega)
  exact ⟨F, e, hr⟩

/-- The table is closed under the rules. -/
def Closed (P : List (Rule Nat Nat)) (F : FirstTable) : Prop :=
  ∀ r ∈ P, ∀ t, NodesFirst F r.rule t → In F r.symbol t

/-- A closed table contains every true FIRST fact. -/
theorem Closed.complete {P : List (Rule Nat Nat)} {F : FirstTable} (h : Closed P F) {α : List INode}
    {t : AugTokId} (hf : First P α t) : NodesFirst F α t := by
  induction hf with
  | nil => rfl
  | eps _ ih => exact ih
  | @term t α hne =>
    cases t with
    | token k => rfl
    | epsilon => exact absurd rfl hne
    | eos => rfl
  | skip hr _ _ ih1 ih2 => exact .inr ⟨h _ hr _ ih1, ih2⟩
  | take hr _ hne ih => exact .inl ⟨hne, h _ hr _ ih⟩

/-- A justified table that contains every true fact is closed. -/
theorem Closed.of_complete {P : List (Rule Nat Nat)} {F : FirstTable} (hJ : Justified P F)
    (h : ∀ l t, First P [.production l] t → In F l t) : Closed P F := by
  intro r hr t ht
  apply h
  have := (ht.just hJ).first
  by_cases he : t = .epsilon
  · subst he; exact .skip hr this .nil
  · exact .take hr this he

/-- The table is closed if its last round added no epsilon. -/
theorem Result.closed_of {F : FirstTable} (h : Result ig F)
    (heps : ∀ F0, Round ig.cfg ig.labelsCount ig.vocab.size ig.cfg F0 F false false →
      ∀ l, In F l .epsilon → In F0 l .epsilon) : Closed ig.cfg F := by
  obtain ⟨F0, hF0, hJ0, hR⟩ := h.last
  have : F0 = F := hF0.ext h.wf fun l t => by
    refine ⟨hR.le l t, fun hi => ?_⟩
    rcases hR.new l t hi with hi | rfl | hi
    · exact hi
    · exact heps F0 hR l hi
    · cases hi
  subst this
  exact hR.closed

/-- Without nullable labels the table is closed. -/
theorem closed_of_not_nullable {F : FirstTable} (h : Result ig F)
    (hn : ∀ l, ¬ First ig.cfg [.production l] .epsilon) : Closed ig.cfg F := by
  apply h.closed_of
  intro F0 _ l hi
  obtain ⟨r, hr, rfl, hj⟩ := h.just l _ hi
  exact absurd (.skip hr hj.first .nil) (hn _)

/-- If every nullable label has a rule of epsilons and some rule begins with a token, the table is
closed. -/
theorem closed_of_direct (h : ig.WF) {F : FirstTable} (hb : (build ig : Outcome ε _) = .ok F)
    (hn : ∀ l, First ig.cfg [.production l] .epsilon →
      ∃ r ∈ ig.cfg, r.symbol = l ∧ Spec.AllEpsilon r.rule)
    (ht : ∃ r ∈ ig.cfg, ∃ t, t ≠ .epsilon ∧ Spec.BeginsWith r.rule t) : Closed ig.cfg F := by
  have hnf : ∀ (G : FirstTable) {α : List INode}, Spec.AllEpsilon α → NodesFirst G α .epsilon := by
    intro G α
    induction α with
    | nil => intro _; rfl
    | cons n α ih =>
      intro ha
      have := ha n List.mem_cons_self
      subst this
      exact ih fun m hm => ha m (List.mem_cons_of_mem _ hm)
  obtain ⟨F1, c, e, hR1⟩ := propagate_spec (ε := ε) h (init_WF (ig := ig))
    (fun l t hi => absurd hi not_in_init)
  have hc : c = true := by
    obtain ⟨r, hr, t, hne, pre, rest, hrule, hpre⟩ := ht
    have hin : In F1 r.symbol t := by
      apply hR1.closed r hr
      rw [hrule, NodesFirst.append]
      refine .inr ⟨hnf _ hpre, ?_⟩
      cases t with
      | token k => rfl
      | epsilon => exact absurd rfl hne
      | eos => rfl
    rcases hR1.new _ _ hin with hi | hi | hi
    · exact absurd hi not_in_init
    · exact absurd hi hne
    · exact hi
  subst hc
  rcases hR1.progress rfl with h0 | ⟨l, t, -, h1, h2⟩
  · cases h0
  have hsz := size_lt hR1.wf hR1.le h1 h2
  obtain ⟨F', e', hres, hle, F0, hle0, hF0, hR0⟩ :=
    buildLoop_spec (ε := ε) h (ig.labelsCount * ig.vocab.size) hR1.wf hR1.just (by omega)
  have : F' = F := by
    simp only [build, buildLoop, e, Outcome.ok_bind, if_true, e', Outcome.ok.injEq] at hb
    exact hb
  subst this
  have : F0 = F' := hF0.ext hres.wf fun l t => by
    refine ⟨hR0.le l t, fun hi => ?_⟩
    rcases hR0.new l t hi with hi' | rfl | hi'
    · exact hi'
    · obtain ⟨r, hr, rfl, hj⟩ := hres.just l _ hi
      obtain ⟨q, hq, hs, ha⟩ := hn r.symbol (.skip hr hj.first .nil)
      rw [← hs]
      exact hle0 _ _ (hR1.closed q hq _ (hnf _ ha))
    · cases hi'
  subst this
  exact hR0.closed

end FirstTable
end Verif
