import Verif.Model.StateMap
import Verif.Proof.Automaton

/-!
# The state map of a built table
-/

set_option linter.unusedSectionVars false
set_option autoImplicit false

namespace Verif

section
variable {T L : Type} [DecidableEq T] [DecidableEq L] {ig : IndexedGrammar T L} {F : FirstTable}
  {kt : KernelTable} {table : LRTable} {ε : Type}
open EntryBuilder Partition

theorem Vocab.idToToken_total {v : Vocab T} {id : AugTokId} (h : Label.id id < v.size) :
    ∃ tok, ∀ ε : Type, (v.idToToken id : Outcome ε _) = .ok tok := by
  match id with
  | .epsilon => exact ⟨_, fun _ => rfl⟩
  | .eos => exact ⟨_, fun _ => rfl⟩
  | .token i =>
    have hi : i < v.idMap.length := by
      simp only [Label.id, Vocab.size] at h; omega
    exact ⟨.token v.idMap[i], fun _ => by simp [Vocab.idToToken, Outcome.index_of_lt hi]⟩

theorem Vocab.idToToken_eps {v : Vocab T} {id : AugTokId} {ε ε' : Type} {tok : AugTok T}
    (h : (v.idToToken id : Outcome ε _) = .ok tok) : (v.idToToken id : Outcome ε' _) = .ok tok := by
  match id with
  | .epsilon => cases h; rfl
  | .eos => cases h; rfl
  | .token i =>
    simp only [Vocab.idToToken, Outcome.bind_eq_ok, Outcome.index_eq_ok] at h ⊢
    obtain ⟨a, h1, h2⟩ := h
    exact ⟨a, h1, by simpa using h2⟩

theorem Vocab.WF.idToToken_inj {v : Vocab T} (hv : v.WF) {id id' : AugTokId} {tok : AugTok T}
    (h : (v.idToToken id : Outcome ε _) = .ok tok) (h' : (v.idToToken id' : Outcome ε _) = .ok tok) :
    id = id' := by
  match id, id' with
  | .epsilon, .epsilon => rfl
  | .eos, .eos => rfl
  | .epsilon, .eos => cases h; cases h'
  | .eos, .epsilon => cases h; cases h'
  | .token i, .epsilon =>
    cases h'
    simp [Vocab.idToToken, Outcome.bind_eq_ok] at h
  | .token i, .eos =>
    cases h'
    simp [Vocab.idToToken, Outcome.bind_eq_ok] at h
  | .epsilon, .token i =>
    cases h
    simp [Vocab.idToToken, Outcome.bind_eq_ok] at h'
  | .eos, .token i =>
    cases h
    simp [Vocab.idToToken, Outcome.bind_eq_ok] at h'
  | .token i, .token j =>
    simp only [Vocab.idToToken, Outcome.bind_eq_ok, Outcome.index_eq_ok, Outcome.pure_eq,
      Outcome.ok.injEq] at h h'
    obtain ⟨a, h1, rfl⟩ := h
    obtain ⟨b, h2, h3⟩ := h'
    cases h3
    rw [getElem?_inj_of_nodup hv.nodup h1 h2]

theorem collectActions_spec {v : Vocab T} {ps : List (Option Action × AugTokId)}
    (h : ∀ p ∈ ps, Label.id p.2 < v.size) :
    ∃ l, (LRTable.collectActions v ps : Outcome ε _) = .ok l ∧
      (∀ tok a, (tok, a) ∈ l ↔ ∃ id, (some a, id) ∈ ps ∧ (v.idToToken id : Outcome Unit _) = .ok tok) ∧
      (v.WF → (ps.map Prod.snd).Nodup → (l.map Prod.fst).Nodup) := by
  induction ps with
  | nil => exact ⟨[], rfl, by simp, fun _ _ => List.nodup_nil⟩
  | cons p ps ih =>
    obtain ⟨l, e, hl, hnd⟩ := ih fun q hq => h q (List.mem_cons_of_mem _ hq)
    obtain ⟨o, id⟩ := p
    cases o with
    | none =>
      refine ⟨l, by simpa [LRTable.collectActions] using e, ?_, fun hv hn => hnd hv ?_⟩
      · intro tok a; rw [hl]; simp
      · rw [List.map_cons, List.nodup_cons] at hn; exact hn.2
    | some a =>
      obtain ⟨tok, ht⟩ := Vocab.idToToken_total (h (some a, id) List.mem_cons_self)
      refine ⟨(tok, a) :: l, by simp [LRTable.collectActions, ht, e], ?_, fun hv hn => ?_⟩
      · intro tok' a'
        simp only [List.mem_cons, hl, Prod.mk.injEq, Option.some.injEq]
        constructor
        · rintro (⟨rfl, rfl⟩ | ⟨id', h1, h2⟩)
          · exact ⟨id, .inl ⟨rfl, rfl⟩, ht _⟩
          · exact ⟨id', .inr h1, h2⟩
        · rintro ⟨id', ⟨rfl, rfl⟩ | h1, h2⟩
          · rw [ht] at h2; cases h2; exact .inl ⟨rfl, rfl⟩
          · exact .inr ⟨id', h1, h2⟩
      · rw [List.map_cons, List.nodup_cons] at hn
        simp only [List.map_cons, List.nodup_cons]
        refine ⟨?_, hnd hv hn.2⟩
        intro hm
        obtain ⟨⟨tok', a'⟩, hm1, rfl⟩ := List.mem_map.mp hm
        obtain ⟨id', h1, h2⟩ := (hl _ _).mp hm1
        have := hv.idToToken_inj (ht Unit) h2
        subst this
        exact hn.1 (List.mem_map.mpr ⟨_, h1, rfl⟩)

theorem forEachId_nodup (v : Vocab T) : v.forEachId.Nodup := by
  unfold Vocab.forEachId
  refine List.Pairwise.map _ ?_ List.nodup_range
  intro a b hab he
  apply hab
  have := congrArg Label.id he
  simpa using this

theorem forEachId_lt {v : Vocab T} {id : AugTokId} (h : id ∈ v.forEachId) : Label.id id < v.size := by
  unfold Vocab.forEachId at h
  obtain ⟨i, h1, rfl⟩ := List.mem_map.mp h
  simpa using h1

/-- The row of a state has the given action. -/
def LRTable.HasAction (table : LRTable) (ig : IndexedGrammar T L) (s : Nat) (id : AugTokId) (a : Action) :
    Prop :=
  Label.id id < ig.vocab.size ∧ (table.getAction s id : Outcome Unit _) = .ok (some a)

/-- The row of a state has the given goto. -/
def LRTable.HasGoto (table : LRTable) (ig : IndexedGrammar T L) (s l s' : Nat) : Prop :=
  l < ig.labelsCount ∧ (table.getGoto s l : Outcome Unit _) = .ok (some s')

theorem getElem?_drop_take {α : Type} (l : List α) (a b i : Nat) (hi : a + i < b) :
    ((l.take b).drop a)[i]? = l[a + i]? := by
  rw [List.getElem?_drop, List.getElem?_take, if_pos hi]

theorem Built.stateActions_eq (h : Built ig F kt table) {s : Nat} (hs : s < table.numStates) :
    ∃ l, (table.stateActions ig s : Outcome ε _) = .ok l ∧
      (∀ tok a, (tok, a) ∈ l ↔ ∃ id, table.HasAction ig s id a ∧
        (ig.vocab.idToToken id : Outcome Unit _) = .ok tok) ∧
      (ig.vocab.WF → (l.map Prod.fst).Nodup) := by
  have hn := h.pos
  have hvs : (table.vocabSize : Outcome ε _) = .ok ig.vocab.size := by
    unfold LRTable.vocabSize
    rw [h.lenA, Nat.mul_mod_left, Nat.mul_div_cancel _ hn]
    have : (table.numStates != 0) = true := by simp; omega
    simp [this]
  have hle : s * ig.vocab.size + ig.vocab.size ≤ table.actionTable.length := by
    rw [h.lenA]
    calc s * ig.vocab.size + ig.vocab.size = (s + 1) * ig.vocab.size := by rw [Nat.succ_mul]
      _ ≤ table.numStates * ig.vocab.size := Nat.mul_le_mul_right _ hs
      _ = _ := Nat.mul_comm _ _
  generalize hrow : (table.actionTable.take (s * ig.vocab.size + ig.vocab.size)).drop
    (s * ig.vocab.size) = row
  have hmem : ∀ o id, (o, id) ∈ row.zip ig.vocab.forEachId ↔ Label.id id < ig.vocab.size ∧
      (table.getAction s id : Outcome Unit _) = .ok o := by
    intro o id
    rw [List.mem_iff_getElem?]
    constructor
    · rintro ⟨i, hi⟩
      rw [List.getElem?_zip_eq_some] at hi
      obtain ⟨h1, h2⟩ := hi
      have hid := forEachId_lt (List.mem_of_getElem? h2)
      have hi' := getElem?_inj_of_nodup (forEachId_nodup _) h2 (forEachId_getElem? hid)
      subst hi'
      refine ⟨hid, ?_⟩
      obtain ⟨o', e1, e2⟩ := h.getAction_eq (ε := Unit) hs hid
      rw [← hrow, getElem?_drop_take _ _ _ _ (by omega), Nat.mul_comm, e1] at h1
      cases h1
      exact e2
    · rintro ⟨hid, hg⟩
      obtain ⟨o', e1, e2⟩ := h.getAction_eq (ε := Unit) hs hid
      rw [e2] at hg
      cases hg
      refine ⟨Label.id id, ?_⟩
      rw [List.getElem?_zip_eq_some]
      refine ⟨?_, forEachId_getElem? hid⟩
      rw [← hrow, getElem?_drop_take _ _ _ _ (by omega), Nat.mul_comm, e1]
  obtain ⟨l, e, hl, hnd⟩ := collectActions_spec (ε := ε) (v := ig.vocab)
    (ps := row.zip ig.vocab.forEachId) fun p hp => ((hmem p.1 p.2).mp hp).1
  refine ⟨l, ?_, ?_, fun hv => hnd hv ?_⟩
  · unfold LRTable.stateActions
    simp only [hvs, Outcome.ok_bind, beq_self_eq_true, Outcome.assert_true, LRTable.slice]
    rw [if_pos ⟨by omega, hle⟩]
    simp only [Outcome.pure_eq, Outcome.ok_bind, hrow]
    exact e
  · intro tok a
    rw [hl]
    simp only [hmem, LRTable.HasAction]
  · have : List.Sublist ((row.zip ig.vocab.forEachId).map Prod.snd) ig.vocab.forEachId := by
      generalize ig.vocab.forEachId = l
      clear hmem e hl hnd hrow
      induction row generalizing l with
      | nil => simp
      | cons a row ih =>
        cases l with
        | nil => simp
        | cons b l => simp only [List.zip_cons_cons, List.map_cons]; exact (ih l).cons_cons b
    exact (forEachId_nodup _).sublist this

theorem Built.gotoActions_eq (h : Built ig F kt table) {s : Nat} (hs : s < table.numStates) :
    ∃ l, (table.gotoActions ig s : Outcome ε _) = .ok l ∧
      ∀ lab s', (lab, s') ∈ l ↔ table.HasGoto ig s lab s' := by
  have hn := h.pos
  have hvs : (table.numLabels : Outcome ε _) = .ok ig.labelsCount := by
    unfold LRTable.numLabels
    rw [h.lenG, Nat.mul_mod_left, Nat.mul_div_cancel _ hn]
    have : (table.numStates != 0) = true := by simp; omega
    simp [this]
  have hle : s * ig.labelsCount + ig.labelsCount ≤ table.gotoTable.length := by
    rw [h.lenG]
    calc s * ig.labelsCount + ig.labelsCount = (s + 1) * ig.labelsCount := by rw [Nat.succ_mul]
      _ ≤ table.numStates * ig.labelsCount := Nat.mul_le_mul_right _ hs
      _ = _ := Nat.mul_comm _ _
  generalize hrow : (table.gotoTable.take (s * ig.labelsCount + ig.labelsCount)).drop
    (s * ig.labelsCount) = row
  have hlab : ∀ (i : Nat), ig.allLabels[i]? = if i < ig.labelsCount then some i else none := by
    intro i
    unfold IndexedGrammar.allLabels
    split <;> simp_all
  have hmem : ∀ o lab, (o, lab) ∈ row.zip ig.allLabels ↔ lab < ig.labelsCount ∧
      (table.getGoto s lab : Outcome Unit _) = .ok o := by
    intro o lab
    rw [List.mem_iff_getElem?]
    constructor
    · rintro ⟨i, hi⟩
      rw [List.getElem?_zip_eq_some, hlab] at hi
      obtain ⟨h1, h2⟩ := hi
      split at h2
      · rename_i hid
        cases h2
        refine ⟨hid, ?_⟩
        obtain ⟨o', e1, e2⟩ := h.getGoto_eq (ε := Unit) hs hid
        rw [← hrow, getElem?_drop_take _ _ _ _ (by omega), Nat.mul_comm, e1] at h1
        cases h1
        exact e2
      · cases h2
    · rintro ⟨hid, hg⟩
      obtain ⟨o', e1, e2⟩ := h.getGoto_eq (ε := Unit) hs hid
      rw [e2] at hg
      cases hg
      refine ⟨lab, ?_⟩
      rw [List.getElem?_zip_eq_some, hlab, if_pos hid]
      refine ⟨?_, rfl⟩
      rw [← hrow, getElem?_drop_take _ _ _ _ (by omega), Nat.mul_comm, e1]
  refine ⟨(row.zip ig.allLabels).filterMap fun (a, l) => a.map fun a => (l, a), ?_, ?_⟩
  · unfold LRTable.gotoActions
    simp only [hvs, Outcome.ok_bind, beq_self_eq_true, Outcome.assert_true, LRTable.slice]
    rw [if_pos ⟨by omega, hle⟩]
    simp only [Outcome.pure_eq, Outcome.ok_bind, hrow]
  · intro lab s'
    rw [List.mem_filterMap]
    simp only [LRTable.HasGoto]
    constructor
    · rintro ⟨⟨o, l⟩, h1, h2⟩
      cases o with
      | none => cases h2
      | some a => cases h2; exact (hmem _ _).mp h1
    · intro hg
      exact ⟨(some s', lab), (hmem _ _).mpr hg, rfl⟩

/-- Transitions of the table, labelled as in the state map. -/
inductive Edge (ig : IndexedGrammar T L) (table : LRTable) : Nat → StateType T → Nat → Prop
  | shift {s s' : Nat} {id : AugTokId} {tok : AugTok T} : s < table.numStates →
      table.HasAction ig s id (.shift s') → (ig.vocab.idToToken id : Outcome Unit _) = .ok tok →
      Edge ig table s (.terminal tok) s'
  | goto {s l s' : Nat} : s < table.numStates → table.HasGoto ig s l s' →
      Edge ig table s (.reduce l) s'

/-- The node read last, for a kernel with moved dots. -/
def Kernel.inNode (ig : IndexedGrammar T L) (k : Kernel) : Category :=
  match k.positions.head? with
  | none => none
  | some q => ({ q with position := q.position - 1 } : Position).cat ig

theorem inNode_nextOf {items : List Position} {n : INode} {p : Position} (hp : p ∈ items)
    (hc : p.cat ig = some n) : (nextOf ig items (some n)).inNode ig = some n := by
  have hm : adv p ∈ (nextOf ig items (some n)).positions := mem_nextOf.mpr ⟨p, hp, hc, rfl⟩
  unfold Kernel.inNode
  cases hh : (nextOf ig items (some n)).positions.head? with
  | none =>
    rw [List.head?_eq_none_iff] at hh
    rw [hh] at hm; cases hm
  | some q =>
    obtain ⟨p', -, hc', rfl⟩ := mem_nextOf.mp (List.mem_of_head? hh)
    show Position.cat ig _ = _
    rw [← hc']
    rfl

theorem Built.getAction_row (h : Built ig F kt table) {s : Nat} (hs : s < table.numStates)
    {id : AugTokId} {s' : Nat} (ha : table.HasAction ig s id (.shift s')) :
    ∃ k items, kt.states[s]? = some k ∧ ItemsOf ig F k items ∧
      (∃ p ∈ items, p.cat ig = some (.terminal id)) ∧
      kt.states[s']? = some (nextOf ig items (some (.terminal id))) := by
  obtain ⟨k, items, hr⟩ := h.row s hs
  obtain ⟨o, e1, e2⟩ := h.getAction_eq (ε := Unit) hs ha.1
  have := ha.2
  rw [e2] at this
  cases this
  obtain ⟨h1, h2⟩ := (hr.shift id s' ha.1).mp e1
  exact ⟨k, items, hr.kernel, hr.itemsOf, h1, h2⟩

theorem Built.getGoto_row (h : Built ig F kt table) {s : Nat} (hs : s < table.numStates)
    {l : Nat} {s' : Nat} (ha : table.HasGoto ig s l s') :
    ∃ k items, kt.states[s]? = some k ∧ ItemsOf ig F k items ∧
      (∃ p ∈ items, p.cat ig = some (.production l)) ∧
      kt.states[s']? = some (nextOf ig items (some (.production l))) := by
  obtain ⟨k, items, hr⟩ := h.row s hs
  obtain ⟨o, e1, e2⟩ := h.getGoto_eq (ε := Unit) hs ha.1
  have := ha.2
  rw [e2] at this
  cases this
  obtain ⟨h1, h2⟩ := (hr.goto l s' ha.1).mp e1
  exact ⟨k, items, hr.kernel, hr.itemsOf, h1, h2⟩

/-- Node of the grammar as named by the state map. -/
inductive Names (ig : IndexedGrammar T L) : StateType T → INode → Prop
  | terminal {id : AugTokId} {tok : AugTok T} : (ig.vocab.idToToken id : Outcome Unit _) = .ok tok →
      Names ig (.terminal tok) (.terminal id)
  | production {l : Nat} : Names ig (.reduce l) (.production l)

theorem Names.det {ty ty' : StateType T} {n : INode} (h : Names ig ty n) (h' : Names ig ty' n) :
    ty = ty' := by
  cases h with
  | terminal h => cases h' with | terminal h' => rw [h] at h'; cases h'; rfl
  | production => cases h'; rfl

/-- An edge follows a node out of the items of its source. -/
theorem Built.edge (h : Built ig F kt table) {s s' : Nat} {ty : StateType T} (he : Edge ig table s ty s') :
    ∃ k items n, kt.states[s]? = some k ∧ ItemsOf ig F k items ∧ Names ig ty n ∧
      (∃ p ∈ items, p.cat ig = some n) ∧ kt.states[s']? = some (nextOf ig items (some n)) := by
  cases he with
  | shift h1 h2 h3 =>
    obtain ⟨k, items, e1, e2, e3, e4⟩ := h.getAction_row h1 h2
    exact ⟨k, items, _, e1, e2, .terminal h3, e3, e4⟩
  | goto h1 h2 =>
    obtain ⟨k, items, e1, e2, e3, e4⟩ := h.getGoto_row h1 h2
    exact ⟨k, items, _, e1, e2, .production, e3, e4⟩

theorem Built.edge_lt (h : Built ig F kt table) {s s' : Nat} {ty : StateType T}
    (he : Edge ig table s ty s') : s < table.numStates ∧ 0 < s' ∧ s' < table.numStates := by
  obtain ⟨k, items, n, e1, e2, e3, ⟨p, e4, e4'⟩, e5⟩ := h.edge he
  refine ⟨by cases he <;> assumption, ?_, by rw [h.all]; exact (List.getElem?_eq_some_iff.mp e5).1⟩
  apply Nat.pos_of_ne_zero
  rintro rfl
  rw [h.init] at e5
  exact nextOf_ne_root e4 e4' (Option.some.inj e5).symm

/-- Edges into a state agree on their label. -/
theorem Built.edge_unique (h : Built ig F kt table) {s1 s2 s' : Nat} {ty1 ty2 : StateType T}
    (h1 : Edge ig table s1 ty1 s') (h2 : Edge ig table s2 ty2 s') : ty1 = ty2 := by
  obtain ⟨k, items, n, -, -, e3, ⟨p, e4, e4'⟩, e5⟩ := h.edge h1
  obtain ⟨k', items', n', -, -, g3, ⟨p', g4, g4'⟩, g5⟩ := h.edge h2
  rw [e5] at g5
  have hk := Option.some.inj g5
  have i1 := inNode_nextOf e4 e4'
  have i2 := inNode_nextOf g4 g4'
  rw [hk, i2] at i1
  cases i1
  exact e3.det g3

/-- Every state but the first is entered by an edge. -/
theorem Built.edge_exists (hw : ig.WF) (hF : F.WF ig.labelsCount ig.vocab.size)
    (h : Built ig F kt table) {s' : Nat} (hs : s' < table.numStates) (h0 : s' ≠ 0) :
    ∃ s ty, Edge ig table s ty s' := by
  have hs' := hs
  rw [h.all] at hs
  have hk := List.getElem?_eq_getElem hs
  have hr := h.reach _ (List.getElem_mem hs)
  generalize hkk : kt.states[s'] = k at hk hr
  cases hr with
  | root => exact absurd (getElem?_inj_of_nodup h.wf.nodup hk h.init) h0
  | @step k0 items n p r1 r2 r3 r4 =>
    obtain ⟨s, hs0⟩ := h.mem_of_reach r1
    have hlt : s < table.numStates := by rw [h.all]; exact (List.getElem?_eq_some_iff.mp hs0).1
    obtain ⟨k', items', hrow⟩ := h.row s hlt
    rw [hrow.kernel] at hs0
    cases hs0
    have := hrow.itemsOf
    unfold ItemsOf at this r2
    rw [r2] at this
    cases this
    have hok := ((r1.items hw hF r2).ok p r3)
    have hin := hok.cat_inRange hw
    rw [r4] at hin
    cases n with
    | terminal id =>
      have hid : Label.id id < ig.vocab.size := hin
      obtain ⟨o, e1, e2⟩ := h.getAction_eq (ε := Unit) hlt hid
      have := (hrow.shift id s' hid).mpr ⟨⟨p, r3, r4⟩, hk⟩
      rw [e1] at this
      cases this
      obtain ⟨tok, ht⟩ := Vocab.idToToken_total hid
      exact ⟨s, _, .shift hlt ⟨hid, e2⟩ (ht _)⟩
    | production l =>
      have hid : l < ig.labelsCount := hin
      obtain ⟨o, e1, e2⟩ := h.getGoto_eq (ε := Unit) hlt hid
      have := (hrow.goto l s' hid).mpr ⟨⟨p, r3, r4⟩, hk⟩
      rw [e1] at this
      cases this
      exact ⟨s, _, .goto hlt ⟨hid, e2⟩⟩

/-- The maps hold the edges `S`; edges into state `s'` are labelled `ty s'`. -/
structure EdgeInv (n : Nat) (ty : Nat → StateType T) (S : Nat → StateType T → Nat → Prop)
    (maps : List (List (Nat × StateType T))) : Prop where
  len : maps.length = n
  label : ∀ s t s', S s t s' → t = ty s'
  nodup : ∀ (s' : Nat) m, maps[s']? = some m → (m.map Prod.fst).Nodup
  mem : ∀ (s' : Nat) m, maps[s']? = some m → ∀ s t, (s, t) ∈ m ↔ S s t s'

theorem EdgeInv.congr {n : Nat} {ty : Nat → StateType T} {S S' : Nat → StateType T → Nat → Prop}
    {maps : List (List (Nat × StateType T))} (h : EdgeInv n ty S maps)
    (he : ∀ s t s', S s t s' ↔ S' s t s') : EdgeInv n ty S' maps := by
  have : S = S' := by funext s t s'; exact propext (he s t s')
  exact this ▸ h

theorem verifyCompatible_refl (t : StateType T) :
    (t.verifyCompatible t : Outcome (LRTableError T L) _) = .ok () := by
  cases t <;> simp [StateType.verifyCompatible]

theorem lookup_some_mem {α β : Type} [BEq α] [LawfulBEq α] {l : List (α × β)} {a : α} {b : β}
    (h : l.lookup a = some b) : (a, b) ∈ l := by
  induction l with
  | nil => cases h
  | cons p l ih =>
    obtain ⟨x, y⟩ := p
    rw [List.lookup_cons] at h
    split at h
    · rename_i he
      cases h
      rw [beq_iff_eq] at he
      subst he
      exact List.mem_cons_self
    · exact List.mem_cons_of_mem _ (ih h)

theorem lookup_none_not_mem {α β : Type} [BEq α] [LawfulBEq α] {l : List (α × β)} {a : α}
    (h : l.lookup a = none) : a ∉ l.map Prod.fst := by
  induction l with
  | nil => simp
  | cons p l ih =>
    obtain ⟨x, y⟩ := p
    rw [List.lookup_cons] at h
    split at h
    · cases h
    · rename_i he
      rw [List.map_cons, List.mem_cons, not_or]
      exact ⟨by simpa using he, ih h⟩

theorem addEdge_spec {n : Nat} {ty : Nat → StateType T} {S : Nat → StateType T → Nat → Prop}
    {maps : List (List (Nat × StateType T))} (h : EdgeInv n ty S maps) {s s' : Nat} {t : StateType T}
    (hs : s' < n) (ht : t = ty s') :
    ∃ maps', (StateMap.addEdge s t s' maps : Outcome (LRTableError T L) _) = .ok maps' ∧
      EdgeInv n ty (fun a b c => S a b c ∨ (a = s ∧ b = t ∧ c = s')) maps' := by
  have hlt : s' < maps.length := by rw [h.len]; exact hs
  have hm := List.getElem?_eq_getElem hlt
  unfold StateMap.addEdge
  rw [Outcome.index_of_lt hlt, Outcome.ok_bind]
  generalize maps[s'] = m at hm
  unfold insertStateAndType
  have hlab : ∀ a b c, S a b c ∨ (a = s ∧ b = t ∧ c = s') → b = ty c := by
    rintro a b c (h1 | ⟨rfl, rfl, rfl⟩)
    · exact h.label _ _ _ h1
    · exact ht
  cases hl : m.lookup s with
  | some t' =>
    have h1 := (h.mem s' m hm s t').mp (lookup_some_mem hl)
    have h2 := h.label _ _ _ h1
    rw [ht, ← h2]
    refine ⟨maps.set s' m, by simp [verifyCompatible_refl], ?_⟩
    have : maps.set s' m = maps := by
      apply List.ext_getElem?
      intro i
      rw [List.getElem?_set]
      split
      · rename_i e; subst e; exact hm.symm
      · rfl
    rw [this]
    apply h.congr
    intro a b c
    constructor
    · exact .inl
    · rintro (h3 | ⟨rfl, rfl, rfl⟩)
      · exact h3
      · exact h1
  | none =>
    refine ⟨maps.set s' (m ++ [(s, t)]), by simp, ⟨by simp [h.len], hlab, ?_, ?_⟩⟩
    · intro c m' hm'
      rw [List.getElem?_set] at hm'
      split at hm'
      · rename_i e
        subst e
        cases hm'
        rw [List.map_append, List.nodup_append]
        refine ⟨h.nodup _ _ hm, by simp, ?_⟩
        intro a ha b hb
        simp only [List.map_cons, List.map_nil, List.mem_singleton] at hb
        subst hb
        rintro rfl
        exact lookup_none_not_mem hl ha
      · exact h.nodup _ _ hm'
    · intro c m' hm' a b
      rw [List.getElem?_set] at hm'
      split at hm'
      · rename_i e
        subst e
        cases hm'
        simp [h.mem _ _ hm]
      · rename_i e
        rw [h.mem _ _ hm']
        constructor
        · exact .inl
        · rintro (h3 | ⟨-, -, rfl⟩)
          · exact h3
          · exact absurd rfl e

theorem addShifts_spec {n : Nat} {ty : Nat → StateType T} {s : Nat} (l : List (AugTok T × Action))
    (hl : ∀ tok s', (tok, Action.shift s') ∈ l → s' < n ∧ .terminal tok = ty s')
    {S : Nat → StateType T → Nat → Prop} {maps : List (List (Nat × StateType T))}
    (h : EdgeInv n ty S maps) :
    ∃ maps', (StateMap.addShifts s l maps : Outcome (LRTableError T L) _) = .ok maps' ∧
      EdgeInv n ty (fun a b c => S a b c ∨ (a = s ∧ ∃ tok, b = .terminal tok ∧ (tok, .shift c) ∈ l))
        maps' := by
  induction l generalizing S maps with
  | nil => exact ⟨maps, rfl, h.congr fun _ _ _ => by simp⟩
  | cons p l ih =>
    obtain ⟨tok, a⟩ := p
    have hl' : ∀ tok s', (tok, Action.shift s') ∈ l → s' < n ∧ .terminal tok = ty s' :=
      fun tok s' hm => hl tok s' (List.mem_cons_of_mem _ hm)
    cases a with
    | shift s' =>
      obtain ⟨h1, h2⟩ := hl tok s' List.mem_cons_self
      obtain ⟨m1, e1, i1⟩ := addEdge_spec (L := L) (s := s) h h1 h2
      obtain ⟨m2, e2, i2⟩ := ih hl' i1
      refine ⟨m2, by simp [StateMap.addShifts, e1, e2], i2.congr ?_⟩
      intro a b c
      simp only [List.mem_cons, Prod.mk.injEq, Action.shift.injEq]
      constructor
      · rintro ((h | ⟨rfl, rfl, rfl⟩) | ⟨rfl, tok', rfl, h⟩)
        · exact .inl h
        · exact .inr ⟨rfl, tok, rfl, .inl ⟨rfl, rfl⟩⟩
        · exact .inr ⟨rfl, tok', rfl, .inr h⟩
      · rintro (h | ⟨rfl, tok', rfl, ⟨rfl, rfl⟩ | h⟩)
        · exact .inl (.inl h)
        · exact .inl (.inr ⟨rfl, rfl, rfl⟩)
        · exact .inr ⟨rfl, tok', rfl, h⟩
    | reduce r =>
      obtain ⟨m2, e2, i2⟩ := ih hl' h
      exact ⟨m2, by simp [StateMap.addShifts, e2], i2.congr fun a b c => by simp⟩
    | accept =>
      obtain ⟨m2, e2, i2⟩ := ih hl' h
      exact ⟨m2, by simp [StateMap.addShifts, e2], i2.congr fun a b c => by simp⟩

theorem addGotos_spec {n : Nat} {ty : Nat → StateType T} {s : Nat} (l : List (Nat × Nat))
    (hl : ∀ lab s', (lab, s') ∈ l → s' < n ∧ .reduce lab = ty s')
    {S : Nat → StateType T → Nat → Prop} {maps : List (List (Nat × StateType T))}
    (h : EdgeInv n ty S maps) :
    ∃ maps', (StateMap.addGotos s l maps : Outcome (LRTableError T L) _) = .ok maps' ∧
      EdgeInv n ty (fun a b c => S a b c ∨ (a = s ∧ ∃ lab, b = .reduce lab ∧ (lab, c) ∈ l)) maps' := by
  induction l generalizing S maps with
  | nil => exact ⟨maps, rfl, h.congr fun _ _ _ => by simp⟩
  | cons p l ih =>
    obtain ⟨lab, s'⟩ := p
    obtain ⟨h1, h2⟩ := hl lab s' List.mem_cons_self
    obtain ⟨m1, e1, i1⟩ := addEdge_spec (L := L) (s := s) h h1 h2
    obtain ⟨m2, e2, i2⟩ := ih (fun tok s' hm => hl tok s' (List.mem_cons_of_mem _ hm)) i1
    refine ⟨m2, by simp [StateMap.addGotos, e1, e2], i2.congr ?_⟩
    intro a b c
    simp only [List.mem_cons, Prod.mk.injEq]
    constructor
    · rintro ((h | ⟨rfl, rfl, rfl⟩) | ⟨rfl, tok', rfl, h⟩)
      · exact .inl h
      · exact .inr ⟨rfl, lab, rfl, .inl ⟨rfl, rfl⟩⟩
      · exact .inr ⟨rfl, tok', rfl, .inr h⟩
    · rintro (h | ⟨rfl, tok', rfl, ⟨rfl, rfl⟩ | h⟩)
      · exact .inl (.inl h)
      · exact .inl (.inr ⟨rfl, rfl, rfl⟩)
      · exact .inr ⟨rfl, tok', rfl, h⟩

theorem addStates_spec (hb : Built ig F kt table) {ty : Nat → StateType T}
    (hty : ∀ s t s', Edge ig table s t s' → t = ty s') (ss : List Nat) (hss : ∀ s ∈ ss, s < table.numStates)
    {S : Nat → StateType T → Nat → Prop} {maps : List (List (Nat × StateType T))}
    (h : EdgeInv table.numStates ty S maps) :
    ∃ maps', StateMap.addStates ig table ss maps = .ok maps' ∧
      EdgeInv table.numStates ty (fun a b c => S a b c ∨ (a ∈ ss ∧ Edge ig table a b c)) maps' := by
  induction ss generalizing S maps with
  | nil => exact ⟨maps, rfl, h.congr fun _ _ _ => by simp⟩
  | cons s ss ih =>
    have hs := hss s List.mem_cons_self
    obtain ⟨l1, e1, m1, -⟩ := hb.stateActions_eq (ε := LRTableError T L) hs
    obtain ⟨l2, e2, m2⟩ := hb.gotoActions_eq (ε := LRTableError T L) hs
    have hE1 : ∀ tok s', (tok, Action.shift s') ∈ l1 → Edge ig table s (.terminal tok) s' := by
      intro tok s' hm
      obtain ⟨id, h1, h2⟩ := (m1 _ _).mp hm
      exact .shift hs h1 h2
    have hE2 : ∀ lab s', (lab, s') ∈ l2 → Edge ig table s (.reduce lab) s' :=
      fun lab s' hm => .goto hs ((m2 _ _).mp hm)
    obtain ⟨maps1, f1, i1⟩ := addShifts_spec (L := L) (s := s) l1
      (fun tok s' hm => ⟨(hb.edge_lt (hE1 _ _ hm)).2.2, hty _ _ _ (hE1 _ _ hm)⟩) h
    obtain ⟨maps2, f2, i2⟩ := addGotos_spec (L := L) (s := s) l2
      (fun tok s' hm => ⟨(hb.edge_lt (hE2 _ _ hm)).2.2, hty _ _ _ (hE2 _ _ hm)⟩) i1
    obtain ⟨maps3, f3, i3⟩ := ih (fun s hs => hss s (List.mem_cons_of_mem _ hs)) i2
    refine ⟨maps3, by simp [StateMap.addStates, e1, f1, e2, f2, f3], i3.congr ?_⟩
    intro a b c
    rw [List.mem_cons]
    constructor
    · rintro (((h | ⟨rfl, tok, rfl, h⟩) | ⟨rfl, lab, rfl, h⟩) | ⟨h1, h2⟩)
      · exact .inl h
      · exact .inr ⟨.inl rfl, hE1 _ _ h⟩
      · exact .inr ⟨.inl rfl, hE2 _ _ h⟩
      · exact .inr ⟨.inr h1, h2⟩
    · rintro (h | ⟨rfl | h1, h2⟩)
      · exact .inl (.inl (.inl h))
      · cases h2 with
        | shift h3 h4 h5 => exact .inl (.inl (.inr ⟨rfl, _, rfl, (m1 _ _).mpr ⟨_, h4, h5⟩⟩))
        | goto h3 h4 => exact .inl (.inr ⟨rfl, _, rfl, (m2 _ _).mpr h4⟩)
      · exact .inr ⟨h1, h2⟩

theorem verifyAll_spec {t : StateType T} {l : List (Nat × StateType T)} (h : ∀ p ∈ l, p.2 = t) :
    (StateInfo.verifyAll t l : Outcome (LRTableError T L) _) = .ok (l.map Prod.fst) := by
  induction l with
  | nil => rfl
  | cons p l ih =>
    obtain ⟨s, t'⟩ := p
    have : t' = t := h (s, t') List.mem_cons_self
    subst this
    simp [StateInfo.verifyAll, verifyCompatible_refl, ih fun q hq => h q (List.mem_cons_of_mem _ hq)]

theorem stateInfo_spec {t : StateType T} {l : List (Nat × StateType T)} (hne : l ≠ [])
    (h : ∀ p ∈ l, p.2 = t) :
    (StateInfo.build l : Outcome (LRTableError T L) _) = .ok ⟨l.map Prod.fst, t⟩ := by
  cases l with
  | nil => exact absurd rfl hne
  | cons p l =>
    obtain ⟨s, t'⟩ := p
    have : t' = t := h (s, t') List.mem_cons_self
    subst this
    simp [StateInfo.build, verifyAll_spec fun q hq => h q (List.mem_cons_of_mem _ hq)]

theorem buildInfos_spec (o : HashOrder) {ty : Nat → StateType T} (maps : List (List (Nat × StateType T)))
    (k : Nat) (h : ∀ (i : Nat) m, maps[i]? = some m → m ≠ [] ∧ ∀ p ∈ m, p.2 = ty (k + i)) :
    ∃ infos, (StateMap.buildInfos o k maps : Outcome (LRTableError T L) _) = .ok infos ∧
      infos.length = maps.length ∧
      ∀ (i : Nat) m, maps[i]? = some m →
        ∃ info, infos[i]? = some info ∧ info.returnType = ty (k + i) ∧
          info.prevStates.Perm (m.map Prod.fst) := by
  induction maps generalizing k with
  | nil => exact ⟨[], rfl, rfl, by simp⟩
  | cons m maps ih =>
    obtain ⟨h1, h2⟩ := h 0 m rfl
    have hp := o.perm [0, k] m
    have e1 := stateInfo_spec (L := L) (t := ty k) (l := o.ord [0, k] m)
      (fun e => h1 (by rw [e] at hp; exact hp.symm.eq_nil))
      (fun p hp' => h2 p (hp.mem_iff.mp hp'))
    obtain ⟨infos, e2, hlen, h3⟩ := ih (k + 1) fun i m hm => by
      have := h (i + 1) m (by simpa using hm)
      rwa [show k + (i + 1) = k + 1 + i by omega] at this
    refine ⟨⟨(o.ord [0, k] m).map Prod.fst, ty k⟩ :: infos, by simp [StateMap.buildInfos, e1, e2], by simp [hlen], ?_⟩
    intro i m' hm'
    cases i with
    | zero =>
      simp only [List.getElem?_cons_zero, Option.some.injEq] at hm'
      subst hm'
      exact ⟨_, rfl, rfl, hp.map _⟩
    | succ i =>
      rw [List.getElem?_cons_succ] at hm' ⊢
      obtain ⟨info, g1, g2, g3⟩ := h3 i m' hm'
      exact ⟨info, g1, by rw [g2]; congr 1; omega, g3⟩

/-- What the state map says about a state. -/
structure StateMap.Row (ig : IndexedGrammar T L) (table : LRTable) (m : StateMap T) (s : Nat) : Prop where
  ok : ∃ ty ps, (∀ ε : Type, (m.stateType s : Outcome ε _) = .ok ty) ∧
    (∀ ε : Type, (m.backEdges s : Outcome ε _) = .ok ps) ∧ ps.Nodup ∧
    (s = 0 → ty = .root ∧ ps = [0]) ∧
    (s ≠ 0 → ps ≠ [] ∧ (∀ p, p ∈ ps ↔ ∃ t, Edge ig table p t s) ∧ ∀ p t, Edge ig table p t s → t = ty)

/-- Building the state map succeeds, whatever the order of iteration. -/
theorem Built.stateMap (o : HashOrder) (hw : ig.WF) (hF : F.WF ig.labelsCount ig.vocab.size)
    (h : Built ig F kt table) :
    ∃ m, StateMap.build o ig table = .ok m ∧ m.stateMap.length = table.numStates ∧
      ∀ s < table.numStates, m.Row ig table s := by
  classical
  have hpos := h.pos
  let ty : Nat → StateType T := fun s' =>
    if hx : s' ≠ 0 ∧ s' < table.numStates then
      Classical.choose (Classical.choose_spec (h.edge_exists hw hF hx.2 hx.1)) else .root
  have hty : ∀ s t s', Edge ig table s t s' → t = ty s' := by
    intro s t s' he
    obtain ⟨-, h1, h2⟩ := h.edge_lt he
    have hx : s' ≠ 0 ∧ s' < table.numStates := ⟨by omega, h2⟩
    simp only [ty, dif_pos hx]
    exact h.edge_unique he (Classical.choose_spec (Classical.choose_spec (h.edge_exists hw hF hx.2 hx.1)))
  have hty0 : ty 0 = .root := by simp [ty]
  have hinit : EdgeInv table.numStates ty (fun a b c => a = 0 ∧ b = .root ∧ c = 0)
      ((List.replicate table.numStates []).set 0 [(0, .root)]) := by
    refine ⟨by simp, ?_, ?_, ?_⟩
    · rintro s t s' ⟨-, rfl, rfl⟩; exact hty0.symm
    · intro s' m hm
      rw [List.getElem?_set] at hm
      split at hm
      · rw [if_pos (by simpa using hpos)] at hm
        cases hm; simp
      · have := List.eq_of_mem_replicate (List.mem_of_getElem? hm)
        subst this; simp
    · intro s' m hm a b
      rw [List.getElem?_set] at hm
      split at hm
      · rename_i e
        rw [if_pos (by simpa using hpos)] at hm
        cases hm; simp [← e]
      · rename_i e
        have := List.eq_of_mem_replicate (List.mem_of_getElem? hm)
        subst this
        simp only [List.not_mem_nil, false_iff]
        rintro ⟨-, -, rfl⟩
        exact e rfl
  obtain ⟨maps, e1, i1⟩ := addStates_spec h hty table.states (by simp [LRTable.states]) hinit
  have hmem : ∀ (s' : Nat) m, maps[s']? = some m → ∀ a b, (a, b) ∈ m ↔
      (a = 0 ∧ b = .root ∧ s' = 0) ∨ Edge ig table a b s' := by
    intro s' m hm a b
    rw [i1.mem s' m hm]
    refine or_congr_right ⟨fun h => h.2, fun he => ⟨?_, he⟩⟩
    simpa [LRTable.states] using (h.edge_lt he).1
  obtain ⟨infos, e2, hlen, h2⟩ := buildInfos_spec (L := L) o (ty := ty) maps 0 (by
    intro i m hm
    constructor
    · have hi : i < table.numStates := by rw [← i1.len]; exact (List.getElem?_eq_some_iff.mp hm).1
      by_cases h0 : i = 0
      · subst h0
        exact List.ne_nil_of_mem ((hmem 0 m hm 0 .root).mpr (.inl ⟨rfl, rfl, rfl⟩))
      · obtain ⟨s, t, he⟩ := h.edge_exists hw hF hi h0
        exact List.ne_nil_of_mem ((hmem i m hm s t).mpr (.inr he))
    · rintro ⟨a, b⟩ hp
      rw [Nat.zero_add]
      exact i1.label _ _ _ ((i1.mem i m hm a b).mp hp))
  refine ⟨⟨infos⟩, ?_, by rw [hlen, i1.len], ?_⟩
  · unfold StateMap.build
    have : (table.numStates != 0) = true := by simp; omega
    simp only [this, Outcome.assert_true, Outcome.ok_bind, LRTable.rootState, e1, i1.len,
      beq_self_eq_true, e2, Outcome.pure_eq]
  · intro s hs
    have hlt : s < maps.length := by rw [i1.len]; exact hs
    have hm := List.getElem?_eq_getElem hlt
    obtain ⟨info, g1, g2, g3⟩ := h2 s _ hm
    have hidx : ∀ ε : Type, (Outcome.index infos s : Outcome ε _) = .ok info := fun ε => by
      rw [Outcome.index_eq_ok]; exact g1
    rw [Nat.zero_add] at g2
    have hps : ∀ p, p ∈ info.prevStates ↔ (p = 0 ∧ s = 0) ∨ ∃ t, Edge ig table p t s := by
      intro p
      rw [g3.mem_iff, List.mem_map]
      constructor
      · rintro ⟨⟨a, b⟩, h3, rfl⟩
        rcases (hmem s _ hm a b).mp h3 with ⟨h4, -, h5⟩ | h4
        · exact .inl ⟨h4, h5⟩
        · exact .inr ⟨b, h4⟩
      · rintro (⟨rfl, rfl⟩ | ⟨t, h4⟩)
        · exact ⟨(0, .root), (hmem _ _ hm 0 .root).mpr (.inl ⟨rfl, rfl, rfl⟩), rfl⟩
        · exact ⟨(p, t), (hmem s _ hm p t).mpr (.inr h4), rfl⟩
    have hnd : info.prevStates.Nodup := g3.nodup_iff.mpr (i1.nodup s _ hm)
    refine ⟨info.returnType, info.prevStates, fun ε => by simp [StateMap.stateType, hidx],
      fun ε => by simp [StateMap.backEdges, hidx], hnd, ?_, ?_⟩
    · rintro rfl
      refine ⟨g2.trans hty0, ?_⟩
      have hall : ∀ p ∈ info.prevStates, p = 0 := by
        intro p hp
        rcases (hps p).mp hp with h3 | ⟨t, h3⟩
        · exact h3.1
        · exact absurd (h.edge_lt h3).2.1 (by omega)
      have h0 := (hps 0).mpr (.inl ⟨rfl, rfl⟩)
      match hx : info.prevStates, hnd, hall, h0 with
      | [], _, _, h0 => cases h0
      | [a], _, hall, _ => rw [hall a List.mem_cons_self]
      | a :: b :: l, hnd, hall, _ =>
        have ha := hall a List.mem_cons_self
        have hb := hall b (by simp)
        subst ha; subst hb
        simp at hnd
    · intro h0
      refine ⟨?_, ?_, ?_⟩
      · obtain ⟨p, t, he⟩ := h.edge_exists hw hF hs h0
        exact List.ne_nil_of_mem ((hps p).mpr (.inr ⟨t, he⟩))
      · intro p
        rw [hps]
        exact ⟨fun hx => hx.resolve_left fun hx => h0 hx.2, .inr⟩
      · intro p t he
        rw [g2]; exact hty _ _ _ he

end
end Verif
