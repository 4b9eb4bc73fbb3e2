import Mathlib.Data.List.Forall2
import Mathlib.Data.List.Nodup
import Verif.Model.IndexedGrammar
import Verif.Proof.Basic
import Verif.Proof.Vocabulary
import Verif.Spec.Grammar

/-!
# Lemmas about indexing a grammar
-/

set_option linter.unusedSectionVars false

namespace Verif

section Enc
variable {T L : Type} [DecidableEq T] [DecidableEq L]

/-- A user token and its id. -/
def EncTok (ids : List T) : AugTok T → AugTokId → Prop
  | .token t, .token i => ids[i]? = some t
  | .epsilon, .epsilon => True
  | .eos, .eos => True
  | _, _ => False

/-- A user node and its indexed form. -/
def EncNode (labels : List L) (ids : List T) : Node T L → INode → Prop
  | .terminal t, .terminal i => EncTok ids t i
  | .production l, .production i => labels[i]? = some l
  | _, _ => False

/-- The vocabulary numbers its tokens. -/
structure Vocab.WF (v : Vocab T) : Prop where
  map : v.tokenMap = v.idMap.zipIdx
  nodup : v.idMap.Nodup

omit [DecidableEq T] in
theorem Vocab.new_WF : (Vocab.new : Vocab T).WF := ⟨rfl, List.nodup_nil⟩

theorem Vocab.WF.tokenToId {v : Vocab T} (h : v.WF) {t : T} {i : Nat} :
    v.tokenToId t = some i ↔ v.idMap[i]? = some t := by
  unfold Vocab.tokenToId; rw [h.map, lookup_zipIdx_zero h.nodup]

theorem Vocab.WF.getIdOrInsert {v : Vocab T} (h : v.WF) (t : AugTok T) :
    (v.getIdOrInsert t).1.WF ∧ v.idMap <+: (v.getIdOrInsert t).1.idMap ∧
      EncTok (v.getIdOrInsert t).1.idMap t (v.getIdOrInsert t).2 := by
  cases t with
  | epsilon => exact ⟨h, List.prefix_rfl, trivial⟩
  | eos => exact ⟨h, List.prefix_rfl, trivial⟩
  | token t =>
    unfold Vocab.getIdOrInsert
    simp only
    cases hl : v.tokenMap.lookup t with
    | some i =>
      simp only
      rw [h.map, lookup_zipIdx_zero h.nodup] at hl
      exact ⟨h, List.prefix_rfl, hl⟩
    | none =>
      simp only
      have hlen : v.tokenMap.length = v.idMap.length := by rw [h.map]; simp
      rw [h.map, lookup_zipIdx_none] at hl
      refine ⟨⟨?_, ?_⟩, List.prefix_append _ _, ?_⟩
      · simp only; rw [zipIdx_snoc, hlen, h.map]
      · simp only
        rw [List.nodup_append]
        refine ⟨h.nodup, by simp, ?_⟩
        rintro a ha b hb rfl
        simp only [List.mem_singleton] at hb
        subst hb; exact hl ha
      · simp [EncTok, hlen]

theorem EncTok.mono {ids ids' : List T} (h : ids <+: ids') {t : AugTok T} {i : AugTokId}
    (he : EncTok ids t i) : EncTok ids' t i := by
  cases t <;> cases i <;> try exact he
  simp only [EncTok] at he ⊢
  obtain ⟨s, rfl⟩ := h
  have : _ < ids.length := (List.getElem?_eq_some_iff.mp he).1
  rw [List.getElem?_append_left this]; exact he

theorem EncNode.mono {labels : List L} {ids ids' : List T} (h : ids <+: ids') {n : Node T L}
    {i : INode} (he : EncNode labels ids n i) : EncNode labels ids' n i := by
  cases n <;> cases i <;> try exact he
  exact EncTok.mono h he

/-- Encodings are one-to-one. -/
theorem EncTok.inj {ids : List T} (hi : ids.Nodup) {t : AugTok T} {i j : AugTokId}
    (h1 : EncTok ids t i) (h2 : EncTok ids t j) : i = j := by
  cases t <;> cases i <;> cases j <;> simp_all [EncTok]
  exact getElem?_inj_of_nodup hi h1 h2

omit [DecidableEq T] in
theorem EncTok.inj' {ids : List T} {t u : AugTok T} {i : AugTokId}
    (h1 : EncTok ids t i) (h2 : EncTok ids u i) : t = u := by
  cases t <;> cases u <;> cases i <;> simp_all [EncTok]

theorem EncTok.id_lt {v : Vocab T} {t : AugTok T} {i : AugTokId} (h : EncTok v.idMap t i) :
    Label.id i < v.size := by
  cases t <;> cases i <;> simp_all [EncTok, Label.id, Vocab.size]
  exact (List.getElem?_eq_some_iff.mp h).1

theorem EncNode.isEpsilon {labels : List L} {ids : List T} {n : Node T L} {i : INode}
    (h : EncNode labels ids n i) : n.isEpsilon = i.isEpsilon := by
  cases n with
  | terminal t =>
    cases i with
    | terminal i => cases t <;> cases i <;> simp_all [EncNode, EncTok, Node.isEpsilon]
    | production i => simp [EncNode] at h
  | production l =>
    cases i with
    | terminal i => simp [EncNode] at h
    | production i => rfl

end Enc

namespace IndexedGrammar
variable {T L : Type} [DecidableEq T] [DecidableEq L]

/-! ### Grouping -/

/-- The labels of the groups. -/
def Groups.labels (st : Groups T L) : List L := st.groups.map (·.origLabel)

/-- Invariant of the grouping loop after the numbered productions `ps`. -/
structure Groups.Inv (st : Groups T L) (ps : List (Rule T L × Nat)) : Prop where
  map : st.labelMap = st.labels.zipIdx
  nodup : st.labels.Nodup
  rules : ∀ g ∈ st.groups, g.rules = ps.filter fun p => p.1.symbol = g.origLabel
  covered : ∀ p ∈ ps, p.1.symbol ∈ st.labels
  nonempty : ∀ g ∈ st.groups, g.rules ≠ []
  /-- labels are numbered in the order in which they appear -/
  first : ∀ (i j : Nat) (l l' : L), st.labels[i]? = some l → st.labels[j]? = some l' → i < j →
    ∀ pre q post, ps = pre ++ q :: post → q.1.symbol = l' → ∃ p ∈ pre, p.1.symbol = l

/-- The groups before the loop. -/
theorem Groups.Inv.init (root : Rule T L) :
    Groups.Inv ⟨[(root.symbol, rootLabel)], [⟨root.symbol, [(root, 0)]⟩]⟩ [(root, 0)] := by
  refine ⟨rfl, by simp [Groups.labels], by simp, by simp [Groups.labels], by simp, ?_⟩
  intro i j l l' hi hj hij
  have := (List.getElem?_eq_some_iff.mp hj).1
  simp [Groups.labels] at this
  omega

/-- Every label is the label of a production. -/
theorem Groups.Inv.production {st : Groups T L} {ps : List (Rule T L × Nat)} (h : st.Inv ps) {l : L}
    (hl : l ∈ st.labels) : ∃ p ∈ ps, p.1.symbol = l := by
  simp only [Groups.labels, List.mem_map] at hl
  obtain ⟨g, hg, rfl⟩ := hl
  obtain ⟨p, hp⟩ := List.exists_mem_of_ne_nil _ (h.nonempty g hg)
  rw [h.rules g hg, List.mem_filter] at hp
  exact ⟨p, hp.1, by simpa using hp.2⟩

omit [DecidableEq T] [DecidableEq L] in
/-- Where a production can be after another one was added. -/
theorem snoc_split {ps pre post : List (Rule T L × Nat)} {q x : Rule T L × Nat}
    (h : ps ++ [x] = pre ++ q :: post) : (pre = ps ∧ q = x) ∨ ∃ post', ps = pre ++ q :: post' := by
  rcases List.eq_nil_or_concat post with rfl | ⟨post', y, rfl⟩
  · have := List.append_inj' h (by simp)
    simp only [List.cons.injEq, and_true] at this
    exact .inl ⟨this.1.symm, this.2.symm⟩
  · rw [List.concat_eq_append, ← List.cons_append, ← List.append_assoc] at h
    exact .inr ⟨post', (List.append_inj' h (by simp)).1⟩

theorem addProduction_spec {st : Groups T L} {ps : List (Rule T L × Nat)} (h : st.Inv ps)
    (r : Rule T L) (n : Nat) :
    ∃ st', addProduction st r n = .ok st' ∧ st'.Inv (ps ++ [(r, n)]) ∧
      st.labels <+: st'.labels := by
  unfold addProduction
  have hlen : st.labelMap.length = st.groups.length := by rw [h.map]; simp [Groups.labels]
  cases hl : st.labelMap.lookup r.symbol with
  | none =>
    rw [h.map, lookup_zipIdx_none] at hl
    refine ⟨⟨st.labelMap ++ [(r.symbol, st.labelMap.length)], st.groups ++ [⟨r.symbol, [(r, n)]⟩]⟩,
      by simp [hlen], ?_, by simp [Groups.labels]⟩
    have hnone : ∀ p ∈ ps, p.1.symbol ≠ r.symbol := fun p hp e => hl (e ▸ h.covered p hp)
    refine ⟨?_, ?_, ?_, ?_, ?_, ?_⟩
    rotate_left 5
    · intro i j l l' hi hj hij pre q post hps hq
      simp only [Groups.labels, List.map_append, List.map_cons, List.map_nil] at hi hj
      have hj' := (List.getElem?_eq_some_iff.mp hj).1
      simp only [List.length_append, List.length_singleton] at hj'
      rw [List.getElem?_append_left (by omega)] at hi
      rcases snoc_split hps with ⟨rfl, rfl⟩ | ⟨post', hps⟩
      · exact h.production (List.mem_of_getElem? hi)
      · rcases Nat.lt_or_ge j (st.groups.map (·.origLabel)).length with hlt | hge
        · rw [List.getElem?_append_left hlt] at hj
          exact h.first i j l l' hi hj hij pre q post' hps hq
        · rw [List.getElem?_append_right hge] at hj
          have : l' = r.symbol := by
            have := List.mem_of_getElem? hj
            simpa using this
          exact absurd (hq.trans this) (hnone q (by rw [hps]; simp))
    · simp only [Groups.labels, List.map_append, List.map_cons, List.map_nil]
      rw [zipIdx_snoc, h.map]
      simp [Groups.labels]
    · simp only [Groups.labels, List.map_append, List.map_cons, List.map_nil]
      rw [List.nodup_append]
      refine ⟨h.nodup, by simp, ?_⟩
      rintro a ha b hb rfl
      simp only [List.mem_singleton] at hb
      subst hb; exact hl ha
    · intro g hg
      simp only [List.mem_append, List.mem_singleton] at hg
      rcases hg with hg | rfl
      · have hne : r.symbol ≠ g.origLabel := fun e => hl (e ▸ List.mem_map_of_mem hg)
        rw [List.filter_append, ← h.rules g hg]
        simp [hne]
      · rw [List.filter_append, List.filter_eq_nil_iff.mpr (by simpa using fun a b hp => hnone _ hp)]
        simp
    · intro p hp
      simp only [List.mem_append, List.mem_singleton] at hp
      simp only [Groups.labels, List.map_append, List.map_cons, List.map_nil, List.mem_append,
        List.mem_singleton]
      rcases hp with hp | rfl
      · exact .inl (h.covered p hp)
      · exact .inr rfl
    · intro g hg
      simp only [List.mem_append, List.mem_singleton] at hg
      rcases hg with hg | rfl
      · exact h.nonempty g hg
      · simp
  | some i =>
    rw [h.map, lookup_zipIdx_zero h.nodup] at hl
    obtain ⟨hi, hie⟩ := List.getElem?_eq_some_iff.mp hl
    have hi' : i < st.groups.length := by simpa [Groups.labels] using hi
    have hlab : st.groups[i].origLabel = r.symbol := by simpa [Groups.labels] using hie
    let g' : LabelGroup T L := { st.groups[i] with rules := st.groups[i].rules ++ [(r, n)] }
    let st' : Groups T L := { st with groups := st.groups.set i g' }
    have hlabels : st'.labels = st.labels := by
      apply List.ext_getElem?
      intro j
      simp only [Groups.labels, st', List.getElem?_map, List.getElem?_set]
      split
      · rename_i e; subst e
        simp [hi', g']
      · rfl
    refine ⟨st', by simp [Outcome.index_of_lt hi', st', g'], ?_, by rw [hlabels]⟩
    refine ⟨by rw [hlabels]; exact h.map, by rw [hlabels]; exact h.nodup, ?_, ?_, ?_, ?_⟩
    rotate_left 3
    · intro i j l l' hi hj hij pre q post hps hq
      rw [hlabels] at hi hj
      rcases snoc_split hps with ⟨rfl, rfl⟩ | ⟨post', hps⟩
      · exact h.production (List.mem_of_getElem? hi)
      · exact h.first i j l l' hi hj hij pre q post' hps hq
    · intro g hg
      rw [List.filter_append]
      obtain ⟨j, hj⟩ := List.mem_iff_getElem?.mp hg
      simp only [st', List.getElem?_set] at hj
      split at hj
      · rename_i e
        rw [Option.some.injEq] at hj
        subst hj
        have := h.rules _ (List.getElem_mem hi')
        rw [hlab] at this
        simp [g', this, hlab]
      · rename_i e
        have hmem := List.mem_of_getElem? hj
        have hne : r.symbol ≠ g.origLabel := by
          intro e'
          apply e
          refine getElem?_inj_of_nodup h.nodup hl (j := j) ?_
          simp [Groups.labels, hj, e']
        rw [h.rules g hmem]
        simp [hne]
    · intro p hp
      rw [hlabels]
      simp only [List.mem_append, List.mem_singleton] at hp
      rcases hp with hp | rfl
      · exact h.covered p hp
      · exact List.mem_of_getElem? hl
    · intro g hg
      obtain ⟨j, hj⟩ := List.mem_iff_getElem?.mp hg
      simp only [st', List.getElem?_set] at hj
      split at hj
      · rw [Option.some.injEq] at hj
        subst hj
        simp [g']
      · exact h.nonempty g (List.mem_of_getElem? hj)

omit [DecidableEq T] in
theorem references_iff {l : L} {nodes : List (Node T L)} :
    references l nodes = true ↔ .production l ∈ nodes := by
  unfold references
  rw [List.any_eq_true]
  constructor
  · rintro ⟨n, hn, h⟩
    cases n with
    | terminal t => simp at h
    | production l' => simp at h; subst h; exact hn
  · intro h; exact ⟨_, h, by simp⟩

/-- The checks on a production other than the first. -/
def RestOK (root : L) (r : Rule T L) : Prop := r.symbol ≠ root ∧ .production root ∉ r.rule

theorem groupLoop_spec (root : L) (rest : List (Rule T L)) (n : Nat) {st : Groups T L}
    {ps : List (Rule T L × Nat)} (h : st.Inv ps) :
    (∃ st', groupLoop root n rest st = .ok st' ∧ st'.Inv (ps ++ rest.zipIdx n) ∧
      st.labels <+: st'.labels ∧ ∀ r ∈ rest, RestOK root r) ∨
    (∃ pre p post, rest = pre ++ p :: post ∧ (∀ r ∈ pre, RestOK root r) ∧
      ((p.symbol = root ∧ groupLoop root n rest st = .err .rootProductionRepeated) ∨
       (p.symbol ≠ root ∧ .production root ∈ p.rule ∧
        groupLoop root n rest st = .err .rootProductionReferenced))) := by
  induction rest generalizing n st ps with
  | nil => exact .inl ⟨st, rfl, by simpa using h, List.prefix_rfl, by simp⟩
  | cons r rest ih =>
    by_cases h1 : r.symbol = root
    · refine .inr ⟨[], r, rest, rfl, by simp, .inl ⟨h1, ?_⟩⟩
      simp [groupLoop, h1]
    · by_cases h2 : references root r.rule = true
      · refine .inr ⟨[], r, rest, rfl, by simp, .inr ⟨h1, references_iff.mp h2, ?_⟩⟩
        simp [groupLoop, h1, h2]
      · obtain ⟨st1, hst1, hinv, hpre⟩ := addProduction_spec h r n
        have hr : RestOK root r := ⟨h1, fun hm => h2 (references_iff.mpr hm)⟩
        have hstep : groupLoop root n (r :: rest) st = groupLoop root (n + 1) rest st1 := by
          simp [groupLoop, h1, h2, hst1]
        rw [hstep]
        rcases ih (n + 1) hinv with ⟨st', e, hi, hp, ho⟩ | ⟨pre, p, post, e, ho, hd⟩
        · refine .inl ⟨st', e, ?_, hpre.trans hp, ?_⟩
          · simpa using hi
          · intro q hq
            rcases List.mem_cons.mp hq with rfl | hq
            · exact hr
            · exact ho q hq
        · refine .inr ⟨r :: pre, p, post, by simp [e], ?_, hd⟩
          intro q hq
          rcases List.mem_cons.mp hq with rfl | hq
          · exact hr
          · exact ho q hq

/-! ### Indexing nodes -/

theorem indexNodes_spec {labels : List L} (hl : labels.Nodup) (nodes : List (Node T L)) {v : Vocab T}
    (hv : v.WF) :
    (∃ ns v', indexNodes labels.zipIdx nodes v = .ok (ns, v') ∧ v'.WF ∧ v.idMap <+: v'.idMap ∧
      List.Forall₂ (EncNode labels v'.idMap) nodes ns ∧ ∀ l, .production l ∈ nodes → l ∈ labels) ∨
    (∃ l, .production l ∈ nodes ∧ l ∉ labels ∧
      indexNodes labels.zipIdx nodes v = .err (.unrecognizedLabel l)) := by
  induction nodes generalizing v with
  | nil => exact .inl ⟨[], v, rfl, hv, List.prefix_rfl, .nil, by simp⟩
  | cons n nodes ih =>
    cases n with
    | production l =>
      cases hlook : labels.zipIdx.lookup l with
      | none =>
        refine .inr ⟨l, by simp, lookup_zipIdx_none.mp hlook, ?_⟩
        simp [indexNodes, hlook]
      | some i =>
        rcases ih hv with ⟨ns, v', e, hv', hpre, hf, hin⟩ | ⟨l', h1, h2, e⟩
        · have hi := (lookup_zipIdx_zero hl).mp hlook
          refine .inl ⟨.production i :: ns, v', by simp [indexNodes, hlook, e], hv', hpre,
            .cons hi hf, ?_⟩
          intro l' hl'
          simp only [List.mem_cons, Node.production.injEq] at hl'
          rcases hl' with rfl | hl'
          · exact List.mem_of_getElem? hi
          · exact hin l' hl'
        · exact .inr ⟨l', by simp [h1], h2, by simp [indexNodes, hlook, e]⟩
    | terminal t =>
      obtain ⟨hv1, hpre1, henc⟩ := hv.getIdOrInsert t
      rcases ih hv1 with ⟨ns, v', e, hv', hpre, hf, hin⟩ | ⟨l', h1, h2, e⟩
      · refine .inl ⟨.terminal (v.getIdOrInsert t).2 :: ns, v', by simp [indexNodes, e], hv',
          hpre1.trans hpre, .cons (EncTok.mono hpre henc) hf, ?_⟩
        intro l' hl'
        simp at hl'
        exact hin l' hl'
      · exact .inr ⟨l', by simp [h1], h2, by simp [indexNodes, e]⟩

/-- An indexed rule and the production it comes from. -/
structure EncRule (labels : List L) (ids : List T) (label : Nat) (p : Rule T L × Nat) (r : IRule) :
    Prop where
  symbol : r.symbol = label
  index : r.originalIndex = p.2
  nodes : List.Forall₂ (EncNode labels ids) p.1.rule r.nodes

theorem EncRule.mono {labels : List L} {ids ids' : List T} (h : ids <+: ids') {label : Nat}
    {p : Rule T L × Nat} {r : IRule} (he : EncRule labels ids label p r) :
    EncRule labels ids' label p r :=
  ⟨he.symbol, he.index, he.nodes.imp fun _ _ => EncNode.mono h⟩

theorem indexGroup_spec {labels : List L} (hl : labels.Nodup) (label : Nat)
    (rs : List (Rule T L × Nat)) {v : Vocab T} (hv : v.WF) :
    (∃ out v', indexGroup labels.zipIdx label rs v = .ok (out, v') ∧ v'.WF ∧ v.idMap <+: v'.idMap ∧
      List.Forall₂ (EncRule labels v'.idMap label) rs out ∧
      ∀ p ∈ rs, ∀ l, .production l ∈ p.1.rule → l ∈ labels) ∨
    (∃ p ∈ rs, ∃ l, .production l ∈ p.1.rule ∧ l ∉ labels ∧
      indexGroup labels.zipIdx label rs v = .err (.unrecognizedLabel l)) := by
  induction rs generalizing v with
  | nil => exact .inl ⟨[], v, rfl, hv, List.prefix_rfl, .nil, by simp⟩
  | cons p rs ih =>
    obtain ⟨p, idx⟩ := p
    rcases indexNodes_spec hl p.rule hv with ⟨ns, v1, e1, hv1, hpre1, hf1, hin1⟩ | ⟨l, h1, h2, e⟩
    · rcases ih hv1 with ⟨out, v', e, hv', hpre, hf, hin⟩ | ⟨q, hq, l, h1, h2, e⟩
      · refine .inl ⟨⟨⟨label, ns⟩, idx⟩ :: out, v', by simp [indexGroup, e1, e], hv',
          hpre1.trans hpre, .cons ⟨rfl, rfl, hf1.imp fun _ _ => EncNode.mono hpre⟩ hf, ?_⟩
        intro q hq
        rcases List.mem_cons.mp hq with rfl | hq
        · exact hin1
        · exact hin q hq
      · exact .inr ⟨q, by simp [hq], l, h1, h2, by simp [indexGroup, e1, e]⟩
    · exact .inr ⟨(p, idx), by simp, l, h1, h2, by simp [indexGroup, e]⟩

/-- All productions in group order, with the number of their group. -/
def flat (k : Nat) : List (LabelGroup T L) → List (Nat × Rule T L × Nat)
  | [] => []
  | g :: gs => g.rules.map (fun p => (k, p)) ++ flat (k + 1) gs

theorem indexGroups_spec {labels : List L} (hl : labels.Nodup) (k : Nat)
    (gs : List (LabelGroup T L)) {v : Vocab T} (hv : v.WF) :
    (∃ out v', indexGroups labels.zipIdx k gs v = .ok (out, v') ∧ v'.WF ∧ v.idMap <+: v'.idMap ∧
      List.Forall₂ (fun x r => EncRule labels v'.idMap x.1 x.2 r) (flat k gs) out ∧
      ∀ g ∈ gs, ∀ p ∈ g.rules, ∀ l, .production l ∈ p.1.rule → l ∈ labels) ∨
    (∃ g ∈ gs, ∃ p ∈ g.rules, ∃ l, .production l ∈ p.1.rule ∧ l ∉ labels ∧
      indexGroups labels.zipIdx k gs v = .err (.unrecognizedLabel l)) := by
  induction gs generalizing v k with
  | nil => exact .inl ⟨[], v, rfl, hv, List.prefix_rfl, .nil, by simp⟩
  | cons g gs ih =>
    rcases indexGroup_spec hl k g.rules hv with
      ⟨rs, v1, e1, hv1, hpre1, hf1, hin1⟩ | ⟨p, hp, l, h1, h2, e⟩
    · rcases ih (k + 1) hv1 with ⟨out, v', e, hv', hpre, hf, hin⟩ | ⟨q, hq, p, hp, l, h1, h2, e⟩
      · refine .inl ⟨rs ++ out, v', by simp [indexGroups, e1, e], hv', hpre1.trans hpre, ?_, ?_⟩
        · refine List.rel_append ?_ hf
          rw [List.forall₂_map_left_iff]
          exact hf1.imp fun _ _ => EncRule.mono hpre
        · intro q hq
          rcases List.mem_cons.mp hq with rfl | hq
          · exact hin1
          · exact hin q hq
      · exact .inr ⟨q, by simp [hq], p, hp, l, h1, h2, by simp [indexGroups, e1, e]⟩
    · exact .inr ⟨g, by simp, p, hp, l, h1, h2, by simp [indexGroups, e]⟩

/-! ### Metadata -/

omit [DecidableEq T] [DecidableEq L] in
theorem metadata_labels (n : Nat) (gs : List (LabelGroup T L)) :
    (metadata n gs).map (·.originalLabel) = gs.map (·.origLabel) := by
  induction gs generalizing n with
  | nil => rfl
  | cons g gs ih => simp [metadata, ih]

omit [DecidableEq T] [DecidableEq L] in
theorem metadata_length (n : Nat) (gs : List (LabelGroup T L)) :
    (metadata n gs).length = gs.length := by
  induction gs generalizing n with
  | nil => rfl
  | cons g gs ih => simp [metadata, ih]

omit [DecidableEq T] [DecidableEq L] in
theorem flat_label_ge {k : Nat} {gs : List (LabelGroup T L)} {x : Nat × Rule T L × Nat}
    (h : x ∈ flat k gs) : k ≤ x.1 ∧ x.1 < k + gs.length := by
  induction gs generalizing k with
  | nil => simp [flat] at h
  | cons g gs ih =>
    simp only [flat, List.mem_append, List.mem_map] at h
    rcases h with ⟨p, -, rfl⟩ | h
    · simp
    · have := ih h; simp; omega

omit [DecidableEq T] [DecidableEq L] in
theorem metadata_spec (k total : Nat) (gs : List (LabelGroup T L)) {i : Nat} {m : RuleMetadata L}
    (hm : (metadata total gs)[i]? = some m) :
    ∃ g, gs[i]? = some g ∧ m.originalLabel = g.origLabel ∧ total ≤ m.startIndex ∧
      m.endIndex = m.startIndex + g.rules.length ∧ m.endIndex ≤ total + (flat k gs).length ∧
      ∀ j x, (flat k gs)[j]? = some x →
        (x.1 = k + i ↔ m.startIndex ≤ total + j ∧ total + j < m.endIndex) := by
  induction gs generalizing k total i with
  | nil => simp [metadata] at hm
  | cons g gs ih =>
    cases i with
    | zero =>
      simp only [metadata, List.getElem?_cons_zero, Option.some.injEq] at hm
      subst hm
      refine ⟨g, by simp, rfl, Nat.le_refl _, rfl, by simp [flat], ?_⟩
      intro j x hx
      simp only [flat] at hx
      simp only [Nat.add_zero]
      by_cases hj : j < g.rules.length
      · rw [List.getElem?_append_left (by simpa using hj)] at hx
        simp only [List.getElem?_map, Option.map_eq_some_iff] at hx
        obtain ⟨p, -, rfl⟩ := hx
        simp; exact hj
      · rw [List.getElem?_append_right (by simpa using hj)] at hx
        have := flat_label_ge (List.mem_of_getElem? hx)
        constructor
        · intro e; omega
        · intro e; omega
    | succ i =>
      simp only [metadata, List.getElem?_cons_succ] at hm
      obtain ⟨g', hg', h1, h2, h3, h4, h5⟩ := ih (k + 1) _ hm
      refine ⟨g', by simpa using hg', h1, by omega, h3, ?_, ?_⟩
      · simp only [flat, List.length_append, List.length_map]; omega
      · intro j x hx
        simp only [flat] at hx
        by_cases hj : j < g.rules.length
        · rw [List.getElem?_append_left (by simpa using hj)] at hx
          simp only [List.getElem?_map, Option.map_eq_some_iff] at hx
          obtain ⟨p, -, rfl⟩ := hx
          constructor
          · intro e; simp only at e; omega
          · intro e; omega
        · rw [List.getElem?_append_right (by simpa using hj)] at hx
          have := h5 _ _ hx
          rw [show k + (i + 1) = k + 1 + i by omega, this]
          simp only [List.length_map]
          constructor <;> intro e <;> omega

end IndexedGrammar
end Verif
