import Verif.Proof.Closure

/-!
# The items of a closure and their partition by next node
-/

set_option linter.unusedSectionVars false
set_option autoImplicit false

namespace Verif

namespace Category

/-- The category refers to an existing label or token. -/
def InRange (labels vocab : Nat) : Category → Prop
  | none => True
  | some n => n.InRange labels vocab

theorem ofId_toId {labels vocab : Nat} {c : Category} (h : InRange labels vocab c) :
    ofId vocab (toId vocab c) = c := by
  match c, h with
  | none, _ => simp [toId, ofId]
  | some (.terminal t), h =>
    have h' : Label.id t < vocab := h
    have : Label.id t + 1 ≤ vocab := h'
    simp [toId, ofId, this]
  | some (.production l), _ =>
    have h1 : ¬ (vocab + 1 + l = 0) := by omega
    have h2 : ¬ (vocab + 1 + l ≤ vocab) := by omega
    simp only [toId, ofId, h1, h2, if_false]
    rw [Nat.add_sub_cancel_left]

theorem toId_lt {labels vocab : Nat} {c : Category} (h : InRange labels vocab c) :
    toId vocab c < labels + vocab + 1 := by
  match c, h with
  | none, _ => simp [toId]
  | some (.terminal t), h =>
    have h' : Label.id t < vocab := h
    simp only [toId]; omega
  | some (.production l), h =>
    have h' : l < labels := h
    simp only [toId]; omega

theorem toId_inj {labels vocab : Nat} {c c' : Category} (h : InRange labels vocab c)
    (h' : InRange labels vocab c') (e : toId vocab c = toId vocab c') : c = c' := by
  rw [← ofId_toId h, e, ofId_toId h']

end Category

section
variable {ε T L : Type} [DecidableEq T] [DecidableEq L] {ig : IndexedGrammar T L} {F : FirstTable}

/-- The node after the dot, epsilon skipped. -/
def Position.cat (ig : IndexedGrammar T L) (p : Position) : Category := firstNode (p.tail ig)

theorem Position.OK.cat_inRange (hw : ig.WF) {p : Position} (h : p.OK ig) :
    (p.cat ig).InRange ig.labelsCount ig.vocab.size := by
  unfold Position.cat firstNode
  cases hf : (p.tail ig).find? fun n => !n.isEpsilon with
  | none => trivial
  | some n => exact h.range hw n (List.mem_of_find?_eq_some hf)

namespace Partition

theorem closurePositions_spec (hw : ig.WF) (es : List (Nat × VocabSet))
    (hes : ∀ e ∈ es, e.1 < ig.labelsCount) :
    ∃ ps, (closurePositions ig es : Outcome ε _) = .ok ps ∧
      (∀ p, p ∈ ps ↔ p.position = 0 ∧ ∃ r, ig.rules[p.rule]? = some r ∧
        (r.symbol, p.followSet) ∈ es) ∧
      ((es.map (·.1)).Nodup → (ps.map Position.key).Nodup) := by
  induction es with
  | nil => exact ⟨[], rfl, by simp, by simp⟩
  | cons e es ih =>
    obtain ⟨l, s⟩ := e
    obtain ⟨is, e1, -, hnd, his⟩ := hw.ruleIds_eq (ε := ε) (hes (l, s) List.mem_cons_self)
    obtain ⟨ps, e2, h1, h2⟩ := ih fun e he => hes e (List.mem_cons_of_mem _ he)
    refine ⟨is.map (fun id => ⟨id, 0, s⟩) ++ ps, by simp [closurePositions, e1, e2], ?_, ?_⟩
    · intro p
      rw [List.mem_append, h1, List.mem_map]
      constructor
      · rintro (⟨i, hi, rfl⟩ | ⟨g1, r, g2, g3⟩)
        · obtain ⟨r, hr, hsym⟩ := (his i).mp hi
          exact ⟨rfl, r, hr, by simp [hsym]⟩
        · exact ⟨g1, r, g2, List.mem_cons_of_mem _ g3⟩
      · rintro ⟨g1, r, g2, g3⟩
        rcases List.mem_cons.mp g3 with g3 | g3
        · left
          simp only [Prod.mk.injEq] at g3
          obtain ⟨g3, g4⟩ := g3
          refine ⟨p.rule, (his _).mpr ⟨r, g2, g3⟩, ?_⟩
          cases p; simp_all
        · exact .inr ⟨g1, r, g2, g3⟩
    · intro hk
      rw [List.map_cons, List.nodup_cons] at hk
      rw [List.map_append, List.nodup_append]
      refine ⟨?_, h2 hk.2, ?_⟩
      · rw [List.map_map]
        exact List.Pairwise.map _ (fun a b hab he => hab (by simpa [Position.key] using he)) hnd
      · rintro a ha b hb rfl
        rw [List.map_map, List.mem_map] at ha
        obtain ⟨i, hi, rfl⟩ := ha
        obtain ⟨q, hq, hqe⟩ := List.mem_map.mp hb
        obtain ⟨g1, r, g2, g3⟩ := (h1 q).mp hq
        have hqi : q.rule = i := by
          have := congrArg Prod.fst hqe
          simpa [Position.key] using this
        subst hqi
        obtain ⟨r', hr', hsym⟩ := (his _).mp hi
        rw [g2] at hr'
        simp only [Option.some.injEq] at hr'
        subst hr'
        exact hk.1 (hsym ▸ List.mem_map.mpr ⟨_, g3, rfl⟩)

/-- The items of a closure. -/
structure Items (ig : IndexedGrammar T L) (F : FirstTable) (K : List Position)
    (items : List Position) : Prop where
  ok : ∀ p ∈ items, p.OK ig
  kernel : K <+: items
  mem : ∀ p, p ∈ items → p ∈ K ∨ (p.position = 0 ∧ ∃ r, ig.rules[p.rule]? = some r ∧
    ClosureLabel ig K r.symbol ∧ ∀ t, p.followSet.mem t = true ↔ ClosureTok ig F K r.symbol t)
  label : ∀ l, ClosureLabel ig K l → ∀ i r, ig.rules[i]? = some r → r.symbol = l →
    ∃ p ∈ items, p.rule = i ∧ p.position = 0 ∧ ∀ t, p.followSet.mem t = true ↔ ClosureTok ig F K l t
  added : ∃ ps, items = K ++ ps ∧ (ps.map Position.key).Nodup ∧ ∀ p ∈ ps, p.position = 0 ∧
    ∃ r, ig.rules[p.rule]? = some r ∧ ClosureLabel ig K r.symbol
  again : ∀ l, ClosureLabel ig K l → ∀ i r, ig.rules[i]? = some r → r.symbol = l →
    ∃ p ∈ items.drop K.length, p.rule = i ∧ p.position = 0

theorem closureItems_spec (hw : ig.WF) (hF : F.WF ig.labelsCount ig.vocab.size) (k : Kernel)
    (hk : ∀ p ∈ k.positions, p.OK ig) :
    ∃ items, (closureItems k ig F : Outcome ε _) = .ok items ∧ Items ig F k.positions items := by
  obtain ⟨m, em, hm⟩ := Closure.followSets_spec (ε := ε) hw hF k hk
  obtain ⟨ps, eps, h1, h2⟩ := closurePositions_spec (ε := ε) hw m.iter fun e he => hm.ok.wf.id_lt he
  have hlook : ∀ l s, (l, s) ∈ m.iter ↔ m.lookup l = some s := by
    intro l s
    rw [hm.ok.wf.lookup_eq_some]
    constructor
    · exact fun h => ⟨l, h, rfl⟩
    · rintro ⟨k, h, hid⟩
      have : k = l := hid
      subst this; exact h
  have hin : ∀ l s, m.lookup l = some s → ∀ t, s.mem t = true ↔ ClosureTok ig F k.positions l t := by
    intro l s hs t
    rw [← hm.mem]
    simp [FollowMap.In, hs]
  refine ⟨k.positions ++ ps, by simp [closureItems, em, eps], ?_, List.prefix_append _ _, ?_, ?_,
    ⟨ps, rfl, h2 hm.ok.keys_nodup, fun p hp => ?_⟩, ?_⟩
  · intro p hp
    rcases List.mem_append.mp hp with hp | hp
    · exact hk p hp
    · obtain ⟨g1, r, g2, g3⟩ := (h1 p).mp hp
      rw [hlook] at g3
      exact ⟨(List.getElem?_eq_some_iff.mp g2).1, by omega, hm.ok.sets _ _ g3, hm.noEps hk g3⟩
  · intro p hp
    rcases List.mem_append.mp hp with hp | hp
    · exact .inl hp
    · obtain ⟨g1, r, g2, g3⟩ := (h1 p).mp hp
      rw [hlook] at g3
      exact .inr ⟨g1, r, g2, (hm.has _).mp ⟨_, g3⟩, hin _ _ g3⟩
  · intro l hl i r hr hsym
    obtain ⟨s, hs⟩ := (hm.has l).mpr hl
    refine ⟨⟨i, 0, s⟩, List.mem_append_right _ ((h1 _).mpr ⟨rfl, r, hr, ?_⟩), rfl, rfl, hin l s hs⟩
    rw [hlook, hsym]; exact hs
  · obtain ⟨g1, r, g2, g3⟩ := (h1 p).mp hp
    rw [hlook] at g3
    exact ⟨g1, r, g2, (hm.has _).mp ⟨_, g3⟩⟩
  · intro l hl i r hr hsym
    obtain ⟨s, hs⟩ := (hm.has l).mpr hl
    rw [List.drop_left]
    refine ⟨⟨i, 0, s⟩, (h1 _).mpr ⟨rfl, r, hr, ?_⟩, rfl, rfl⟩
    rw [hlook, hsym]; exact hs

theorem group_spec (hw : ig.WF) (items : List Position) (hi : ∀ p ∈ items, p.OK ig)
    {m : PartitionMap} (hm : m.WF (ig.labelsCount + ig.vocab.size + 1)) :
    ∃ m', (group ig items m : Outcome ε _) = .ok m' ∧
      m'.WF (ig.labelsCount + ig.vocab.size + 1) ∧
      (∀ i, (m'.lookup i).getD [] = (m.lookup i).getD [] ++
        items.filter fun p => (p.cat ig).toId ig.vocab.size == i) ∧
      (∀ i, m'.lookup i = none ↔ m.lookup i = none ∧
        ∀ p ∈ items, (p.cat ig).toId ig.vocab.size ≠ i) ∧
      m.map.map (·.1) <+: m'.map.map (·.1) ∧
      (m.map = [] → (m'.map.map (·.1)).head? =
        items.head?.map fun p => (p.cat ig).toId ig.vocab.size) := by
  induction items generalizing m with
  | nil => exact ⟨m, rfl, hm, by simp, by simp, List.prefix_rfl, by simp⟩
  | cons p ps ih =>
    have hp := hi p List.mem_cons_self
    obtain ⟨m1, ins, e1, hm1, hlook, hins, -, hkeys⟩ := hm.modifyOrInsert_eq (ε := ε)
      (k := (p.cat ig).toId ig.vocab.size) (Category.toId_lt (hp.cat_inRange hw)) [] fun l => l ++ [p]
    have hlook' : ∀ i, m1.lookup i = if i = (p.cat ig).toId ig.vocab.size then
      some ((m.lookup ((p.cat ig).toId ig.vocab.size)).getD [] ++ [p]) else m.lookup i := hlook
    obtain ⟨m', e', h1, h2, h3, h4, h5⟩ := ih (fun q hq => hi q (List.mem_cons_of_mem _ hq)) hm1
    have hpre : m.map.map (·.1) <+: m1.map.map (·.1) := by
      rw [hkeys]; cases ins <;> simp
    refine ⟨m', ?_, h1, ?_, ?_, hpre.trans h4, ?_⟩
    · simp only [group, hp.nextNode_eq, Outcome.ok_bind]
      show ((m.modifyOrInsert ((p.cat ig).toId ig.vocab.size) [] fun l => l ++ [p]) >>= _) = _
      rw [e1]; exact e'
    · intro i
      rw [h2, hlook', List.filter_cons]
      by_cases hi' : i = (p.cat ig).toId ig.vocab.size
      · subst hi'; simp
      · have : ((p.cat ig).toId ig.vocab.size == i) = false := by simpa using Ne.symm hi'
        simp [hi', this]
    · intro i
      rw [h3, hlook']
      by_cases hi' : i = (p.cat ig).toId ig.vocab.size
      · subst hi'; simp
      · simp [hi', Ne.symm hi']
    · intro hnil
      have hmn : m.lookup ((p.cat ig).toId ig.vocab.size) = none := by
        rw [SparseMap.lookup_eq_none, hnil]; simp
      have hi1 : ins = true := hins.mpr hmn
      rw [hi1, hnil] at hkeys
      obtain ⟨rest, hrest⟩ := h4
      rw [← hrest, hkeys]
      rfl

/-- The groups of a partition. -/
structure Groups (ig : IndexedGrammar T L) (items : List Position)
    (groups : List (Category × List Position)) : Prop where
  eq : ∀ c ps, (c, ps) ∈ groups → ps = items.filter fun p => p.cat ig == c
  nonempty : ∀ c ps, (c, ps) ∈ groups → ps ≠ []
  cover : ∀ p ∈ items, ∃ ps, (p.cat ig, ps) ∈ groups
  nodup : (groups.map (·.1)).Nodup
  head : (groups.head?).map (·.1) = items.head?.map fun p => p.cat ig

theorem partitionClosure_spec (hw : ig.WF) (hF : F.WF ig.labelsCount ig.vocab.size) (k : Kernel)
    (hk : ∀ p ∈ k.positions, p.OK ig) :
    ∃ items groups, (closureItems k ig F : Outcome ε _) = .ok items ∧
      (partitionClosure k ig F : Outcome ε _) = .ok groups ∧
      Items ig F k.positions items ∧ Groups ig items groups := by
  obtain ⟨items, e1, hit⟩ := closureItems_spec (ε := ε) hw hF k hk
  obtain ⟨m, e2, h1, h2, h3, -, h5⟩ := group_spec (ε := ε) hw items hit.ok
    (SparseMap.new_WF (V := List Position) (L := Nat) (ig.labelsCount + ig.vocab.size + 1))
  have hnone : ∀ i, (SparseMap.new (L := Nat) (V := List Position)
    (ig.labelsCount + ig.vocab.size + 1)).lookup i = none := SparseMap.lookup_new _
  have hlook : ∀ i ps, (i, ps) ∈ m.map ↔ m.lookup i = some ps := by
    intro l s
    rw [h1.lookup_eq_some]
    constructor
    · exact fun h => ⟨l, h, rfl⟩
    · rintro ⟨k, h, hid⟩
      have : k = l := hid
      subst this; exact h
  have hkey : ∀ i ps, (i, ps) ∈ m.map →
      (∃ p ∈ items, (p.cat ig).toId ig.vocab.size = i) ∧
      ps = items.filter fun p => (p.cat ig).toId ig.vocab.size == i := by
    intro i ps he
    have hl := (hlook i ps).mp he
    have hg := h2 i
    rw [hl, hnone] at hg
    constructor
    · by_contra hno
      have : m.lookup i = none := (h3 i).mpr ⟨hnone i, fun p hp hc => hno ⟨p, hp, hc⟩⟩
      rw [hl] at this; cases this
    · simpa using hg
  refine ⟨items, m.iter.map fun (id, ps) => (Category.ofId ig.vocab.size id, ps), e1,
    by simp [partitionClosure, e1, e2], hit, ?_, ?_, ?_, ?_, ?_⟩
  · intro c ps h
    obtain ⟨⟨i, ps'⟩, he, heq⟩ := List.mem_map.mp h
    simp only [Prod.mk.injEq] at heq
    obtain ⟨rfl, rfl⟩ := heq
    obtain ⟨⟨p, hp, hpi⟩, hps⟩ := hkey i ps' he
    rw [hps]
    apply List.filter_congr
    intro q hq
    have hqr := (hit.ok q hq).cat_inRange hw
    have hpr := (hit.ok p hp).cat_inRange hw
    rw [← hpi, Category.ofId_toId hpr]
    by_cases hqp : q.cat ig = p.cat ig
    · simp [hqp]
    · have : (q.cat ig).toId ig.vocab.size ≠ (p.cat ig).toId ig.vocab.size :=
        fun e => hqp (Category.toId_inj hqr hpr e)
      rw [beq_eq_false_iff_ne.mpr hqp, beq_eq_false_iff_ne.mpr this]
  · intro c ps h hnil
    obtain ⟨⟨i, ps'⟩, he, heq⟩ := List.mem_map.mp h
    simp only [Prod.mk.injEq] at heq
    obtain ⟨rfl, rfl⟩ := heq
    obtain ⟨⟨p, hp, hpi⟩, hps⟩ := hkey i ps' he
    rw [hnil] at hps
    have : p ∈ items.filter fun p => (p.cat ig).toId ig.vocab.size == i := by
      rw [List.mem_filter]; exact ⟨hp, by simpa using hpi⟩
    rw [← hps] at this; cases this
  · intro p hp
    cases hl : m.lookup ((p.cat ig).toId ig.vocab.size) with
    | none => exact absurd rfl (((h3 _).mp hl).2 p hp)
    | some ps =>
      refine ⟨ps, List.mem_map.mpr ⟨_, (hlook _ _).mpr hl, ?_⟩⟩
      show (Category.ofId ig.vocab.size _, ps) = _
      rw [Category.ofId_toId ((hit.ok p hp).cat_inRange hw)]
  · rw [List.map_map]
    have hnd := h1.nodup_ids
    rw [List.Nodup, List.pairwise_map] at hnd ⊢
    refine hnd.imp_of_mem ?_
    rintro ⟨i, ps⟩ ⟨j, qs⟩ hi hj hne heq
    obtain ⟨⟨p, hp, hpi⟩, -⟩ := hkey i ps hi
    obtain ⟨⟨q, hq, hqj⟩, -⟩ := hkey j qs hj
    apply hne
    simp only [Function.comp] at heq
    rw [← hpi, ← hqj, Category.ofId_toId ((hit.ok p hp).cat_inRange hw),
      Category.ofId_toId ((hit.ok q hq).cat_inRange hw)] at heq
    show i = j
    rw [← hpi, ← hqj, heq]
  · have hh := h5 rfl
    rw [List.head?_map] at hh
    show ((m.map.map _).head?).map _ = _
    rw [List.head?_map, Option.map_map]
    cases hm0 : m.map.head? with
    | none =>
      rw [hm0] at hh
      cases hi0 : items.head? with
      | none => rfl
      | some p => rw [hi0] at hh; cases hh
    | some e =>
      rw [hm0] at hh
      cases hi0 : items.head? with
      | none => rw [hi0] at hh; cases hh
      | some p =>
        rw [hi0] at hh
        simp only [Option.map_some, Option.some.injEq, Function.comp] at hh ⊢
        rw [hh, Category.ofId_toId ((hit.ok p (List.mem_of_mem_head? (by rw [hi0]; rfl))).cat_inRange hw)]

end Partition
end
end Verif
