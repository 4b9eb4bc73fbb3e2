import Verif.Proof.Conflict

/-!
# C31 (grouping by next symbol), C33 (kernel identity), C34 (closure lookaheads)
-/

set_option linter.unusedSectionVars false
set_option autoImplicit false

namespace Verif
variable {T L : Type} [DecidableEq T] [DecidableEq L]

/-- The position denotes a place in an existing rule; its lookaheads are tokens of the vocabulary, without
epsilon. -/
structure PositionOf (ig : IndexedGrammar T L) (p : Position) : Prop where
  place : ∃ r, ig.rules[p.rule]? = some r ∧ p.position ≤ r.nodes.length
  follow : p.followSet.WF ig.vocab.size
  noEpsilon : p.followSet.mem .epsilon = false

theorem PositionOf.ok {ig : IndexedGrammar T L} {p : Position} (h : PositionOf ig p) : p.OK ig := by
  obtain ⟨⟨r, hr, hp⟩, h2, h3⟩ := h
  obtain ⟨hlt, e⟩ := List.getElem?_eq_some_iff.mp hr
  exact ⟨hlt, by rw [e]; exact hp, h2, h3⟩

/-- `T -> · nodes` read from the dot of a position. -/
def afterDot (ig : IndexedGrammar T L) (p : Position) : List INode :=
  match ig.rules[p.rule]? with
  | some r => r.nodes.drop p.position
  | none => []

/-- The first node after the dot that is not epsilon. -/
def nextSymbol (ig : IndexedGrammar T L) (p : Position) : Option INode :=
  ((afterDot ig p).filter fun n => n != .terminal .epsilon).head?

theorem nextSymbol_eq (ig : IndexedGrammar T L) (p : Position) : nextSymbol ig p = p.cat ig := by
  unfold nextSymbol Position.cat firstNode
  have : ∀ l : List INode, (l.filter fun n => n != .terminal .epsilon).head? =
      l.find? fun n => !n.isEpsilon := by
    intro l
    rw [List.head?_filter]
    congr 1
    funext n
    cases h : n.isEpsilon with
    | true => rw [isEpsilon_iff.mp h]; rfl
    | false =>
      have : n ≠ .terminal .epsilon := fun e => by rw [e] at h; cases h
      simp [this]
  exact this _

namespace C31

/-- **C31.** The groups of a closure: each is non-empty and consists of the items with one next symbol in
their order; every item's next symbol has a group; no symbol has two. -/
theorem partition_exact (g : Grammar T L) (ig : IndexedGrammar T L) (F : FirstTable) (k : Kernel)
    (hg : IndexedGrammar.build g = .ok ig)
    (hF : (FirstTable.build ig : Outcome (LRTableError T L) _) = .ok F)
    (hk : ∀ p ∈ k.positions, PositionOf ig p) :
    ∃ items groups,
      (Partition.closureItems k ig F : Outcome (LRTableError T L) _) = .ok items ∧
      (Partition.partitionClosure k ig F : Outcome (LRTableError T L) _) = .ok groups ∧
      (∀ c ps, (c, ps) ∈ groups → ps ≠ [] ∧ ps = items.filter fun p => nextSymbol ig p == c) ∧
      (∀ p ∈ items, ∃ ps, (nextSymbol ig p, ps) ∈ groups ∧ p ∈ ps) ∧
      (groups.map (·.1)).Nodup := by
  have henc := (IndexedGrammar.build_ok hg).1
  obtain ⟨F1, hF1, hres⟩ := FirstTable.build_spec (ε := LRTableError T L) henc.wf
  rw [hF] at hF1
  cases hF1
  obtain ⟨items, groups, e1, e2, -, hgr⟩ := Partition.partitionClosure_spec (ε := LRTableError T L)
    henc.wf hres.wf k fun p hp => (hk p hp).ok
  refine ⟨items, groups, e1, e2, ?_, ?_, hgr.nodup⟩
  · intro c ps hps
    refine ⟨hgr.nonempty c ps hps, ?_⟩
    simp only [nextSymbol_eq]
    exact hgr.eq c ps hps
  · intro p hp
    obtain ⟨ps, hps⟩ := hgr.cover p hp
    refine ⟨ps, by rw [nextSymbol_eq]; exact hps, ?_⟩
    rw [hgr.eq _ _ hps, List.mem_filter]
    exact ⟨hp, by simp⟩

/-- **C31, the keys.** The numbers standing for the next symbols are different for different symbols, and
decoding gives the symbol back. -/
theorem category_ids (labels vocab : Nat) (c c' : Category) (h : c.InRange labels vocab)
    (h' : c'.InRange labels vocab) :
    Category.ofId vocab (Category.toId vocab c) = c ∧
    Category.toId vocab c < labels + vocab + 1 ∧
    (Category.toId vocab c = Category.toId vocab c' ↔ c = c') :=
  ⟨Category.ofId_toId h, Category.toId_lt h, Category.toId_inj h h', fun e => by rw [e]⟩

/-- A label, a token and "at end" with different numbers. -/
example : Category.InRange 3 4 (some (.production 2)) ∧ Category.InRange 3 4 (some (.terminal .eos)) ∧
    Category.InRange 3 4 none :=
  ⟨show (2 : Nat) < 3 by decide, show (1 : Nat) < 4 by decide, trivial⟩

/-- The initial kernel of a grammar meets the hypotheses; its closure has three groups. -/
example : ((do
    let ig ← IndexedGrammar.build (⟨[⟨0, [.production 1]⟩, ⟨1, [.production 1, .terminal (.token 7)]⟩,
      ⟨1, [.terminal (.token 8)]⟩, ⟨1, [.terminal .epsilon]⟩]⟩ : Grammar Nat Nat)
    let F ← FirstTable.build ig
    let groups ← Partition.partitionClosure ⟨[⟨0, 0, eosOnly ig.vocab.size⟩]⟩ ig F
    pure (groups.map fun g => (g.1, g.2.map fun p => (p.rule, p.position)))) :
      Outcome (LRTableError Nat Nat) _) =
    .ok [(some (.production 1), [(0, 0), (1, 0)]), (some (.terminal (.token 1)), [(2, 0)]),
      (none, [(3, 0)])] := by decide +kernel

end C31

namespace C33

/-- **C33.** Kernels made of the same items in any order are equal, provided that no dotted rule occurs
twice. -/
theorem kernel_ignores_order (l l' : List Position) (hp : l.Perm l')
    (hk : (l.map fun p => (p.rule, p.position)).Nodup) : Kernel.new l = Kernel.new l' := by
  have h := (Kernel.sortPositions_perm l).trans (hp.trans (Kernel.sortPositions_perm l').symm)
  unfold Kernel.new
  congr 1
  refine Kernel.sorted_unique h (Kernel.sortPositions_sorted l) (Kernel.sortPositions_sorted l') ?_
  exact ((Kernel.sortPositions_perm l).map _).nodup_iff.mpr hk

/-- **C33.** A kernel consists of exactly the given items. -/
theorem kernel_keeps_items (l : List Position) : (Kernel.new l).positions.Perm l :=
  Kernel.sortPositions_perm l

/-- **C33.** Interning: an item set that is already a state gets the id of this state and the table stays
as it is; otherwise it becomes the state with the next free id. -/
theorem interning (t : KernelTable) (ht : t.WF) (k : Kernel) :
    (∀ i, t.getState i = some k → t.getOrInsert k = (t, i)) ∧
    (k ∉ t.states → (t.getOrInsert k).2 = t.states.length ∧
      (t.getOrInsert k).1.states = t.states ++ [k]) ∧
    (t.getOrInsert k).1.getState (t.getOrInsert k).2 = some k ∧ (t.getOrInsert k).1.WF := by
  refine ⟨fun i hi => ht.getOrInsert_of_mem hi, ?_, (ht.getOrInsert k).2.2.1, (ht.getOrInsert k).1⟩
  intro hn
  have hl : t.table.lookup k = none := by rw [ht.table, lookup_zipIdx_none]; exact hn
  have hlen : t.table.length = t.states.length := by rw [ht.table]; simp
  simp [KernelTable.getOrInsert, hl, hlen]

/-- The tables built by the code satisfy the hypothesis: it holds initially and is kept. -/
theorem interning_wf : KernelTable.new.WF := KernelTable.new_WF

/-- **C33.** In the states of an accepted grammar whose root is not recursive no dotted rule occurs twice,
so that `kernel_ignores_order` applies to all of them. -/
theorem states_have_distinct_items (g : Grammar T L) (ig : IndexedGrammar T L) (fuel : Nat)
    (table : LRTable) (kt : KernelTable) (hg : IndexedGrammar.build g = .ok ig)
    (hr : Spec.RootNotRecursive g) (hb : LRTable.buildWithKernels fuel ig = .ok (table, kt))
    (k : Kernel) (hk : k ∈ kt.states) :
    (k.positions.map fun p => (p.rule, p.position)).Nodup := by
  have henc := (IndexedGrammar.build_ok hg).1
  obtain ⟨F, -, hres, hB⟩ := built_of_ok henc.wf hb
  exact (hB.reach k hk).keys_nodup henc.wf hres.wf (henc.rootFree hr)

/-- Three items in two orders. -/
example :
    let l : List Position := [⟨2, 1, eosOnly 5⟩, ⟨0, 1, VocabSet.new 5⟩, ⟨2, 3, eosOnly 5⟩]
    let l' : List Position := [⟨2, 3, eosOnly 5⟩, ⟨2, 1, eosOnly 5⟩, ⟨0, 1, VocabSet.new 5⟩]
    l.Perm l' ∧ (l.map fun p => (p.rule, p.position)).Nodup ∧ l ≠ l' := by decide +kernel

end C33

namespace C34

/-- **C34.** The labels in a closure are those reached through leading nodes, and their follow sets contain
exactly the tokens forced by the LR(1) closure rules (`ClosureLabel`, `ClosureTok`; FIRST as computed). -/
theorem closure_exact (g : Grammar T L) (ig : IndexedGrammar T L) (F : FirstTable) (k : Kernel)
    (hg : IndexedGrammar.build g = .ok ig)
    (hF : (FirstTable.build ig : Outcome (LRTableError T L) _) = .ok F)
    (hk : ∀ p ∈ k.positions, PositionOf ig p) :
    ∃ m : FollowMap, (Closure.followSets k ig F : Outcome (LRTableError T L) _) = .ok m ∧
      (∀ l, l < ig.labelsCount → ∃ o, (m.get l : Outcome (LRTableError T L) _) = .ok o ∧
        (o.isSome = true ↔ ClosureLabel ig k.positions l) ∧
        ∀ s, o = some s → ∀ t, s.mem t = true ↔ ClosureTok ig F k.positions l t) := by
  have henc := (IndexedGrammar.build_ok hg).1
  obtain ⟨F1, hF1, hres⟩ := FirstTable.build_spec (ε := LRTableError T L) henc.wf
  rw [hF] at hF1
  cases hF1
  obtain ⟨m, em, hm⟩ := Closure.followSets_spec (ε := LRTableError T L) henc.wf hres.wf k
    fun p hp => (hk p hp).ok
  refine ⟨m, em, fun l hl => ⟨m.lookup l, hm.ok.wf.get_eq (by simpa [Label.id] using hl), ?_, ?_⟩⟩
  · rw [Option.isSome_iff_exists, ← hm.has]
    exact Iff.rfl
  · intro s hs t
    rw [← hm.mem]
    constructor
    · intro h; exact ⟨s, hs, h⟩
    · rintro ⟨s', hs', h⟩
      rw [hs] at hs'
      cases hs'
      exact h

/-- For the states that can be reached by reading `γ` the closure items are those of the specification of
LR(1) items, with the same lookaheads. -/
theorem closure_is_item_set (g : Grammar T L) (ig : IndexedGrammar T L) (F : FirstTable)
    (hg : IndexedGrammar.build g = .ok ig) (he : Spec.EpsilonLast g)
    (hF : (FirstTable.build ig : Outcome (LRTableError T L) _) = .ok F)
    (γ : List INode) (k : Kernel) (hk : KPath ig F γ k) :
    ∃ items, (Partition.closureItems k ig F : Outcome (LRTableError T L) _) = .ok items ∧
      (∀ i d, (∃ p ∈ items, p.rule = i ∧ p.position = d) ↔ Spec.Valid ig.cfg γ i d) ∧
      (∀ i d t, (∃ p ∈ items, p.rule = i ∧ p.position = d ∧ p.followSet.mem t = true) ↔
        Spec.ValidLook ig.cfg (Spec.seqFirst F.In) γ i d t) := by
  have henc := (IndexedGrammar.build_ok hg).1
  obtain ⟨F1, hF1, hres⟩ := FirstTable.build_spec (ε := LRTableError T L) henc.wf
  rw [hF] at hF1
  cases hF1
  obtain ⟨items, hi⟩ := itemsOf_total henc.wf hres.wf hk.reach
  have hc := hk.closureOf henc.wf hres.wf (henc.epsLast he) hi
  have hfirst : Spec.seqFirst F.In = F.NodesFirst := by
    funext α t; exact propext (nodesFirst_eq F α t).symm
  rw [hfirst]
  refine ⟨items, hi, fun i d => ⟨?_, hc.all i d⟩, fun i d t => ⟨?_, hc.allLook i d t⟩⟩
  · rintro ⟨p, hp, rfl, rfl⟩; exact hc.valid p hp
  · rintro ⟨p, hp, rfl, rfl, ht⟩; exact hc.look p hp t ht

/-- In `S -> A B; A -> a A | !; B -> A b` the closure of the initial kernel has `A` with the lookaheads
`a` and `b`, but not `B`. -/
example : ((do
    let ig ← IndexedGrammar.build (⟨[⟨0, [.production 1, .production 2]⟩,
      ⟨1, [.terminal (.token 7), .production 1]⟩, ⟨1, [.terminal .epsilon]⟩,
      ⟨2, [.production 1, .terminal (.token 8)]⟩]⟩ : Grammar Nat Nat)
    let F ← FirstTable.build ig
    let m ← Closure.followSets ⟨[⟨0, 0, eosOnly ig.vocab.size⟩]⟩ ig F
    let b ← m.get 2
    let a ← Outcome.unwrap (← m.get 1)
    pure (b, a.iter)) : Outcome (LRTableError Nat Nat) _) =
    .ok (none, [.token 0, .token 1]) := by decide +kernel

end C34
end Verif
