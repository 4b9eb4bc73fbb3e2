import Verif.Proof.Reach

/-!
# The LR table as a whole
-/

set_option linter.unusedSectionVars false
set_option autoImplicit false

namespace Verif

section
variable {T L : Type} [DecidableEq T] [DecidableEq L] {ig : IndexedGrammar T L} {F : FirstTable}
open EntryBuilder Partition

/-! ### The root rule -/

/-- No rule mentions the root. -/
def RootFree (ig : IndexedGrammar T L) : Prop := ∀ r ∈ ig.rules, .production 0 ∉ r.nodes

/-- Only the root rule mentions the root, not as its first symbol, and no token can follow there. -/
def RootMild (ig : IndexedGrammar T L) (F : FirstTable) : Prop :=
  ∀ (i : Nat) r α β, ig.rules[i]? = some r → r.nodes = α ++ .production 0 :: β →
    i = 0 ∧ (∃ n ∈ α, n.isEpsilon = false) ∧ ∀ t, t ≠ .epsilon → F.NodesFirst β t → t = .eos

theorem RootFree.mild (h : RootFree ig) : RootMild ig F := by
  intro i r α β hr hn
  exact absurd (by rw [hn]; simp) (h r (List.mem_of_getElem? hr))

theorem Position.OK.mem_nodes {p : Position} (h : p.OK ig) {n : INode} (hn : n ∈ p.tail ig) :
    ∃ r ∈ ig.rules, n ∈ r.nodes := by
  rw [h.tail_eq] at hn
  exact ⟨_, List.getElem_mem h.rule, List.mem_of_mem_drop hn⟩

theorem ClosureLabel.ne_root (hr : RootFree ig) {K : List Position} (hK : ∀ p ∈ K, p.OK ig) {l : Nat}
    (h : ClosureLabel ig K l) : l ≠ 0 := by
  rintro rfl
  cases h with
  | kernel hp ht =>
    obtain ⟨r, hr', hn⟩ := (hK _ hp).mem_nodes (n := .production 0) (by rw [ht]; simp)
    exact hr r hr' hn
  | step _ hr' hn => exact hr _ hr' (by rw [hn]; simp)

/-- The root is expanded only where it is the next symbol of the root rule in the kernel. -/
theorem ClosureLabel.root (hr : RootMild ig F) {K : List Position} (hK : ∀ p ∈ K, p.OK ig)
    (h : ClosureLabel ig K 0) : ∃ p ∈ K, p.rule = 0 ∧ ∃ rest, p.tail ig = .production 0 :: rest := by
  cases h with
  | @kernel p _ rest hp ht =>
    refine ⟨p, hp, ?_, rest, ht⟩
    have h2 := (hK p hp).tail_eq
    rw [ht] at h2
    exact (hr p.rule _ _ rest (List.getElem?_eq_getElem (hK p hp).rule)
      ((List.take_append_drop p.position _).symm.trans (by rw [← h2]))).1
  | @step r _ rest _ hr' hn =>
    obtain ⟨i, hi⟩ := List.mem_iff_getElem?.mp hr'
    obtain ⟨-, ⟨n, hn, -⟩, -⟩ := hr i r [] rest hi hn
    cases hn

theorem ClosureTok.root (hr : RootMild ig F) {K : List Position} (hK : ∀ p ∈ K, p.OK ig)
    (hf : ∀ p ∈ K, p.rule = 0 → ∀ t, p.followSet.mem t = true → t = .eos) {t : AugTokId}
    (h : ClosureTok ig F K 0 t) : t = .eos := by
  cases h with
  | @kernel p _ rest _ hp ht hfo =>
    have h2 := (hK p hp).tail_eq
    rw [ht] at h2
    obtain ⟨h0, -, hb⟩ := hr p.rule _ _ rest (List.getElem?_eq_getElem (hK p hp).rule)
      ((List.take_append_drop p.position _).symm.trans (by rw [← h2]))
    rcases hfo with ⟨g1, g2⟩ | ⟨-, g⟩
    · exact hb t g1 g2
    · exact hf p hp h0 t g
  | @first r _ rest _ _ hr' hn =>
    obtain ⟨i, hi⟩ := List.mem_iff_getElem?.mp hr'
    obtain ⟨-, ⟨n, hn, -⟩, -⟩ := hr i r [] rest hi hn
    cases hn
  | @pass r _ rest _ _ hr' hn =>
    obtain ⟨i, hi⟩ := List.mem_iff_getElem?.mp hr'
    obtain ⟨-, ⟨n, hn, -⟩, -⟩ := hr i r [] rest hi hn
    cases hn

/-- What is known of the root items of a kernel. -/
structure RootInv (k : Kernel) : Prop where
  follow : ∀ p ∈ k.positions, p.rule = 0 → ∀ t, p.followSet.mem t = true → t = .eos
  once : k.positions.countP (fun p => p.rule == 0) ≤ 1
  first : ∀ p ∈ k.positions, p.rule = 0 → k.positions.head? = some p

/-- A root item that the closure adds is at the beginning of the root rule, which starts with another symbol. -/
theorem added_root (hw : ig.WF) (hr : RootMild ig F) {K : List Position} (hK : ∀ p ∈ K, p.OK ig) {p : Position}
    {r : IRule} (hpos : p.position = 0) (h0 : p.rule = 0) (hrule : ig.rules[p.rule]? = some r)
    (hl : ClosureLabel ig K r.symbol) :
    (∃ n, p.cat ig = some n ∧ n ≠ .production 0) ∧ ∃ q ∈ K, q.rule = 0 ∧ q.cat ig = some (.production 0) := by
  rw [h0] at hrule
  rw [(hw.root 0 r hrule).mpr rfl] at hl
  obtain ⟨q, hq, hq0, rest, ht⟩ := hl.root hr hK
  refine ⟨?_, q, hq, hq0, by simp [Position.cat, firstNode, ht, Node.isEpsilon]⟩
  have h2 := (hK q hq).tail_eq
  rw [ht] at h2
  have hlt := (hK q hq).rule
  have hrq : ig.rules[q.rule]? = some r := by rw [hq0]; exact hrule
  have hget : ig.rules[q.rule] = r := by
    rw [List.getElem?_eq_getElem hlt] at hrq; exact Option.some.inj hrq
  rw [hget] at h2
  obtain ⟨-, ⟨n, hn, hne⟩, -⟩ := hr q.rule r (r.nodes.take q.position) rest hrq
    ((List.take_append_drop q.position _).symm.trans (by rw [← h2]))
  have htail : p.tail ig = r.nodes := by
    simp [Position.tail, h0, hrule, hpos]
  unfold Position.cat
  rw [htail]
  cases hfn : firstNode r.nodes with
  | none =>
    unfold firstNode at hfn
    rw [List.find?_eq_none] at hfn
    have := hfn n (List.mem_of_mem_take hn)
    simp [hne] at this
  | some m =>
    refine ⟨m, rfl, ?_⟩
    rintro rfl
    unfold firstNode at hfn
    obtain ⟨-, α, β, e, hα⟩ := List.find?_eq_some_iff_append.mp hfn
    obtain ⟨-, ⟨n', hn', hne'⟩, -⟩ := hr 0 r α β hrule e
    have := hα n' hn'
    simp [hne'] at this

theorem root_first {l : List Position} (hs : l.Pairwise fun a b => Position.keyLe a b = true)
    (hc : l.countP (fun p => p.rule == 0) ≤ 1) {p : Position} (hp : p ∈ l) (h0 : p.rule = 0) :
    l.head? = some p := by
  cases l with
  | nil => cases hp
  | cons q l =>
    rcases List.mem_cons.mp hp with rfl | hp
    · rfl
    · exfalso
      rw [List.pairwise_cons] at hs
      have hq := hs.1 p hp
      simp only [Position.keyLe, Bool.or_eq_true, Bool.and_eq_true, decide_eq_true_eq, beq_iff_eq] at hq
      have hq0 : q.rule = 0 := by omega
      rw [List.countP_cons] at hc
      simp only [hq0, beq_self_eq_true, if_true] at hc
      have : 0 < l.countP fun p => p.rule == 0 := by
        rw [List.countP_pos_iff]
        exact ⟨p, hp, by simp [h0]⟩
      omega

theorem Reach.rootInv (hw : ig.WF) (hF : F.WF ig.labelsCount ig.vocab.size) (hr : RootMild ig F)
    {k : Kernel} (h : Reach ig F k) : RootInv k := by
  induction h with
  | root =>
    refine ⟨?_, ?_, ?_⟩
    · intro p hp _ t
      simp only [rootKernel, List.mem_singleton] at hp
      subst hp
      exact ((eosOnly_spec (eos_lt ig)).2.1 t).mp
    · exact (List.countP_le_length).trans (by simp [rootKernel])
    · intro p hp _
      simp only [rootKernel, List.mem_singleton] at hp
      subst hp; rfl
  | @step k items n p0 hk hi hp0 hc0 ih =>
    have hok := hk.ok hw hF
    have hit := hk.items hw hF hi
    have hcount : (nextOf ig items (some n)).positions.countP (fun p => p.rule == 0) ≤ 1 := by
      unfold nextOf next Kernel.new
      rw [(Kernel.sortPositions_perm _).countP_eq, List.countP_map, List.countP_filter]
      obtain ⟨ps, rfl, hnd, hadd⟩ := hit.added
      rw [List.countP_append]
      have hK : k.positions.countP (fun p => ((fun p : Position => p.rule == 0) ∘ adv) p && p.cat ig == some n) ≤ 1 := by
        refine le_trans (List.countP_mono_left fun p _ hp => ?_) ih.once
        rw [Bool.and_eq_true] at hp
        exact hp.1
      have hP : ps.countP (fun p => ((fun p : Position => p.rule == 0) ∘ adv) p && p.cat ig == some n) ≤ 1 := by
        have h1 : ps.countP (fun p => ((fun p : Position => p.rule == 0) ∘ adv) p && p.cat ig == some n) ≤
            (ps.map Position.key).countP (fun x => x == (0, 0)) := by
          rw [List.countP_map]
          refine List.countP_mono_left fun p hp hq => ?_
          rw [Bool.and_eq_true] at hq
          have h1 : p.rule = 0 := by simpa [adv] using hq.1
          simp [Position.key, h1, (hadd p hp).1]
        have h2 : (ps.map Position.key).countP (fun x => x == (0, 0)) ≤ 1 := List.nodup_iff_count_le_one.mp hnd (0, 0)
        omega
      by_cases hn : n = .production 0
      · have : ps.countP (fun p => ((fun p : Position => p.rule == 0) ∘ adv) p && p.cat ig == some n) = 0 := by
          rw [List.countP_eq_zero]
          intro p hp hq
          rw [Bool.and_eq_true] at hq
          have h1 : p.rule = 0 := by simpa [adv] using hq.1
          have h2 : p.cat ig = some n := by simpa using hq.2
          obtain ⟨g1, r, g2, g3⟩ := hadd p hp
          obtain ⟨⟨m, hm, hne⟩, -⟩ := added_root hw hr hok g1 h1 g2 g3
          rw [hm, hn] at h2
          exact hne (Option.some.inj h2)
        omega
      · by_cases hex : ∃ p ∈ ps, p.rule = 0
        · obtain ⟨p, hp, h0⟩ := hex
          obtain ⟨g1, r, g2, g3⟩ := hadd p hp
          obtain ⟨-, q, hq, hq0, hqc⟩ := added_root hw hr hok g1 h0 g2 g3
          have : k.positions.countP (fun p => ((fun p : Position => p.rule == 0) ∘ adv) p && p.cat ig == some n) = 0 := by
            rw [List.countP_eq_zero]
            intro p' hp' hx
            rw [Bool.and_eq_true] at hx
            have h1 : p'.rule = 0 := by simpa [adv] using hx.1
            have h2 : p'.cat ig = some n := by simpa using hx.2
            have e : some p' = some q := (ih.first p' hp' h1).symm.trans (ih.first q hq hq0)
            rw [Option.some.inj e, hqc] at h2
            exact hn (Option.some.inj h2).symm
          omega
        · have : ps.countP (fun p => ((fun p : Position => p.rule == 0) ∘ adv) p && p.cat ig == some n) = 0 := by
            rw [List.countP_eq_zero]
            intro p hp hq
            rw [Bool.and_eq_true] at hq
            exact hex ⟨p, hp, by simpa [adv] using hq.1⟩
          omega
    refine ⟨?_, hcount, ?_⟩
    · intro q hq hq0 t ht
      obtain ⟨p, hp, -, rfl⟩ := mem_nextOf.mp hq
      rcases hit.mem p hp with hpK | ⟨-, r, h1, -, h3⟩
      · exact ih.follow p hpK hq0 t ht
      · have h1' : ig.rules[0]? = some r := by rw [← h1]; exact congrArg _ (show (0 : Nat) = p.rule from hq0.symm)
        have := (h3 t).mp ht
        rw [(hw.root 0 r h1').mpr rfl] at this
        exact this.root hr hok ih.follow
    · intro q hq hq0
      exact root_first (Kernel.sortPositions_sorted _) hcount hq hq0

/-- The condition under which a row is built without panic. -/
theorem Reach.noPanic (hw : ig.WF) (hF : F.WF ig.labelsCount ig.vocab.size) (hr : RootMild ig F)
    {k : Kernel} (h : Reach ig F k) {items : List Position} (hi : Items ig F k.positions items)
    {groups : List (Category × List Position)} (hg : Groups ig items groups) :
    ∀ g1 ps g2, groups = g1 ++ (none, ps) :: g2 → ∀ d p rest, ps = d ++ p :: rest →
      p.rule = 0 → (∀ t, p.followSet.mem t = true → t = .eos) ∧ d = [] ∧ g1 = [] := by
  intro g1 ps g2 hgr d p rest hps h0
  have hok := h.ok hw hF
  have hinv := h.rootInv hw hF hr
  have hmem : (none, ps) ∈ groups := by rw [hgr]; simp
  have heq := hg.eq none ps hmem
  have hpf : p ∈ items.filter fun p => p.cat ig == none := by rw [← heq, hps]; simp
  rw [List.mem_filter] at hpf
  obtain ⟨hpi, hpc⟩ := hpf
  have hpc : p.cat ig = none := by simpa using hpc
  obtain ⟨more, hmore, -, hadd⟩ := hi.added
  have hnot : p ∉ more := by
    intro hp
    obtain ⟨g1, r, g2, g3⟩ := hadd p hp
    obtain ⟨⟨m, hm, -⟩, -⟩ := added_root hw hr hok g1 h0 g2 g3
    rw [hpc] at hm
    cases hm
  have hpK : p ∈ k.positions := by
    rw [hmore, List.mem_append] at hpi
    exact hpi.resolve_right hnot
  have hhead := hinv.first p hpK h0
  obtain ⟨tl, htl, hptl⟩ : ∃ tl, items = p :: tl ∧ p ∉ tl := by
    cases hkp : k.positions with
    | nil => rw [hkp] at hhead; cases hhead
    | cons a l =>
      rw [hkp] at hhead hmore
      simp only [List.head?_cons, Option.some.injEq] at hhead
      subst hhead
      refine ⟨l ++ more, hmore, ?_⟩
      rw [List.mem_append, not_or]
      refine ⟨fun hl => ?_, hnot⟩
      have := hinv.once
      rw [hkp, List.countP_cons] at this
      simp only [h0, beq_self_eq_true, if_true] at this
      have : 0 < l.countP fun p => p.rule == 0 := by
        rw [List.countP_pos_iff]
        exact ⟨a, hl, by simp [h0]⟩
      omega
  refine ⟨fun t ht => hinv.follow p hpK h0 t ht, ?_, ?_⟩
  · rw [heq, htl, List.filter_cons] at hps
    simp only [hpc, beq_self_eq_true, if_true] at hps
    cases d with
    | nil => rfl
    | cons a d =>
      simp only [List.cons_append, List.cons.injEq] at hps
      exact absurd (List.mem_of_mem_filter (by rw [hps.2]; simp)) hptl
  · have hh := hg.head
    rw [htl] at hh
    cases g1 with
    | nil => rfl
    | cons a g1 =>
      rw [hgr] at hh
      simp only [List.cons_append, List.head?_cons, Option.map_some, Option.some.injEq, hpc] at hh
      have hnd := hg.nodup
      rw [hgr] at hnd
      simp only [List.cons_append, List.map_cons, List.nodup_cons] at hnd
      exact absurd (by simp [hh]) hnd.1

/-! ### Rows -/

theorem getAll_eq {ε K V : Type} [Label K] {m : SparseMap K V} {cap : Nat} (hm : m.WF cap) (ks : List K)
    (hks : ∀ k ∈ ks, Label.id k < cap) :
    (m.getAll ks : Outcome ε _) = .ok (ks.map m.lookup) := by
  induction ks with
  | nil => rfl
  | cons k ks ih =>
    simp [SparseMap.getAll, hm.get_eq (hks k List.mem_cons_self),
      ih fun q hq => hks q (List.mem_cons_of_mem _ hq)]

/-- Row `j` of the table, in terms of the states. -/
structure RowSpec (ig : IndexedGrammar T L) (F : FirstTable) (states : List Kernel) (table : LRTable)
    (j : Nat) (k : Kernel) (items : List Position) : Prop where
  kernel : states[j]? = some k
  itemsOf : ItemsOf ig F k items
  shift : ∀ t id, Label.id t < ig.vocab.size →
    (table.actionTable[ig.vocab.size * j + Label.id t]? = some (some (.shift id)) ↔
      (∃ p ∈ items, p.cat ig = some (.terminal t)) ∧
        states[id]? = some (nextOf ig items (some (.terminal t))))
  ends : ∀ t a, Label.id t < ig.vocab.size → (∀ id, a ≠ .shift id) →
    (table.actionTable[ig.vocab.size * j + Label.id t]? = some (some a) ↔
      ∃ p ∈ items, p.cat ig = none ∧ EndWants p t a)
  goto : ∀ l id, l < ig.labelsCount →
    (table.gotoTable[ig.labelsCount * j + l]? = some (some id) ↔
      (∃ p ∈ items, p.cat ig = some (.production l)) ∧
        states[id]? = some (nextOf ig items (some (.production l))))
  known : ∀ p ∈ items, ∀ n, p.cat ig = some n → ∃ id : Nat, states[id]? = some (nextOf ig items (some n))
  once : OneRoot (items.filter fun p => p.cat ig == none)

/-- A row stays right when states are added and rows are appended. -/
theorem RowSpec.extend {states states' : List Kernel} {table table' : LRTable} {j : Nat} {k : Kernel}
    {items : List Position} (h : RowSpec ig F states table j k items) (hpre : states <+: states')
    (hnd : states'.Nodup) (hj : j < table.numStates)
    (hla : table.actionTable.length = ig.vocab.size * table.numStates)
    (hlg : table.gotoTable.length = ig.labelsCount * table.numStates)
    (ha : table.actionTable <+: table'.actionTable) (hg : table.gotoTable <+: table'.gotoTable) :
    RowSpec ig F states' table' j k items := by
  have hget : ∀ (i : Nat) k', states[i]? = some k' → states'[i]? = some k' := by
    intro i k' hi
    obtain ⟨more, rfl⟩ := hpre
    rw [List.getElem?_append_left (List.getElem?_eq_some_iff.mp hi).1]; exact hi
  have hback : ∀ (i : Nat) k', (∃ id : Nat, states[id]? = some k') →
      (states[i]? = some k' ↔ states'[i]? = some k') := by
    rintro i k' ⟨id, hid⟩
    refine ⟨hget i k', fun h' => ?_⟩
    rw [getElem?_inj_of_nodup hnd h' (hget id k' hid)]; exact hid
  have hact : ∀ t : AugTokId, Label.id t < ig.vocab.size →
      table'.actionTable[ig.vocab.size * j + Label.id t]? =
        table.actionTable[ig.vocab.size * j + Label.id t]? := by
    intro t ht
    obtain ⟨more, hmore⟩ := ha
    rw [← hmore, List.getElem?_append_left]
    rw [hla]
    calc ig.vocab.size * j + Label.id t < ig.vocab.size * j + ig.vocab.size := by omega
      _ = ig.vocab.size * (j + 1) := by rw [Nat.mul_succ]
      _ ≤ _ := Nat.mul_le_mul_left _ hj
  have hgot : ∀ l : Nat, l < ig.labelsCount →
      table'.gotoTable[ig.labelsCount * j + l]? = table.gotoTable[ig.labelsCount * j + l]? := by
    intro t ht
    obtain ⟨more, hmore⟩ := hg
    rw [← hmore, List.getElem?_append_left]
    rw [hlg]
    calc ig.labelsCount * j + t < ig.labelsCount * j + ig.labelsCount := by omega
      _ = ig.labelsCount * (j + 1) := by rw [Nat.mul_succ]
      _ ≤ _ := Nat.mul_le_mul_left _ hj
  refine ⟨hget _ _ h.kernel, h.itemsOf, ?_, ?_, ?_, ?_, h.once⟩
  · intro t id ht
    rw [hact t ht, h.shift t id ht]
    refine and_congr_right fun ⟨p, hp, hc⟩ => hback _ _ (h.known p hp _ hc)
  · intro t a ht hne
    rw [hact t ht, h.ends t a ht hne]
  · intro l id hl
    rw [hgot l hl, h.goto l id hl]
    refine and_congr_right fun ⟨p, hp, hc⟩ => hback _ _ (h.known p hp _ hc)
  · intro p hp n hc
    obtain ⟨id, hid⟩ := h.known p hp n hc
    exact ⟨id, hget _ _ hid⟩

/-- State of the loop before state `table.numStates` is processed. -/
structure LoopInv (ig : IndexedGrammar T L) (F : FirstTable) (kt : KernelTable) (table : LRTable) :
    Prop where
  wf : kt.WF
  init : kt.states[0]? = some (rootKernel ig)
  reach : ∀ k ∈ kt.states, Reach ig F k
  le : table.numStates ≤ kt.states.length
  lenA : table.actionTable.length = ig.vocab.size * table.numStates
  lenG : table.gotoTable.length = ig.labelsCount * table.numStates
  row : ∀ j < table.numStates, ∃ k items, RowSpec ig F kt.states table j k items

/-- The error reports two demands on one token in a reachable state. -/
def Genuine (ig : IndexedGrammar T L) (F : FirstTable) (e : LRTableError T L) : Prop :=
  ∃ k items groups, Reach ig F k ∧ ItemsOf ig F k items ∧ Groups ig items groups ∧ Clash ig groups e

theorem forEachId_getElem? {v : Vocab T} {t : AugTokId} (ht : Label.id t < v.size) :
    v.forEachId[Label.id t]? = some t := by
  simp [Vocab.forEachId, ht]

theorem buildLoop_sat (hw : ig.WF) (hF : F.WF ig.labelsCount ig.vocab.size) {X : Prop}
    (hX : RootMild ig F ∨ X) (fuel : Nat) {kt : KernelTable} {table : LRTable}
    (h : LoopInv ig F kt table) (hfuel : stateBound ig F < fuel + table.numStates) :
    (LRTable.buildLoop ig F fuel table.numStates kt table).Sat
      (fun (table', kt') => LoopInv ig F kt' table' ∧ table'.numStates = kt'.states.length)
      (Genuine ig F) X := by
  induction fuel generalizing kt table with
  | zero =>
    have := states_le_bound hw hF h.wf.nodup h.reach
    have := h.le
    omega
  | succ fuel ih =>
    unfold LRTable.buildLoop
    cases hk : kt.getState table.numStates with
    | none =>
      refine ⟨h, ?_⟩
      have := h.le
      have hn : kt.states.length ≤ table.numStates := by
        unfold KernelTable.getState at hk
        simpa using hk
      omega
    | some k =>
      have hk' : kt.states[table.numStates]? = some k := hk
      have hreach : Reach ig F k := h.reach k (List.mem_of_getElem? hk')
      have hok := hreach.ok hw hF
      obtain ⟨items, groups, ei, eg, hi, hg⟩ :=
        partitionClosure_spec (ε := LRTableError T L) hw hF k hok
      simp only [eg, Outcome.ok_bind]
      have hgs : ∀ c ps, (c, ps) ∈ groups → ps ≠ [] ∧ ∀ p ∈ ps, p.OK ig ∧ p.cat ig = c := by
        intro c ps hc
        refine ⟨hg.nonempty c ps hc, fun p hp => ?_⟩
        rw [hg.eq c ps hc, List.mem_filter] at hp
        exact ⟨hi.ok p hp.1, by simpa using hp.2⟩
      have hsat := tryBuild_sat hw groups [] hgs (by simpa using hg.nodup) h.wf
        (b := EntryBuilder.new ig)
        ⟨new_rep.congr (fun t a => by cases a <;> simp [Wants]) (fun l i => by simp [WantsGoto]),
          (fun n ps hn => by cases hn), fun ps hn => by cases hn⟩ (X := X)
        (hX.imp (fun hr => by simpa using hreach.noPanic hw hF hr hi hg) fun h => h)
      simp only [List.nil_append] at hsat
      refine Outcome.Sat.bind (hsat.mono (fun _ h => h)
        (fun e he => ⟨k, items, groups, hreach, ei, hg, he⟩) (fun h => h)) ?_
      rintro ⟨b, kt1⟩ - ⟨hrow, hkt1, hpre, hnew⟩
      have hgo : ∀ c, (∃ p ∈ items, p.cat ig = c) → ∃ ps, (c, ps) ∈ groups ∧
          ps = items.filter fun p => p.cat ig == c := by
        rintro c ⟨p, hp, rfl⟩
        obtain ⟨ps, hps⟩ := hg.cover p hp
        exact ⟨ps, hps, hg.eq _ _ hps⟩
      have hog : ∀ c ps, (c, ps) ∈ groups → (∃ p ∈ items, p.cat ig = c) ∧
          ps = items.filter fun p => p.cat ig == c := by
        intro c ps hc
        obtain ⟨p, hp⟩ := List.exists_mem_of_ne_nil ps (hg.nonempty c ps hc)
        have heq := hg.eq c ps hc
        rw [heq, List.mem_filter] at hp
        exact ⟨⟨p, hp.1, by simpa using hp.2⟩, heq⟩
      have hA := getAll_eq (ε := LRTableError T L) hrow.rep.wfA ig.vocab.forEachId (by
        intro t ht
        simp only [Vocab.forEachId, List.mem_map, List.mem_range] at ht
        obtain ⟨n, hn, rfl⟩ := ht
        simpa using hn)
      have hG := getAll_eq (ε := LRTableError T L) hrow.rep.wfG ig.allLabels (by
        intro l hl
        simpa [IndexedGrammar.allLabels, Label.id] using hl)
      simp only [hA, hG, Outcome.ok_bind]
      have hget : ∀ (i : Nat) k', kt.states[i]? = some k' → kt1.states[i]? = some k' := by
        intro i k' hi
        obtain ⟨more, hmore⟩ := hpre
        rw [← hmore, List.getElem?_append_left (List.getElem?_eq_some_iff.mp hi).1]; exact hi
      refine ih (kt := kt1) (table := ⟨_, _, table.numStates + 1⟩)
        ⟨hkt1, hget _ _ h.init, ?_, ?_, ?_, ?_, ?_⟩ (by simp only; omega)
      · intro k' hk'
        rcases hnew k' hk' with h' | ⟨n, ps, hps, rfl⟩
        · exact h.reach k' h'
        · obtain ⟨⟨p, hp, hc⟩, heq⟩ := hog _ _ hps
          rw [heq]
          exact Reach.step hreach ei hp hc
      · show table.numStates + 1 ≤ _
        exact (List.getElem?_eq_some_iff.mp (hget _ _ hk')).1
      · simp only [List.length_append, List.length_map, h.lenA]
        rw [Nat.mul_succ]; simp [Vocab.forEachId]
      · simp only [List.length_append, List.length_map, h.lenG]
        rw [Nat.mul_succ]; simp [IndexedGrammar.allLabels]
      · intro j hj
        simp only at hj
        rcases Nat.lt_succ_iff_lt_or_eq.mp hj with hj | rfl
        · obtain ⟨k', items', hr'⟩ := h.row j hj
          exact ⟨k', items', hr'.extend hpre hkt1.nodup hj h.lenA h.lenG (List.prefix_append _ _)
            (List.prefix_append _ _)⟩
        · have hentA : ∀ t : AugTokId, Label.id t < ig.vocab.size →
              (table.actionTable ++ ig.vocab.forEachId.map b.actions.lookup)[ig.vocab.size *
                table.numStates + Label.id t]? = some (b.actions.lookup t) := by
            intro t ht
            rw [List.getElem?_append_right (by rw [h.lenA]; omega), h.lenA, Nat.add_sub_cancel_left,
              List.getElem?_map, forEachId_getElem? ht]
            rfl
          have hentG : ∀ l : Nat, l < ig.labelsCount →
              (table.gotoTable ++ ig.allLabels.map b.gotos.lookup)[ig.labelsCount *
                table.numStates + l]? = some (b.gotos.lookup l) := by
            intro l hl
            rw [List.getElem?_append_right (by rw [h.lenG]; omega), h.lenG, Nat.add_sub_cancel_left,
              List.getElem?_map]
            simp [IndexedGrammar.allLabels, hl]
          refine ⟨k, items, hget _ _ hk', ei, ?_, ?_, ?_, ?_, ?_⟩
          · intro t id ht
            simp only
            rw [hentA t ht, Option.some.injEq, hrow.rep.act]
            simp only [Wants]
            constructor
            · rintro ⟨ps, h1, h2⟩
              obtain ⟨h3, rfl⟩ := hog _ _ h1
              exact ⟨h3, h2⟩
            · rintro ⟨h1, h2⟩
              obtain ⟨ps, h3, rfl⟩ := hgo _ h1
              exact ⟨_, h3, h2⟩
          · intro t a ht hne
            simp only
            rw [hentA t ht, Option.some.injEq, hrow.rep.act]
            have : Wants kt1.states groups t a ↔
                ∃ ps, (none, ps) ∈ groups ∧ ∃ p ∈ ps, EndWants p t a := by
              cases a with
              | shift id => exact absurd rfl (hne id)
              | reduce r => exact Iff.rfl
              | accept => exact Iff.rfl
            rw [this]
            constructor
            · rintro ⟨ps, h1, p, hp, h2⟩
              obtain ⟨-, rfl⟩ := hog _ _ h1
              rw [List.mem_filter] at hp
              exact ⟨p, hp.1, by simpa using hp.2, h2⟩
            · rintro ⟨p, hp, hc, h2⟩
              obtain ⟨ps, h3, rfl⟩ := hgo _ ⟨p, hp, hc⟩
              exact ⟨_, h3, p, by rw [List.mem_filter]; exact ⟨hp, by simpa using hc⟩, h2⟩
          · intro l id hl
            simp only
            rw [hentG l hl, Option.some.injEq, hrow.rep.got]
            simp only [WantsGoto]
            constructor
            · rintro ⟨ps, h1, h2⟩
              obtain ⟨h3, rfl⟩ := hog _ _ h1
              exact ⟨h3, h2⟩
            · rintro ⟨h1, h2⟩
              obtain ⟨ps, h3, rfl⟩ := hgo _ h1
              exact ⟨_, h3, h2⟩
          · intro p hp n hc
            obtain ⟨ps, h3, rfl⟩ := hgo _ ⟨p, hp, hc⟩
            exact hrow.known n _ h3
          · by_cases hex : ∃ p ∈ items, p.cat ig = none
            · obtain ⟨ps, h3, rfl⟩ := hgo _ hex
              exact hrow.once _ h3
            · have : (items.filter fun p => p.cat ig == none) = [] := by
                rw [List.filter_eq_nil_iff]
                intro p hp hc
                exact hex ⟨p, hp, by simpa using hc⟩
              rw [this]; simp [OneRoot]

theorem initialTable_eq (hw : ig.WF) :
    LRTable.initialTable ig = .ok ⟨[(rootKernel ig, 0)], [rootKernel ig]⟩ := by
  obtain ⟨is, e, hne, hnd, his⟩ := hw.ruleIds_eq (ε := LRTableError T L) hw.pos
  have hz : ∀ i ∈ is, i = 0 := by
    intro i hi
    obtain ⟨r, hr, hs⟩ := (his i).mp hi
    exact (hw.root i r hr).mp hs
  have his0 : is = [0] := by
    cases is with
    | nil => exact absurd rfl hne
    | cons a l =>
      have ha := hz a List.mem_cons_self
      subst ha
      cases l with
      | nil => rfl
      | cons b l =>
        have hb := hz b (by simp)
        subst hb
        simp at hnd
  subst his0
  have h3 := (eosOnly_spec (eos_lt ig)).2.2 (LRTableError T L)
  have e' : (ig.ruleIdsForLabel IndexedGrammar.rootLabel : Outcome (LRTableError T L) _) = .ok [0] := e
  simp only [LRTable.initialTable, e', Outcome.ok_bind, LRTable.topLevel, Position.newTopLevel, h3,
    Outcome.pure_eq]
  rfl

/-- A table that was built, with the kernels of its states. -/
structure Built (ig : IndexedGrammar T L) (F : FirstTable) (kt : KernelTable) (table : LRTable) :
    Prop extends LoopInv ig F kt table where
  all : table.numStates = kt.states.length

/-- The result of building the table, whatever the grammar. -/
theorem buildWithKernels_sat' (hw : ig.WF) {X : FirstTable → Prop} (hX : ∀ F, RootMild ig F ∨ X F) :
    ∃ F, (FirstTable.build ig : Outcome (LRTableError T L) _) = .ok F ∧ F.Result ig ∧
      ∀ fuel, stateBound ig F < fuel →
        (LRTable.buildWithKernels fuel ig).Sat (fun (table, kt) => Built ig F kt table)
          (Genuine ig F) (X F) := by
  obtain ⟨F, eF, hF⟩ := FirstTable.build_spec (ε := LRTableError T L) hw
  refine ⟨F, eF, hF, fun fuel hfuel => ?_⟩
  unfold LRTable.buildWithKernels
  simp only [eF, initialTable_eq hw, Outcome.ok_bind]
  refine (buildLoop_sat hw hF.wf (hX F) fuel (table := ⟨[], [], 0⟩) ⟨⟨rfl, by simp⟩, rfl, ?_, by simp, by simp,
    by simp, by simp⟩ (by simpa using hfuel)).mono ?_ (fun _ h => h) fun h => h
  · intro k hk
    simp only [List.mem_singleton] at hk
    subst hk; exact .root
  · rintro ⟨table, kt⟩ ⟨h1, h2⟩
    exact ⟨h1, h2⟩

theorem buildWithKernels_sat (hw : ig.WF) {X : Prop} (hX : RootFree ig ∨ X) :
    ∃ F, (FirstTable.build ig : Outcome (LRTableError T L) _) = .ok F ∧ F.Result ig ∧
      ∀ fuel, stateBound ig F < fuel →
        (LRTable.buildWithKernels fuel ig).Sat (fun (table, kt) => Built ig F kt table)
          (Genuine ig F) X :=
  buildWithKernels_sat' hw (X := fun _ => X) fun _ => hX.imp RootFree.mild fun h => h

theorem buildLoop_fuel {f f' : Nat} (hle : f ≤ f') {i : Nat} {kt : KernelTable} {table : LRTable}
    (h : LRTable.buildLoop ig F f i kt table ≠ .timeout) :
    LRTable.buildLoop ig F f' i kt table = LRTable.buildLoop ig F f i kt table := by
  induction f generalizing f' i kt table with
  | zero => exact absurd rfl h
  | succ f ih =>
    cases f' with
    | zero => omega
    | succ f' =>
      unfold LRTable.buildLoop at h ⊢
      cases hk : kt.getState i with
      | none => rfl
      | some k =>
        rw [hk] at h
        simp only at h ⊢
        cases hp : (partitionClosure k ig F : Outcome (LRTableError T L) _) with
        | ok gs =>
          rw [hp] at h
          simp only [Outcome.ok_bind] at h ⊢
          cases ht : tryBuild ig gs kt (EntryBuilder.new ig) with
          | ok r =>
            obtain ⟨b, kt1⟩ := r
            rw [ht] at h
            simp only [Outcome.ok_bind] at h ⊢
            cases ha : (b.actions.getAll ig.vocab.forEachId : Outcome (LRTableError T L) _) with
            | ok as =>
              rw [ha] at h
              simp only [Outcome.ok_bind] at h ⊢
              cases hg : (b.gotos.getAll ig.allLabels : Outcome (LRTableError T L) _) with
              | ok gs =>
                rw [hg] at h
                simp only [Outcome.ok_bind] at h ⊢
                exact ih (by omega) h
              | err e => rfl
              | panic => rfl
              | ub => rfl
              | timeout => rfl
            | err e => rfl
            | panic => rfl
            | ub => rfl
            | timeout => rfl
          | err e => rfl
          | panic => rfl
          | ub => rfl
          | timeout => rfl
        | err e => rfl
        | panic => rfl
        | ub => rfl
        | timeout => rfl

/-- More fuel does not change a result. -/
theorem buildWithKernels_fuel {f f' : Nat} (hle : f ≤ f')
    (h : LRTable.buildWithKernels f ig ≠ .timeout) :
    LRTable.buildWithKernels f' ig = LRTable.buildWithKernels f ig := by
  unfold LRTable.buildWithKernels at h ⊢
  cases hF : (FirstTable.build ig : Outcome (LRTableError T L) _) with
  | ok F =>
    rw [hF] at h
    simp only [Outcome.ok_bind] at h ⊢
    cases hk : LRTable.initialTable ig with
    | ok kt =>
      rw [hk] at h
      simp only [Outcome.ok_bind] at h ⊢
      exact buildLoop_fuel hle h
    | err e => rfl
    | panic => rfl
    | ub => rfl
    | timeout => rfl
  | err e => rfl
  | panic => rfl
  | ub => rfl
  | timeout => rfl

/-- Whatever fuel was used, a successful build has the properties of `Built`. -/
theorem built_of_ok (hw : ig.WF) {fuel : Nat} {table : LRTable} {kt : KernelTable}
    (h : LRTable.buildWithKernels fuel ig = .ok (table, kt)) :
    ∃ F, (FirstTable.build ig : Outcome (LRTableError T L) _) = .ok F ∧ F.Result ig ∧
      Built ig F kt table := by
  obtain ⟨F, eF, hF, hsat⟩ := buildWithKernels_sat (X := True) hw (.inr trivial)
  refine ⟨F, eF, hF, ?_⟩
  have h1 := hsat (max fuel (stateBound ig F + 1)) (by omega)
  rw [buildWithKernels_fuel (le_max_left _ _) (by rw [h]; simp), h] at h1
  exact h1

theorem genuine_of_err (hw : ig.WF) {fuel : Nat} {e : LRTableError T L}
    (h : LRTable.buildWithKernels fuel ig = .err e) :
    ∃ F, (FirstTable.build ig : Outcome (LRTableError T L) _) = .ok F ∧ F.Result ig ∧
      Genuine ig F e := by
  obtain ⟨F, eF, hF, hsat⟩ := buildWithKernels_sat (X := True) hw (.inr trivial)
  refine ⟨F, eF, hF, ?_⟩
  have h1 := hsat (max fuel (stateBound ig F + 1)) (by omega)
  rw [buildWithKernels_fuel (le_max_left _ _) (by rw [h]; simp), h] at h1
  exact h1

theorem build_eq {fuel : Nat} {ig : IndexedGrammar T L} {table : LRTable} :
    LRTable.build fuel ig = .ok table ↔ ∃ kt, LRTable.buildWithKernels fuel ig = .ok (table, kt) := by
  unfold LRTable.build
  rw [Outcome.bind_eq_ok]
  constructor
  · rintro ⟨⟨t, kt⟩, h1, h2⟩
    simp only [Outcome.pure_eq, Outcome.ok.injEq] at h2
    subst h2
    exact ⟨kt, h1⟩
  · rintro ⟨kt, h⟩
    exact ⟨(table, kt), h, rfl⟩

end
end Verif
