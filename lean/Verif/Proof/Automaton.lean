import Verif.Proof.Table
import Verif.Proof.Transport
import Verif.Spec.LR

/-!
# The states of the table are the item sets of the specification
-/

set_option linter.unusedSectionVars false
set_option autoImplicit false

namespace Verif

section
variable {T L : Type} [DecidableEq T] [DecidableEq L] {ig : IndexedGrammar T L} {F : FirstTable}
open EntryBuilder Partition Spec

theorem nodesFirst_eq (F : FirstTable) (α : List INode) (t : AugTokId) :
    F.NodesFirst α t ↔ seqFirst F.In α t := by
  induction α with
  | nil => exact Iff.rfl
  | cons n α ih =>
    cases n with
    | production l => simp only [FirstTable.NodesFirst, seqFirst, ih]
    | terminal k =>
      cases k with
      | epsilon => simpa only [FirstTable.NodesFirst, seqFirst] using ih
      | token k => exact Iff.rfl
      | eos => exact Iff.rfl

theorem rhs_eq (r : Rule Nat Nat) : rhs r = r.excludingEpsilon := by
  unfold rhs Rule.excludingEpsilon
  congr 1
  funext n
  match n with
  | .terminal .epsilon => rfl
  | .terminal (.token _) => rfl
  | .terminal .eos => rfl
  | .production _ => rfl

theorem isEpsilon_iff {n : INode} : n.isEpsilon = true ↔ n = .terminal .epsilon := by
  match n with
  | .terminal .epsilon => simp [Node.isEpsilon]
  | .terminal (.token _) => simp [Node.isEpsilon]
  | .terminal .eos => simp [Node.isEpsilon]
  | .production _ => simp [Node.isEpsilon]

/-- Only epsilons follow an epsilon. -/
def EpsLast (ig : IndexedGrammar T L) : Prop :=
  ∀ r ∈ ig.rules, r.nodes.Pairwise fun a b => a = .terminal .epsilon → b = .terminal .epsilon

theorem not_eps_of_mem_rhs {r : Rule Nat Nat} {n : INode} (h : n ∈ Spec.rhs r) : n.isEpsilon = false := by
  rw [rhs_eq] at h
  simpa [Rule.excludingEpsilon] using (List.mem_filter.mp h).2

/-- Epsilons are the end of the rule. -/
theorem EpsLast.split (h : EpsLast ig) {r : IRule} (hr : r ∈ ig.rules) :
    ∃ k, r.nodes = Spec.rhs r.rule ++ List.replicate k (.terminal .epsilon) := by
  rw [rhs_eq]
  have key : ∀ α : List INode, (α.Pairwise fun a b => a = .terminal .epsilon → b = .terminal .epsilon) →
      ∃ k, α = α.filter (fun n => !n.isEpsilon) ++ List.replicate k (.terminal .epsilon) := by
    intro α
    induction α with
    | nil => exact fun _ => ⟨0, rfl⟩
    | cons n α ih =>
      intro hp
      obtain ⟨h1, h2⟩ := List.pairwise_cons.mp hp
      cases he : n.isEpsilon with
      | false =>
        obtain ⟨k, hk⟩ := ih h2
        refine ⟨k, ?_⟩
        rw [List.filter_cons_of_pos (by simp [he]), List.cons_append, ← hk]
      | true =>
        have hn := isEpsilon_iff.mp he
        have hα : α = List.replicate α.length (.terminal .epsilon) :=
          List.eq_replicate_of_mem fun m hm => h1 m hm hn
        have hf : α.filter (fun n => !n.isEpsilon) = [] := by
          rw [List.filter_eq_nil_iff]
          intro m hm
          rw [h1 m hm hn]; simp [Node.isEpsilon]
        refine ⟨α.length + 1, ?_⟩
        rw [List.filter_cons_of_neg (by simp [he]), hf, List.nil_append, List.replicate_succ, ← hα, hn]
  exact key r.nodes (h r hr)

theorem cfg_get {i : Nat} {q : Rule Nat Nat} :
    ig.cfg[i]? = some q ↔ ∃ r, ig.rules[i]? = some r ∧ r.rule = q := by
  simp [IndexedGrammar.cfg]

theorem EpsLast.drop (h : EpsLast ig) {r : IRule} (hr : r ∈ ig.rules) (d : Nat) :
    ∃ k, r.nodes.drop d = (Spec.rhs r.rule).drop d ++ List.replicate k (.terminal .epsilon) := by
  obtain ⟨k, hk⟩ := h.split hr
  exact ⟨k - (d - (Spec.rhs r.rule).length), by rw [hk, List.drop_append, List.drop_replicate]⟩

theorem nodesFirst_trailing (F : FirstTable) (α : List INode) (k : Nat) (t : AugTokId) :
    F.NodesFirst (α ++ List.replicate k (.terminal .epsilon)) t ↔ F.NodesFirst α t := by
  induction α with
  | nil =>
    induction k with
    | zero => exact Iff.rfl
    | succ k ih => simpa only [List.replicate_succ, List.nil_append, FirstTable.NodesFirst] using ih
  | cons n α ih =>
    cases n with
    | production l => simp only [List.cons_append, FirstTable.NodesFirst, ih]
    | terminal j =>
      cases j with
      | epsilon => simpa only [List.cons_append, FirstTable.NodesFirst] using ih
      | token j => exact Iff.rfl
      | eos => exact Iff.rfl

theorem EpsLast.cat_eq (h : EpsLast ig) {p : Position} {q : Rule Nat Nat}
    (hq : ig.cfg[p.rule]? = some q) : p.cat ig = ((Spec.rhs q).drop p.position).head? := by
  obtain ⟨r, hr, rfl⟩ := cfg_get.mp hq
  have ht : p.tail ig = r.nodes.drop p.position := by simp [Position.tail, hr]
  obtain ⟨k, hk⟩ := h.drop (List.mem_of_getElem? hr) p.position
  unfold Position.cat firstNode
  rw [ht, hk]
  cases hd : (Spec.rhs r.rule).drop p.position with
  | nil =>
    rw [List.nil_append, List.head?_nil, List.find?_eq_none]
    intro n hn
    rw [(List.mem_replicate.mp hn).2]; simp [Node.isEpsilon]
  | cons n l =>
    have hn : n ∈ Spec.rhs r.rule := List.mem_of_mem_drop (i := p.position) (by rw [hd]; simp)
    simp [not_eps_of_mem_rhs hn]

theorem EpsLast.prod (h : EpsLast ig) {r : IRule} (hr : r ∈ ig.rules) {d l : Nat}
    {rest : List INode} (hd : r.nodes.drop d = .production l :: rest) :
    ∃ β, (Spec.rhs r.rule).drop d = .production l :: β ∧ ∀ t, F.NodesFirst rest t ↔ F.NodesFirst β t := by
  obtain ⟨k, hk⟩ := h.drop hr d
  rw [hd] at hk
  cases he : (Spec.rhs r.rule).drop d with
  | nil =>
    rw [he, List.nil_append] at hk
    have : (.production l : INode) ∈ List.replicate k (.terminal .epsilon) := by rw [← hk]; simp
    cases (List.mem_replicate.mp this).2
  | cons n β =>
    rw [he, List.cons_append] at hk
    cases hk
    exact ⟨β, rfl, nodesFirst_trailing F β k⟩

theorem EpsLast.of_prod (h : EpsLast ig) {r : IRule} (hr : r ∈ ig.rules) {d l : Nat}
    {β : List INode} (hd : (Spec.rhs r.rule).drop d = .production l :: β) :
    ∃ rest, r.nodes.drop d = .production l :: rest ∧ ∀ t, F.NodesFirst rest t ↔ F.NodesFirst β t := by
  obtain ⟨k, hk⟩ := h.drop hr d
  rw [hd, List.cons_append] at hk
  exact ⟨_, hk, nodesFirst_trailing F β k⟩

theorem EpsLast.tail (h : EpsLast ig) {p : Position} {q : Rule Nat Nat}
    (hq : ig.cfg[p.rule]? = some q) {l : Nat} {rest : List INode} (ht : p.tail ig = .production l :: rest) :
    ∃ β, (Spec.rhs q).drop p.position = .production l :: β ∧ ∀ t, F.NodesFirst rest t ↔ F.NodesFirst β t := by
  obtain ⟨r, hr, rfl⟩ := cfg_get.mp hq
  have ht' : p.tail ig = r.nodes.drop p.position := by simp [Position.tail, hr]
  exact h.prod (List.mem_of_getElem? hr) (ht' ▸ ht)

theorem EpsLast.of_tail (h : EpsLast ig) {p : Position} {q : Rule Nat Nat}
    (hq : ig.cfg[p.rule]? = some q) {l : Nat} {β : List INode}
    (hd : (Spec.rhs q).drop p.position = .production l :: β) :
    ∃ rest, p.tail ig = .production l :: rest ∧ ∀ t, F.NodesFirst rest t ↔ F.NodesFirst β t := by
  obtain ⟨r, hr, rfl⟩ := cfg_get.mp hq
  have ht' : p.tail ig = r.nodes.drop p.position := by simp [Position.tail, hr]
  rw [ht']
  exact h.of_prod (List.mem_of_getElem? hr) hd

theorem Position.OK.cfg {p : Position} (hp : p.OK ig) : ∃ q, ig.cfg[p.rule]? = some q :=
  ⟨_, cfg_get.mpr ⟨_, List.getElem?_eq_getElem hp.rule, rfl⟩⟩

/-- The positions are the items valid after `γ`, as far as demanded. -/
structure Sound (ig : IndexedGrammar T L) (F : FirstTable) (γ : List INode) (ps : List Position) :
    Prop where
  valid : ∀ p ∈ ps, Valid ig.cfg γ p.rule p.position
  look : ∀ p ∈ ps, ∀ t, p.followSet.mem t = true →
    ValidLook ig.cfg F.NodesFirst γ p.rule p.position t

/-- Kernel of the item set for `γ`. -/
structure KernelOf (ig : IndexedGrammar T L) (F : FirstTable) (γ : List INode) (ps : List Position) :
    Prop extends Sound ig F γ ps where
  root : γ = [] → rootPosition ig ∈ ps
  all : ∀ i d, Valid ig.cfg γ i (d + 1) → ∃ p ∈ ps, p.rule = i ∧ p.position = d + 1
  allLook : ∀ i d t, ValidLook ig.cfg F.NodesFirst γ i (d + 1) t →
    ∃ p ∈ ps, p.rule = i ∧ p.position = d + 1 ∧ p.followSet.mem t = true

/-- The whole item set for `γ`. -/
structure ClosureOf (ig : IndexedGrammar T L) (F : FirstTable) (γ : List INode) (ps : List Position) :
    Prop extends Sound ig F γ ps where
  all : ∀ i d, Valid ig.cfg γ i d → ∃ p ∈ ps, p.rule = i ∧ p.position = d
  allLook : ∀ i d t, ValidLook ig.cfg F.NodesFirst γ i d t →
    ∃ p ∈ ps, p.rule = i ∧ p.position = d ∧ p.followSet.mem t = true

theorem closureLabel_sound (he : EpsLast ig) {γ : List INode} {K : List Position}
    (hK : ∀ p ∈ K, p.OK ig) (hs : Sound ig F γ K) {l : Nat} (h : ClosureLabel ig K l) :
    ∃ i d q β, Valid ig.cfg γ i d ∧ ig.cfg[i]? = some q ∧
      (Spec.rhs q).drop d = .production l :: β := by
  induction h with
  | @kernel p l rest hp ht =>
    obtain ⟨q, hq⟩ := (hK p hp).cfg
    obtain ⟨β, hβ, -⟩ := he.tail (F := F) hq ht
    exact ⟨_, _, q, β, hs.valid p hp, hq, hβ⟩
  | @step r l rest _ hr hn ih =>
    obtain ⟨i, d, q, β, h1, h2, h3⟩ := ih
    obtain ⟨j, hj⟩ := List.mem_iff_getElem?.mp hr
    have hj' := cfg_get.mpr ⟨r, hj, rfl⟩
    obtain ⟨β', hβ, -⟩ := he.prod (F := F) hr (d := 0) hn
    exact ⟨j, 0, r.rule, β', .close h1 h2 h3 hj', hj', hβ⟩

theorem closureTok_sound (he : EpsLast ig) {γ : List INode} {K : List Position}
    (hK : ∀ p ∈ K, p.OK ig) (hs : Sound ig F γ K) {l : Nat} {t : AugTokId}
    (h : ClosureTok ig F K l t) {j : Nat} {q : Rule Nat Nat} (hj : ig.cfg[j]? = some q)
    (hq : q.symbol = l) : ValidLook ig.cfg F.NodesFirst γ j 0 t := by
  induction h generalizing j q with
  | @kernel p l rest t hp ht hf =>
    subst hq
    obtain ⟨q', hq'⟩ := (hK p hp).cfg
    obtain ⟨β, hd, hβ⟩ := he.tail (F := F) hq' ht
    rcases hf with ⟨h1, h2⟩ | ⟨h1, h2⟩
    · exact .closeFirst (hs.valid p hp) hq' hd hj h1 ((hβ _).mp h2)
    · exact .closePass (hs.look p hp t h2) hq' hd hj ((hβ _).mp h1)
  | @first r l rest t hl hr hn hne hf =>
    subst hq
    obtain ⟨i, d, q', β, h1, h2, h3⟩ := closureLabel_sound he hK hs hl
    obtain ⟨k, hk⟩ := List.mem_iff_getElem?.mp hr
    have hk' := cfg_get.mpr ⟨r, hk, rfl⟩
    obtain ⟨β', hd, hβ⟩ := he.prod (F := F) hr (d := 0) hn
    exact .closeFirst (.close h1 h2 h3 hk') hk' hd hj hne ((hβ _).mp hf)
  | @pass r l rest t _ hr hn hf ih =>
    subst hq
    obtain ⟨k, hk⟩ := List.mem_iff_getElem?.mp hr
    have hk' := cfg_get.mpr ⟨r, hk, rfl⟩
    obtain ⟨β', hd, hβ⟩ := he.prod (F := F) hr (d := 0) hn
    exact .closePass (ih hk' rfl) hk' hd hj ((hβ _).mp hf)

theorem items_closureOf (he : EpsLast ig) {γ : List INode} {K items : List Position}
    (hK : ∀ p ∈ K, p.OK ig) (hk : KernelOf ig F γ K) (hi : Items ig F K items) :
    ClosureOf ig F γ items := by
  have hKi : ∀ p ∈ K, p ∈ items := fun p hp => hi.kernel.subset hp
  -- a label after the dot of an item is in the closure
  have hlab : ∀ p ∈ items, ∀ q l β, ig.cfg[p.rule]? = some q →
      (Spec.rhs q).drop p.position = .production l :: β → ClosureLabel ig K l := by
    intro p hp q l β hq hd
    rcases hi.mem p hp with h | ⟨h0, r, hr, hl, -⟩
    · obtain ⟨rest, ht, -⟩ := he.of_tail (F := F) hq hd
      exact .kernel h ht
    · obtain ⟨r', hr', rfl⟩ := cfg_get.mp hq
      rw [hr] at hr'
      cases hr'
      rw [h0] at hd
      obtain ⟨rest, ht, -⟩ := he.of_prod (F := F) (List.mem_of_getElem? hr) (d := 0) hd
      exact .step hl (List.mem_of_getElem? hr) ht
  have hall : ∀ γ' i d, Valid ig.cfg γ' i d → γ' = γ → ∃ p ∈ items, p.rule = i ∧ p.position = d := by
    intro γ' i d h
    induction h with
    | root =>
      intro h
      exact ⟨_, hKi _ (hk.root h.symm), rfl, rfl⟩
    | @close γ' i d j r r' β h1 h2 h3 h4 ih =>
      rintro rfl
      obtain ⟨p, hp, rfl, rfl⟩ := ih rfl
      obtain ⟨s, hs, rfl⟩ := cfg_get.mp h4
      obtain ⟨p', hp', e1, e2, -⟩ := hi.label _ (hlab p hp _ _ _ h2 h3) j s hs rfl
      exact ⟨p', hp', e1, e2⟩
    | @move γ' i d r X β h1 h2 h3 _ =>
      rintro rfl
      obtain ⟨p, hp, e⟩ := hk.all _ _ (.move h1 h2 h3)
      exact ⟨p, hKi p hp, e⟩
  refine ⟨⟨?_, ?_⟩, fun i d h => hall γ i d h rfl, ?_⟩
  · intro p hp
    rcases hi.mem p hp with h | ⟨h0, r, hr, hl, -⟩
    · exact hk.valid p h
    · rw [h0]
      obtain ⟨i, d, q, β, h1, h2, h3⟩ := closureLabel_sound he hK hk.toSound hl
      exact .close h1 h2 h3 (cfg_get.mpr ⟨r, hr, rfl⟩)
  · intro p hp t ht
    rcases hi.mem p hp with h | ⟨h0, r, hr, hl, hf⟩
    · exact hk.look p h t ht
    · rw [h0]
      exact closureTok_sound he hK hk.toSound ((hf t).mp ht) (cfg_get.mpr ⟨r, hr, rfl⟩) rfl
  · have : ∀ γ' i d t, ValidLook ig.cfg F.NodesFirst γ' i d t → γ' = γ →
        ∃ p ∈ items, p.rule = i ∧ p.position = d ∧ p.followSet.mem t = true := by
      intro γ' i d t h
      induction h with
      | root =>
        intro h
        exact ⟨_, hKi _ (hk.root h.symm), rfl, rfl, ((eosOnly_spec (eos_lt ig)).2.1 _).mpr rfl⟩
      | @closeFirst γ' i d j r r' β t h1 h2 h3 h4 hne hf =>
        rintro rfl
        obtain ⟨p, hp, rfl, rfl⟩ := hall _ _ _ h1 rfl
        obtain ⟨s, hs, rfl⟩ := cfg_get.mp h4
        obtain ⟨p', hp', e1, e2, e3⟩ := hi.label _ (hlab p hp _ _ _ h2 h3) j s hs rfl
        refine ⟨p', hp', e1, e2, (e3 t).mpr ?_⟩
        rcases hi.mem p hp with h | ⟨h0, u, hu, hl, -⟩
        · obtain ⟨rest, ht, hβ⟩ := he.of_tail (F := F) h2 h3
          exact .kernel h ht (.inl ⟨hne, (hβ _).mpr hf⟩)
        · obtain ⟨u', hu', rfl⟩ := cfg_get.mp h2
          rw [hu] at hu'
          cases hu'
          rw [h0] at h3
          obtain ⟨rest, ht, hβ⟩ := he.of_prod (F := F) (List.mem_of_getElem? hu) (d := 0) h3
          exact .first hl (List.mem_of_getElem? hu) ht hne ((hβ _).mpr hf)
      | @closePass γ' i d j r r' β t h1 h2 h3 h4 hf ih =>
        rintro rfl
        obtain ⟨p, hp, rfl, rfl, hpt⟩ := ih rfl
        obtain ⟨s, hs, rfl⟩ := cfg_get.mp h4
        obtain ⟨p', hp', e1, e2, e3⟩ := hi.label _ (hlab p hp _ _ _ h2 h3) j s hs rfl
        refine ⟨p', hp', e1, e2, (e3 t).mpr ?_⟩
        rcases hi.mem p hp with h | ⟨h0, u, hu, hl, hfs⟩
        · obtain ⟨rest, ht, hβ⟩ := he.of_tail (F := F) h2 h3
          exact .kernel h ht (.inr ⟨(hβ _).mpr hf, hpt⟩)
        · obtain ⟨u', hu', rfl⟩ := cfg_get.mp h2
          rw [hu] at hu'
          cases hu'
          rw [h0] at h3
          obtain ⟨rest, ht, hβ⟩ := he.of_prod (F := F) (List.mem_of_getElem? hu) (d := 0) h3
          exact .pass ((hfs t).mp hpt) (List.mem_of_getElem? hu) ht ((hβ _).mpr hf)
      | @move γ' i d r X β t h1 h2 h3 _ =>
        rintro rfl
        obtain ⟨p, hp, e⟩ := hk.allLook _ _ _ (.move h1 h2 h3)
        exact ⟨p, hKi p hp, e⟩
    exact fun i d t h => this γ i d t h rfl

theorem rootKernel_kernelOf : KernelOf ig F [] (rootKernel ig).positions := by
  refine ⟨⟨?_, ?_⟩, ?_, ?_, ?_⟩
  · intro p hp
    simp only [rootKernel, List.mem_singleton] at hp
    subst hp
    exact .root
  · intro p hp t ht
    simp only [rootKernel, List.mem_singleton] at hp
    subst hp
    rw [((eosOnly_spec (eos_lt ig)).2.1 t).mp ht]
    exact .root
  · intro _; simp [rootKernel]
  · intro i d h
    generalize hg : ([] : List INode) = γ at h
    generalize hd : d + 1 = d' at h
    cases h with
    | root => cases hd
    | close _ _ _ _ => cases hd
    | move _ _ _ => simp at hg
  · intro i d t h
    generalize hg : ([] : List INode) = γ at h
    generalize hd : d + 1 = d' at h
    cases h with
    | root => cases hd
    | closeFirst _ _ _ _ => cases hd
    | closePass _ _ _ _ => cases hd
    | move _ _ _ => simp at hg

theorem Spec.Valid.move_inv {P : List (Rule Nat Nat)} {γ : List INode} {X : INode} {i d : Nat}
    (h : Valid P (γ ++ [X]) i (d + 1)) :
    ∃ r β, Valid P γ i d ∧ P[i]? = some r ∧ (Spec.rhs r).drop d = X :: β := by
  generalize hg : γ ++ [X] = γ' at h
  generalize hd : d + 1 = d' at h
  cases h with
  | root => cases hd
  | close _ _ _ _ => cases hd
  | @move γ1 i d1 r Y β h1 h2 h3 =>
    obtain ⟨rfl, e⟩ := List.append_inj' hg rfl
    cases e
    cases hd
    exact ⟨r, β, h1, h2, h3⟩

theorem Spec.ValidLook.move_inv {P : List (Rule Nat Nat)} {first : List INode → AugTokId → Prop}
    {γ : List INode} {X : INode} {i d : Nat} {t : AugTokId}
    (h : ValidLook P first (γ ++ [X]) i (d + 1) t) :
    ∃ r β, ValidLook P first γ i d t ∧ P[i]? = some r ∧ (Spec.rhs r).drop d = X :: β := by
  generalize hg : γ ++ [X] = γ' at h
  generalize hd : d + 1 = d' at h
  cases h with
  | root => cases hd
  | closeFirst _ _ _ _ => cases hd
  | closePass _ _ _ _ => cases hd
  | @move γ1 i d1 r Y β t h1 h2 h3 =>
    obtain ⟨rfl, e⟩ := List.append_inj' hg rfl
    cases e
    cases hd
    exact ⟨r, β, h1, h2, h3⟩

theorem nextOf_kernelOf (he : EpsLast ig) {γ : List INode} {items : List Position}
    (hok : ∀ p ∈ items, p.OK ig) (hi : ClosureOf ig F γ items) (X : INode) :
    KernelOf ig F (γ ++ [X]) (nextOf ig items (some X)).positions := by
  have hsplit : ∀ p ∈ items, p.cat ig = some X → ∃ q β, ig.cfg[p.rule]? = some q ∧
      (Spec.rhs q).drop p.position = X :: β := by
    intro p hp hc
    obtain ⟨q, hq⟩ := (hok p hp).cfg
    rw [he.cat_eq hq] at hc
    cases hd : (Spec.rhs q).drop p.position with
    | nil => rw [hd] at hc; cases hc
    | cons Y β =>
      rw [hd] at hc
      cases hc
      exact ⟨q, β, hq, hd⟩
  have hcat : ∀ p ∈ items, ∀ q β, ig.cfg[p.rule]? = some q →
      (Spec.rhs q).drop p.position = X :: β → p.cat ig = some X := by
    intro p hp q β hq hd
    rw [he.cat_eq hq, hd]; rfl
  refine ⟨⟨?_, ?_⟩, ?_, ?_, ?_⟩
  · intro q hq
    obtain ⟨p, hp, hc, rfl⟩ := mem_nextOf.mp hq
    obtain ⟨r, β, hr, hd⟩ := hsplit p hp hc
    exact .move (hi.valid p hp) hr hd
  · intro q hq t ht
    obtain ⟨p, hp, hc, rfl⟩ := mem_nextOf.mp hq
    obtain ⟨r, β, hr, hd⟩ := hsplit p hp hc
    exact .move (hi.look p hp t ht) hr hd
  · intro h; simp at h
  · intro i d h
    obtain ⟨r, β, h1, h2, h3⟩ := Valid.move_inv h
    obtain ⟨p, hp, rfl, rfl⟩ := hi.all _ _ h1
    exact ⟨adv p, mem_nextOf.mpr ⟨p, hp, hcat p hp _ _ h2 h3, rfl⟩, rfl, rfl⟩
  · intro i d t h
    obtain ⟨r, β, h1, h2, h3⟩ := ValidLook.move_inv h
    obtain ⟨p, hp, rfl, rfl, ht⟩ := hi.allLook _ _ _ h1
    exact ⟨adv p, mem_nextOf.mpr ⟨p, hp, hcat p hp _ _ h2 h3, rfl⟩, rfl, rfl, ht⟩

/-- The kernel reached by reading `γ`. -/
inductive KPath (ig : IndexedGrammar T L) (F : FirstTable) : List INode → Kernel → Prop
  | nil : KPath ig F [] (rootKernel ig)
  | snoc {γ : List INode} {k : Kernel} {items : List Position} {X : INode} {p : Position} :
      KPath ig F γ k → ItemsOf ig F k items → p ∈ items → p.cat ig = some X →
      KPath ig F (γ ++ [X]) (nextOf ig items (some X))

theorem KPath.reach {γ : List INode} {k : Kernel} (h : KPath ig F γ k) : Reach ig F k := by
  induction h with
  | nil => exact .root
  | snoc _ h1 h2 h3 ih => exact .step ih h1 h2 h3

theorem Reach.kpath {k : Kernel} (h : Reach ig F k) : ∃ γ, KPath ig F γ k := by
  induction h with
  | root => exact ⟨_, .nil⟩
  | step _ h1 h2 h3 ih => obtain ⟨γ, h⟩ := ih; exact ⟨_, .snoc h h1 h2 h3⟩

theorem KPath.kernelOf (hw : ig.WF) (hF : F.WF ig.labelsCount ig.vocab.size) (he : EpsLast ig)
    {γ : List INode} {k : Kernel} (h : KPath ig F γ k) : KernelOf ig F γ k.positions := by
  induction h with
  | nil => exact rootKernel_kernelOf
  | snoc h h1 h2 h3 ih =>
    have hi := h.reach.items hw hF h1
    exact nextOf_kernelOf he hi.ok (items_closureOf he (h.reach.ok hw hF) ih hi) _

theorem KPath.closureOf (hw : ig.WF) (hF : F.WF ig.labelsCount ig.vocab.size) (he : EpsLast ig)
    {γ : List INode} {k : Kernel} (h : KPath ig F γ k) {items : List Position}
    (hi : ItemsOf ig F k items) : ClosureOf ig F γ items :=
  items_closureOf he (h.reach.ok hw hF) (h.kernelOf hw hF he) (h.reach.items hw hF hi)

theorem KPath.snoc_inv {γ : List INode} {k : Kernel} {X : INode} (h : KPath ig F (γ ++ [X]) k) :
    ∃ k' items p, KPath ig F γ k' ∧ ItemsOf ig F k' items ∧ p ∈ items ∧ p.cat ig = some X ∧
      k = nextOf ig items (some X) := by
  generalize hg : γ ++ [X] = γ' at h
  cases h with
  | nil => simp at hg
  | @snoc γ1 k1 items Y p h1 h2 h3 h4 =>
    obtain ⟨rfl, e⟩ := List.append_inj' hg rfl
    cases e
    exact ⟨k1, items, p, h1, h2, h3, h4, rfl⟩

theorem KPath.nil_inv {k : Kernel} (h : KPath ig F [] k) : k = rootKernel ig := by
  generalize hg : ([] : List INode) = γ at h
  cases h with
  | nil => rfl
  | snoc _ _ _ _ => simp at hg

theorem KPath.det {γ : List INode} {k k' : Kernel} (h : KPath ig F γ k) (h' : KPath ig F γ k') :
    k = k' := by
  induction h generalizing k' with
  | nil => exact h'.nil_inv.symm
  | @snoc γ k items X p h1 h2 h3 h4 ih =>
    obtain ⟨k1, items1, p1, g1, g2, g3, g4, rfl⟩ := h'.snoc_inv
    cases ih g1
    unfold ItemsOf at h2 g2
    rw [h2] at g2
    cases g2
    rfl

theorem itemsOf_total (hw : ig.WF) (hF : F.WF ig.labelsCount ig.vocab.size) {k : Kernel}
    (hk : Reach ig F k) : ∃ items, ItemsOf ig F k items := by
  obtain ⟨items, e, -⟩ := closureItems_spec (ε := LRTableError T L) hw hF k (hk.ok hw hF)
  exact ⟨items, e⟩

theorem Spec.Valid.kpath (hw : ig.WF) (hF : F.WF ig.labelsCount ig.vocab.size) (he : EpsLast ig)
    {γ : List INode} {i d : Nat} (h : Valid ig.cfg γ i d) : ∃ k, KPath ig F γ k := by
  induction h with
  | root => exact ⟨_, .nil⟩
  | close _ _ _ _ ih => exact ih
  | @move γ i d r X β h1 h2 h3 ih =>
    obtain ⟨k, hk⟩ := ih
    obtain ⟨items, hi⟩ := itemsOf_total hw hF hk.reach
    obtain ⟨p, hp, rfl, rfl⟩ := (hk.closureOf hw hF he hi).all _ _ h1
    refine ⟨_, .snoc hk hi hp ?_⟩
    rw [he.cat_eq h2, h3]; rfl

theorem KPath.valid (hw : ig.WF) (hF : F.WF ig.labelsCount ig.vocab.size) (he : EpsLast ig)
    {γ : List INode} {k : Kernel} (h : KPath ig F γ k) : ∃ i d, Valid ig.cfg γ i d := by
  cases h with
  | nil => exact ⟨_, _, .root⟩
  | snoc h h1 h2 h3 =>
    have hk := KPath.kernelOf hw hF he (.snoc h h1 h2 h3)
    exact ⟨_, _, hk.valid (adv _) (mem_nextOf.mpr ⟨_, h2, h3, rfl⟩)⟩

/-- Demands of the specification, in terms of the closure items. -/
theorem demands_shift (he : EpsLast ig) {γ : List INode} {items : List Position}
    (hok : ∀ p ∈ items, p.OK ig) (hi : ClosureOf ig F γ items) {t : AugTokId} :
    Demands ig.cfg F.NodesFirst γ t .shift ↔ ∃ p ∈ items, p.cat ig = some (.terminal t) := by
  constructor
  · intro h
    cases h with
    | shift h1 h2 h3 =>
      obtain ⟨p, hp, rfl, rfl⟩ := hi.all _ _ h1
      exact ⟨p, hp, by rw [he.cat_eq h2, h3]; rfl⟩
  · rintro ⟨p, hp, hc⟩
    obtain ⟨q, hq⟩ := (hok p hp).cfg
    rw [he.cat_eq hq] at hc
    cases hd : (Spec.rhs q).drop p.position with
    | nil => rw [hd] at hc; cases hc
    | cons Y β =>
      rw [hd] at hc
      cases hc
      exact .shift (hi.valid p hp) hq hd

theorem Spec.Valid.le {P : List (Rule Nat Nat)} {γ : List INode} {i d : Nat} {r : Rule Nat Nat}
    (h : Valid P γ i d) (hr : P[i]? = some r) : d ≤ (Spec.rhs r).length := by
  cases h with
  | root => exact Nat.zero_le _
  | close _ _ _ _ => exact Nat.zero_le _
  | move _ h2 h3 =>
    rw [h2] at hr
    cases hr
    by_contra hlt
    rw [List.drop_eq_nil_of_le (by omega)] at h3
    cases h3

theorem cat_none_iff (he : EpsLast ig) {γ : List INode} {items : List Position}
    (hi : ClosureOf ig F γ items) {p : Position} (hp : p ∈ items)
    {q : Rule Nat Nat} (hq : ig.cfg[p.rule]? = some q) :
    p.cat ig = none ↔ p.position = (Spec.rhs q).length := by
  have hle := (hi.valid p hp).le hq
  rw [he.cat_eq hq, List.head?_eq_none_iff, List.drop_eq_nil_iff]
  omega

theorem demands_end (he : EpsLast ig) {γ : List INode} {items : List Position}
    (hok : ∀ p ∈ items, p.OK ig) (hi : ClosureOf ig F γ items) {t : AugTokId} :
    (∀ i, Demands ig.cfg F.NodesFirst γ t (.reduce i) ↔
      ∃ p ∈ items, p.cat ig = none ∧ EndWants p t (.reduce i)) ∧
    (Demands ig.cfg F.NodesFirst γ t .accept ↔
      ∃ p ∈ items, p.cat ig = none ∧ EndWants p t .accept) := by
  refine ⟨fun i => ⟨?_, ?_⟩, ?_, ?_⟩
  · intro h
    cases h with
    | reduce h1 h2 h3 =>
      obtain ⟨p, hp, rfl, e, ht⟩ := hi.allLook _ _ _ h3
      exact ⟨p, hp, (cat_none_iff he hi hp h1).mpr e, .inr ⟨h2, ht, rfl⟩⟩
  · rintro ⟨p, hp, hc, ⟨-, -, h⟩ | ⟨h0, ht, h⟩⟩
    · cases h
    · cases h
      obtain ⟨q, hq⟩ := (hok p hp).cfg
      refine .reduce hq h0 ?_
      rw [← (cat_none_iff he hi hp hq).mp hc]
      exact hi.look p hp t ht
  · intro h
    cases h with
    | accept h1 h2 h3 =>
      obtain ⟨p, hp, e0, e⟩ := hi.all _ _ h3
      rw [← e0] at h1
      exact ⟨p, hp, (cat_none_iff he hi hp h1).mpr e, .inl ⟨e0, h2, rfl⟩⟩
  · rintro ⟨p, hp, hc, ⟨h0, ht, -⟩ | ⟨-, -, h⟩⟩
    · obtain ⟨q, hq⟩ := (hok p hp).cfg
      have e := (cat_none_iff he hi hp hq).mp hc
      have hv := hi.valid p hp
      rw [e, h0] at hv
      rw [h0] at hq
      exact .accept hq ht hv
    · cases h

/-! ### The table -/

/-- State `s` of the built table is the one reached by reading `γ`. -/
def At (ig : IndexedGrammar T L) (F : FirstTable) (kt : KernelTable) (γ : List INode) (s : Nat) : Prop :=
  ∃ k, KPath ig F γ k ∧ kt.states[s]? = some k

section
variable {kt : KernelTable} {table : LRTable}

theorem Built.pos (h : Built ig F kt table) : 0 < table.numStates := by
  rw [h.all]
  exact (List.getElem?_eq_some_iff.mp h.init).1

theorem Built.getAction_eq {ε : Type} (h : Built ig F kt table) {s : Nat} (hs : s < table.numStates)
    {t : AugTokId} (ht : Label.id t < ig.vocab.size) :
    ∃ o, table.actionTable[ig.vocab.size * s + Label.id t]? = some o ∧
      (table.getAction s t : Outcome ε _) = .ok o := by
  have hn := h.pos
  have hlt : ig.vocab.size * s + Label.id t < table.actionTable.length := by
    rw [h.lenA]
    calc ig.vocab.size * s + Label.id t < ig.vocab.size * s + ig.vocab.size := by omega
      _ = ig.vocab.size * (s + 1) := by rw [Nat.mul_succ]
      _ ≤ _ := Nat.mul_le_mul_left _ hs
  refine ⟨_, List.getElem?_eq_getElem hlt, ?_⟩
  have h1 : (table.numStates != 0 && table.actionTable.length % table.numStates == 0) = true := by
    rw [h.lenA, Nat.mul_mod_left]
    simp only [bne_iff_ne, ne_eq, beq_self_eq_true, Bool.and_true]
    omega
  have h2 : (table.vocabSize : Outcome ε _) = .ok ig.vocab.size := by
    simp only [LRTable.vocabSize, h1, Outcome.assert_true, Outcome.ok_bind, Outcome.pure_eq]
    rw [h.lenA, Nat.mul_div_cancel _ hn]
  simp only [LRTable.getAction, h2, Outcome.ok_bind]
  rw [Outcome.index_eq_ok]
  exact List.getElem?_eq_getElem hlt

theorem Built.getGoto_eq {ε : Type} (h : Built ig F kt table) {s : Nat} (hs : s < table.numStates)
    {l : Nat} (hl : l < ig.labelsCount) :
    ∃ o, table.gotoTable[ig.labelsCount * s + l]? = some o ∧
      (table.getGoto s l : Outcome ε _) = .ok o := by
  have hn := h.pos
  have hlt : ig.labelsCount * s + l < table.gotoTable.length := by
    rw [h.lenG]
    calc ig.labelsCount * s + l < ig.labelsCount * s + ig.labelsCount := by omega
      _ = ig.labelsCount * (s + 1) := by rw [Nat.mul_succ]
      _ ≤ _ := Nat.mul_le_mul_left _ hs
  refine ⟨_, List.getElem?_eq_getElem hlt, ?_⟩
  have h1 : (table.numStates != 0 && table.gotoTable.length % table.numStates == 0) = true := by
    rw [h.lenG, Nat.mul_mod_left]
    simp only [bne_iff_ne, ne_eq, beq_self_eq_true, Bool.and_true]
    omega
  have h2 : (table.numLabels : Outcome ε _) = .ok ig.labelsCount := by
    simp only [LRTable.numLabels, h1, Outcome.assert_true, Outcome.ok_bind, Outcome.pure_eq]
    rw [h.lenG, Nat.mul_div_cancel _ hn]
  simp only [LRTable.getGoto, h2, Outcome.ok_bind]
  rw [Outcome.index_eq_ok]
  exact List.getElem?_eq_getElem hlt

theorem Built.mem_of_reach (h : Built ig F kt table) {k : Kernel} (hk : Reach ig F k) :
    ∃ s : Nat, kt.states[s]? = some k := by
  induction hk with
  | root => exact ⟨0, h.init⟩
  | @step k items n p _ h1 h2 h3 ih =>
    obtain ⟨s, hs⟩ := ih
    have hlt : s < table.numStates := by rw [h.all]; exact (List.getElem?_eq_some_iff.mp hs).1
    obtain ⟨k', items', hr⟩ := h.row s hlt
    rw [hr.kernel] at hs
    cases hs
    have := hr.itemsOf
    unfold ItemsOf at this h1
    rw [h1] at this
    cases this
    exact hr.known p h2 n h3

/-- The row of a state, in terms of what has been read. -/
structure Entries (ig : IndexedGrammar T L) (F : FirstTable) (kt : KernelTable) (table : LRTable)
    (γ : List INode) (s : Nat) : Prop where
  lt : s < table.numStates
  shift : ∀ (ε : Type) t s', Label.id t < ig.vocab.size →
    ((table.getAction s t : Outcome ε _) = .ok (some (.shift s')) ↔
      Demands ig.cfg F.NodesFirst γ t .shift ∧ At ig F kt (γ ++ [.terminal t]) s')
  reduce : ∀ (ε : Type) t i, Label.id t < ig.vocab.size →
    ((table.getAction s t : Outcome ε _) = .ok (some (.reduce i)) ↔
      Demands ig.cfg F.NodesFirst γ t (.reduce i))
  accept : ∀ (ε : Type) t, Label.id t < ig.vocab.size →
    ((table.getAction s t : Outcome ε _) = .ok (some .accept) ↔ Demands ig.cfg F.NodesFirst γ t .accept)
  actionOk : ∀ (ε : Type) t, Label.id t < ig.vocab.size →
    ∃ o, (table.getAction s t : Outcome ε _) = .ok o
  goto : ∀ (ε : Type) l s', l < ig.labelsCount →
    ((table.getGoto s l : Outcome ε _) = .ok (some s') ↔
      (∃ i d r β, Valid ig.cfg γ i d ∧ ig.cfg[i]? = some r ∧
        (Spec.rhs r).drop d = .production l :: β) ∧ At ig F kt (γ ++ [.production l]) s')
  gotoOk : ∀ (ε : Type) l, l < ig.labelsCount → ∃ o, (table.getGoto s l : Outcome ε _) = .ok o

theorem Built.entries (hw : ig.WF) (hF : F.WF ig.labelsCount ig.vocab.size) (he : EpsLast ig)
    (h : Built ig F kt table) {γ : List INode} {s : Nat} (hs : At ig F kt γ s) :
    Entries ig F kt table γ s := by
  obtain ⟨k, hp, hk⟩ := hs
  have hlt : s < table.numStates := by rw [h.all]; exact (List.getElem?_eq_some_iff.mp hk).1
  obtain ⟨k', items, hr⟩ := h.row s hlt
  have := hr.kernel
  rw [hk] at this
  cases this
  have hc := hp.closureOf hw hF he hr.itemsOf
  have hok := (hp.reach.items hw hF hr.itemsOf).ok
  have hat : ∀ X s', (∃ p ∈ items, p.cat ig = some X) →
      (kt.states[s']? = some (nextOf ig items (some X)) ↔ At ig F kt (γ ++ [X]) s') := by
    rintro X s' ⟨p, hpi, hpc⟩
    constructor
    · intro e
      exact ⟨_, .snoc hp hr.itemsOf hpi hpc, e⟩
    · rintro ⟨k', hk', e⟩
      rw [hk'.det (.snoc hp hr.itemsOf hpi hpc)] at e
      exact e
  refine ⟨hlt, ?_, ?_, ?_, ?_, ?_, ?_⟩
  · intro ε t s' ht
    obtain ⟨o, h1, h2⟩ := h.getAction_eq (ε := ε) hlt ht
    have := hr.shift t s' ht
    rw [h1] at this
    rw [h2, Outcome.ok.injEq, demands_shift he hok hc]
    rw [Option.some.injEq] at this
    rw [this]
    exact and_congr_right fun hx => hat _ _ hx
  · intro ε t i ht
    obtain ⟨o, h1, h2⟩ := h.getAction_eq (ε := ε) hlt ht
    have := hr.ends t (.reduce i) ht (by simp)
    rw [h1, Option.some.injEq] at this
    rw [h2, Outcome.ok.injEq, (demands_end he hok hc).1, this]
  · intro ε t ht
    obtain ⟨o, h1, h2⟩ := h.getAction_eq (ε := ε) hlt ht
    have := hr.ends t .accept ht (by simp)
    rw [h1, Option.some.injEq] at this
    rw [h2, Outcome.ok.injEq, (demands_end he hok hc).2, this]
  · intro ε t ht
    obtain ⟨o, h1, h2⟩ := h.getAction_eq (ε := ε) hlt ht
    exact ⟨o, h2⟩
  · intro ε l s' hl
    obtain ⟨o, h1, h2⟩ := h.getGoto_eq (ε := ε) hlt hl
    have := hr.goto l s' hl
    rw [h1, Option.some.injEq] at this
    rw [h2, Outcome.ok.injEq, this]
    have hiff : (∃ p ∈ items, p.cat ig = some (.production l)) ↔
        ∃ i d r β, Valid ig.cfg γ i d ∧ ig.cfg[i]? = some r ∧
          (Spec.rhs r).drop d = .production l :: β := by
      constructor
      · rintro ⟨p, hpi, hpc⟩
        obtain ⟨q, hq⟩ := (hok p hpi).cfg
        rw [he.cat_eq hq] at hpc
        cases hd : (Spec.rhs q).drop p.position with
        | nil => rw [hd] at hpc; cases hpc
        | cons Y β =>
          rw [hd] at hpc
          cases hpc
          exact ⟨_, _, q, β, hc.valid p hpi, hq, hd⟩
      · rintro ⟨i, d, r, β, h1, h2, h3⟩
        obtain ⟨p, hpi, rfl, rfl⟩ := hc.all _ _ h1
        exact ⟨p, hpi, by rw [he.cat_eq h2, h3]; rfl⟩
    rw [← hiff]
    exact and_congr_right fun hx => hat _ _ hx
  · intro ε l hl
    obtain ⟨o, h1, h2⟩ := h.getGoto_eq (ε := ε) hlt hl
    exact ⟨o, h2⟩

theorem Built.at_nil (h : Built ig F kt table) : At ig F kt [] 0 := ⟨_, .nil, h.init⟩

theorem Built.at_of_valid (hw : ig.WF) (hF : F.WF ig.labelsCount ig.vocab.size) (he : EpsLast ig)
    (h : Built ig F kt table) {γ : List INode} {i d : Nat} (hv : Valid ig.cfg γ i d) :
    ∃ s, At ig F kt γ s := by
  obtain ⟨k, hk⟩ := Valid.kpath hw hF he hv
  obtain ⟨s, hs⟩ := h.mem_of_reach hk.reach
  exact ⟨s, k, hk, hs⟩

theorem Built.at_unique (h : Built ig F kt table) {γ : List INode} {s s' : Nat} (h1 : At ig F kt γ s)
    (h2 : At ig F kt γ s') : s = s' := by
  obtain ⟨k, hk, e⟩ := h1
  obtain ⟨k', hk', e'⟩ := h2
  cases hk.det hk'
  exact getElem?_inj_of_nodup h.wf.nodup e e'

theorem Built.exists_at (h : Built ig F kt table) {s : Nat} (hs : s < table.numStates) :
    ∃ γ, At ig F kt γ s := by
  rw [h.all] at hs
  obtain ⟨γ, hγ⟩ := (h.reach _ (List.getElem_mem hs)).kpath
  exact ⟨γ, _, hγ, List.getElem?_eq_getElem hs⟩

theorem Spec.Demands.valid {P : List (Rule Nat Nat)} {first : List INode → AugTokId → Prop} {γ : List INode}
    {t : AugTokId} {a : Act} (h : Demands P first γ t a) : ∃ i d, Valid P γ i d := by
  cases h with
  | shift h _ _ => exact ⟨_, _, h⟩
  | reduce _ _ h => exact ⟨_, _, h.valid⟩
  | accept _ _ h => exact ⟨_, _, h⟩

theorem node_mem_of_drop {i d : Nat} {r : Rule Nat Nat} {X : INode}
    {β : List INode} (hr : ig.cfg[i]? = some r) (hd : (Spec.rhs r).drop d = X :: β) :
    ∃ q ∈ ig.rules, q.rule = r ∧ X ∈ q.nodes ∧ X ≠ .terminal .epsilon := by
  obtain ⟨q, hq, rfl⟩ := cfg_get.mp hr
  have : X ∈ Spec.rhs q.rule := List.mem_of_mem_drop (i := d) (by rw [hd]; simp)
  rw [rhs_eq] at this
  unfold Rule.excludingEpsilon at this
  rw [List.mem_filter] at this
  refine ⟨q, List.mem_of_getElem? hq, rfl, this.1, ?_⟩
  rintro rfl
  simp [Node.isEpsilon] at this

theorem nodesFirst_lt (hF : F.WF ig.labelsCount ig.vocab.size) {α : List INode}
    (hα : ∀ n ∈ α, n.InRange ig.labelsCount ig.vocab.size) {t : AugTokId} (h : F.NodesFirst α t) :
    Label.id t < ig.vocab.size := by
  induction α with
  | nil => cases h; show 0 < _; simp [Vocab.size]
  | cons n α ih =>
    have hn := hα n List.mem_cons_self
    have ih := ih fun m hm => hα m (List.mem_cons_of_mem _ hm)
    cases n with
    | production l =>
      rcases h with ⟨-, h⟩ | ⟨-, h⟩
      · exact (hF.in_lt h).2
      · exact ih h
    | terminal k =>
      cases k with
      | epsilon => exact ih h
      | token k => cases h; exact hn
      | eos => cases h; exact hn

theorem Spec.ValidLook.lt (hw : ig.WF) (hF : F.WF ig.labelsCount ig.vocab.size) {γ : List INode} {i d : Nat}
    {t : AugTokId} (h : ValidLook ig.cfg F.NodesFirst γ i d t) : Label.id t < ig.vocab.size := by
  induction h with
  | root => exact eos_lt ig
  | @closeFirst γ i d j r r' β t h1 h2 h3 h4 h5 h6 =>
    refine nodesFirst_lt hF ?_ h6
    intro n hn
    obtain ⟨q, hq, rfl⟩ := cfg_get.mp h2
    have : n ∈ Spec.rhs q.rule := List.mem_of_mem_drop (i := d) (by rw [h3]; simp [hn])
    rw [rhs_eq] at this
    exact hw.node q (List.mem_of_getElem? hq) n (List.mem_of_mem_filter this)
  | closePass _ _ _ _ _ ih => exact ih
  | move _ _ _ ih => exact ih

theorem Spec.ValidLook.ne_eps {P : List (Rule Nat Nat)} {first : List INode → AugTokId → Prop}
    {γ : List INode} {i d : Nat} {t : AugTokId} (h : ValidLook P first γ i d t) : t ≠ .epsilon := by
  induction h with
  | root => simp
  | closeFirst _ _ _ _ h _ => exact h
  | closePass _ _ _ _ _ ih => exact ih
  | move _ _ _ ih => exact ih

theorem Spec.Demands.lt (hw : ig.WF) (hF : F.WF ig.labelsCount ig.vocab.size) {γ : List INode}
    {t : AugTokId} {a : Act} (h : Demands ig.cfg F.NodesFirst γ t a) :
    Label.id t < ig.vocab.size ∧ t ≠ .epsilon := by
  cases h with
  | shift h1 h2 h3 =>
    obtain ⟨q, hq, rfl, hm, hne⟩ := node_mem_of_drop h2 h3
    exact ⟨hw.node q hq _ hm, fun e => hne (by rw [e])⟩
  | reduce _ _ h => exact ⟨ValidLook.lt hw hF h, ValidLook.ne_eps h⟩
  | accept _ h _ => subst h; exact ⟨eos_lt ig, by simp⟩

/-- A built table has no conflicts. -/
theorem Built.noConflict (hw : ig.WF) (hF : F.WF ig.labelsCount ig.vocab.size) (he : EpsLast ig)
    (h : Built ig F kt table) : NoConflict ig.cfg F.NodesFirst := by
  intro γ t a b ha hb
  obtain ⟨i, d, hv⟩ := Demands.valid ha
  obtain ⟨s, hs⟩ := h.at_of_valid hw hF he hv
  have hE := h.entries hw hF he hs
  have ht := (Demands.lt hw hF ha).1
  have hget : ∀ a, Demands ig.cfg F.NodesFirst γ t a →
      ∃ x, (table.getAction s t : Outcome Unit _) = .ok (some x) ∧
        a = match x with | .shift _ => Act.shift | .reduce i => Act.reduce i | .accept => Act.accept := by
    intro a ha
    cases a with
    | reduce i => exact ⟨_, (hE.reduce Unit t i ht).mpr ha, rfl⟩
    | accept => exact ⟨_, (hE.accept Unit t ht).mpr ha, rfl⟩
    | shift =>
      cases ha with
      | shift h1 h2 h3 =>
        obtain ⟨s', hs'⟩ := h.at_of_valid hw hF he (.move h1 h2 h3)
        exact ⟨_, (hE.shift Unit t s' ht).mpr ⟨.shift h1 h2 h3, hs'⟩, rfl⟩
  obtain ⟨x, hx, rfl⟩ := hget a ha
  obtain ⟨y, hy, rfl⟩ := hget b hb
  rw [hx] at hy
  cases hy
  rfl

end
end
end Verif
