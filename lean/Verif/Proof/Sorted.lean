import Mathlib.Data.List.Sort
import Verif.Proof.FirstMap

/-!
# FIRST sets of grammars whose rules are sorted
-/

set_option linter.unusedSectionVars false
set_option autoImplicit false

namespace Verif

namespace FirstTable
variable {ε T L : Type} [DecidableEq T] [DecidableEq L] {ig : IndexedGrammar T L}

theorem propagateLabels_append (ls ls' : List Nat) (F : FirstTable) (c : Bool) :
    (propagateLabels ig (ls ++ ls') F c : Outcome ε _) =
      (do let (F, c) ← propagateLabels ig ls F c; propagateLabels ig ls' F c) := by
  induction ls generalizing F c with
  | nil => simp [propagateLabels]
  | cons l ls ih =>
    simp only [List.cons_append, propagateLabels]
    cases (ig.rulesForLabel l : Outcome ε _) with
    | ok rs =>
      simp only [Outcome.ok_bind]
      cases (propagateRules l rs F c : Outcome ε _) with
      | ok x => exact ih x.1 x.2
      | _ => rfl
    | _ => rfl

/-- The label is found to vanish when the labels are looked at in order. -/
def Early (ig : IndexedGrammar T L) (l : Nat) : Prop :=
  ∃ r ∈ ig.cfg, r.symbol = l ∧ ∀ n ∈ r.rule, n = .terminal .epsilon ∨
    ∃ l', n = .production l' ∧ First ig.cfg [.production l'] .epsilon ∧ l' < l

theorem nodesFirst_of_all {F : FirstTable} {α : List INode}
    (h : ∀ n ∈ α, n = .terminal .epsilon ∨ ∃ l, n = .production l ∧ In F l .epsilon) : NodesFirst F α .epsilon := by
  induction α with
  | nil => rfl
  | cons n α ih =>
    have h1 := ih fun m hm => h m (List.mem_cons_of_mem _ hm)
    rcases h n List.mem_cons_self with rfl | ⟨l, rfl, hl⟩
    · exact h1
    · exact .inr ⟨hl, h1⟩

/-- After the labels below `n` have been looked at, those that vanish early are known. -/
theorem propagateLabels_early (h : ig.WF)
    (hn : ∀ l, First ig.cfg [.production l] .epsilon → (∃ r ∈ ig.cfg, .production l ∈ r.rule) → Early ig l) (n : Nat)
    (hle : n ≤ ig.labelsCount) :
    ∃ F c, (propagateLabels ig (List.range n) (init ig) false : Outcome ε _) = .ok (F, c) ∧
      WF ig.labelsCount ig.vocab.size F ∧ Justified ig.cfg F ∧
      ∀ l < n, First ig.cfg [.production l] .epsilon → (∃ r ∈ ig.cfg, .production l ∈ r.rule) → In F l .epsilon := by
  induction n with
  | zero =>
    exact ⟨init ig, false, rfl, init_WF, fun l t hi => absurd hi not_in_init, by simp⟩
  | succ n ih =>
    obtain ⟨F, c, e, hF, hJ, hin⟩ := ih (by omega)
    obtain ⟨F', c', e', hR⟩ := propagateLabels_spec (ε := ε) h [n] (by simpa using by omega) hF hJ c
    refine ⟨F', c', by rw [List.range_succ, propagateLabels_append, e]; exact e', hR.wf, hR.just, fun l hl h1 h2 => ?_⟩
    by_cases hln : l < n
    · exact hR.le _ _ (hin l hln h1 h2)
    obtain rfl : l = n := by omega
    obtain ⟨r, hr, hs, ha⟩ := hn l h1 h2
    rw [← hs]
    refine hR.closed r (List.mem_filter.mpr ⟨hr, by simp [hs]⟩) _ (nodesFirst_of_all fun m hm => ?_)
    rcases ha m hm with h3 | ⟨l', rfl, h4, h5⟩
    · exact .inl h3
    · exact .inr ⟨l', rfl, hin l' h5 h4 ⟨r, hr, hm⟩⟩

theorem propagate_early (h : ig.WF)
    (hn : ∀ l, First ig.cfg [.production l] .epsilon → (∃ r ∈ ig.cfg, .production l ∈ r.rule) → Early ig l)
    {F1 : FirstTable} {c : Bool} (he : (propagate ig (init ig) : Outcome ε _) = .ok (F1, c)) (l : Nat)
    (h1 : First ig.cfg [.production l] .epsilon) (h2 : ∃ r ∈ ig.cfg, .production l ∈ r.rule) : In F1 l .epsilon := by
  obtain ⟨F, c', e, hF, -, hin⟩ := propagateLabels_early (ε := ε) h hn _ (Nat.le_refl _)
  unfold propagate IndexedGrammar.allLabels at he
  rw [e] at he
  cases he
  obtain ⟨r, hr, hm⟩ := h2
  obtain ⟨q, hq, rfl⟩ := List.mem_map.mp hr
  exact hin l (h.node q hq _ hm) h1 ⟨_, hr, hm⟩

theorem NodesFirst.congr {F F' : FirstTable} {α : List INode} {t : AugTokId}
    (h : ∀ l, .production l ∈ α → ∀ t, In F l t → In F' l t) (hf : NodesFirst F α t) : NodesFirst F' α t := by
  induction α with
  | nil => exact hf
  | cons n α ih =>
    have ih' := ih fun l hl => h l (List.mem_cons_of_mem _ hl)
    cases n with
    | terminal k => cases k with
      | epsilon => exact ih' hf
      | token k => exact hf
      | eos => exact hf
    | production l =>
      rcases hf with ⟨h1, h2⟩ | ⟨h1, h2⟩
      · exact .inl ⟨h1, h l List.mem_cons_self _ h2⟩
      · exact .inr ⟨h l List.mem_cons_self _ h1, ih' h2⟩

/-- If the labels that vanish are found in the first round, and it reports a change, the table is closed. -/
theorem closed_of_early (h : ig.WF) {F : FirstTable} (hb : (build ig : Outcome ε _) = .ok F)
    (hn : ∀ l, First ig.cfg [.production l] .epsilon → (∃ r ∈ ig.cfg, .production l ∈ r.rule) → Early ig l)
    {F1 : FirstTable} (he : (propagate ig (init ig) : Outcome ε _) = .ok (F1, true)) : Closed ig.cfg F := by
  obtain ⟨F1', c, e, hR1⟩ := propagate_spec (ε := ε) h (init_WF (ig := ig))
    (fun l t hi => absurd hi not_in_init)
  rw [he] at e
  cases e
  rcases hR1.progress rfl with h0 | ⟨l, t, -, h1, h2⟩
  · cases h0
  have hsz := size_lt hR1.wf hR1.le h1 h2
  obtain ⟨F', e', hres, hle, F0, hle0, hF0, hR0⟩ :=
    buildLoop_spec (ε := ε) h (ig.labelsCount * ig.vocab.size) hR1.wf hR1.just (by omega)
  have : F' = F := by
    simp only [build, buildLoop, he, Outcome.ok_bind, if_true, e', Outcome.ok.injEq] at hb
    exact hb
  subst this
  intro r hr t ht
  refine hR0.closed r hr t (ht.congr fun l hl t hi => ?_)
  rcases hR0.new l t hi with hi' | rfl | hi'
  · exact hi'
  · obtain ⟨q, hq, rfl, hj⟩ := hres.just l _ hi
    exact hle0 _ _ (propagate_early h hn he _ (.skip hq hj.first .nil) ⟨r, hr, hl⟩)
  · cases hi'

theorem propagateRules_append (l : Nat) (rs rs' : List IRule) (F : FirstTable) (c : Bool) :
    (propagateRules l (rs ++ rs') F c : Outcome ε _) =
      (do let (F, c) ← propagateRules l rs F c; propagateRules l rs' F c) := by
  induction rs generalizing F c with
  | nil => simp [propagateRules]
  | cons r rs ih =>
    simp only [List.cons_append, propagateRules]
    cases (propagateNodes l r.nodes F c : Outcome ε _) with
    | ok x =>
      simp only [Outcome.ok_bind]
      split
      · cases (addEpsilon l x.1 : Outcome ε _) with
        | ok y => exact ih y x.2.1
        | _ => rfl
      · exact ih x.1 x.2.1
    | _ => rfl

/-- The rules of a label are looked at in order. -/
theorem rules_split (h : ig.WF) {i0 : Nat} {r0 : IRule} (hr0 : ig.rules[i0]? = some r0) :
    ∃ a b, (ig.rulesForLabel r0.symbol : Outcome ε _) = .ok (a ++ r0 :: b) ∧
      (∀ r ∈ a ++ r0 :: b, r ∈ ig.rules ∧ r.symbol = r0.symbol) ∧
      ∀ i r, ig.rules[i]? = some r → r.symbol = r0.symbol → i < i0 → r ∈ a := by
  have hl : r0.symbol < ig.ruleMetadata.length := h.symbol r0 (List.mem_of_getElem? hr0)
  obtain ⟨h1, h2, h3⟩ := h.range r0.symbol _ (List.getElem?_eq_getElem hl)
  obtain ⟨h4, h5⟩ := (h3 i0 r0 hr0).mp rfl
  generalize hm : ig.ruleMetadata[r0.symbol] = m at h1 h2 h3 h4 h5
  obtain ⟨rs, ers, hf⟩ := IndexedGrammar.productionRules_eq (ε := ε) (ig := ig)
    (List.range' m.startIndex (m.endIndex - m.startIndex)) fun i hi => by rw [List.mem_range'_1] at hi; omega
  have hlen : m.endIndex - m.startIndex = rs.length := by simpa using hf.length_eq
  have hget : ∀ k (hk : k < rs.length), ig.rules[m.startIndex + k]? = some rs[k] := by
    intro k hk
    have := hf.get (i := k) (by simpa using by omega) hk
    simpa using this
  have hk : i0 - m.startIndex < rs.length := by omega
  have e0 : rs[i0 - m.startIndex] = r0 := by
    have := hget _ hk
    rw [show m.startIndex + (i0 - m.startIndex) = i0 by omega, hr0] at this
    cases this; rfl
  have hsplit : rs.take (i0 - m.startIndex) ++ r0 :: rs.drop (i0 - m.startIndex + 1) = rs := by
    rw [← e0, List.cons_getElem_drop_succ, List.take_append_drop]
  refine ⟨rs.take (i0 - m.startIndex), rs.drop (i0 - m.startIndex + 1), ?_, ?_, ?_⟩
  · rw [hsplit]
    simp [IndexedGrammar.rulesForLabel, IndexedGrammar.ruleIdsForLabel, Outcome.index_of_lt hl, hm, ers]
  · rw [hsplit]
    intro r hr
    obtain ⟨k, hk, rfl⟩ := List.mem_iff_getElem.mp hr
    have := hget k hk
    exact ⟨List.mem_of_getElem? this, (h3 _ _ this).mpr (by omega)⟩
  · intro i r hi hs hlt
    obtain ⟨h6, h7⟩ := (h3 i r hi).mp hs
    have hk' : i - m.startIndex < rs.length := by omega
    have := hget _ hk'
    rw [show m.startIndex + (i - m.startIndex) = i by omega, hi] at this
    cases this
    exact List.mem_take_iff_getElem.mpr ⟨i - m.startIndex, by omega, rfl⟩

/-- The first round reports a change if a token is found behind nodes that are known to vanish by then. -/
theorem propagate_found (h : ig.WF)
    (hn : ∀ l, First ig.cfg [.production l] .epsilon → (∃ r ∈ ig.cfg, .production l ∈ r.rule) → Early ig l)
    {i0 : Nat} {r0 : IRule} (hr0 : ig.rules[i0]? = some r0) {pre rest : List INode} {t : AugTokId}
    (hrule : r0.nodes = pre ++ .terminal t :: rest) (hne : t ≠ .epsilon)
    (hpre : ∀ m ∈ pre, m = .terminal .epsilon ∨ ∃ l', m = .production l' ∧ First ig.cfg [.production l'] .epsilon ∧
      (l' < r0.symbol ∨ l' = r0.symbol ∧ ∃ i1 r1, i1 < i0 ∧ ig.rules[i1]? = some r1 ∧ r1.symbol = r0.symbol ∧
        ∀ m ∈ r1.nodes, m = .terminal .epsilon ∨
          ∃ l', m = .production l' ∧ First ig.cfg [.production l'] .epsilon ∧ l' < r0.symbol)) :
    ∃ F1, (propagate ig (init ig) : Outcome ε _) = .ok (F1, true) := by
  have hm0 := List.mem_of_getElem? hr0
  have hl : r0.symbol < ig.labelsCount := h.symbol r0 hm0
  have hv : 2 ≤ ig.vocab.size := by simp [Vocab.size]
  obtain ⟨F, c, e, hF, hJ, hin⟩ := propagateLabels_early (ε := ε) h hn r0.symbol (by omega)
  obtain ⟨a, b, e1, hab, hbefore⟩ := rules_split (ε := ε) h hr0
  have hrange : ∀ r ∈ a ++ r0 :: b, ∀ n ∈ r.nodes, n.InRange ig.labelsCount ig.vocab.size :=
    fun r hr => h.node r (hab r hr).1
  have hrs : ∀ r ∈ a ++ r0 :: b, r.rule ∈ ig.cfg ∧ r.symbol = r0.symbol :=
    fun r hr => ⟨List.mem_map_of_mem (hab r hr).1, (hab r hr).2⟩
  obtain ⟨Fa, ca, ea, hRa⟩ := propagateRules_spec (ε := ε) hl hv a
    (fun r hr => hrange r (List.mem_append_left _ hr)) (fun r hr => hrs r (List.mem_append_left _ hr)) hF hJ c
  obtain ⟨Fb, cb, eb, hRb⟩ := propagateRules_spec (ε := ε) hl hv (r0 :: b)
    (fun r hr => hrange r (List.mem_append_right _ hr)) (fun r hr => hrs r (List.mem_append_right _ hr)) hRa.wf hRa.just ca
  have hlow : ∀ {q : IRule}, q ∈ ig.rules → ∀ {l'}, Node.production l' ∈ q.nodes → First ig.cfg [.production l'] .epsilon →
      l' < r0.symbol → In F l' .epsilon := fun hq _ hm h1 h2 => hin _ h2 h1 ⟨_, List.mem_map_of_mem hq, hm⟩
  have hin0 : In Fb r0.symbol t := by
    refine hRb.closed r0.rule (by simp) t ?_
    show NodesFirst Fa r0.nodes t
    rw [hrule, NodesFirst.append]
    refine .inr ⟨nodesFirst_of_all fun m hm => (hpre m hm).imp_right ?_, ?_⟩
    · rintro ⟨l', rfl, h1, h2⟩
      refine ⟨l', rfl, ?_⟩
      rcases h2 with h2 | ⟨rfl, i1, r1, h3, h4, h5, h6⟩
      · exact hRa.le _ _ (hlow hm0 (by rw [hrule]; exact List.mem_append_left _ hm) h1 h2)
      · have := hRa.closed r1.rule (List.mem_map_of_mem (hbefore i1 r1 h4 h5 h3)) .epsilon
          (nodesFirst_of_all fun m hm => (h6 m hm).imp_right ?_)
        · rwa [show r1.rule.symbol = r0.symbol from h5] at this
        · rintro ⟨l', rfl, h7, h8⟩
          exact ⟨l', rfl, hlow (List.mem_of_getElem? h4) hm h7 h8⟩
    · cases t with
      | token k => rfl
      | epsilon => exact absurd rfl hne
      | eos => rfl
  obtain ⟨F1, c1, e2, hR⟩ := propagateLabels_spec (ε := ε) h
    (List.range' (r0.symbol + 1) (ig.labelsCount - r0.symbol - 1))
    (fun l hl => by rw [List.mem_range'_1] at hl; omega) hRb.wf hRb.just cb
  have hall : (propagate ig (init ig) : Outcome ε _) = .ok (F1, c1) := by
    unfold propagate IndexedGrammar.allLabels
    have : List.range ig.labelsCount =
        List.range r0.symbol ++ r0.symbol :: List.range' (r0.symbol + 1) (ig.labelsCount - r0.symbol - 1) := by
      apply List.ext_getElem (by simp; omega)
      intro i h1 h2
      simp only [List.getElem_range, List.getElem_append, List.length_range, List.getElem_cons, List.getElem_range']
      split
      · rfl
      · split <;> omega
    rw [this, propagateLabels_append, e]
    simp only [Outcome.ok_bind, propagateLabels, e1, propagateRules_append, ea, eb, e2]
  obtain ⟨F1', c1', e3, hR1⟩ := propagate_spec (ε := ε) h (init_WF (ig := ig)) (fun l t hi => absurd hi not_in_init)
  rw [hall] at e3
  cases e3
  rcases hR1.new _ _ (hR.le _ _ hin0) with hi | hi | hi
  · exact absurd hi not_in_init
  · exact absurd hi hne
  · subst hi; exact ⟨F1, hall⟩

theorem Just.sub {P P' : List (Rule Nat Nat)} {F : FirstTable} (h : ∀ r ∈ P, r ∈ P') {α : List INode} {t : AugTokId}
    (hj : Just P F α t) : Just P' F α t := by
  induction hj with
  | nil => exact .nil
  | eps _ ih => exact .eps ih
  | term hne => exact .term hne
  | skip hr hi _ _ ih1 ih2 => exact .skip (h _ hr) hi ih1 ih2
  | take hr hi _ hne ih => exact .take (h _ hr) hi ih hne

theorem Justified.sub {P P' : List (Rule Nat Nat)} {F : FirstTable} (h : ∀ r ∈ P, r ∈ P') (hj : Justified P F) :
    Justified P' F := fun l t hi => by
  obtain ⟨r, hr, e, hr'⟩ := hj l t hi
  exact ⟨r, h r hr, e, hr'.sub h⟩

/-- If a label's rules report a change in a table without tokens, one of the rules has a token behind nodes that are known
to vanish. -/
theorem rules_found {labels vocab l : Nat} (hl : l < labels) (hv : 2 ≤ vocab) (rs : List IRule)
    (hrange : ∀ r ∈ rs, ∀ n ∈ r.nodes, n.InRange labels vocab) (hrs : ∀ r ∈ rs, r.symbol = l)
    {F F' : FirstTable} (hF : WF labels vocab F) (hε : ∀ l t, In F l t → t = .epsilon)
    (he : (propagateRules l rs F false : Outcome ε _) = .ok (F', true)) :
    ∃ r ∈ rs, ∃ pre t rest, r.nodes = pre ++ .terminal t :: rest ∧ t ≠ .epsilon ∧
      ∀ m ∈ pre, m = .terminal .epsilon ∨ ∃ l', m = .production l' ∧ (In F l' .epsilon ∨ l' = l ∧ In F' l .epsilon) := by
  classical
  let P : List (Rule Nat Nat) := rs.map (·.rule) ++
    ((List.range labels).filter fun l => decide (In F l .epsilon)).map fun l => ⟨l, []⟩
  have hP : ∀ r : Rule Nat Nat, r ∈ P ↔ (∃ q ∈ rs, q.rule = r) ∨ ∃ l, In F l .epsilon ∧ r = ⟨l, []⟩ := by
    intro r
    simp only [P, List.mem_append, List.mem_map, List.mem_filter, List.mem_range, decide_eq_true_eq]
    refine or_congr Iff.rfl ⟨?_, ?_⟩
    · rintro ⟨l, ⟨-, h⟩, rfl⟩; exact ⟨l, h, rfl⟩
    · rintro ⟨l, h, rfl⟩; exact ⟨l, ⟨(hF.in_lt h).1, h⟩, rfl⟩
  have hJ : Justified P F := by
    intro l t hi
    obtain rfl := hε l t hi
    exact ⟨⟨l, []⟩, (hP _).mpr (.inr ⟨l, hi, rfl⟩), rfl, .nil⟩
  obtain ⟨F1, c1, e1, hR⟩ := propagateRules_spec (ε := ε) (P := P) hl hv rs hrange
    (fun r hr => ⟨(hP _).mpr (.inl ⟨r, hr, rfl⟩), hrs r hr⟩) hF hJ false
  rw [he] at e1
  cases e1
  have hold : ∀ l', In F' l' .epsilon → In F l' .epsilon ∨ l' = l ∧ In F' l .epsilon := by
    intro l' hi
    obtain ⟨r, hr, rfl, -⟩ := hR.just l' _ hi
    rcases (hP r).mp hr with ⟨q, hq, rfl⟩ | ⟨l1, h1, rfl⟩
    · have := hrs q hq
      rw [show q.rule.symbol = l from this] at hi
      exact .inr ⟨this, hi⟩
    · exact .inl h1
  rcases hR.progress rfl with h | ⟨l1, t, hne, -, h2⟩
  · cases h
  have key : ∀ {α : List INode} {t}, Just P F' α t → t ≠ .epsilon →
      (∃ pre rest, α = pre ++ .terminal t :: rest ∧ ∀ m ∈ pre, m = .terminal .epsilon ∨ ∃ l', m = .production l' ∧
        (In F l' .epsilon ∨ l' = l ∧ In F' l .epsilon)) ∨
      ∃ r ∈ rs, ∃ pre rest, r.nodes = pre ++ .terminal t :: rest ∧ ∀ m ∈ pre, m = .terminal .epsilon ∨
        ∃ l', m = .production l' ∧ (In F l' .epsilon ∨ l' = l ∧ In F' l .epsilon) := by
    intro α t hj
    induction hj with
    | nil => intro h; exact absurd rfl h
    | eps _ ih =>
      intro hne
      refine (ih hne).imp_left ?_
      rintro ⟨pre, rest, rfl, h⟩
      exact ⟨.terminal .epsilon :: pre, rest, rfl, by simpa using h⟩
    | @term t α => intro hne; exact .inl ⟨[], α, rfl, by simp⟩
    | @skip r α t hr hi _ _ _ ih =>
      intro hne
      refine (ih hne).imp_left ?_
      rintro ⟨pre, rest, rfl, h⟩
      refine ⟨.production r.symbol :: pre, rest, rfl, fun m hm => ?_⟩
      rcases List.mem_cons.mp hm with rfl | hm
      · exact .inr ⟨_, rfl, hold _ hi⟩
      · exact h m hm
    | @take r α t hr _ _ hne ih =>
      intro _
      rcases ih hne with ⟨pre, rest, e, h⟩ | h
      · rcases (hP r).mp hr with ⟨q, hq, rfl⟩ | ⟨l1, -, rfl⟩
        · exact .inr ⟨q, hq, pre, rest, e, h⟩
        · simp at e
      · exact .inr h
  obtain ⟨r, hr, -, hj⟩ := hR.just l1 t h2
  rcases key hj hne with ⟨pre, rest, e, h⟩ | ⟨r, hr, pre, rest, e, h⟩
  · rcases (hP r).mp hr with ⟨q, hq, rfl⟩ | ⟨l1, -, rfl⟩
    · exact ⟨q, hq, pre, t, rest, e, hne, h⟩
    · simp at e
  · exact ⟨r, hr, pre, t, rest, e, hne, h⟩

/-- A token that the first round can find, if labels are looked at by their numbers. -/
def Found (ig : IndexedGrammar T L) : Prop :=
  ∃ r ∈ ig.rules, ∃ pre t rest, r.nodes = pre ++ .terminal t :: rest ∧ t ≠ .epsilon ∧
    ∀ m ∈ pre, m = .terminal .epsilon ∨ ∃ l', m = .production l' ∧
      (First (ig.cfg.filter fun q => decide (q.symbol < r.symbol)) [.production l'] .epsilon ∨
        l' = r.symbol ∧ First (ig.cfg.filter fun q => decide (q.symbol < r.symbol + 1)) [.production l'] .epsilon)

theorem Justified.first_label {P : List (Rule Nat Nat)} {F : FirstTable} (hj : Justified P F) {l : Nat}
    (hi : In F l .epsilon) : First P [.production l] .epsilon := by
  obtain ⟨r, hr, rfl, h⟩ := hj l _ hi
  exact .skip hr h.first .nil

theorem propagateLabels_quiet (h : ig.WF) (hno : ¬ Found ig) (n : Nat) (hle : n ≤ ig.labelsCount) :
    ∃ F, (propagateLabels ig (List.range n) (init ig) false : Outcome ε _) = .ok (F, false) ∧
      WF ig.labelsCount ig.vocab.size F ∧ Justified (ig.cfg.filter fun q => decide (q.symbol < n)) F ∧
      ∀ l t, In F l t → t = .epsilon := by
  induction n with
  | zero => exact ⟨init ig, rfl, init_WF, fun l t hi => absurd hi not_in_init, fun l t hi => absurd hi not_in_init⟩
  | succ n ih =>
    obtain ⟨F, e, hF, hJ, hε⟩ := ih (by omega)
    obtain ⟨rs, ers, hrs⟩ := h.rules_eq (ε := ε) (l := n) (by omega)
    have hv : 2 ≤ ig.vocab.size := by simp [Vocab.size]
    have hrange : ∀ r ∈ rs, ∀ m ∈ r.nodes, m.InRange ig.labelsCount ig.vocab.size := fun r hr => h.node r ((hrs r).mp hr).1
    obtain ⟨F', c', e', hR⟩ := propagateRules_spec (ε := ε) (P := ig.cfg.filter fun q => decide (q.symbol < n + 1))
      (l := n) (by omega) hv rs hrange (fun r hr => ⟨List.mem_filter.mpr ⟨List.mem_map_of_mem ((hrs r).mp hr).1, by
        have := ((hrs r).mp hr).2
        simp only [decide_eq_true_eq]
        show r.symbol < n + 1
        omega⟩, ((hrs r).mp hr).2⟩) hF
      (hJ.sub fun r hr => by
        simp only [List.mem_filter, decide_eq_true_eq] at hr ⊢
        exact ⟨hr.1, by omega⟩) false
    cases c' with
    | true =>
      obtain ⟨r, hr, pre, t, rest, h1, h2, h3⟩ := rules_found (ε := ε) (by omega) hv rs hrange
        (fun r hr => ((hrs r).mp hr).2) hF hε e'
      refine absurd ⟨r, ((hrs r).mp hr).1, pre, t, rest, h1, h2, fun m hm => (h3 m hm).imp_right ?_⟩ hno
      rintro ⟨l', rfl, h4⟩
      rw [((hrs r).mp hr).2]
      refine ⟨l', rfl, h4.imp hJ.first_label ?_⟩
      rintro ⟨rfl, h5⟩
      exact ⟨rfl, hR.just.first_label h5⟩
    | false =>
      refine ⟨F', ?_, hR.wf, hR.just, fun l t hi => ?_⟩
      · rw [List.range_succ, propagateLabels_append, e, Outcome.ok_bind]
        simp [propagateLabels, ers, e']
      · rcases hR.new l t hi with hi | hi | hi
        · exact hε l t hi
        · exact hi
        · cases hi

/-- If the first round cannot find a token, none is ever found. -/
theorem build_quiet (h : ig.WF) (hno : ¬ Found ig) {F : FirstTable} (hb : (build ig : Outcome ε _) = .ok F) (l : Nat)
    (t : AugTokId) (hi : In F l t) : t = .epsilon := by
  obtain ⟨F', e, -, -, hε⟩ := propagateLabels_quiet (ε := ε) h hno _ (Nat.le_refl _)
  have : F' = F := by
    simpa [build, buildLoop, propagate, IndexedGrammar.allLabels, e] using hb
  subst this
  exact hε l t hi

end FirstTable
end Verif
