import Verif.Proof.IndexedGrammar3

/-!
# C10 (validation is exact), C11 (indexing preserves the grammar), C12 (token ids)
-/

set_option linter.unusedSectionVars false

namespace Verif
variable {T L : Type} [DecidableEq T] [DecidableEq L]

namespace C10

/-- The grammar whose productions are a first one and some others. -/
abbrev gr (root : Rule T L) (rest : List (Rule T L)) : Grammar T L := ⟨root :: rest⟩

/-- No later production repeats or mentions the root. -/
def RootUnique (root : Rule T L) (rest : List (Rule T L)) : Prop :=
  ∀ r ∈ rest, r.symbol ≠ root.symbol ∧ .production root.symbol ∉ r.rule

/-- Every label used in some rule has a production. -/
def Defined (g : Grammar T L) : Prop :=
  ∀ p ∈ g.productions, ∀ l, .production l ∈ p.rule → ∃ q ∈ g.productions, q.symbol = l

/-- Every label with a production can be reached from the root. -/
def Connected (root : Rule T L) (rest : List (Rule T L)) : Prop :=
  ∀ p ∈ root :: rest, Spec.Reachable (root :: rest) root.symbol p.symbol

open IndexedGrammar in
theorem build_of {g : Grammar T L} {x} (h : buildFromGrammar g = .err x) : build g = .err x := by
  simp [build, h]

/-- **C10.** The empty grammar is refused. -/
theorem empty_refused : IndexedGrammar.build (⟨[]⟩ : Grammar T L) = .err .emptyGrammar := rfl

/-- **C10.** `IndexedGrammar::build` succeeds exactly when the root is unique and not referenced by later
productions, every label is defined and every label is reachable. -/
theorem build_succeeds_iff (root : Rule T L) (rest : List (Rule T L)) :
    (∃ ig, IndexedGrammar.build (gr root rest) = .ok ig) ↔
      RootUnique root rest ∧ Defined (gr root rest) ∧ Connected root rest := by
  rcases IndexedGrammar.buildFromGrammar_spec root rest with
    ⟨pre, p, post, hr, -, ⟨hp, e⟩ | ⟨hp, hp', e⟩⟩ | ⟨-, l, ⟨p, hp, hl⟩, hq, e⟩ |
    ⟨-, -, ls, e, hne, -, hls⟩ | ⟨h1, h2, h3, ig, e, -⟩
  · rw [build_of e]
    refine iff_of_false (by simp) fun h => ?_
    exact (h.1 p (by simp [hr])).1 hp
  · rw [build_of e]
    refine iff_of_false (by simp) fun h => ?_
    exact (h.1 p (by simp [hr])).2 hp'
  · rw [build_of e]
    refine iff_of_false (by simp) fun h => ?_
    obtain ⟨q, hq', hql⟩ := h.2.1 p hp l hl
    exact hq q hq' hql
  · rw [build_of e]
    refine iff_of_false (by simp) fun h => ?_
    obtain ⟨l, hl⟩ := List.exists_mem_of_ne_nil _ hne
    obtain ⟨⟨p, hp, rfl⟩, hn⟩ := (hls l).mp hl
    exact hn (h.2.2 p hp)
  · refine iff_of_true ⟨ig, ?_⟩ ⟨h1, h2, h3⟩
    simp [IndexedGrammar.build, e]

/-- **C10.** Which error is reported: the first later production that repeats or mentions the root decides
between the first two errors (repetition is tested first), then undefined labels, then unreachable ones. -/
theorem build_error (root : Rule T L) (rest : List (Rule T L)) :
    (∀ pre p post, rest = pre ++ p :: post → RootUnique root pre → p.symbol = root.symbol →
      IndexedGrammar.build (gr root rest) = .err .rootProductionRepeated) ∧
    (∀ pre p post, rest = pre ++ p :: post → RootUnique root pre → p.symbol ≠ root.symbol →
      .production root.symbol ∈ p.rule →
      IndexedGrammar.build (gr root rest) = .err .rootProductionReferenced) ∧
    (RootUnique root rest → ¬ Defined (gr root rest) →
      ∃ l, IndexedGrammar.build (gr root rest) = .err (.unrecognizedLabel l) ∧
        (∃ p ∈ root :: rest, .production l ∈ p.rule) ∧ ∀ q ∈ root :: rest, q.symbol ≠ l) ∧
    (RootUnique root rest → Defined (gr root rest) → ¬ Connected root rest →
      ∃ ls, IndexedGrammar.build (gr root rest) = .err (.notConnected ls) ∧ ls.Nodup ∧
        ∀ l, l ∈ ls ↔ (∃ p ∈ root :: rest, p.symbol = l) ∧
          ¬ Spec.Reachable (root :: rest) root.symbol l) := by
  -- the first offending production is unique
  have huniq : ∀ {pre p post pre' p' post'}, rest = pre ++ p :: post → rest = pre' ++ p' :: post' →
      RootUnique root pre → RootUnique root pre' → ¬ IndexedGrammar.RestOK root.symbol p →
      ¬ IndexedGrammar.RestOK root.symbol p' → p = p' := by
    intro pre p post pre' p' post' h1 h2 hp hp' hb hb'
    rw [h1] at h2
    rw [List.append_eq_append_iff] at h2
    rcases h2 with ⟨as, rfl, h⟩ | ⟨bs, rfl, h⟩
    · cases as with
      | nil => simpa using (List.cons.inj h).1
      | cons a as =>
        simp only [List.cons_append, List.cons.injEq] at h
        exact absurd (hp' p (by simp [h.1])) hb
    · cases bs with
      | nil => simpa using (List.cons.inj h).1.symm
      | cons b bs =>
        simp only [List.cons_append, List.cons.injEq] at h
        exact absurd (hp p' (by simp [h.1])) hb'
  rcases IndexedGrammar.buildFromGrammar_spec root rest with
    ⟨pre, p, post, hr, hpre, hd⟩ | ⟨hall, l, ⟨p, hp, hl⟩, hq, e⟩ |
    ⟨hall, hdef, ls, e, hne, hnd, hls⟩ | ⟨h1, h2, h3, ig, e, -⟩
  · have hbad : ¬ RootUnique root rest := by
      intro h
      have hp := h p (by simp [hr])
      rcases hd with ⟨h1, -⟩ | ⟨-, h2, -⟩
      · exact hp.1 h1
      · exact hp.2 h2
    have hbadp : ¬ IndexedGrammar.RestOK root.symbol p := by
      intro h
      rcases hd with ⟨h1, -⟩ | ⟨-, h2, -⟩
      · exact h.1 h1
      · exact h.2 h2
    refine ⟨?_, ?_, fun h => absurd h hbad, fun h => absurd h hbad⟩
    · intro pre' p' post' hr' hpre' hp'
      have := huniq hr hr' hpre hpre' hbadp fun h => h.1 hp'
      subst this
      rcases hd with ⟨-, e⟩ | ⟨h, -⟩
      · exact build_of e
      · exact absurd hp' h
    · intro pre' p' post' hr' hpre' hp' hm
      have := huniq hr hr' hpre hpre' hbadp fun h => h.2 hm
      subst this
      rcases hd with ⟨h, e⟩ | ⟨-, -, e⟩
      · exact absurd h hp'
      · exact build_of e
  all_goals
    have hno : ∀ pre p post, rest = pre ++ p :: post → IndexedGrammar.RestOK root.symbol p := by
      intro pre p post h
      first
        | exact hall p (by simp [h])
        | exact h1 p (by simp [h])
    refine ⟨fun pre p post h _ hp => absurd hp (hno pre p post h).1,
      fun pre p post h _ _ hp => absurd hp (hno pre p post h).2, ?_, ?_⟩
  · exact fun _ _ => ⟨l, build_of e, ⟨p, hp, hl⟩, hq⟩
  · intro _ hdef _
    obtain ⟨q, hq', hql⟩ := hdef p hp l hl
    exact absurd hql (hq q hq')
  · exact fun _ h => absurd hdef h
  · exact fun _ _ _ => ⟨ls, build_of e, hnd, hls⟩
  · exact fun _ h => absurd h2 h
  · exact fun _ _ h => absurd h3 h

/-- **C10.** Validation always returns (no panic, no endless loop). -/
theorem build_returns (g : Grammar T L) :
    (∃ ig, IndexedGrammar.build g = .ok ig) ∨ ∃ e, IndexedGrammar.build g = .err e := by
  obtain ⟨ps⟩ := g
  cases ps with
  | nil => exact .inr ⟨_, rfl⟩
  | cons root rest =>
    rcases IndexedGrammar.buildFromGrammar_spec root rest with
      ⟨pre, p, post, -, -, ⟨-, e⟩ | ⟨-, -, e⟩⟩ | ⟨-, l, -, -, e⟩ | ⟨-, -, ls, e, -⟩ | ⟨-, -, -, ig, e, -⟩
    · exact .inr ⟨_, build_of e⟩
    · exact .inr ⟨_, build_of e⟩
    · exact .inr ⟨_, build_of e⟩
    · exact .inr ⟨_, build_of e⟩
    · exact .inl ⟨ig, by simp [IndexedGrammar.build, e]⟩

/-- A grammar meeting all conditions: `S -> A; A -> a A | !`. -/
example : ∃ ig, IndexedGrammar.build (gr (T := Nat) (L := Nat) ⟨0, [.production 1]⟩
    [⟨1, [.terminal (.token 7), .production 1]⟩, ⟨1, [.terminal .epsilon]⟩]) = .ok ig :=
  ⟨_, by rfl⟩

/-- Each error occurs. -/
example :
    IndexedGrammar.build (gr (T := Nat) (L := Nat) ⟨0, []⟩ [⟨0, []⟩]) = .err .rootProductionRepeated ∧
    IndexedGrammar.build (gr (T := Nat) (L := Nat) ⟨0, [.production 1]⟩ [⟨1, [.production 0]⟩]) =
      .err .rootProductionReferenced ∧
    IndexedGrammar.build (gr (T := Nat) (L := Nat) ⟨0, [.production 1]⟩ []) =
      .err (.unrecognizedLabel 1) ∧
    IndexedGrammar.build (gr (T := Nat) (L := Nat) ⟨0, []⟩ [⟨1, []⟩]) = .err (.notConnected [1]) := by
  decide +kernel

end C10

namespace C11

/-- An indexed node read back through the public accessors `orig_production_label` and `id_to_token`. -/
def decode (ig : IndexedGrammar T L) : INode → Outcome Unit (Node T L)
  | .production l => do
    let l ← ig.origLabel l
    pure (.production l)
  | .terminal t => do
    let t ← ig.vocab.idToToken t
    pure (.terminal t)

omit [DecidableEq T] [DecidableEq L] in
theorem decode_of_enc (ig : IndexedGrammar T L) {n : Node T L} {i : INode}
    (h : EncNode ig.labels ig.vocab.idMap n i) : decode ig i = .ok n := by
  cases n with
  | production l =>
    cases i with
    | terminal t => simp [EncNode] at h
    | production i =>
      simp only [EncNode, IndexedGrammar.labels, List.getElem?_map, Option.map_eq_some_iff] at h
      obtain ⟨m, hm, rfl⟩ := h
      simp [decode, IndexedGrammar.origLabel, Outcome.index, hm]
  | terminal t =>
    cases i with
    | production i => simp [EncNode] at h
    | terminal i =>
      cases t <;> cases i <;> simp_all [EncNode, EncTok, decode, Vocab.idToToken, Outcome.index]

/-- **C11.** Every indexed rule is the original production `original_index` read back through the
accessors: same symbol, same nodes. -/
theorem rules_are_productions {g : Grammar T L} {ig : IndexedGrammar T L}
    (h : IndexedGrammar.build g = .ok ig) (id : Nat) (r : IRule)
    (hr : (ig.productionRule id : Outcome Unit IRule) = .ok r) :
    ∃ p, g.productions[r.originalIndex]? = some p ∧
      (ig.origLabel r.symbol : Outcome Unit L) = .ok p.symbol ∧
      List.Forall₂ (fun n m => decode ig n = .ok m) r.nodes p.rule := by
  have henc := (IndexedGrammar.build_ok h).1
  rw [IndexedGrammar.productionRule, Outcome.index_eq_ok] at hr
  obtain ⟨p, hp, hl, hf⟩ := henc.rule r (List.mem_of_getElem? hr)
  refine ⟨p, hp, ?_, ?_⟩
  · simp only [IndexedGrammar.labels, List.getElem?_map, Option.map_eq_some_iff] at hl
    obtain ⟨m, hm, hml⟩ := hl
    simp [IndexedGrammar.origLabel, Outcome.index, hm, hml]
  · exact (hf.imp fun _ _ => decode_of_enc ig).flip

/-- **C11.** Every original production occurs exactly once among the indexed rules. -/
theorem productions_occur_once {g : Grammar T L} {ig : IndexedGrammar T L}
    (h : IndexedGrammar.build g = .ok ig) :
    (ig.rules.map (·.originalIndex)).Perm (List.range g.productions.length) :=
  (IndexedGrammar.build_ok h).1.perm

/-- **C11.** The renaming of labels is one-to-one, and so is the renaming of tokens. -/
theorem renaming_injective {g : Grammar T L} {ig : IndexedGrammar T L}
    (h : IndexedGrammar.build g = .ok ig) :
    (∀ i j l, (ig.origLabel i : Outcome Unit L) = .ok l → (ig.origLabel j : Outcome Unit L) = .ok l →
      i = j) ∧
    (∀ i j t, (ig.vocab.idToToken i : Outcome Unit (AugTok T)) = .ok t →
      (ig.vocab.idToToken j : Outcome Unit (AugTok T)) = .ok t → i = j) := by
  have henc := (IndexedGrammar.build_ok h).1
  have hlab : ∀ i l, (ig.origLabel i : Outcome Unit L) = .ok l → ig.labels[i]? = some l := by
    intro i l hi
    simp only [IndexedGrammar.origLabel, Outcome.bind_eq_ok, Outcome.index_eq_ok,
      Outcome.pure_eq, Outcome.ok.injEq] at hi
    obtain ⟨m, hm, rfl⟩ := hi
    simp [IndexedGrammar.labels, hm]
  refine ⟨fun i j l hi hj =>
    getElem?_inj_of_nodup henc.labels_nodup (hlab i l hi) (hlab j l hj), ?_⟩
  intro i j t hi hj
  have htok : ∀ k, (ig.vocab.idToToken k : Outcome Unit (AugTok T)) = .ok t →
      EncTok ig.vocab.idMap t k := by
    intro k hk
    cases k with
    | token k =>
      simp only [Vocab.idToToken, Outcome.bind_eq_ok, Outcome.index_eq_ok, Outcome.pure_eq,
        Outcome.ok.injEq] at hk
      obtain ⟨u, hu, rfl⟩ := hk
      exact hu
    | epsilon => simp only [Vocab.idToToken, Outcome.pure_eq, Outcome.ok.injEq] at hk; subst hk; trivial
    | eos => simp only [Vocab.idToToken, Outcome.pure_eq, Outcome.ok.injEq] at hk; subst hk; trivial
  exact EncTok.inj henc.vocab.nodup (htok i hi) (htok j hj)

/-- **C11.** The rules of one label are contiguous: their ids are the interval reported by
`production_rule_ids_for_label`; they keep the order of the original productions. -/
theorem labels_contiguous_in_order {g : Grammar T L} {ig : IndexedGrammar T L}
    (h : IndexedGrammar.build g = .ok ig) (l : Nat) (hl : l < ig.labelsCount) :
    ∃ a n, (ig.ruleIdsForLabel l : Outcome Unit (List Nat)) = .ok (List.range' a n) ∧ 0 < n ∧
      (∀ (id : Nat) (r : IRule), ig.rules[id]? = some r → (r.symbol = l ↔ a ≤ id ∧ id < a + n)) ∧
      (∀ (i j : Nat) (r s : IRule), ig.rules[i]? = some r → ig.rules[j]? = some s → r.symbol = l →
        s.symbol = l → i < j → r.originalIndex < s.originalIndex) := by
  have henc := (IndexedGrammar.build_ok h).1
  have hl' : l < ig.ruleMetadata.length := hl
  obtain ⟨h1, h2, h3⟩ := henc.wf.range l _ (List.getElem?_eq_getElem hl')
  refine ⟨_, _, by simp only [IndexedGrammar.ruleIdsForLabel, Outcome.index_of_lt hl',
    Outcome.ok_bind]; rfl, by omega, ?_, ?_⟩
  · intro id r hr
    rw [h3 id r hr]; omega
  · intro i j r s hr hs e1 e2 hij
    exact henc.order i j r s hr hs (e1.trans e2.symm) hij

/-- **C11.** The root is label 0 and rule 0, and rule 0 is the first production. -/
theorem root_is_zero {g : Grammar T L} {ig : IndexedGrammar T L}
    (h : IndexedGrammar.build g = .ok ig) :
    ∃ root rest r, g.productions = root :: rest ∧
      (ig.origLabel IndexedGrammar.rootLabel : Outcome Unit L) = .ok root.symbol ∧
      (ig.productionRule IndexedGrammar.rootRule : Outcome Unit IRule) = .ok r ∧
      r.originalIndex = 0 ∧ r.symbol = IndexedGrammar.rootLabel := by
  have henc := (IndexedGrammar.build_ok h).1
  obtain ⟨root, rest, hg, hl⟩ := henc.root_label
  obtain ⟨r, hr, hi⟩ := henc.root
  refine ⟨root, rest, r, hg, ?_, ?_, hi, (henc.wf.root 0 r hr).mpr rfl⟩
  · simp only [IndexedGrammar.labels, List.getElem?_map, Option.map_eq_some_iff] at hl
    obtain ⟨m, hm, hml⟩ := hl
    simp [IndexedGrammar.origLabel, IndexedGrammar.rootLabel, Outcome.index, hm, hml]
  · rw [IndexedGrammar.productionRule, Outcome.index_eq_ok]; exact hr

/-- **C11.** Labels are numbered in the order in which they first appear as symbols of productions. -/
theorem labels_in_order_of_appearance {g : Grammar T L} {ig : IndexedGrammar T L}
    (h : IndexedGrammar.build g = .ok ig) (i j : Nat) (l l' : L) (hij : i < j)
    (hi : (ig.origLabel i : Outcome Unit L) = .ok l) (hj : (ig.origLabel j : Outcome Unit L) = .ok l')
    (n : Nat) (q : Rule T L) (hq : g.productions[n]? = some q) (hl : q.symbol = l') :
    ∃ m p, m < n ∧ g.productions[m]? = some p ∧ p.symbol = l := by
  have hlab : ∀ i l, (ig.origLabel i : Outcome Unit L) = .ok l → ig.labels[i]? = some l := by
    intro i l hi
    simp only [IndexedGrammar.origLabel, Outcome.bind_eq_ok, Outcome.index_eq_ok,
      Outcome.pure_eq, Outcome.ok.injEq] at hi
    obtain ⟨m, hm, rfl⟩ := hi
    simp [IndexedGrammar.labels, hm]
  exact (IndexedGrammar.build_ok h).1.first i j l l' (hlab i l hi) (hlab j l' hj) hij n q hq hl

/-- **C11.** If the productions of each label stand next to each other, nothing is renumbered. -/
theorem grouped_not_renumbered {g : Grammar T L} {ig : IndexedGrammar T L}
    (h : IndexedGrammar.build g = .ok ig) (hg : Spec.Grouped g) (id : Nat) (r : IRule)
    (hr : (ig.productionRule id : Outcome Unit IRule) = .ok r) : r.originalIndex = id := by
  have henc := (IndexedGrammar.build_ok h).1
  rw [IndexedGrammar.productionRule, Outcome.index_eq_ok] at hr
  have hsorted : (ig.rules.map (·.originalIndex)).Pairwise (· < ·) := by
    rw [List.pairwise_map, List.pairwise_iff_getElem]
    intro i j hi hj hij
    have hri := List.getElem?_eq_getElem hi
    have hrj := List.getElem?_eq_getElem hj
    generalize ig.rules[i] = r at hri ⊢
    generalize ig.rules[j] = s at hrj ⊢
    rcases Nat.lt_trichotomy r.symbol s.symbol with hlt | heq | hgt
    · obtain ⟨p, hp, hpl, -⟩ := henc.rule r (List.mem_of_getElem? hri)
      obtain ⟨q, hq, hql, -⟩ := henc.rule s (List.mem_of_getElem? hrj)
      obtain ⟨m, p', hm, hp', he⟩ := henc.first _ _ _ _ hpl hql hlt _ _ hq rfl
      rcases Nat.lt_or_ge r.originalIndex s.originalIndex with h1 | h1
      · exact h1
      · exfalso
        have hne : r.symbol ≠ s.symbol := Nat.ne_of_lt hlt
        apply hne
        refine getElem?_inj_of_nodup henc.labels_nodup hpl ?_
        rw [hql]
        rcases Nat.eq_or_lt_of_le h1 with e | h1
        · rw [e, hp] at hq
          cases hq; rfl
        · rw [← he, hg m _ _ p' q p hm h1 hp' hq hp he]
    · exact henc.order i j r s hri hrj heq hij
    · have := henc.mono i j r s hri hrj hij
      omega
  have := List.Perm.eq_of_pairwise (le := (· ≤ ·)) (fun a b _ _ h1 h2 => Nat.le_antisymm h1 h2)
    (hsorted.imp Nat.le_of_lt) (List.pairwise_le_range) henc.perm
  have h1 := congrArg (·[id]?) this
  simp only [List.getElem?_map, hr, Option.map_some] at h1
  obtain ⟨_, h2⟩ := List.getElem?_eq_some_iff.mp h1.symm
  simpa using h2.symm

/-- A grammar where the rules really are regrouped: productions 0..4 become rules 0,1,3,2,4. -/
example : (IndexedGrammar.build (⟨[⟨0, [.production 1, .production 2]⟩, ⟨1, [.terminal (.token 7)]⟩,
    ⟨2, [.terminal (.token 8)]⟩, ⟨1, [.production 2]⟩, ⟨2, []⟩]⟩ : Grammar Nat Nat)).bind
      (fun ig => .ok (ig.rules.map (·.originalIndex))) = .ok [0, 1, 3, 2, 4] := by decide +kernel

end C11

namespace C12

/-- Inserting tokens one after the other (`get_id_or_insert`), collecting the returned ids. -/
def inserts : List (AugTok T) → Vocab T → Vocab T × List AugTokId
  | [], v => (v, [])
  | t :: ts, v =>
    let (v, id) := v.getIdOrInsert t
    let (v, ids) := inserts ts v
    (v, id :: ids)

/-- Specification: the distinct user tokens in order of first appearance after those in `seen`. -/
def firstAppearance : List (AugTok T) → List T → List T
  | [], seen => seen
  | .token t :: ts, seen => firstAppearance ts (if t ∈ seen then seen else seen ++ [t])
  | _ :: ts, seen => firstAppearance ts seen

theorem firstAppearance_prefix (ts : List (AugTok T)) (seen : List T) :
    seen <+: firstAppearance ts seen := by
  induction ts generalizing seen with
  | nil => exact List.prefix_rfl
  | cons t ts ih =>
    cases t with
    | token t =>
      simp only [firstAppearance]
      split
      · exact ih seen
      · exact (List.prefix_append _ _).trans (ih _)
    | epsilon => exact ih seen
    | eos => exact ih seen

theorem firstAppearance_nodup (ts : List (AugTok T)) (seen : List T) (h : seen.Nodup) :
    (firstAppearance ts seen).Nodup := by
  induction ts generalizing seen with
  | nil => exact h
  | cons t ts ih =>
    cases t with
    | token t =>
      simp only [firstAppearance]
      split
      · exact ih seen h
      · rename_i hn
        apply ih
        rw [List.nodup_append]
        refine ⟨h, by simp, ?_⟩
        rintro a ha b hb rfl
        simp only [List.mem_singleton] at hb
        subst hb; exact hn ha
    | epsilon => exact ih seen h
    | eos => exact ih seen h

theorem mem_firstAppearance (ts : List (AugTok T)) (seen : List T) (t : T) :
    t ∈ firstAppearance ts seen ↔ t ∈ seen ∨ .token t ∈ ts := by
  induction ts generalizing seen with
  | nil => simp [firstAppearance]
  | cons u ts ih =>
    cases u with
    | token u =>
      simp only [firstAppearance, ih, List.mem_cons, AugTok.token.injEq]
      split
      · rename_i h
        constructor
        · rintro (h' | h')
          · exact .inl h'
          · exact .inr (.inr h')
        · rintro (h' | rfl | h')
          · exact .inl h'
          · exact .inl h
          · exact .inr h'
      · simp only [List.mem_append, List.mem_singleton]
        constructor
        · rintro ((h' | h') | h')
          · exact .inl h'
          · exact .inr (.inl h')
          · exact .inr (.inr h')
        · rintro (h' | h' | h')
          · exact .inl (.inl h')
          · exact .inl (.inr h')
          · exact .inr h'
    | epsilon => simp [firstAppearance, ih]
    | eos => simp [firstAppearance, ih]

theorem inserts_spec (ts : List (AugTok T)) (v : Vocab T) (hv : v.WF) :
    (inserts ts v).1.WF ∧ (inserts ts v).1.idMap = firstAppearance ts v.idMap ∧
      List.Forall₂ (EncTok (inserts ts v).1.idMap) ts (inserts ts v).2 := by
  induction ts generalizing v with
  | nil => exact ⟨hv, rfl, .nil⟩
  | cons t ts ih =>
    obtain ⟨hv1, hpre, henc⟩ := hv.getIdOrInsert t
    obtain ⟨h1, h2, h3⟩ := ih _ hv1
    have hid : (v.getIdOrInsert t).1.idMap = (match t with
        | .token t => if t ∈ v.idMap then v.idMap else v.idMap ++ [t]
        | _ => v.idMap) := by
      cases t with
      | token t =>
        unfold Vocab.getIdOrInsert
        simp only
        cases hl : v.tokenMap.lookup t with
        | none =>
          rw [hv.map, lookup_zipIdx_none] at hl
          simp [hl]
        | some i =>
          rw [hv.map, lookup_zipIdx_zero hv.nodup] at hl
          simp [List.mem_of_getElem? hl]
      | epsilon => rfl
      | eos => rfl
    refine ⟨h1, ?_, .cons (EncTok.mono ?_ henc) h3⟩
    · show (inserts ts (v.getIdOrInsert t).1).1.idMap = _
      rw [h2, hid]
      cases t <;> rfl
    · show _ <+: (inserts ts (v.getIdOrInsert t).1).1.idMap
      rw [h2]; exact firstAppearance_prefix _ _

/-- **C12.** For any sequence of insertions into an empty builder: ids are given in order of first
appearance without gaps, equal tokens get equal ids and distinct tokens distinct ones, `id_to_token` and
`token_to_id` are inverse to each other and `token_to_id` fails exactly on tokens never inserted. -/
theorem token_ids_dense_bijection (ts : List (AugTok T)) :
    let v := (inserts ts Vocab.new).1
    let ids := (inserts ts Vocab.new).2
    v.idMap = firstAppearance ts [] ∧ v.size = (firstAppearance ts []).length + 2 ∧
    ids.length = ts.length ∧
    (∀ (i j : Nat) t u a b, ts[i]? = some t → ts[j]? = some u → ids[i]? = some a → ids[j]? = some b →
      (t = u ↔ a = b)) ∧
    (∀ (i : Nat) t a, ts[i]? = some t → ids[i]? = some a →
      (v.idToToken a : Outcome Unit _) = .ok t ∧ v.augTokenToId t = some a) ∧
    (∀ t, (∃ i, v.tokenToId t = some i) ↔ .token t ∈ ts) ∧
    (∀ t i, v.tokenToId t = some i ↔ (v.idToToken (.token i) : Outcome Unit _) = .ok (.token t)) := by
  intro v ids
  obtain ⟨hwf, hid, hf⟩ := inserts_spec ts Vocab.new Vocab.new_WF
  have hget : ∀ (i : Nat) t a, ts[i]? = some t → ids[i]? = some a → EncTok v.idMap t a := by
    intro i t a ht ha
    obtain ⟨h1, rfl⟩ := List.getElem?_eq_some_iff.mp ht
    obtain ⟨h2, rfl⟩ := List.getElem?_eq_some_iff.mp ha
    exact hf.get h1 h2
  refine ⟨hid, ?_, hf.length_eq.symm, ?_, ?_, ?_, ?_⟩
  · show v.idMap.length + 2 = _
    rw [show v.idMap = firstAppearance ts [] from hid]
  · intro i j t u a b ht hu ha hb
    have e1 := hget i t a ht ha
    have e2 := hget j u b hu hb
    constructor
    · rintro rfl; exact EncTok.inj hwf.nodup e1 e2
    · rintro rfl; exact EncTok.inj' e1 e2
  · intro i t a ht ha
    have e1 := hget i t a ht ha
    cases t with
    | token t =>
      cases a with
      | token a =>
        simp only [EncTok] at e1
        refine ⟨by simp [Vocab.idToToken, Outcome.index, e1], ?_⟩
        simp only [Vocab.augTokenToId, Option.map_eq_some_iff]
        exact ⟨a, hwf.tokenToId.mpr e1, rfl⟩
      | epsilon => simp [EncTok] at e1
      | eos => simp [EncTok] at e1
    | epsilon => cases a <;> simp_all [EncTok, Vocab.idToToken, Vocab.augTokenToId]
    | eos => cases a <;> simp_all [EncTok, Vocab.idToToken, Vocab.augTokenToId]
  · intro t
    have : .token t ∈ ts ↔ t ∈ v.idMap := by
      rw [show v.idMap = firstAppearance ts [] from hid, mem_firstAppearance]; simp
    rw [this, List.mem_iff_getElem?]
    exact exists_congr fun i => hwf.tokenToId
  · intro t i
    rw [hwf.tokenToId]
    simp [Vocab.idToToken, Outcome.bind_eq_ok, Outcome.index_eq_ok, v]

/-- **C12.** `for_each_id` lists epsilon, end of stream and then every token id exactly once. -/
theorem for_each_id (ts : List (AugTok T)) :
    let v := (inserts ts Vocab.new).1
    v.forEachId = .epsilon :: .eos :: (List.range (firstAppearance ts []).length).map .token := by
  intro v
  obtain ⟨hwf, hid, hf⟩ := inserts_spec ts Vocab.new Vocab.new_WF
  have : v.size = (firstAppearance ts []).length + 2 := by
    show v.idMap.length + 2 = _
    rw [show v.idMap = firstAppearance ts [] from hid]
  unfold Vocab.forEachId
  rw [this, List.range_succ_eq_map, List.range_succ_eq_map]
  simp [AugTok.ofId, Function.comp_def]

example : (inserts [.token 'a', .epsilon, .token 'b', .token 'a', .eos] Vocab.new).2 =
    [.token 0, .epsilon, .token 1, .token 0, .eos] := by decide +kernel

end C12
end Verif
