import Verif.Proof.IndexedGrammar3
import Verif.Proof.First

/-!
# Transport of FIRST, derivations and parse trees between a grammar and its indexed form
-/

set_option linter.unusedSectionVars false
set_option autoImplicit false

namespace Verif
namespace IndexedGrammar
namespace Encodes

variable {T L : Type} [DecidableEq T] [DecidableEq L] {g : Grammar T L} {ig : IndexedGrammar T L}

/-- Node sequences of the grammar and of the indexed grammar. -/
abbrev EncNodes (ig : IndexedGrammar T L) : List (Node T L) → List INode → Prop :=
  List.Forall₂ (EncNode ig.labels ig.vocab.idMap)

theorem forall₂_mem_right {α β : Type} {R : α → β → Prop} {l : List α} {l' : List β}
    (h : List.Forall₂ R l l') {b : β} (hb : b ∈ l') : ∃ a ∈ l, R a b := by
  induction h with
  | nil => cases hb
  | cons hab _ ih =>
    rcases List.mem_cons.mp hb with rfl | hb
    · exact ⟨_, List.mem_cons_self, hab⟩
    · obtain ⟨a, ha, hr⟩ := ih hb
      exact ⟨a, List.mem_cons_of_mem _ ha, hr⟩

theorem forall₂_mem_left {α β : Type} {R : α → β → Prop} {l : List α} {l' : List β}
    (h : List.Forall₂ R l l') {a : α} (ha : a ∈ l) : ∃ b ∈ l', R a b := by
  obtain ⟨b, hb, hr⟩ := forall₂_mem_right h.flip ha
  exact ⟨b, hb, hr⟩

theorem label_inj (h : Encodes g ig) {i j : Nat} {l : L} (hi : ig.labels[i]? = some l)
    (hj : ig.labels[j]? = some l) : i = j := getElem?_inj_of_nodup h.labels_nodup hi hj

theorem mem_cfg {r : IRule} (hr : r ∈ ig.rules) : r.rule ∈ ig.cfg := List.mem_map.mpr ⟨r, hr, rfl⟩

/-- A production with the label numbered `i` is a rule of label `i`. -/
theorem rule_of_production (h : Encodes g ig) {p : Rule T L} {j i : Nat}
    (hp : g.productions[j]? = some p) (hi : ig.labels[i]? = some p.symbol) :
    ∃ (k : Nat) (r : IRule), ig.rules[k]? = some r ∧ r.originalIndex = j ∧ r.symbol = i ∧ EncNodes ig p.rule r.nodes := by
  obtain ⟨r, hr, ho, hl, hn⟩ := h.exists_rule hp
  obtain ⟨k, hk⟩ := List.mem_iff_getElem?.mp hr
  exact ⟨k, r, hk, ho, h.label_inj hl hi, hn⟩

theorem first_enc (h : Encodes g ig) {α : List (Node T L)} {t : AugTok T}
    (hf : First g.productions α t) :
    ∀ {β : List INode} {i : AugTokId}, EncNodes ig α β → EncTok ig.vocab.idMap t i →
      First ig.cfg β i := by
  induction hf with
  | nil =>
    intro β i hβ ht
    cases hβ
    cases i <;> simp [EncTok] at ht
    exact .nil
  | eps _ ih =>
    intro β i hβ ht
    cases hβ with
    | cons hn hβ =>
      rename_i n β
      cases n with
      | production l => simp [EncNode] at hn
      | terminal k =>
        cases k <;> simp [EncNode, EncTok] at hn
        exact .eps (ih hβ ht)
  | @term t α hne =>
    intro β i hβ ht
    cases hβ with
    | cons hn hβ =>
      rename_i n β
      cases n with
      | production l => simp [EncNode] at hn
      | terminal k =>
        have := EncTok.inj h.vocab.nodup hn ht
        subst this
        refine .term ?_
        rintro rfl
        cases t <;> simp [EncTok] at ht
        exact hne rfl
  | @skip r α t hr _ _ ih1 ih2 =>
    intro β i hβ ht
    cases hβ with
    | cons hn hβ =>
      rename_i n β
      cases n with
      | terminal k => simp [EncNode] at hn
      | production l =>
        obtain ⟨j, hj⟩ := List.mem_iff_getElem?.mp hr
        obtain ⟨k, q, hq, -, rfl, hnodes⟩ := h.rule_of_production hj hn
        exact .skip (mem_cfg (List.mem_of_getElem? hq)) (ih1 hnodes (i := .epsilon) trivial) (ih2 hβ ht)
  | @take r α t hr _ hne ih =>
    intro β i hβ ht
    cases hβ with
    | cons hn hβ =>
      rename_i n β
      cases n with
      | terminal k => simp [EncNode] at hn
      | production l =>
        obtain ⟨j, hj⟩ := List.mem_iff_getElem?.mp hr
        obtain ⟨k, q, hq, -, rfl, hnodes⟩ := h.rule_of_production hj hn
        refine .take (mem_cfg (List.mem_of_getElem? hq)) (ih hnodes ht) ?_
        rintro rfl
        cases t <;> simp [EncTok] at ht
        exact hne rfl

theorem first_dec (h : Encodes g ig) {β : List INode} {i : AugTokId} (hf : First ig.cfg β i) :
    ∀ {α : List (Node T L)} {t : AugTok T}, EncNodes ig α β → EncTok ig.vocab.idMap t i →
      First g.productions α t := by
  induction hf with
  | nil =>
    intro α t hα ht
    cases hα
    cases t <;> simp [EncTok] at ht
    exact .nil
  | eps _ ih =>
    intro α t hα ht
    cases hα with
    | cons hn hα =>
      rename_i n α
      cases n with
      | production l => simp [EncNode] at hn
      | terminal k =>
        cases k <;> simp [EncNode, EncTok] at hn
        exact .eps (ih hα ht)
  | @term i β hne =>
    intro α t hα ht
    cases hα with
    | cons hn hα =>
      rename_i n α
      cases n with
      | production l => simp [EncNode] at hn
      | terminal k =>
        have := EncTok.inj' (show EncTok ig.vocab.idMap k i from hn) ht
        subst this
        refine .term ?_
        rintro rfl
        cases i <;> simp [EncTok] at ht
        exact hne rfl
  | @skip r β i hr _ _ ih1 ih2 =>
    intro α t hα ht
    cases hα with
    | cons hn hα =>
      rename_i n α
      cases n with
      | terminal k => simp [EncNode] at hn
      | production l =>
        obtain ⟨q, hq, rfl⟩ := List.mem_map.mp hr
        obtain ⟨p, hp, hl, hnodes⟩ := h.rule q hq
        simp only [EncNode] at hn
        rw [hl] at hn
        cases hn
        exact .skip (List.mem_of_getElem? hp) (ih1 hnodes (t := .epsilon) trivial) (ih2 hα ht)
  | @take r β i hr _ hne ih =>
    intro α t hα ht
    cases hα with
    | cons hn hα =>
      rename_i n α
      cases n with
      | terminal k => simp [EncNode] at hn
      | production l =>
        obtain ⟨q, hq, rfl⟩ := List.mem_map.mp hr
        obtain ⟨p, hp, hl, hnodes⟩ := h.rule q hq
        simp only [EncNode] at hn
        rw [hl] at hn
        cases hn
        refine .take (List.mem_of_getElem? hp) (ih hnodes ht) ?_
        rintro rfl
        cases i <;> simp [EncTok] at ht
        exact hne rfl

/-- FIRST of the grammar and of the indexed grammar agree. -/
theorem first_iff (h : Encodes g ig) {α : List (Node T L)} {t : AugTok T} {β : List INode}
    {i : AugTokId} (hα : EncNodes ig α β) (ht : EncTok ig.vocab.idMap t i) :
    First g.productions α t ↔ First ig.cfg β i :=
  ⟨fun hf => h.first_enc hf hα ht, fun hf => h.first_dec hf hα ht⟩

/-- Tokens in FIRST occur in the grammar. -/
theorem first_tok (h : Encodes g ig) {α : List (Node T L)} {t : AugTok T}
    (hf : First g.productions α t) :
    (∀ n ∈ α, ∀ u : T, n = .terminal (.token u) → ∃ k, EncTok ig.vocab.idMap (.token u) k) →
      ∃ k, EncTok ig.vocab.idMap t k := by
  induction hf with
  | nil => intro _; exact ⟨.epsilon, trivial⟩
  | eps _ ih => intro hα; exact ih fun n hn => hα n (List.mem_cons_of_mem _ hn)
  | @term t α hne =>
    intro hα
    cases t with
    | token u => exact hα _ List.mem_cons_self u rfl
    | epsilon => exact ⟨.epsilon, trivial⟩
    | eos => exact ⟨.eos, trivial⟩
  | skip _ _ _ _ ih => intro hα; exact ih fun n hn => hα n (List.mem_cons_of_mem _ hn)
  | @take r α t hr _ _ ih =>
    intro _
    apply ih
    rintro n hn u rfl
    obtain ⟨j, hj⟩ := List.mem_iff_getElem?.mp hr
    obtain ⟨q, hq, -, -, hnodes⟩ := h.exists_rule hj
    obtain ⟨m, hm, he⟩ := forall₂_mem_left hnodes hn
    cases m with
    | production l => simp [EncNode] at he
    | terminal k => exact ⟨k, he⟩

/-- Ids in FIRST belong to tokens of the grammar. -/
theorem first_tok' (h : Encodes g ig) {β : List INode} {k : AugTokId} (hf : First ig.cfg β k) :
    (∀ n ∈ β, ∀ i, n = .terminal i → ∃ t, EncTok ig.vocab.idMap t i) →
      ∃ t, EncTok ig.vocab.idMap t k := by
  induction hf with
  | nil => intro _; exact ⟨.epsilon, trivial⟩
  | eps _ ih => intro hα; exact ih fun n hn => hα n (List.mem_cons_of_mem _ hn)
  | @term t α hne => intro hα; exact hα _ List.mem_cons_self t rfl
  | skip _ _ _ _ ih => intro hα; exact ih fun n hn => hα n (List.mem_cons_of_mem _ hn)
  | @take r α t hr _ _ ih =>
    intro _
    apply ih
    rintro n hn i rfl
    obtain ⟨q, hq, rfl⟩ := List.mem_map.mp hr
    obtain ⟨p, -, -, hnodes⟩ := h.rule q hq
    obtain ⟨m, hm, he⟩ := forall₂_mem_right hnodes hn
    cases m with
    | production l => simp [EncNode] at he
    | terminal t => exact ⟨t, he⟩

theorem label_of_first (h : Encodes g ig) {i : Nat} {k : AugTokId}
    (hf : First ig.cfg [.production i] k) : ∃ l, ig.labels[i]? = some l := by
  cases hf with
  | skip hr _ _ =>
    obtain ⟨q, hq, rfl⟩ := List.mem_map.mp hr
    obtain ⟨p, -, hl, -⟩ := h.rule q hq
    exact ⟨_, hl⟩
  | take hr _ _ =>
    obtain ⟨q, hq, rfl⟩ := List.mem_map.mp hr
    obtain ⟨p, -, hl, -⟩ := h.rule q hq
    exact ⟨_, hl⟩

theorem allEpsilon_enc {α : List (Node T L)} {β : List INode} (h : EncNodes ig α β)
    (ha : Spec.AllEpsilon α) : Spec.AllEpsilon β := by
  intro n hn
  obtain ⟨m, hm, he⟩ := forall₂_mem_right h hn
  rw [ha m hm] at he
  cases n with
  | production l => simp [EncNode] at he
  | terminal k => cases k <;> simp [EncNode, EncTok] at he; rfl

theorem forall₂_append_left {α β : Type} {R : α → β → Prop} {a b : List α} {c : List β}
    (h : List.Forall₂ R (a ++ b) c) :
    ∃ c1 c2, List.Forall₂ R a c1 ∧ List.Forall₂ R b c2 ∧ c = c1 ++ c2 := by
  induction a generalizing c with
  | nil => exact ⟨[], c, .nil, h, rfl⟩
  | cons x a ih =>
    cases h with
    | cons hx h =>
      obtain ⟨c1, c2, h1, h2, rfl⟩ := ih h
      exact ⟨_ :: c1, c2, .cons hx h1, h2, rfl⟩

/-! ### Parse trees -/

/-- Token sequences and id sequences. -/
abbrev EncWord (ig : IndexedGrammar T L) : List T → List Nat → Prop :=
  List.Forall₂ fun t k => ig.vocab.idMap[k]? = some t

/-- Parse trees of the grammar and of the indexed grammar. -/
inductive EncForest (ig : IndexedGrammar T L) : Spec.Forest T → Spec.Forest Nat → Prop
  | nil : EncForest ig .nil .nil
  | tok {t k f f'} : ig.vocab.idMap[k]? = some t → EncForest ig f f' →
      EncForest ig (.tok t f) (.tok k f')
  | node {i : Nat} {r : IRule} {c c' f f'} : ig.rules[i]? = some r → EncForest ig c c' → EncForest ig f f' →
      EncForest ig (.node r.originalIndex c f) (.node i c' f')

theorem EncForest.inj {f1 f2 : Spec.Forest T} {f' : Spec.Forest Nat} (h1 : EncForest ig f1 f')
    (h2 : EncForest ig f2 f') : f1 = f2 := by
  induction h1 generalizing f2 with
  | nil => cases h2; rfl
  | tok h _ ih =>
    cases h2 with
    | tok h' h2 => rw [h] at h'; cases h'; rw [ih h2]
  | node h _ _ ih1 ih2 =>
    cases h2 with
    | node h' hc hf => rw [h] at h'; cases h'; rw [ih1 hc, ih2 hf]

theorem EncWord.inj (h : Encodes g ig) {w : List T} {v v' : List Nat} (h1 : EncWord ig w v)
    (h2 : EncWord ig w v') : v = v' := by
  induction h1 generalizing v' with
  | nil => cases h2; rfl
  | cons ha _ ih =>
    cases h2 with
    | cons hb h2 => rw [ih h2, getElem?_inj_of_nodup h.vocab.nodup ha hb]

theorem EncWord.inj' {w w' : List T} {v : List Nat} (h1 : EncWord ig w v)
    (h2 : EncWord ig w' v) : w = w' := by
  induction h1 generalizing w' with
  | nil => cases h2; rfl
  | cons ha _ ih =>
    cases h2 with
    | cons hb h2 => rw [ha] at hb; cases hb; rw [ih h2]

theorem parses_enc (h : Encodes g ig) {f : Spec.Forest T} {α : List (Node T L)} {w : List T}
    (hp : Spec.Parses g.productions f α w) :
    ∀ {β : List INode}, EncNodes ig α β →
      ∃ f' v, EncForest ig f f' ∧ EncWord ig w v ∧ Spec.Parses ig.cfg f' β v := by
  induction hp with
  | nil => intro β hβ; cases hβ; exact ⟨_, _, .nil, .nil, .nil⟩
  | tok _ ih =>
    intro β hβ
    cases hβ with
    | cons hn hβ =>
      rename_i n β
      obtain ⟨f', v, h1, h2, h3⟩ := ih hβ
      cases n with
      | production l => simp [EncNode] at hn
      | terminal k =>
        cases k <;> simp [EncNode, EncTok] at hn
        exact ⟨_, _, .tok hn h1, .cons hn h2, .tok h3⟩
  | eps _ ih =>
    intro β hβ
    cases hβ with
    | cons hn hβ =>
      rename_i n β
      obtain ⟨f', v, h1, h2, h3⟩ := ih hβ
      cases n with
      | production l => simp [EncNode] at hn
      | terminal k =>
        cases k <;> simp [EncNode, EncTok] at hn
        exact ⟨_, _, h1, h2, .eps h3⟩
  | @prod j r c f α u w hr _ _ ih1 ih2 =>
    intro β hβ
    cases hβ with
    | cons hn hβ =>
      rename_i n β
      cases n with
      | terminal k => simp [EncNode] at hn
      | production l =>
        obtain ⟨k, q, hq, ho, rfl, hnodes⟩ := h.rule_of_production hr hn
        obtain ⟨c', v1, h1, h2, h3⟩ := ih1 hnodes
        obtain ⟨f', v2, h4, h5, h6⟩ := ih2 hβ
        refine ⟨.node k c' f', v1 ++ v2, ?_, List.rel_append h2 h5, ?_⟩
        · rw [← ho]; exact .node hq h1 h4
        · exact .prod (by simp [cfg, hq]) h3 h6

theorem parses_dec (h : Encodes g ig) {f' : Spec.Forest Nat} {β : List INode} {v : List Nat}
    (hp : Spec.Parses ig.cfg f' β v) :
    ∀ {α : List (Node T L)}, EncNodes ig α β →
      ∃ f w, EncForest ig f f' ∧ EncWord ig w v ∧ Spec.Parses g.productions f α w := by
  induction hp with
  | nil => intro α hα; cases hα; exact ⟨_, _, .nil, .nil, .nil⟩
  | tok _ ih =>
    intro α hα
    cases hα with
    | cons hn hα =>
      rename_i n α
      obtain ⟨f, w, h1, h2, h3⟩ := ih hα
      cases n with
      | production l => simp [EncNode] at hn
      | terminal k =>
        cases k <;> simp [EncNode, EncTok] at hn
        exact ⟨_, _, .tok hn h1, .cons hn h2, .tok h3⟩
  | eps _ ih =>
    intro α hα
    cases hα with
    | cons hn hα =>
      rename_i n α
      obtain ⟨f, w, h1, h2, h3⟩ := ih hα
      cases n with
      | production l => simp [EncNode] at hn
      | terminal k =>
        cases k <;> simp [EncNode, EncTok] at hn
        exact ⟨_, _, h1, h2, .eps h3⟩
  | @prod j r c f β u w hr _ _ ih1 ih2 =>
    intro α hα
    cases hα with
    | cons hn hα =>
      rename_i n α
      cases n with
      | terminal k => simp [EncNode] at hn
      | production l =>
        simp only [cfg, List.getElem?_map, Option.map_eq_some_iff] at hr
        obtain ⟨q, hq, rfl⟩ := hr
        obtain ⟨p, hp, hl, hnodes⟩ := h.rule q (List.mem_of_getElem? hq)
        simp only [EncNode] at hn
        rw [hl] at hn
        cases hn
        obtain ⟨c', v1, h1, h2, h3⟩ := ih1 hnodes
        obtain ⟨f', v2, h4, h5, h6⟩ := ih2 hα
        exact ⟨.node q.originalIndex c' f', v1 ++ v2, .node hq h1 h4, List.rel_append h2 h5,
          .prod hp h3 h6⟩

/-- Parse trees of the indexed grammar, from label 0. -/
def IParseTree (ig : IndexedGrammar T L) (f : Spec.Forest Nat) (v : List Nat) : Prop :=
  Spec.Parses ig.cfg f [.production 0] v

theorem parseTree_enc (h : Encodes g ig) {f : Spec.Forest T} {w : List T}
    (hp : Spec.ParseTree g f w) :
    ∃ f' v, EncForest ig f f' ∧ EncWord ig w v ∧ IParseTree ig f' v := by
  obtain ⟨root, rest, hg, hp⟩ := hp
  obtain ⟨root', rest', hg', hl⟩ := h.root_label
  rw [hg] at hg'
  cases hg'
  exact h.parses_enc hp (.cons hl .nil)

theorem parseTree_dec (h : Encodes g ig) {f' : Spec.Forest Nat} {v : List Nat}
    (hp : IParseTree ig f' v) :
    ∃ f w, EncForest ig f f' ∧ EncWord ig w v ∧ Spec.ParseTree g f w := by
  obtain ⟨root, rest, hg, hl⟩ := h.root_label
  obtain ⟨f, w, h1, h2, h3⟩ := h.parses_dec hp (α := [.production root.symbol]) (.cons hl .nil)
  exact ⟨f, w, h1, h2, root, rest, hg, h3⟩

/-! ### Well-formedness -/

/-- `Spec.WellFormed` for the indexed rules. -/
structure IWellFormed (ig : IndexedGrammar T L) : Prop where
  epsilonLast : ∀ r ∈ ig.rules, r.nodes.Pairwise fun a b => a = .terminal .epsilon → b = .terminal .epsilon
  noEndMarker : ∀ r ∈ ig.rules, .terminal .eos ∉ r.nodes

theorem epsLast (h : Encodes g ig) (hg : Spec.EpsilonLast g) :
    ∀ r ∈ ig.rules, r.nodes.Pairwise fun a b => a = .terminal .epsilon → b = .terminal .epsilon := by
  have key : ∀ {α : List (Node T L)} {β : List INode}, EncNodes ig α β →
      (α.Pairwise fun a b => a = .terminal .epsilon → b = .terminal .epsilon) →
      β.Pairwise fun a b => a = .terminal .epsilon → b = .terminal .epsilon := by
    intro α β hab
    induction hab with
    | nil => exact fun _ => .nil
    | @cons a b α β h1 h2 ih =>
      intro hp
      obtain ⟨h3, h4⟩ := List.pairwise_cons.mp hp
      refine List.pairwise_cons.mpr ⟨?_, ih h4⟩
      rintro c hc rfl
      have ha : a = .terminal .epsilon := by
        cases a with
        | production l => simp [EncNode] at h1
        | terminal k => cases k <;> simp [EncNode, EncTok] at h1; rfl
      obtain ⟨m, hm, hmn⟩ := forall₂_mem_right h2 hc
      rw [h3 m hm ha] at hmn
      cases c with
      | production l => simp [EncNode] at hmn
      | terminal k => cases k <;> simp [EncNode, EncTok] at hmn; rfl
  intro r hr
  obtain ⟨p, hp, hl, hn⟩ := h.rule r hr
  exact key hn (hg p (List.mem_of_getElem? hp))

theorem noEnd (h : Encodes g ig) (hg : Spec.NoEndMarker g) :
    ∀ r ∈ ig.rules, .terminal .eos ∉ r.nodes := by
  intro r hr hm
  obtain ⟨p, hp, hl, hn⟩ := h.rule r hr
  obtain ⟨m, hm, hmn⟩ := forall₂_mem_right hn hm
  cases m with
  | production l => simp [EncNode] at hmn
  | terminal k =>
    cases k <;> simp [EncNode, EncTok] at hmn
    exact hg p (List.mem_of_getElem? hp) hm

theorem rootFree (h : Encodes g ig) (hg : Spec.RootNotRecursive g) :
    ∀ r ∈ ig.rules, .production 0 ∉ r.nodes := by
  intro r hr hm
  obtain ⟨i, hi⟩ := List.mem_iff_getElem?.mp hr
  by_cases h0 : i = 0
  · subst h0
    obtain ⟨r0, hr0, ho⟩ := h.root
    rw [hi] at hr0
    cases hr0
    obtain ⟨p, hp, hl, hn⟩ := h.rule r hr
    obtain ⟨m, hm, hmn⟩ := forall₂_mem_right hn hm
    obtain ⟨root, rest, hgr, hrl⟩ := h.root_label
    rw [ho, hgr] at hp
    simp only [List.getElem?_cons_zero, Option.some.injEq] at hp
    subst hp
    cases m with
    | terminal k => simp [EncNode] at hmn
    | production l =>
      simp only [EncNode] at hmn
      rw [hrl] at hmn
      cases hmn
      exact hg root rest hgr hm
  · exact h.wf.rootRef i r hi h0 hm

theorem wellFormed (h : Encodes g ig) (hg : Spec.WellFormed g) : IWellFormed ig :=
  ⟨h.epsLast hg.epsilonLast, h.noEnd hg.noEndMarker⟩

end Encodes
end IndexedGrammar
end Verif
