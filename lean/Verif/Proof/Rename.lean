import Verif.Proof.Knuth

/-!
# Valid items of the indexed grammar and of the user's grammar
-/

set_option linter.unusedSectionVars false
set_option autoImplicit false

namespace Verif
open Spec IndexedGrammar.Encodes

section
variable {T L : Type} [DecidableEq T] [DecidableEq L] {g : Grammar T L} {ig : IndexedGrammar T L}

/-- A rule of the user's grammar and its place in the indexed grammar. -/
structure SameRule (g : Grammar T L) (ig : IndexedGrammar T L) (i i' : Nat) (r : Rule T L) (r' : Rule Nat Nat) :
    Prop where
  orig : ig.orig i' = i
  user : g.productions[i]? = some r
  indexed : ig.cfg[i']? = some r'
  symbol : ig.labels[r'.symbol]? = some r.symbol
  nodes : EncNodes ig (rhs r) (rhs r')

theorem sameRule_of_indexed (h : ig.Encodes g) {i' : Nat} {r' : Rule Nat Nat} (hr : ig.cfg[i']? = some r') :
    ∃ r, SameRule g ig (ig.orig i') i' r r' := by
  obtain ⟨q, hq, rfl⟩ := cfg_get.mp hr
  obtain ⟨p, hp, hl, hn⟩ := h.rule q (List.mem_of_getElem? hq)
  exact ⟨p, rfl, by rw [orig_eq hq]; exact hp, hr, hl, encNodes_strip hn⟩

theorem sameRule_of_user (h : ig.Encodes g) {i : Nat} {r : Rule T L} (hr : g.productions[i]? = some r) :
    ∃ i' r', SameRule g ig i i' r r' := by
  have : i ∈ ig.rules.map (·.originalIndex) :=
    h.perm.mem_iff.mpr (by simpa using (List.getElem?_eq_some_iff.mp hr).1)
  obtain ⟨q, hq, rfl⟩ := List.mem_map.mp this
  obtain ⟨i', hi⟩ := List.mem_iff_getElem?.mp hq
  obtain ⟨p, hp⟩ := sameRule_of_indexed h (cfg_get.mpr ⟨q, hi, rfl⟩)
  have he := hp.user
  rw [orig_eq hi, hr] at he
  cases he
  exact ⟨i', q.rule, orig_eq hi, hr, hp.indexed, hp.symbol, hp.nodes⟩

theorem orig_zero (h : ig.Encodes g) : ig.orig 0 = 0 := by
  obtain ⟨r, hr, h0⟩ := h.root
  rw [orig_eq hr, h0]

theorem orig_injective (h : ig.Encodes g) {i j : Nat} {r s : Rule Nat Nat} (hr : ig.cfg[i]? = some r)
    (hs : ig.cfg[j]? = some s) (e : ig.orig i = ig.orig j) : i = j := by
  obtain ⟨q, hq, -⟩ := cfg_get.mp hr
  obtain ⟨q', hq', -⟩ := cfg_get.mp hs
  exact orig_inj h hq hq' e

theorem encNodes_drop {α : List (Node T L)} {β : List INode} (h : EncNodes ig α β) (d : Nat) :
    EncNodes ig (α.drop d) (β.drop d) := by
  induction h generalizing d with
  | nil => simp
  | cons h1 h2 ih =>
    cases d with
    | zero => exact .cons h1 h2
    | succ d => exact ih d

theorem valid_enc (h : ig.Encodes g) {γ : List (Node T L)} {i d : Nat} (hv : Valid g.productions γ i d) :
    ∃ γ' i', EncNodes ig γ γ' ∧ ig.orig i' = i ∧ (∃ r', ig.cfg[i']? = some r') ∧ Valid ig.cfg γ' i' d := by
  induction hv with
  | root =>
    obtain ⟨q, hq, -⟩ := h.root
    exact ⟨[], 0, .nil, orig_zero h, ⟨_, cfg_get.mpr ⟨q, hq, rfl⟩⟩, .root⟩
  | @close γ i d j r r' β _ hr hd hj ih =>
    obtain ⟨γ', i', h1, rfl, ⟨q, hq⟩, h2⟩ := ih
    obtain ⟨p, hp⟩ := sameRule_of_indexed h hq
    rw [hp.user] at hr
    cases hr
    have h3 := encNodes_drop hp.nodes d
    rw [hd] at h3
    generalize hd' : (rhs q).drop d = x at h3
    cases h3 with
    | @cons _ n _ β' hn _ =>
      cases n with
      | terminal _ => exact hn.elim
      | production l =>
        obtain ⟨j', q', hj'⟩ := sameRule_of_user h hj
        have : l = q'.symbol := h.label_inj hn hj'.symbol
        subst this
        exact ⟨γ', j', h1, hj'.orig, ⟨_, hj'.indexed⟩, .close h2 hq hd' hj'.indexed⟩
  | @move γ i d r X β _ hr hd ih =>
    obtain ⟨γ', i', h1, rfl, ⟨q, hq⟩, h2⟩ := ih
    obtain ⟨p, hp⟩ := sameRule_of_indexed h hq
    rw [hp.user] at hr
    cases hr
    have h3 := encNodes_drop hp.nodes d
    rw [hd] at h3
    generalize hd' : (rhs q).drop d = x at h3
    cases h3 with
    | cons hn _ =>
      exact ⟨_, i', List.rel_append h1 (.cons hn .nil), rfl, ⟨_, hq⟩, .move h2 hq hd'⟩

theorem valid_dec (h : ig.Encodes g) {γ' : List INode} {i' d : Nat} (hv : Valid ig.cfg γ' i' d) :
    ∃ γ, EncNodes ig γ γ' ∧ Valid g.productions γ (ig.orig i') d := by
  induction hv with
  | root => exact ⟨[], .nil, by rw [orig_zero h]; exact .root⟩
  | @close γ' i' d j' q q' β' _ hr hd hj ih =>
    obtain ⟨γ, h1, h2⟩ := ih
    obtain ⟨p, hp⟩ := sameRule_of_indexed h hr
    obtain ⟨p', hp'⟩ := sameRule_of_indexed h hj
    have h3 := encNodes_drop hp.nodes d
    rw [hd] at h3
    generalize hd' : (rhs p).drop d = x at h3
    cases h3 with
    | @cons n _ β _ hn _ =>
      cases n with
      | terminal _ => exact hn.elim
      | production l =>
        have he : some l = some p'.symbol := Eq.trans (Eq.symm hn) hp'.symbol
        cases he
        exact ⟨γ, h1, .close h2 hp.user hd' hp'.user⟩
  | @move γ' i' d q X β' _ hr hd ih =>
    obtain ⟨γ, h1, h2⟩ := ih
    obtain ⟨p, hp⟩ := sameRule_of_indexed h hr
    have h3 := encNodes_drop hp.nodes d
    rw [hd] at h3
    generalize hd' : (rhs p).drop d = x at h3
    cases h3 with
    | cons hn _ => exact ⟨_, List.rel_append h1 (.cons hn .nil), .move h2 hp.user hd'⟩

/-- FIRST relations that say the same. -/
structure SameFirst (ig : IndexedGrammar T L) (first : List (Node T L) → AugTok T → Prop)
    (first' : List INode → AugTokId → Prop) : Prop where
  iff : ∀ β β' t t', EncNodes ig β β' → EncTok ig.vocab.idMap t t' → (first β t ↔ first' β' t')
  enc : ∀ β β' t, EncNodes ig β β' → first β t → ∃ t', EncTok ig.vocab.idMap t t'
  dec : ∀ β β' t', EncNodes ig β β' → first' β' t' → ∃ t, EncTok ig.vocab.idMap t t'

variable {first : List (Node T L) → AugTok T → Prop} {first' : List INode → AugTokId → Prop}

theorem validLook_enc (h : ig.Encodes g) (hf : SameFirst ig first first') {γ : List (Node T L)} {i d : Nat}
    {t : AugTok T} (hv : ValidLook g.productions first γ i d t) :
    ∃ γ' i' t', EncNodes ig γ γ' ∧ ig.orig i' = i ∧ EncTok ig.vocab.idMap t t' ∧
      (∃ r', ig.cfg[i']? = some r') ∧ ValidLook ig.cfg first' γ' i' d t' := by
  induction hv with
  | root =>
    obtain ⟨q, hq, -⟩ := h.root
    exact ⟨[], 0, .eos, .nil, orig_zero h, trivial, ⟨_, cfg_get.mpr ⟨q, hq, rfl⟩⟩, .root⟩
  | @closeFirst γ i d j r r' β t hv hr hd hj hne ht =>
    obtain ⟨γ', i', h1, rfl, ⟨q, hq⟩, h2⟩ := valid_enc h hv
    obtain ⟨p, hp⟩ := sameRule_of_indexed h hq
    rw [hp.user] at hr
    cases hr
    have h3 := encNodes_drop hp.nodes d
    rw [hd] at h3
    generalize hd' : (rhs q).drop d = x at h3
    cases h3 with
    | @cons _ n _ β' hn hβ =>
      cases n with
      | terminal _ => exact hn.elim
      | production l =>
        obtain ⟨j', q', hj'⟩ := sameRule_of_user h hj
        have : l = q'.symbol := h.label_inj hn hj'.symbol
        subst this
        obtain ⟨t', ht'⟩ := hf.enc _ _ _ hβ ht
        refine ⟨γ', j', t', h1, hj'.orig, ht', ⟨_, hj'.indexed⟩,
          .closeFirst h2 hq hd' hj'.indexed ?_ ((hf.iff _ _ _ _ hβ ht').mp ht)⟩
        rintro rfl
        cases t with
        | epsilon => exact hne rfl
        | token _ => exact ht'
        | eos => exact ht'
  | @closePass γ i d j r r' β t _ hr hd hj ht ih =>
    obtain ⟨γ', i', t', h1, rfl, h0, ⟨q, hq⟩, h2⟩ := ih
    obtain ⟨p, hp⟩ := sameRule_of_indexed h hq
    rw [hp.user] at hr
    cases hr
    have h3 := encNodes_drop hp.nodes d
    rw [hd] at h3
    generalize hd' : (rhs q).drop d = x at h3
    cases h3 with
    | @cons _ n _ β' hn hβ =>
      cases n with
      | terminal _ => exact hn.elim
      | production l =>
        obtain ⟨j', q', hj'⟩ := sameRule_of_user h hj
        have : l = q'.symbol := h.label_inj hn hj'.symbol
        subst this
        exact ⟨γ', j', t', h1, hj'.orig, h0, ⟨_, hj'.indexed⟩,
          .closePass h2 hq hd' hj'.indexed ((hf.iff _ _ .epsilon .epsilon hβ trivial).mp ht)⟩
  | @move γ i d r X β t _ hr hd ih =>
    obtain ⟨γ', i', t', h1, rfl, h0, ⟨q, hq⟩, h2⟩ := ih
    obtain ⟨p, hp⟩ := sameRule_of_indexed h hq
    rw [hp.user] at hr
    cases hr
    have h3 := encNodes_drop hp.nodes d
    rw [hd] at h3
    generalize hd' : (rhs q).drop d = x at h3
    cases h3 with
    | cons hn _ =>
      exact ⟨_, i', t', List.rel_append h1 (.cons hn .nil), rfl, h0, ⟨_, hq⟩, .move h2 hq hd'⟩

theorem validLook_dec (h : ig.Encodes g) (hf : SameFirst ig first first') {γ' : List INode} {i' d : Nat}
    {t' : AugTokId} (hv : ValidLook ig.cfg first' γ' i' d t') :
    ∃ γ t, EncNodes ig γ γ' ∧ EncTok ig.vocab.idMap t t' ∧
      ValidLook g.productions first γ (ig.orig i') d t := by
  induction hv with
  | root => exact ⟨[], .eos, .nil, trivial, by rw [orig_zero h]; exact .root⟩
  | @closeFirst γ' i' d j' q q' β' t' hv hr hd hj hne ht =>
    obtain ⟨γ, h1, h2⟩ := valid_dec h hv
    obtain ⟨p, hp⟩ := sameRule_of_indexed h hr
    obtain ⟨p', hp'⟩ := sameRule_of_indexed h hj
    have h3 := encNodes_drop hp.nodes d
    rw [hd] at h3
    generalize hd' : (rhs p).drop d = x at h3
    cases h3 with
    | @cons n _ β _ hn hβ =>
      cases n with
      | terminal _ => exact hn.elim
      | production l =>
        have he : some l = some p'.symbol := Eq.trans (Eq.symm hn) hp'.symbol
        cases he
        obtain ⟨t, ht'⟩ := hf.dec _ _ _ hβ ht
        refine ⟨γ, t, h1, ht', .closeFirst h2 hp.user hd' hp'.user ?_ ((hf.iff _ _ _ _ hβ ht').mpr ht)⟩
        rintro rfl
        cases t' with
        | epsilon => exact hne rfl
        | token _ => exact ht'
        | eos => exact ht'
  | @closePass γ' i' d j' q q' β' t' _ hr hd hj ht ih =>
    obtain ⟨γ, t, h1, h0, h2⟩ := ih
    obtain ⟨p, hp⟩ := sameRule_of_indexed h hr
    obtain ⟨p', hp'⟩ := sameRule_of_indexed h hj
    have h3 := encNodes_drop hp.nodes d
    rw [hd] at h3
    generalize hd' : (rhs p).drop d = x at h3
    cases h3 with
    | @cons n _ β _ hn hβ =>
      cases n with
      | terminal _ => exact hn.elim
      | production l =>
        have he : some l = some p'.symbol := Eq.trans (Eq.symm hn) hp'.symbol
        cases he
        exact ⟨γ, t, h1, h0, .closePass h2 hp.user hd' hp'.user ((hf.iff _ _ .epsilon .epsilon hβ trivial).mpr ht)⟩
  | @move γ' i' d q X β' t' _ hr hd ih =>
    obtain ⟨γ, t, h1, h0, h2⟩ := ih
    obtain ⟨p, hp⟩ := sameRule_of_indexed h hr
    have h3 := encNodes_drop hp.nodes d
    rw [hd] at h3
    generalize hd' : (rhs p).drop d = x at h3
    cases h3 with
    | cons hn _ => exact ⟨_, t, List.rel_append h1 (.cons hn .nil), h0, .move h2 hp.user hd'⟩

theorem rhs_length {r : Rule T L} {r' : Rule Nat Nat} {i i' : Nat} (h : SameRule g ig i i' r r') :
    (rhs r).length = (rhs r').length := h.nodes.length_eq

/-- The action in the user's numbering. -/
def origAct (ig : IndexedGrammar T L) : Act → Act
  | .reduce i => .reduce (ig.orig i)
  | .shift => .shift
  | .accept => .accept

theorem demands_enc (h : ig.Encodes g) (hf : SameFirst ig first first') {γ : List (Node T L)} {t : AugTok T}
    {a : Act} (hd : Demands g.productions first γ t a) :
    ∃ γ' t' a', EncNodes ig γ γ' ∧ EncTok ig.vocab.idMap t t' ∧ origAct ig a' = a ∧
      Demands ig.cfg first' γ' t' a' := by
  cases hd with
  | @shift i d r β hv hr hd =>
    obtain ⟨γ', i', h1, rfl, ⟨q, hq⟩, h2⟩ := valid_enc h hv
    obtain ⟨p, hp⟩ := sameRule_of_indexed h hq
    rw [hp.user] at hr
    cases hr
    have h3 := encNodes_drop hp.nodes d
    rw [hd] at h3
    generalize hd' : (rhs q).drop d = x at h3
    cases h3 with
    | @cons _ n _ β' hn _ =>
      cases n with
      | production _ => exact hn.elim
      | terminal t' => exact ⟨γ', t', .shift, h1, hn, rfl, .shift h2 hq hd'⟩
  | @reduce i r hr h0 hv =>
    obtain ⟨γ', i', t', h1, rfl, ht, ⟨q, hq⟩, h2⟩ := validLook_enc h hf hv
    obtain ⟨p, hp⟩ := sameRule_of_indexed h hq
    rw [hp.user] at hr
    cases hr
    rw [rhs_length hp] at h2
    refine ⟨γ', t', .reduce i', h1, ht, rfl, .reduce hq ?_ h2⟩
    rintro rfl
    exact h0 (orig_zero h)
  | @accept r hr ht hv =>
    obtain ⟨γ', i', h1, h0, ⟨q, hq⟩, h2⟩ := valid_enc h hv
    obtain ⟨q0, hq0, -⟩ := h.root
    have : i' = 0 := orig_injective h hq (cfg_get.mpr ⟨q0, hq0, rfl⟩) (by rw [h0, orig_zero h])
    subst this
    obtain ⟨p, hp⟩ := sameRule_of_indexed h hq
    rw [h0] at hp
    rw [hp.user] at hr
    cases hr
    rw [rhs_length hp] at h2
    subst ht
    exact ⟨γ', .eos, .accept, h1, trivial, rfl, .accept hq rfl h2⟩

theorem demands_dec (h : ig.Encodes g) (hf : SameFirst ig first first') {γ' : List INode} {t' : AugTokId}
    {a' : Act} (hd : Demands ig.cfg first' γ' t' a') :
    ∃ γ t, EncNodes ig γ γ' ∧ EncTok ig.vocab.idMap t t' ∧ Demands g.productions first γ t (origAct ig a') := by
  cases hd with
  | @shift i' d q β' hv hr hd =>
    obtain ⟨γ, h1, h2⟩ := valid_dec h hv
    obtain ⟨p, hp⟩ := sameRule_of_indexed h hr
    have h3 := encNodes_drop hp.nodes d
    rw [hd] at h3
    generalize hd' : (rhs p).drop d = x at h3
    cases h3 with
    | @cons n _ β _ hn _ =>
      cases n with
      | production _ => exact hn.elim
      | terminal t => exact ⟨γ, t, h1, hn, .shift h2 hp.user hd'⟩
  | @reduce i' q hr h0 hv =>
    obtain ⟨γ, t, h1, ht, h2⟩ := validLook_dec h hf hv
    obtain ⟨p, hp⟩ := sameRule_of_indexed h hr
    rw [← rhs_length hp] at h2
    refine ⟨γ, t, h1, ht, .reduce hp.user ?_ h2⟩
    intro e
    obtain ⟨q0, hq0, -⟩ := h.root
    exact h0 (orig_injective h hr (cfg_get.mpr ⟨q0, hq0, rfl⟩) (by rw [e, orig_zero h]))
  | @accept q hr ht hv =>
    obtain ⟨γ, h1, h2⟩ := valid_dec h hv
    obtain ⟨p, hp⟩ := sameRule_of_indexed h hr
    rw [orig_zero h] at h2 hp
    rw [← rhs_length hp] at h2
    subst ht
    exact ⟨γ, .eos, h1, trivial, .accept hp.user rfl h2⟩

theorem encNodes_inj' (h : ig.Encodes g) {α : List (Node T L)} {β β' : List INode} (h1 : EncNodes ig α β)
    (h2 : EncNodes ig α β') : β = β' := by
  induction h1 generalizing β' with
  | nil => cases h2; rfl
  | @cons n k _ _ hn _ ih =>
    cases h2 with
    | @cons _ k' _ _ hn' h3 =>
      rw [ih h3]
      congr 1
      match n, k, k' with
      | .production _, .production _, .production _ => rw [h.label_inj hn hn']
      | .terminal _, .terminal _, .terminal _ => rw [EncTok.inj h.vocab.nodup hn hn']
      | .production _, .terminal _, _ => exact hn.elim
      | .production _, .production _, .terminal _ => exact hn'.elim
      | .terminal _, .production _, _ => exact hn.elim
      | .terminal _, .terminal _, .production _ => exact hn'.elim

theorem Spec.Demands.rule {P : List (Rule Nat Nat)} {γ : List INode} {t : AugTokId} {i : Nat}
    {fst : List INode → AugTokId → Prop} (h : Demands P fst γ t (.reduce i)) : ∃ r, P[i]? = some r := by
  cases h with
  | reduce h _ _ => exact ⟨_, h⟩

/-- Conflicts of the indexed grammar are conflicts of the user's grammar. -/
theorem noConflict_iff (h : ig.Encodes g) (hf : SameFirst ig first first') :
    NoConflict ig.cfg first' ↔ NoConflict g.productions first := by
  constructor
  · intro hn γ t a b ha hb
    obtain ⟨γ1, t1, a', e1, k1, rfl, ha'⟩ := demands_enc h hf ha
    obtain ⟨γ2, t2, b', e2, k2, rfl, hb'⟩ := demands_enc h hf hb
    cases encNodes_inj' h e1 e2
    cases EncTok.inj h.vocab.nodup k1 k2
    rw [hn _ _ _ _ ha' hb']
  · intro hn γ' t' a b ha hb
    obtain ⟨γ1, t1, e1, k1, ha'⟩ := demands_dec h hf ha
    obtain ⟨γ2, t2, e2, k2, hb'⟩ := demands_dec h hf hb
    cases encNodes_inj e1 e2
    cases EncTok.inj' k1 k2
    have := hn _ _ _ _ ha' hb'
    cases a <;> cases b <;> simp only [origAct, Act.reduce.injEq, reduceCtorEq] at this ⊢
    obtain ⟨r, hr⟩ := ha.rule
    obtain ⟨r', hr'⟩ := hb.rule
    exact orig_injective h hr hr' this

end
end Verif
