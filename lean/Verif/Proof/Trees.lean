import Verif.Proof.Simulator
import Verif.Proof.Prefix

/-!
# Parse trees of the indexed grammar and of the user's grammar
-/

set_option linter.unusedSectionVars false
set_option autoImplicit false

namespace Verif
open Spec

/-- Rename the rules of a forest. -/
def Spec.Forest.mapRules {A : Type} (σ : Nat → Nat) : Forest A → Forest A
  | .nil => .nil
  | .tok a f => .tok a (f.mapRules σ)
  | .node i c f => .node (σ i) (c.mapRules σ) (f.mapRules σ)

section
variable {T L A : Type} [DecidableEq T] [DecidableEq L] {g : Grammar T L} {ig : IndexedGrammar T L}

/-- The index of a rule in the user's grammar. -/
def IndexedGrammar.orig (ig : IndexedGrammar T L) (i : Nat) : Nat :=
  match ig.rules[i]? with
  | some r => r.originalIndex
  | none => 0

/-- Tokens and token ids, when tokens match terminals through `M`. -/
def idMatch (ig : IndexedGrammar T L) (M : A → T → Prop) (a : A) (k : Nat) : Prop :=
  ∃ t, ig.vocab.idMap[k]? = some t ∧ M a t

theorem tokMatch_eq (ig : IndexedGrammar T L) : tokMatch ig = idMatch ig (fun a t => a = t) := by
  funext a k
  apply propext
  constructor
  · intro h; exact ⟨a, h, rfl⟩
  · rintro ⟨t, h, rfl⟩; exact h

theorem idMatch_unique {M : A → T → Prop} (hv : ig.vocab.WF) (hM : Unique M) : Unique (idMatch ig M) := by
  rintro a k k' ⟨t, h1, h2⟩ ⟨t', h3, h4⟩
  cases hM _ _ _ h2 h4
  exact getElem?_inj_of_nodup hv.nodup h1 h3

theorem orig_eq {i : Nat} {r : IRule} (h : ig.rules[i]? = some r) : ig.orig i = r.originalIndex := by
  unfold IndexedGrammar.orig; rw [h]

theorem parsesM_dec {M : A → T → Prop} (h : ig.Encodes g) {f : Forest A} {β : List INode} {w : List A}
    (hp : ParsesM ig.cfg (idMatch ig M) f β w) :
    ∀ {α : List (Node T L)}, IndexedGrammar.Encodes.EncNodes ig α β →
      ParsesM g.productions M (f.mapRules ig.orig) α w := by
  induction hp with
  | nil => intro α hα; cases hα; exact .nil
  | tok hm _ ih =>
    intro α hα
    cases hα with
    | cons hn hα =>
      rename_i n α
      obtain ⟨t, ht, hM⟩ := hm
      cases n with
      | production l => simp [EncNode] at hn
      | terminal k =>
        cases k <;> simp [EncNode, EncTok] at hn
        rw [hn] at ht
        cases ht
        exact .tok hM (ih hα)
  | eps _ ih =>
    intro α hα
    cases hα with
    | cons hn hα =>
      rename_i n α
      cases n with
      | production l => simp [EncNode] at hn
      | terminal k =>
        cases k <;> simp [EncNode, EncTok] at hn
        exact .eps (ih hα)
  | @prod j r c f β u w hr _ _ ih1 ih2 =>
    intro α hα
    cases hα with
    | cons hn hα =>
      rename_i n α
      cases n with
      | terminal k => simp [EncNode] at hn
      | production l =>
        obtain ⟨q, hq, rfl⟩ := cfg_get.mp hr
        obtain ⟨p, hp, hl, hnodes⟩ := h.rule q (List.mem_of_getElem? hq)
        simp only [EncNode] at hn
        rw [hl] at hn
        cases hn
        simp only [Forest.mapRules, orig_eq hq]
        exact .prod hp (ih1 hnodes) (ih2 hα)

theorem parsesM_enc {M : A → T → Prop} (h : ig.Encodes g) {f : Forest A} {α : List (Node T L)} {w : List A}
    (hp : ParsesM g.productions M f α w) :
    ∀ {β : List INode}, IndexedGrammar.Encodes.EncNodes ig α β →
      ∃ f', ParsesM ig.cfg (idMatch ig M) f' β w ∧ f'.mapRules ig.orig = f := by
  induction hp with
  | nil => intro β hβ; cases hβ; exact ⟨_, .nil, rfl⟩
  | tok hm _ ih =>
    intro β hβ
    cases hβ with
    | cons hn hβ =>
      rename_i n β
      obtain ⟨f', h1, rfl⟩ := ih hβ
      cases n with
      | production l => simp [EncNode] at hn
      | terminal k =>
        cases k <;> simp [EncNode, EncTok] at hn
        exact ⟨_, .tok ⟨_, hn, hm⟩ h1, rfl⟩
  | eps _ ih =>
    intro β hβ
    cases hβ with
    | cons hn hβ =>
      rename_i n β
      obtain ⟨f', h1, rfl⟩ := ih hβ
      cases n with
      | production l => simp [EncNode] at hn
      | terminal k =>
        cases k <;> simp [EncNode, EncTok] at hn
        exact ⟨_, .eps h1, rfl⟩
  | @prod j r c f α u w hr _ _ ih1 ih2 =>
    intro β hβ
    cases hβ with
    | cons hn hβ =>
      rename_i n β
      cases n with
      | terminal k => simp [EncNode] at hn
      | production l =>
        obtain ⟨k, q, hq, ho, rfl, hnodes⟩ := h.rule_of_production hr hn
        obtain ⟨c', h1, rfl⟩ := ih1 hnodes
        obtain ⟨f', h4, rfl⟩ := ih2 hβ
        refine ⟨.node k c' f', .prod (cfg_get.mpr ⟨q, hq, rfl⟩) h1 h4, ?_⟩
        simp only [Forest.mapRules, orig_eq hq, ho]

theorem parses_iff_parsesM {P : List (Rule T L)} {f : Forest T} {α : List (Node T L)} {w : List T} :
    Parses P f α w ↔ ParsesM P (fun a t => a = t) f α w := by
  constructor
  · intro h
    induction h with
    | nil => exact .nil
    | tok _ ih => exact .tok rfl ih
    | eps _ ih => exact .eps ih
    | prod h _ _ ih1 ih2 => exact .prod h ih1 ih2
  · intro h
    induction h with
    | nil => exact .nil
    | tok h _ ih => cases h; exact .tok ih
    | eps _ ih => exact .eps ih
    | prod h _ _ ih1 ih2 => exact .prod h ih1 ih2

/-- Parse trees whose tokens match terminals through `M`. -/
def ParseTreeM (g : Grammar T L) (M : A → T → Prop) (f : Forest A) (w : List A) : Prop :=
  ∃ root rest, g.productions = root :: rest ∧ ParsesM g.productions M f [.production root.symbol] w

theorem parseTree_iff {f : Forest T} {w : List T} :
    ParseTree g f w ↔ ParseTreeM g (fun a t => a = t) f w := by
  unfold ParseTree ParseTreeM
  simp only [parses_iff_parsesM]

theorem parseTreeM_dec {M : A → T → Prop} (h : ig.Encodes g) {f : Forest A} {w : List A}
    (hp : ParsesM ig.cfg (idMatch ig M) f [.production 0] w) :
    ParseTreeM g M (f.mapRules ig.orig) w := by
  obtain ⟨root, rest, hg, hl⟩ := h.root_label
  exact ⟨root, rest, hg, parsesM_dec h hp (.cons hl .nil)⟩

theorem parseTreeM_enc {M : A → T → Prop} (h : ig.Encodes g) {f : Forest A} {w : List A}
    (hp : ParseTreeM g M f w) :
    ∃ f', ParsesM ig.cfg (idMatch ig M) f' [.production 0] w ∧ f'.mapRules ig.orig = f := by
  obtain ⟨root, rest, hg, hp⟩ := hp
  obtain ⟨root', rest', hg', hl⟩ := h.root_label
  rw [hg] at hg'
  cases hg'
  exact parsesM_enc h hp (.cons hl .nil)

/-- Productive labels, through the encoding. -/
theorem productiveM {M : A → T → Prop} (h : ig.Encodes g) (hne : NoEndMarker g)
    (hM : ∀ t ∈ ig.vocab.idMap, ∃ a, M a t)
    (hp : ∀ r ∈ g.productions, ∃ f w, ParsesM g.productions M f [.production r.symbol] w) :
    ProductiveM ig.cfg (idMatch ig M) := by
  intro r hr n hn
  obtain ⟨i, hi⟩ := List.mem_iff_getElem?.mp hr
  obtain ⟨q, hq, rfl⟩ := cfg_get.mp hi
  have hn' : n ∈ q.nodes := (List.mem_filter.mp hn).1
  have hne := h.noEnd hne q (List.mem_of_getElem? hq)
  obtain ⟨p, hp', hl, hnodes⟩ := h.rule q (List.mem_of_getElem? hq)
  obtain ⟨k, hk, hkn⟩ := IndexedGrammar.Encodes.forall₂_mem_right hnodes hn'
  cases n with
  | terminal x =>
    cases x with
    | epsilon => exact absurd hn not_eps_of_mem_strip
    | eos => exact absurd hn' hne
    | token x =>
      cases k with
      | production l => simp [EncNode] at hkn
      | terminal t =>
        cases t <;> simp [EncNode, EncTok] at hkn
        obtain ⟨a, ha⟩ := hM _ (List.mem_of_getElem? hkn)
        exact ⟨_, _, .tok ⟨_, hkn, ha⟩ .nil⟩
  | production l =>
    cases k with
    | terminal t => simp [EncNode] at hkn
    | production l' =>
      have hlt : l < ig.labelsCount := h.wf.node q (List.mem_of_getElem? hq) _ hn'
      obtain ⟨md, hmd⟩ : ∃ md, ig.ruleMetadata[l]? = some md := ⟨_, List.getElem?_eq_getElem hlt⟩
      obtain ⟨h1, h2, h3⟩ := h.wf.range l md hmd
      have hlt' : md.startIndex < ig.rules.length := by omega
      have hs := (h3 md.startIndex _ (List.getElem?_eq_getElem hlt')).mpr ⟨Nat.le_refl _, h1⟩
      obtain ⟨p', hp'', hl', -⟩ := h.rule _ (List.getElem_mem hlt')
      rw [hs] at hl'
      have hkn' : ig.labels[l]? = some l' := hkn
      rw [hkn'] at hl'
      cases hl'
      obtain ⟨f, w, hfw⟩ := hp p' (List.mem_of_getElem? hp'')
      obtain ⟨f', h5, -⟩ := parsesM_enc h hfw (β := [.production l]) (.cons hkn .nil)
      exact ⟨f', w, h5⟩

end
end Verif
