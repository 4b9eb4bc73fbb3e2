import Verif.Props.Display
import Verif.Proof.RootRec
import Verif.Proof.VocabUsed
import Verif.Props.Generated
import Mathlib.Data.List.Sort

/-!
# C58: a table accepts in one place and uses every symbol
-/

set_option linter.unusedSectionVars false
set_option autoImplicit false

namespace Verif.C58
open Spec

variable {T L : Type} [DecidableEq T] [DecidableEq L] {g : Grammar T L} {ig : IndexedGrammar T L} {fuel : Nat}
  {t : LRTable} {F : FirstTable} {kt : KernelTable}

/-- `Enters ig t X s`: some state goes to state `s` on reading the symbol `X`. -/
def Enters (ig : IndexedGrammar T L) (t : LRTable) (X : INode) (s : Nat) : Prop :=
  ∃ from_, from_ < t.numStates ∧
    match X with
    | .terminal tok => Label.id tok < ig.vocab.size ∧
      (t.getAction from_ tok : Outcome (LRTableError T L) _) = .ok (some (.shift s))
    | .production l => l < ig.labelsCount ∧ (t.getGoto from_ l : Outcome (LRTableError T L) _) = .ok (some s)

/-! ### Auxiliary facts -/

theorem mem_rhs_of_mem {r : Rule Nat Nat} {n : INode} (h : n ∈ r.rule) (hne : n ≠ .terminal .epsilon) :
    n ∈ rhs r := by
  refine List.mem_filter.mpr ⟨h, ?_⟩
  split
  · exact absurd rfl hne
  · rfl

/-- Every rule of a connected grammar is begun somewhere. -/
theorem valid_of_reachable {P : List (Rule Nat Nat)} {r0 : Rule Nat Nat} (h0 : P[0]? = some r0)
    (h1 : RootOnce P) {l : Nat} (h : Reachable P r0.symbol l) :
    ∀ (j : Nat) (r : Rule Nat Nat), P[j]? = some r → r.symbol = l → ∃ γ, Valid P γ j 0 := by
  induction h with
  | root =>
    intro j r hj hl
    cases h1 j r0 r h0 hj hl
    exact ⟨[], .root⟩
  | @step r' l' _ hr' hm ih =>
    intro j r hj hl
    subst hl
    obtain ⟨i, hi⟩ := List.mem_iff_getElem?.mp hr'
    obtain ⟨γ, hv⟩ := ih i r' hi rfl
    obtain ⟨α, β, hab⟩ := List.append_of_mem (mem_rhs_of_mem hm (by simp))
    have hv' := hv.extend hi (α := α) (β := .production r.symbol :: β) (by simpa using hab)
    exact ⟨_, .close hv' hi (by rw [hab, Nat.zero_add, List.drop_left]) hj⟩

/-- Every symbol of every rule of a connected grammar is next to be read somewhere. -/
theorem valid_before {P : List (Rule Nat Nat)} {r0 : Rule Nat Nat} (h0 : P[0]? = some r0)
    (h1 : RootOnce P) {j : Nat} {r : Rule Nat Nat} (hj : P[j]? = some r) (h : Reachable P r0.symbol r.symbol)
    {X : INode} (hX : X ∈ rhs r) : ∃ γ d β, Valid P γ j d ∧ (rhs r).drop d = X :: β := by
  obtain ⟨γ, hv⟩ := valid_of_reachable h0 h1 h j r hj rfl
  obtain ⟨α, β, hab⟩ := List.append_of_mem hX
  have hv' := hv.extend hj (α := α) (β := X :: β) (by simpa using hab)
  exact ⟨_, _, β, hv', by rw [hab, Nat.zero_add, List.drop_left]⟩

/-- Sequences that lead to the same state end with the same symbol. -/
theorem last_symbol (hw : ig.WF) (hF : F.WF ig.labelsCount ig.vocab.size) (he : EpsLast ig) {γ γ' : List INode}
    {X Y : INode} {s : Nat} (h : At ig F kt (γ ++ [X]) s) (h' : At ig F kt (γ' ++ [Y]) s) : X = Y := by
  obtain ⟨k, hk, hs⟩ := h
  obtain ⟨k', hk', hs'⟩ := h'
  rw [hs] at hs'
  cases hs'
  have h1 := hk.kernelOf hw hF he
  have h2 := hk'.kernelOf hw hF he
  obtain ⟨k0, items, p, -, -, hp, hc, rfl⟩ := hk.snoc_inv
  have hm : EntryBuilder.adv p ∈ (EntryBuilder.nextOf ig items (some X)).positions := mem_nextOf.mpr ⟨p, hp, hc, rfl⟩
  have v1 := h1.valid _ hm
  have v2 := h2.valid _ hm
  obtain ⟨r, β, -, hr, hd⟩ := Valid.move_inv v1
  obtain ⟨r', β', -, hr', hd'⟩ := Valid.move_inv v2
  rw [hr] at hr'
  cases hr'
  rw [hd] at hd'
  cases hd'
  rfl

theorem rootUnused_of_free (h0 : ∃ r, ig.cfg[0]? = some r ∧ r.symbol = 0) (h : RootFree ig) : RootUnused ig.cfg := by
  obtain ⟨r, hr, hs⟩ := h0
  intro r0 hr0 q hq
  rw [hr] at hr0
  cases hr0
  obtain ⟨p, hp, rfl⟩ := List.mem_map.mp hq
  rw [hs]
  exact h p hp

theorem root_rule (hw : ig.WF) : ∃ r, ig.cfg[0]? = some r ∧ r.symbol = 0 := by
  obtain ⟨m, hm⟩ : ∃ m, ig.ruleMetadata[0]? = some m := ⟨_, List.getElem?_eq_getElem hw.pos⟩
  obtain ⟨h1, h2, -⟩ := hw.range 0 m hm
  have h3 : 0 < ig.rules.length := by omega
  exact ⟨ig.rules[0].rule, cfg_get.mpr ⟨_, List.getElem?_eq_getElem h3, rfl⟩,
    (hw.root 0 _ (List.getElem?_eq_getElem h3)).mpr rfl⟩

/-- What is known about a built table. -/
theorem facts (hg : IndexedGrammar.build g = .ok ig) (he : EpsilonLast g) (hb : LRTable.build fuel ig = .ok t) :
    ∃ F kt, F.WF ig.labelsCount ig.vocab.size ∧ EpsLast ig ∧ Built ig F kt t := by
  have henc := (IndexedGrammar.build_ok hg).1
  obtain ⟨kt, hkt⟩ := build_eq.mp hb
  obtain ⟨F, -, hres, hB⟩ := built_of_ok henc.wf hkt
  exact ⟨F, kt, hres.wf, henc.epsLast he, hB⟩

theorem eos_lt : Label.id (AugTok.eos : AugTokId) < ig.vocab.size := by
  simp [Label.id, Vocab.size]

/-! ### The theorems -/

/-- **C58.** Some state of a built table accepts, on end of stream. -/
theorem accepts_somewhere (hg : IndexedGrammar.build g = .ok ig) (he : EpsilonLast g)
    (hb : LRTable.build fuel ig = .ok t) :
    ∃ s < t.numStates, (t.getAction s .eos : Outcome (LRTableError T L) _) = .ok (some .accept) := by
  have hw := (IndexedGrammar.build_ok hg).1.wf
  obtain ⟨F, kt, hF, hel, hB⟩ := facts hg he hb
  obtain ⟨r, hr, -⟩ := root_rule hw
  have hv := (Valid.root (P := ig.cfg)).extend hr (α := rhs r) (β := []) (by simp)
  rw [List.nil_append, Nat.zero_add] at hv
  obtain ⟨s, hs⟩ := hB.at_of_valid hw hF hel hv
  have hE := hB.entries hw hF hel hs
  exact ⟨s, hE.lt, (hE.accept _ _ eos_lt).mpr (.accept hr rfl hv)⟩

/-- **C58.** If the root rule does not mention the root then exactly one state of a built table accepts. -/
theorem accepts_once (hg : IndexedGrammar.build g = .ok ig) (he : EpsilonLast g) (hr : RootNotRecursive g)
    (hb : LRTable.build fuel ig = .ok t) :
    ∃ s < t.numStates, ∀ s' < t.numStates, ∀ tok, Label.id tok < ig.vocab.size →
      ((t.getAction s' tok : Outcome (LRTableError T L) _) = .ok (some .accept) ↔ s' = s ∧ tok = .eos) := by
  have henc := (IndexedGrammar.build_ok hg).1
  have hw := henc.wf
  obtain ⟨s, hs, ha⟩ := accepts_somewhere hg he hb
  obtain ⟨F, kt, hF, hel, hB⟩ := facts hg he hb
  have hu := rootUnused_of_free (root_rule hw) (henc.rootFree hr)
  have key : ∀ s' < t.numStates, ∀ tok, Label.id tok < ig.vocab.size →
      (t.getAction s' tok : Outcome (LRTableError T L) _) = .ok (some .accept) →
      tok = .eos ∧ ∃ r, ig.cfg[0]? = some r ∧ At ig F kt (rhs r) s' := by
    intro s' hs' tok htok h
    obtain ⟨γ, hγ⟩ := hB.exists_at hs'
    have hd := ((hB.entries hw hF hel hγ).accept _ _ htok).mp h
    obtain ⟨r, h1, rfl⟩ := hd.accept_stack hu
    refine ⟨?_, r, h1, hγ⟩
    cases hd with
    | accept _ h _ => exact h
  refine ⟨s, hs, fun s' hs' tok htok => ⟨fun h => ?_, ?_⟩⟩
  · obtain ⟨h1, r, h2, h3⟩ := key s' hs' tok htok h
    obtain ⟨-, r', h2', h3'⟩ := key s hs _ eos_lt ha
    rw [h2] at h2'
    cases h2'
    exact ⟨hB.at_unique h3 h3', h1⟩
  · rintro ⟨rfl, rfl⟩
    exact ha

/-- **C58.** Every token of the grammar is shifted by some state. -/
theorem tokens_shifted (hg : IndexedGrammar.build g = .ok ig) (he : EpsilonLast g)
    (hb : LRTable.build fuel ig = .ok t) (p : Rule T L) (hp : p ∈ g.productions) (tok : T)
    (ht : .terminal (.token tok) ∈ p.rule) :
    ∃ k s s', ig.vocab.idMap[k]? = some tok ∧ s < t.numStates ∧
      (t.getAction s (.token k) : Outcome (LRTableError T L) _) = .ok (some (.shift s')) := by
  obtain ⟨henc, hconn⟩ := IndexedGrammar.build_ok hg
  have hw := henc.wf
  obtain ⟨F, kt, hF, hel, hB⟩ := facts hg he hb
  obtain ⟨r0, hr0, hr0s⟩ := root_rule hw
  obtain ⟨j, hj⟩ := List.mem_iff_getElem?.mp hp
  obtain ⟨r, hr, -, hl, hn⟩ := henc.exists_rule hj
  obtain ⟨n, hn1, hn2⟩ := IndexedGrammar.Encodes.forall₂_mem_left hn ht
  obtain ⟨k, rfl, hk⟩ : ∃ k, n = .terminal (.token k) ∧ ig.vocab.idMap[k]? = some tok := by
    cases n with
    | production l => simp [EncNode] at hn2
    | terminal i => cases i <;> simp [EncNode, EncTok] at hn2; exact ⟨_, rfl, hn2⟩
  obtain ⟨i, hi⟩ := List.mem_iff_getElem?.mp hr
  have hci := cfg_get.mpr ⟨r, hi, rfl⟩
  have hlt : r.symbol < ig.labelsCount := hw.symbol r hr
  obtain ⟨γ, d, β, hv, hd⟩ := valid_before hr0 (rootOnce_of hw) hci
    (by rw [hr0s]; exact hconn _ hlt) (X := .terminal (.token k))
    (mem_rhs_of_mem hn1 (by simp))
  obtain ⟨s, hs⟩ := hB.at_of_valid hw hF hel hv
  obtain ⟨s', hs'⟩ := hB.at_of_valid hw hF hel (.move hv hci hd)
  have hE := hB.entries hw hF hel hs
  have hklt : Label.id (AugTok.token k : AugTokId) < ig.vocab.size := by
    have := (List.getElem?_eq_some_iff.mp hk).1
    simp only [Label.id, Vocab.size]
    omega
  exact ⟨k, s, s', hk, hE.lt, (hE.shift _ _ _ hklt).mpr ⟨.shift hv hci hd, hs'⟩⟩

/-- **C58.** Every label that occurs in a rule (every label but the root, in a grammar that is accepted) is the label
of a goto of some state. -/
theorem labels_used (hg : IndexedGrammar.build g = .ok ig) (he : EpsilonLast g)
    (hb : LRTable.build fuel ig = .ok t) (p : Rule T L) (hp : p ∈ g.productions) (label : L)
    (ht : .production label ∈ p.rule) :
    ∃ l s s', ig.labels[l]? = some label ∧ s < t.numStates ∧
      (t.getGoto s l : Outcome (LRTableError T L) _) = .ok (some s') := by
  obtain ⟨henc, hconn⟩ := IndexedGrammar.build_ok hg
  have hw := henc.wf
  obtain ⟨F, kt, hF, hel, hB⟩ := facts hg he hb
  obtain ⟨r0, hr0, hr0s⟩ := root_rule hw
  obtain ⟨j, hj⟩ := List.mem_iff_getElem?.mp hp
  obtain ⟨r, hr, -, hl, hn⟩ := henc.exists_rule hj
  obtain ⟨n, hn1, hn2⟩ := IndexedGrammar.Encodes.forall₂_mem_left hn ht
  obtain ⟨k, rfl, hk⟩ : ∃ k, n = .production k ∧ ig.labels[k]? = some label := by
    cases n with
    | production l => exact ⟨_, rfl, hn2⟩
    | terminal i => simp [EncNode] at hn2
  obtain ⟨i, hi⟩ := List.mem_iff_getElem?.mp hr
  have hci := cfg_get.mpr ⟨r, hi, rfl⟩
  have hlt : r.symbol < ig.labelsCount := hw.symbol r hr
  obtain ⟨γ, d, β, hv, hd⟩ := valid_before hr0 (rootOnce_of hw) hci
    (by rw [hr0s]; exact hconn _ hlt) (X := .production k)
    (mem_rhs_of_mem hn1 (by simp))
  obtain ⟨s, hs⟩ := hB.at_of_valid hw hF hel hv
  obtain ⟨s', hs'⟩ := hB.at_of_valid hw hF hel (.move hv hci hd)
  have hE := hB.entries hw hF hel hs
  have hklt : k < ig.labelsCount := by
    have := (List.getElem?_eq_some_iff.mp hk).1
    rwa [IndexedGrammar.labels_length] at this
  exact ⟨k, s, s', hk, hE.lt, (hE.goto _ _ _ hklt).mpr ⟨⟨_, _, _, _, hv, hci, hd⟩, hs'⟩⟩

/-- **C58.** If the root rule does not mention the root then no state has a goto for the root. -/
theorem root_unused (hg : IndexedGrammar.build g = .ok ig) (he : EpsilonLast g) (hr : RootNotRecursive g)
    (hb : LRTable.build fuel ig = .ok t) :
    ∀ s < t.numStates, (t.getGoto s 0 : Outcome (LRTableError T L) _) = .ok none := by
  have henc := (IndexedGrammar.build_ok hg).1
  have hw := henc.wf
  obtain ⟨F, kt, hF, hel, hB⟩ := facts hg he hb
  intro s hs
  obtain ⟨γ, hγ⟩ := hB.exists_at hs
  have hE := hB.entries hw hF hel hγ
  obtain ⟨o, ho⟩ := hE.gotoOk (LRTableError T L) 0 hw.pos
  cases o with
  | none => exact ho
  | some s' =>
    obtain ⟨⟨i, d, r, β, -, hr', hd⟩, -⟩ := (hE.goto _ _ _ hw.pos).mp ho
    obtain ⟨q, hq, rfl⟩ := cfg_get.mp hr'
    refine absurd ?_ (henc.rootFree hr q (List.mem_of_getElem? hq))
    have : Node.production 0 ∈ (rhs q.rule).drop d := by rw [hd]; simp
    exact (List.mem_filter.mp (List.mem_of_mem_drop this)).1

/-- **C58.** Every state but state 0 is entered, on one symbol only. State 0 is never entered. -/
theorem entered_on_one_symbol (hg : IndexedGrammar.build g = .ok ig) (he : EpsilonLast g)
    (hb : LRTable.build fuel ig = .ok t) :
    (∀ s < t.numStates, s ≠ 0 → ∃ X, ∀ Y, Enters ig t Y s ↔ Y = X) ∧ ∀ X, ¬ Enters ig t X 0 := by
  have henc := (IndexedGrammar.build_ok hg).1
  have hw := henc.wf
  obtain ⟨F, kt, hF, hel, hB⟩ := facts hg he hb
  have hat : ∀ {X s}, Enters ig t X s → ∃ γ, At ig F kt (γ ++ [X]) s := by
    rintro X s ⟨s0, hs0, h⟩
    obtain ⟨γ, hγ⟩ := hB.exists_at hs0
    have hE := hB.entries hw hF hel hγ
    cases X with
    | terminal tok => exact ⟨γ, ((hE.shift _ _ _ h.1).mp h.2).2⟩
    | production l => exact ⟨γ, ((hE.goto _ _ _ h.1).mp h.2).2⟩
  refine ⟨fun s hs h0 => ?_, fun X h => ?_⟩
  · obtain ⟨γ, k, hk, hks⟩ := hB.exists_at hs
    have hR := C15.reads_of_at hw hF hel hB hk s hks
    have : ∃ X, Enters ig t X s := by
      cases hR with
      | nil => exact absurd rfl h0
      | @shift γ s0 _ tok h1 h2 h3 =>
        exact ⟨.terminal tok, s0, (hB.entries hw hF hel (h1.at hw hF hel hB)).lt, h2, h3⟩
      | @goto γ s0 _ l h1 h2 h3 =>
        exact ⟨.production l, s0, (hB.entries hw hF hel (h1.at hw hF hel hB)).lt, h2, h3⟩
    obtain ⟨X, hX⟩ := this
    refine ⟨X, fun Y => ⟨fun hY => ?_, fun h => h ▸ hX⟩⟩
    obtain ⟨γ1, h1⟩ := hat hX
    obtain ⟨γ2, h2⟩ := hat hY
    exact last_symbol hw hF hel h2 h1
  · obtain ⟨s0, hs0, h⟩ := h
    obtain ⟨-, -, -, ha, hgo⟩ := C14.table_well_formed g ig fuel t hg hb
    cases X with
    | terminal tok =>
      obtain ⟨o, h1, -, h2, -⟩ := ha s0 hs0 tok h.1
      rw [h.2] at h1
      cases h1
      exact absurd (h2 0 rfl).1 (by simp)
    | production l =>
      obtain ⟨o, h1, h2⟩ := hgo s0 hs0 l h.1
      rw [h.2] at h1
      cases h1
      exact absurd (h2 0 rfl).1 (by simp)

/-- **C58.** Exactly one state of a generated parser has code for accepting. -/
theorem generated_accepts_once {lex : Lexer} {o : HashOrder} {gi : GrammarInfo} {prog : Program}
    (h : Generated o lex gi prog) :
    ∃ s < prog.states.length, ∀ s' code, prog.states[s']? = some code → (code.accept.isSome ↔ s' = s) := by
  obtain ⟨F, kt, -, hfit⟩ := h.parts
  have hc : GenCode o lex gi prog F kt := ⟨(IndexedGrammar.build_ok h.grammar).1, hfit, h.program⟩
  obtain ⟨r, hr, -⟩ := root_rule hfit.wf
  have hv := (Valid.root (P := gi.indexedGrammar.cfg)).extend hr (α := rhs r) (β := []) (by simp)
  rw [List.nil_append, Nat.zero_add] at hv
  obtain ⟨s, hs⟩ := hfit.at_of_valid hv
  have key : ∀ γ s' code, At gi.indexedGrammar F kt γ s' → prog.states[s']? = some code →
      (code.accept.isSome ↔ Demands gi.indexedGrammar.cfg F.NodesFirst γ .eos .accept) := by
    intro γ s' code hs' hcode
    obtain ⟨smap, code', -, hcode', hgen⟩ := hc.code hs'
    rw [hcode] at hcode'
    cases hcode'
    unfold generateState at hgen
    simp only [Outcome.bind_eq_ok] at hgen
    obtain ⟨acts, hacts, ov, hov, reduces, hreduces, accept, haccept, shifts, -, hfin⟩ := hgen
    cases hfin
    obtain ⟨l, hl, -, hact⟩ := hc.action_tokens hs' hacts
    constructor
    · intro ha
      cases hacc : acts.accept with
      | none =>
        rw [hacc] at haccept
        cases haccept
        cases ha
      | some tok =>
        obtain ⟨x, h1, -⟩ := (hact _ _).mp ((hl.accept _).mp hacc)
        have hd := ((hfit.entries hs').accept Unit x h1.1).mp h1.2
        have hx : x = .eos := by cases hd with | accept _ h _ => exact h
        exact hx ▸ hd
    · intro hd
      have hin : (AugTok.eos, Action.accept) ∈ l :=
        (hact _ _).mpr ⟨.eos, ⟨eos_lt, ((hfit.entries hs').accept Unit .eos eos_lt).mpr hd⟩, rfl⟩
      rw [(hl.accept _).mpr hin] at haccept
      simp only [acceptArm, Outcome.bind_eq_ok] at haccept
      obtain ⟨m, -, rule, -, ⟨pops, states⟩, -, u, -, ctor, -, hfin⟩ := haccept
      cases hfin
      rfl
  obtain ⟨-, code, -, hcode, -⟩ := hc.code hs
  have hlt := (List.getElem?_eq_some_iff.mp hcode).1
  refine ⟨s, hlt, fun s' code' hcode' => ⟨fun ha => ?_, ?_⟩⟩
  · have hlt' : s' < gi.lrTable.numStates := by
      have := (List.getElem?_eq_some_iff.mp hcode').1
      have hp := h.program
      simp only [generateParser, Outcome.bind_eq_ok] at hp
      obtain ⟨smap, -, lbl, -, ty, -, tys, -, codes, hcodes, hfin⟩ := hp
      cases hfin
      have hlen := (generateStates_spec hcodes).length_eq
      simp only [LRTable.states, List.length_range] at hlen
      simpa [hlen] using this
    obtain ⟨γ, hγ⟩ := hfit.built.exists_at hlt'
    have hd := (key γ s' code' hγ hcode').mp ha
    cases hd with
    | @accept r' h1 _ h2 =>
      rw [hr] at h1
      cases h1
      cases hc.root_alone hr h2
      exact hfit.built.at_unique hγ hs
  · rintro rfl
    exact (key _ _ _ hs hcode').mpr (.accept hr rfl hv)

/-- The hypotheses of the theorems are met by `sampleLR`. -/
example : ∃ ig t, IndexedGrammar.build sampleLR = .ok ig ∧ LRTable.build 20 ig = .ok t ∧ EpsilonLast sampleLR ∧
    RootNotRecursive sampleLR := by
  have h := sampleLR_builds
  rw [Outcome.bind_eq_ok] at h
  obtain ⟨ig, h1, h⟩ := h
  rw [Outcome.bind_eq_ok] at h
  obtain ⟨t, h2, -⟩ := h
  refine ⟨ig, t, h1, h2, sampleLR_wellFormed.epsilonLast, ?_⟩
  rintro root rest hr
  cases hr
  decide

/-- The hypothesis on the root cannot be dropped: the table for `S -> A S S; A -> A` accepts in two states. (No
parser is generated for such a grammar, and it has no sentences.) -/
example : ((do
    let ig ← IndexedGrammar.build (⟨[⟨0, [.production 1, .production 0, .production 0]⟩,
      ⟨1, [.production 1]⟩]⟩ : Grammar Nat Nat)
    let t ← LRTable.build 20 ig
    pure (t.actionTable.count (some .accept))) : Outcome (LRTableError Nat Nat) _) = .ok 2 := by decide +kernel

/-- The accepting state of `sampleLR` is state 3, and there is no other. -/
example : ((do
    let ig ← IndexedGrammar.build sampleLR
    let t ← LRTable.build 20 ig
    let a ← t.getAction 3 .eos
    pure (a, t.actionTable.count (some .accept))) : Outcome (LRTableError Nat Nat) _) = .ok (some .accept, 1) := by
  decide +kernel

end Verif.C58

namespace Verif.C57
open Spec.TableText

variable {T L : Type} [DecidableEq T] [DecidableEq L] {g : Grammar T L} {ig : IndexedGrammar T L} {fuel : Nat}
  {t : LRTable}

/-- **C57.** The header of a printed table lists end of stream and all tokens, in order. With at most 1000 tokens, each
stands at the place of its column. -/
theorem print_header (hg : IndexedGrammar.build g = .ok ig) (he : Spec.EpsilonLast g)
    (hb : LRTable.build fuel ig = .ok t) :
    ∃ text header lines start width, (Display.table t : Outcome (LRTableError T L) _) = .ok text ∧
      split '\n' text = header :: lines ∧ lines.length = t.numStates ∧
      (words header).mapM column = some (List.range' 1 (ig.vocab.size - 1)) ∧
      (∀ s line, lines[s]? = some line → ∀ tok : AugTokId, tok ≠ .epsilon → Label.id tok < ig.vocab.size →
        ∃ word o, words (field line (start + (Label.id tok - 1) * (width + 1)) width) = [word] ∧
          entry word = some o ∧ (t.getAction s tok : Outcome (LRTableError T L) _) = .ok o) ∧
      (ig.vocab.size ≤ 1002 → ∀ tok : AugTokId, tok ≠ .epsilon → Label.id tok < ig.vocab.size →
        ∃ word, words (field header (start + (Label.id tok - 1) * (width + 1)) width) = [word] ∧
          column word = some (Label.id tok)) := by
  obtain ⟨text, header, lines, columns, start, width, gstart, gwidth, h1, h2, h3, h4, h5, h6, h7, h8⟩ :=
    print_aligned (ε := LRTableError T L) hg hb
  obtain ⟨-, -, -, hact, -⟩ := C14.table_well_formed g ig fuel t hg hb
  obtain ⟨s, hs, hacc⟩ := C58.accepts_somewhere hg he hb
  have hmem : some Action.accept ∈ t.actionTable := by
    unfold LRTable.getAction at hacc
    obtain ⟨v, -, hacc⟩ := Outcome.bind_eq_ok.mp hacc
    exact List.mem_of_getElem? (Outcome.index_eq_ok.mp hacc)
  have hcols : columns = List.range' 1 (ig.vocab.size - 1) := by
    refine List.Pairwise.eq_of_mem_iff h5 (List.pairwise_lt_range' ..) fun id => ?_
    have hid : ∃ tok : AugTokId, Label.id tok = id := by
      match id with
      | 0 => exact ⟨.epsilon, rfl⟩
      | 1 => exact ⟨.eos, rfl⟩
      | k + 2 => exact ⟨.token k, rfl⟩
    obtain ⟨tok, rfl⟩ := hid
    rw [h6, List.mem_range'_1]
    constructor
    · rintro ⟨hlt, s, hs, a, ha⟩
      obtain ⟨o, ho, hne, -⟩ := hact s hs tok hlt
      rw [ha] at ho
      cases ho
      cases tok with
      | epsilon => exact absurd (hne rfl) (by simp)
      | eos => exact ⟨by simp [Label.id], by omega⟩
      | token k => exact ⟨by simp [Label.id], by omega⟩
    · rintro ⟨h, hlt⟩
      refine ⟨by omega, ?_⟩
      cases tok with
      | epsilon => simp [Label.id] at h
      | eos => exact ⟨s, hs, _, hacc⟩
      | token k =>
        have hk : k < ig.vocab.idMap.length := by
          simp only [Label.id, Vocab.size] at hlt
          omega
        obtain ⟨p, hp, hm⟩ := IndexedGrammar.build_used hg _ (List.getElem_mem hk)
        obtain ⟨k', s, s', h1, h2, h3⟩ := C58.tokens_shifted hg he hb p hp _ hm
        have := (IndexedGrammar.build_ok hg).1.vocab.nodup
        cases getElem?_inj_of_nodup this h1 (List.getElem?_eq_getElem hk)
        exact ⟨s, h2, _, h3⟩
  subst hcols
  have hget : ∀ tok : AugTokId, tok ≠ .epsilon → Label.id tok < ig.vocab.size →
      (List.range' 1 (ig.vocab.size - 1))[Label.id tok - 1]? = some (Label.id tok) := by
    intro tok hne hlt
    have : 1 ≤ Label.id tok := by
      cases tok with
      | epsilon => exact absurd rfl hne
      | eos => simp [Label.id]
      | token k => simp [Label.id]
    rw [List.getElem?_range' (by omega)]
    simp only [Option.some.injEq]
    omega
  exact ⟨text, header, lines, start, width, h1, h2, h3, h4,
    fun s line hl tok hne hlt => (h7 s line hl).1 _ tok (hget tok hne hlt),
    fun hsz tok hne hlt => h8 hsz hmem _ _ (hget tok hne hlt)⟩

/-- **C57.** Tables that are printed alike are equal. -/
theorem print_determines {g' : Grammar T L} {ig' : IndexedGrammar T L} {fuel' : Nat} {t' : LRTable}
    (hg : IndexedGrammar.build g = .ok ig) (he : Spec.EpsilonLast g) (hb : LRTable.build fuel ig = .ok t)
    (hg' : IndexedGrammar.build g' = .ok ig') (he' : Spec.EpsilonLast g') (hb' : LRTable.build fuel' ig' = .ok t')
    (h : (Display.table t : Outcome (LRTableError T L) _) = Display.table t') :
    ig.vocab.size = ig'.vocab.size ∧ t = t' := by
  have hv : ig.vocab.size = ig'.vocab.size := by
    obtain ⟨text, header, lines, -, -, h1, h2, -, h3, -⟩ := print_header hg he hb
    obtain ⟨text', header', lines', -, -, h1', h2', -, h3', -⟩ := print_header hg' he' hb'
    rw [h, h1'] at h1
    cases h1
    rw [h2'] at h2
    cases h2
    rw [h3', Option.some.injEq] at h3
    have := congrArg List.length h3
    simp only [List.length_range', Vocab.size] at this
    simp only [Vocab.size]
    omega
  exact ⟨hv, print_injective hg hb hg' hb' hv h⟩

end Verif.C57
