import Verif.Proof.GenTotal
import Verif.Proof.Knuth
import Verif.Props.Constructor
import Verif.Props.GrammarSyntax

/-!
# The macro, from tokens to generated parser
-/

set_option linter.unusedSectionVars false
set_option autoImplicit false

namespace Verif
open Spec CodeGen

section
variable {tx : Text} {lex : Lexer} {o : HashOrder} {gi : GrammarInfo} {F : FirstTable} {kt : KernelTable}

/-- What the grammar parser returns is what the code generator needs. -/
theorem genIn_of {t : TokenStream} (hj : JointOk t) {fuel : Nat}
    (h : parseGrammar tx fuel (tokenize tx .empty t) = .ok gi) :
    ∃ F kt, (FirstTable.build gi.indexedGrammar : Outcome (LRTableError Sym String) _) = .ok F ∧
      GenIn gi F kt ∧ ∀ l, l < gi.indexedGrammar.labelsCount → Reachable gi.indexedGrammar.cfg 0 l := by
  obtain ⟨ss, f, -, -, -, hreads, hg, hb⟩ := C37.accepted_is_file hj h
  obtain ⟨henc, hreach⟩ := IndexedGrammar.build_ok hg
  obtain ⟨kt, hkt⟩ := build_eq.mp hb
  obtain ⟨F, eF, hres, hB⟩ := built_of_ok henc.wf hkt
  refine ⟨F, kt, eF, ⟨henc, ⟨henc.wf, hres, henc.epsLast (C38.epsilonAlone hj h).last, ?_, henc.vocab, hB⟩, ?_, ?_⟩, hreach⟩
  · intro r hr
    obtain ⟨i, hi⟩ := List.mem_iff_getElem?.mp hr
    obtain ⟨q, hq, rfl⟩ := cfg_get.mp hi
    exact henc.noEnd gi.noEndMarker q (List.mem_of_getElem? hq)
  · intro t ht
    obtain ⟨r, hr, hm⟩ := IndexedGrammar.build_used hg t ht
    exact GrammarInfo.terminal_of_mem hr hm
  · intro l hl
    obtain ⟨m, hm⟩ : ∃ m, gi.indexedGrammar.ruleMetadata[l]? = some m :=
      ⟨_, List.getElem?_eq_getElem hl⟩
    obtain ⟨h1, h2, h3⟩ := henc.wf.range l m hm
    obtain ⟨q, hq⟩ : ∃ q, gi.indexedGrammar.rules[m.startIndex]? = some q :=
      ⟨_, List.getElem?_eq_getElem (by omega)⟩
    have hql : q.symbol = l := (h3 _ q hq).mpr ⟨Nat.le_refl _, h1⟩
    subst hql
    replace hq := List.mem_of_getElem? hq
    obtain ⟨p, hp, hlab, -⟩ := henc.rule q hq
    have hp' := List.mem_of_getElem? hp
    simp only [GrammarInfo.grammar, List.mem_map] at hp'
    obtain ⟨ar, har, rfl⟩ := hp'
    refine ⟨ar.name, ?_, C39.lookup_total hj h _ (.inl ⟨ar, har, rfl⟩)⟩
    unfold IndexedGrammar.origLabel
    rw [Outcome.index_eq_ok.mpr hm]
    simp only [IndexedGrammar.labels, List.getElem?_map, hm, Option.map_some, Option.some.injEq] at hlab
    simp [hlab, ARule.toLr]

end

/-! ### Rules that are reduced -/

namespace GenIn
variable {lex : Lexer} {o : HashOrder} {gi : GrammarInfo} {F : FirstTable} {kt : KernelTable}
  (h : GenIn gi F kt)
include h

/-- If every label derives something, every rule can be begun with some lookahead (with the true FIRST sets). -/
theorem look_of_reachable (hp : Productive gi.grammar.productions) {l : Nat}
    (hl : Reachable gi.indexedGrammar.cfg 0 l) : ∀ (j : Nat) (r : Rule Nat Nat),
      gi.indexedGrammar.cfg[j]? = some r → r.symbol = l →
      ∃ γ x, ValidLook gi.indexedGrammar.cfg (InFirst gi.indexedGrammar.cfg) γ j 0 x := by
  have hM := productiveM (M := fun (a t : Sym) => a = t) h.enc gi.noEndMarker (fun t _ => ⟨t, rfl⟩) (fun r hr => by
    obtain ⟨w, hw⟩ := hp r hr
    obtain ⟨f, hf⟩ := hw.parses
    exact ⟨f, w, parses_iff_parsesM.mp hf⟩)
  induction hl with
  | root =>
    intro j r hr hs
    obtain ⟨q, hq, rfl⟩ := cfg_get.mp hr
    have : j = 0 := (h.fit.wf.root j q hq).mp hs
    subst this
    exact ⟨[], _, .root⟩
  | @step q l hq hm hp ih =>
    intro j r hr hs
    obtain ⟨i, hi⟩ := List.mem_iff_getElem?.mp hm
    obtain ⟨γ, x, hγ⟩ := ih i q hi rfl
    have hp' : .production l ∈ rhs q := by
      unfold rhs
      rw [List.mem_filter]
      exact ⟨hp, rfl⟩
    obtain ⟨α, β, hαβ⟩ := List.append_of_mem hp'
    have hext := hγ.extend hi (α := α) (β := .production l :: β) (by simpa using hαβ)
    rw [Nat.zero_add] at hext
    subst hs
    have hd : (rhs q).drop α.length = .production r.symbol :: β := by rw [hαβ]; simp
    obtain ⟨f, w, hw⟩ := hM.all hm β (by intro n hn; rw [hαβ]; simp [hn])
    have hstrip : strip β = β := strip_eq_self fun hm => not_eps_of_mem_strip (α := q.rule) (by
      rw [← rhs_def, hαβ]; simp [hm])
    obtain ⟨h1, h2⟩ := firstClosed_true.parses hw []
    rw [hstrip, List.append_nil] at h1 h2
    cases w with
    | nil => exact ⟨_, x, .closePass hext hi hd hr (h1 _ rfl firstClosed_true.nil)⟩
    | cons a w =>
      obtain ⟨t, -, ht⟩ := h2 a w rfl
      exact ⟨_, .token t, .closeFirst hext.valid hi hd hr (by simp) ht⟩

/-- Then every constructor is used. -/
theorem all_used (hp : Productive gi.grammar.productions)
    (hF : Covers gi.indexedGrammar.cfg F.NodesFirst)
    (hreach : ∀ l, l < gi.indexedGrammar.labelsCount → Reachable gi.indexedGrammar.cfg 0 l)
    {k : Nat} (hk : k < gi.productionRules.length) : Used gi k := by
  have : k ∈ gi.indexedGrammar.rules.map (·.originalIndex) :=
    h.enc.perm.mem_iff.mpr (by simpa [GrammarInfo.grammar] using hk)
  obtain ⟨q, hq, rfl⟩ := List.mem_map.mp this
  obtain ⟨i, hi⟩ := List.mem_iff_getElem?.mp hq
  have hr : gi.indexedGrammar.cfg[i]? = some q.rule := cfg_get.mpr ⟨q, hi, rfl⟩
  by_cases h0 : i = 0
  · subst h0
    obtain ⟨q', hq', hz⟩ := h.enc.root
    rw [hi] at hq'
    cases hq'
    exact .inl hz
  obtain ⟨γ, x, hγ⟩ := h.look_of_reachable hp (hreach q.symbol (h.fit.wf.symbol q hq)) i q.rule hr rfl
  have hext := hγ.extend hr (α := rhs q.rule) (β := []) (by simp)
  rw [Nat.zero_add] at hext
  obtain ⟨s, hs⟩ := h.fit.at_of_valid hext.valid
  have hE := h.fit.entries hs
  have hdem := hF _ _ _ (.reduce hr h0 hext)
  have hid : Label.id x < gi.indexedGrammar.vocab.size := by
    cases hdem with
    | reduce _ _ hv => exact hv.lt h.fit.wf h.fit.res.wf
  exact .inr ⟨s, hE.lt, x, i, q, ⟨hid, (hE.reduce Unit _ i hid).mpr hdem⟩, hi, rfl⟩

end GenIn
end Verif
