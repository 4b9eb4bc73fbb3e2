import Verif.Props.Repair
import Verif.Props.Agree
import Verif.Props.Linear

/-!
# C88 for generated parsers

The parser that the macro would generate from the table of the changed code.
-/

set_option linter.unusedSectionVars false
set_option autoImplicit false

namespace Verif
open Spec

/-- As `Generated`, with the table of `LRTable.buildRepaired`. -/
structure GeneratedRepaired (o : HashOrder) (lex : Lexer) (gi : GrammarInfo) (prog : Program) : Prop where
  grammar : IndexedGrammar.build gi.grammar = .ok gi.indexedGrammar
  table : ∃ fuel, LRTable.buildRepaired fuel gi.indexedGrammar = .ok gi.lrTable
  epsilonLast : EpsilonLast gi.grammar
  program : generateParser o lex gi = .ok prog
  compiles : prog.Compiles

namespace GeneratedRepaired
variable {o : HashOrder} {lex : Lexer} {gi : GrammarInfo} {prog : Program}

theorem ctx (h : GeneratedRepaired o lex gi prog) :
    ∃ F kt, Covers gi.indexedGrammar.cfg F.NodesFirst ∧ GenCtx o lex gi prog F kt := by
  have henc := (IndexedGrammar.build_ok h.grammar).1
  obtain ⟨fuel, hb⟩ := h.table
  obtain ⟨F, kt, hres, hfirst, hB⟩ := repaired_of_ok henc.wf hb
  refine ⟨F, kt, ?_, ⟨henc, ⟨henc.wf, hres, henc.epsLast h.epsilonLast, ?_, henc.vocab, hB⟩, h.program⟩, h.compiles⟩
  · intro γ x a hd
    rw [hfirst]
    exact hd
  · intro r hr
    obtain ⟨i, hi⟩ := List.mem_iff_getElem?.mp hr
    obtain ⟨q, hq, rfl⟩ := cfg_get.mp hi
    exact henc.noEnd gi.noEndMarker q (List.mem_of_getElem? hq)

theorem unique {P V E σ : Type} [DecidableEq P] {sem : Sem P V E σ} (h : GeneratedRepaired o lex gi prog)
    (hD : gi.Disjoint sem) : Unique (gi.tokMatch sem) := by
  have used : ∀ {t : Sym}, t ∈ gi.indexedGrammar.vocab.idMap → gi.Terminal t := by
    intro t ht
    obtain ⟨r, hr, hm⟩ := IndexedGrammar.build_used h.grammar t ht
    exact GrammarInfo.terminal_of_mem hr hm
  rintro a k k' ⟨t, h1, h2⟩ ⟨t', h3, h4⟩
  have := hD a t t' (used (List.mem_of_getElem? h1)) (used (List.mem_of_getElem? h3)) h2 h4
  subst this
  exact getElem?_inj_of_nodup (IndexedGrammar.build_ok h.grammar).1.vocab.nodup h1 h3

end GeneratedRepaired

namespace C88
variable {o : HashOrder} {lex : Lexer} {gi : GrammarInfo} {prog : Program}

/-- **C88.** Parsers generated from tables of the changed code end on every finite stream, in linear time, whatever the
patterns are and however the crate is built (C03 and C53 without a condition). -/
theorem generated_linear (h : GeneratedRepaired o lex gi prog) :
    ∃ K, ∀ {P V E F' σ : Type} [DecidableEq P] (debug : Bool) (sem : Sem P V E σ) (into : F' → E)
      (items : Nat → Option (Item P F')) (W : List (Token P)) (w0 : σ),
      (∀ i a, W[i]? = some a → items i = some (.ok a)) → (∀ a, items W.length ≠ some (.ok a)) →
      ∃ run, ∀ fuel ≥ K * (W.length + 1), prog.parseFallible debug sem into items fuel w0 = .ok run := by
  obtain ⟨F, kt, hF, hx⟩ := h.ctx
  obtain ⟨K, hK⟩ := hx.ends_of_covers hF
  refine ⟨K, ?_⟩
  intro P V E F' σ _ debug sem into items W w0 hW hend
  obtain ⟨run, hN⟩ := hK debug sem into items W w0 hW hend
  exact ⟨run, fun fuel hf => Program.loop_mono hf hN⟩

section
variable {P V E F' σ : Type} [DecidableEq P] {sem : Sem P V E σ}

/-- **C88.** If patterns are disjoint, such a parser evaluates the parse tree of every sentence and returns values only for
sentences (C18 and C19 without the condition that no action is missing). -/
theorem generated_evaluates_sentences (h : GeneratedRepaired o lex gi prog) (debug : Bool) (sem : Sem P V E σ)
    (into : F' → E) (items : Nat → Option (Item P F')) (W : List (Token P)) (w0 : σ) (hD : gi.Disjoint sem)
    (hW : ∀ i a, W[i]? = some a → items i = some (.ok a)) (hend : items W.length = none) :
    ∃ N run, (∀ fuel ≥ N, prog.parseFallible debug sem into items fuel w0 = .ok run) ∧
      (∀ f, ParseTreeM gi.grammar (Matches sem gi.terminalType) f W →
        (∃ v, value gi sem f w0 = (.ok [v], run.world) ∧ run.result = .ok v) ∨
          ∃ e, value gi sem f w0 = (.error e, run.world) ∧ run.result = .error (.user e)) ∧
      ∀ v, run.result = .ok v → ∃ f, ParseTreeM gi.grammar (Matches sem gi.terminalType) f W ∧
        value gi sem f w0 = (.ok [v], run.world) := by
  obtain ⟨K, hK⟩ := generated_linear h
  obtain ⟨run, hN⟩ := hK debug sem into items W w0 hW (by rw [hend]; intro a; simp)
  obtain ⟨F, kt, hF, hx⟩ := h.ctx
  have hrun := hN _ (Nat.le_refl _)
  refine ⟨_, run, hN, fun f hf => hx.evaluates hF (h.unique hD) hrun hW hend hf, fun v hv => ?_⟩
  obtain ⟨W', f, h1, h2, h3, h4⟩ := hx.ok_is_value hrun hv
  have hlen : W'.length = W.length := by
    rcases Nat.lt_trichotomy W'.length W.length with hlt | e | hlt
    · rw [hW _ _ (List.getElem?_eq_getElem hlt)] at h2; cases h2
    · exact e
    · rw [h1 _ _ (List.getElem?_eq_getElem hlt)] at hend; cases hend
  have : W' = W := by
    refine List.ext_getElem hlen fun i h5 h6 => ?_
    have h7 := h1 i _ (List.getElem?_eq_getElem h5)
    rw [hW i _ (List.getElem?_eq_getElem h6)] at h7
    simpa using h7.symm
  subst this
  exact ⟨f, h3, h4⟩

/-- **C88.** A parse error reports the first item that no sentence goes on with (C21 without the condition that no action
is missing). -/
theorem generated_error_is_first (h : GeneratedRepaired o lex gi prog) (debug : Bool) (sem : Sem P V E σ)
    (into : F' → E) (items : Nat → Option (Item P F')) (fuel : Nat) (w0 : σ) (run : Run P V E σ)
    (tok : Option (Token P)) (hD : gi.Disjoint sem)
    (hrun : prog.parseFallible debug sem into items fuel w0 = .ok run) (he : run.result = .error (.parseError tok)) :
    ∃ u, (∀ i a, u[i]? = some a → items i = some (.ok a)) ∧ run.pulled = u.length + 1 ∧
      items u.length = tok.map .ok ∧ (gi.ProductiveRules sem → ∃ v, gi.Sentence sem (u ++ v)) ∧
      (tok = none → ¬ gi.Sentence sem u) ∧ ∀ a, tok = some a → ∀ v, ¬ gi.Sentence sem (u ++ a :: v) := by
  obtain ⟨F, kt, -, hx⟩ := h.ctx
  obtain ⟨u, h1, h2, h3, h4⟩ := hx.read_is_prefix h.grammar hrun he
  have key := C21.no_prefix_of_evaluated (gi := gi) (fun W ⟨f, hf⟩ => by
    obtain ⟨N, run', hN, hres, -⟩ := generated_evaluates_sentences h debug sem into
      (fun i => (W[i]? : Option (Token P)).map .ok) W w0 hD (fun i a hi => by simp [hi]) (by simp)
    refine ⟨N, run', hN, ?_⟩
    rcases hres f hf with ⟨v, -, hv⟩ | ⟨e, -, hv⟩ <;> rw [hv] <;> simp) hrun he h1 h2 h3
  refine ⟨u, h1, h2, h3, h4, ?_, ?_⟩
  · rintro rfl
    exact key
  · rintro a rfl
    exact key

/-- **C88.** If patterns are disjoint, no input has two parse trees. -/
theorem generated_unambiguous (h : GeneratedRepaired o lex gi prog) (sem : Sem P V E σ) (hD : gi.Disjoint sem)
    {W : List (Token P)} {f f' : Forest (Token P)} (hf : ParseTreeM gi.grammar (Matches sem gi.terminalType) f W)
    (hf' : ParseTreeM gi.grammar (Matches sem gi.terminalType) f' W) : f = f' := by
  obtain ⟨F, kt, hF, hx⟩ := h.ctx
  obtain ⟨f1, h3, rfl⟩ := parseTreeM_enc hx.enc hf
  obtain ⟨f2, h4, rfl⟩ := parseTreeM_enc hx.enc hf'
  obtain ⟨r, hr, hr0⟩ := hx.good.root_rule
  rw [← hr0] at h3 h4
  rw [h3.unique hF hx.good.rootOk hx.good.rootOnce hx.good.noConflict (h.unique hD) hr h4]

end

/-- **C88.** Where the code of the repository gets the FIRST sets right, it generates the same parsers. -/
theorem generated_same_if_complete (hc : C07.FirstComplete gi.grammar) :
    GeneratedRepaired o lex gi prog ↔ Generated o lex gi prog := by
  constructor
  · rintro ⟨h1, ⟨fuel, h2⟩, h3, h4, h5⟩
    exact ⟨h1, ⟨fuel, by rw [← (same_if_complete h1 hc fuel).2.1]; exact h2⟩, h3, h4, h5⟩
  · rintro ⟨h1, ⟨fuel, h2⟩, h3, h4, h5⟩
    exact ⟨h1, ⟨fuel, by rw [(same_if_complete h1 hc fuel).2.1]; exact h2⟩, h3, h4, h5⟩

/-- `Sample.make` with the changed code. -/
def make (rules : List ARule) (labels : List String) : Outcome (LRTableError Sym String) GrammarInfo := do
  let ig ← IndexedGrammar.build ⟨rules.map ARule.toLr⟩
  let t ← LRTable.buildRepaired 20 ig
  pure ⟨"Sample", .enum (.ident "Tok" .nil), none, labels.map fun l => (l, none), rules, ig, t⟩

/-- `X`, the only sentence of `S => Y B; Y => !; B => A X; A => !`, which the generated parser of the repository rejects
(`C19.sentences_are_evaluated_refuted`), is accepted. -/
theorem generated_witness_accepted :
    ∃ gi prog, GeneratedRepaired .id Sample.lexer gi prog ∧ gi.productionRules = Sample.incomplete ∧
      gi.terminalType = .enum (.ident "Tok" .nil) ∧ gi.Disjoint Sample.sem1 ∧
      ∃ run v, prog.parseFallible true Sample.sem1 id (Sample.stream [.unit "X"] none) 50 0 = .ok run ∧
        run.result = .ok v := by
  have h : (do
      let gi ← make Sample.incomplete ["S", "Y", "B", "A"]
      match generateParser .id Sample.lexer gi with
      | .ok prog =>
        match prog.parseFallible true Sample.sem1 id (Sample.stream [.unit "X"] none) 50 0 with
        | .ok run => pure (Sample.compilesB prog && (match run.result with | .ok _ => true | _ => false))
        | _ => pure false
      | _ => pure false) = Outcome.ok true := by decide +kernel
  have heps : EpsilonLast ⟨Sample.incomplete.map ARule.toLr⟩ := by unfold EpsilonLast; decide
  obtain ⟨gi, hi, h⟩ := Outcome.bind_eq_ok.mp h
  unfold make at hi
  obtain ⟨ig, h1, hi⟩ := Outcome.bind_eq_ok.mp hi
  obtain ⟨t, h2, hi⟩ := Outcome.bind_eq_ok.mp hi
  cases hi
  split at h
  · rename_i prog hp
    split at h
    · rename_i run hr
      simp only [Outcome.pure_eq, Outcome.ok.injEq, Bool.and_eq_true] at h
      refine ⟨⟨"Sample", .enum (.ident "Tok" .nil), none, ["S", "Y", "B", "A"].map fun l => (l, none),
        Sample.incomplete, ig, t⟩, prog,
        ⟨h1, ⟨20, h2⟩, heps, hp, Sample.compiles_of h.1⟩, rfl, rfl, ?_, run, ?_⟩
      · have key : ∀ s, GrammarInfo.Terminal ⟨"Sample", .enum (.ident "Tok" .nil), none,
            ["S", "Y", "B", "A"].map fun l => (l, none), Sample.incomplete, ig, t⟩ s → s = ⟨"X", .none⟩ := by
          rintro s ⟨r, hr, hs⟩
          simp only [Sample.incomplete, List.mem_cons, List.not_mem_nil, or_false] at hr
          rcases hr with rfl | rfl | rfl | rfl <;> simp_all
        intro a s s' hs hs' _ _
        rw [key s hs, key s' hs']
      · obtain ⟨-, h⟩ := h
        cases hv : run.result with
        | ok v => exact ⟨v, hr, rfl⟩
        | error e => rw [hv] at h; cases h
    · cases h
  · cases h

/-- The sample parser does not change. -/
example : ∃ gi prog, GeneratedRepaired .id Sample.lexer gi prog ∧ gi.Disjoint Sample.sem ∧
    gi.ProductiveRules Sample.sem := by
  obtain ⟨gi, prog, h, h1, h2, -⟩ := Sample.generated
  exact ⟨gi, prog, (generated_same_if_complete (Sample.firstComplete h1)).mpr h, Sample.disjoint h1 h2,
    Sample.productive h1 h2⟩

end C88
end Verif
