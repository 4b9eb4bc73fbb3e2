import Verif.Proof.Actions
import Verif.Props.Results
import Verif.Props.Useful
import Verif.Props.OrderSample

/-!
# C77: a parser is right exactly when its table has every action

`C07.ActionsComplete` asks for all the actions that the LR(1) parser of the grammar has with the true FIRST sets. It is
the assumption of the theorems on completeness (C02, C05, C19, ...). Here: it cannot be weakened.
-/

set_option linter.unusedSectionVars false
set_option autoImplicit false

namespace Verif
open Spec

/-- Productive labels, back through the encoding. -/
theorem productiveM_dec {T L A : Type} [DecidableEq T] [DecidableEq L] {g : Grammar T L} {ig : IndexedGrammar T L}
    {M : A → T → Prop} (he : ig.Encodes g) (h : ProductiveM ig.cfg (idMatch ig M)) : ProductiveM g.productions M := by
  intro r hr n hn
  obtain ⟨i, hi⟩ := List.mem_iff_getElem?.mp hr
  obtain ⟨i', r', hs⟩ := sameRule_of_user he hi
  obtain ⟨n', hn', hnn⟩ := IndexedGrammar.Encodes.forall₂_mem_left hs.nodes hn
  obtain ⟨f, w, hf⟩ := h r' (List.mem_of_getElem? hs.indexed) n' hn'
  exact ⟨_, w, parsesM_dec he hf (.cons hnn .nil)⟩

section
variable {P V E F' σ : Type} [DecidableEq P] {sem : Sem P V E σ} {lex : Lexer} {o : HashOrder} {gi : GrammarInfo}
  {prog : Program}

theorem Generated.productiveM (h : Generated o lex gi prog) (hp : gi.ProductiveRules sem) :
    ProductiveM gi.indexedGrammar.cfg (gi.tokMatch sem) := by
  obtain ⟨F, kt, -, hc⟩ := h.ctx
  refine Verif.productiveM hc.enc gi.noEndMarker (fun t ht => ?_) fun r hr => ?_
  · obtain ⟨q, hq, hm⟩ := IndexedGrammar.build_used h.grammar t ht
    obtain ⟨f, w, hfw⟩ := hp q hq
    exact ParsesM.matched hfw hm
  · obtain ⟨f, w, hfw⟩ := hp r hr
    obtain ⟨i, hi⟩ := List.mem_iff_getElem?.mp hr
    exact ⟨_, _, .prod hi hfw .nil⟩

/-- Only terminals of the grammar occur in parse trees. -/
theorem Generated.parseTree_means (h : Generated o lex gi prog) {f : Forest (Token P)} {W : List (Token P)} :
    ParseTreeM gi.grammar (gi.Means sem) f W ↔ ParseTreeM gi.grammar (Matches sem gi.terminalType) f W := by
  obtain ⟨F, kt, -, hc⟩ := h.ctx
  have e : idMatch gi.indexedGrammar (Matches sem gi.terminalType) = idMatch gi.indexedGrammar (gi.Means sem) :=
    h.tokMatch_eq
  refine ⟨fun hf => ?_, fun hf => ?_⟩
  · obtain ⟨f', h1, rfl⟩ := parseTreeM_enc hc.enc hf
    exact parseTreeM_dec hc.enc (e ▸ h1)
  · obtain ⟨f', h1, rfl⟩ := parseTreeM_enc hc.enc hf
    exact parseTreeM_dec hc.enc (e ▸ h1)

end

namespace C77

section
variable {T L : Type} [DecidableEq T] [DecidableEq L]

/-- **C77 (simulator).** For a grammar whose rules all derive something: the simulator accepts every sentence and no
sentence has two parse trees, exactly if no action is missing from the table. -/
theorem simulator_right_iff_actions (g : Grammar T L) (p : SimParser T L) (fuel : Nat) (hg : WellFormed g)
    (hpr : Productive g.productions) (hp : SimParser.new fuel g = .ok p) :
    ((∀ w, Language g w → ∃ fuel', (p.parseStream fuel' w : Outcome (LRTableError T L) _) = .ok true) ∧
      ∀ w f f', ParseTree g f w → ParseTree g f' w → f = f') ↔ C07.ActionsComplete g := by
  constructor
  · rintro ⟨ha, hu⟩
    obtain ⟨F, kt, h⟩ := ready hg hp
    obtain ⟨root, rest, hroot, -⟩ := h.enc.root_label
    have hpm : ProductiveM g.productions (fun a t : T => a = t) := productiveM_dec h.enc (by
      rw [← tokMatch_eq]
      exact h.productive hg hpr)
    refine covers_of_trees hpm (fun a t t' h1 h2 => h1.symm.trans h2) (root := root) (by rw [hroot]; rfl) ?_
    intro f w hf
    have hf : ParseTree g f w := parseTree_iff.mpr ⟨root, rest, hroot, hf⟩
    obtain ⟨fuel', hrun⟩ := ha w (language_iff_parseTree.mpr ⟨f, hf⟩)
    rcases h.result fuel' w with e | ⟨c, tr, h1, ⟨h2, -⟩ | ⟨-, e⟩⟩
    · rw [e] at hrun; cases hrun
    · obtain ⟨-, r, h3, -, h4⟩ := h1.sound h.good.rootOk h2
      obtain ⟨r', h5, h6⟩ := h.root
      rw [h3] at h5
      cases h5
      rw [h6] at h4
      have e := hu _ _ _ hf (h.tree h4)
      rw [tokMatch_eq] at h1
      obtain ⟨d, h7, h8⟩ := steps_dec h.enc (sameFirst_recorded h.built h.first) h1 (.start w)
      refine ⟨d, _, h7, ?_⟩
      rw [e, h8.trees, ← ofTrees_mapRules]
      simp only [Forest.mapRules, orig_zero h.enc]
    · rw [e] at hrun; cases hrun
  · intro hc
    obtain ⟨h1, h2⟩ := new_ok hp
    refine ⟨fun w hw => ?_, fun w f f' hf hf' => C05.unambiguous_partial g _ _ fuel w f f' hg hc h1 h2 hf hf'⟩
    obtain ⟨N, hN⟩ := C02.accepts_all_sentences_partial g p fuel w hg hc hp hw
    exact ⟨N, hN N (Nat.le_refl _)⟩

/-- **C77: a sufficient condition that can be read off the rules.** The FIRST sets only have to be complete for what
follows a label in a rule. -/
theorem follow_complete_suffices (g : Grammar T L) (p : SimParser T L) (fuel : Nat) (hg : WellFormed g)
    (hp : SimParser.new fuel g = .ok p) (hc : C07.FollowComplete g) :
    (∀ w, Language g w ↔ ∃ fuel', (p.parseStream fuel' w : Outcome (LRTableError T L) _) = .ok true) ∧
      ∀ w f f', ParseTree g f w → ParseTree g f' w → f = f' := by
  obtain ⟨h1, h2⟩ := new_ok hp
  refine ⟨fun w => ⟨fun hw => ?_, fun ⟨fuel', h⟩ => C01.accepts_only_sentences g p fuel fuel' w hg hp h⟩,
    fun w f f' hf hf' => C05.unambiguous_partial g _ _ fuel w f f' hg hc.actions h1 h2 hf hf'⟩
  obtain ⟨N, hN⟩ := C02.accepts_all_sentences_partial g p fuel w hg hc.actions hp hw
  exact ⟨N, hN N (Nat.le_refl _)⟩

end

section
variable {P V E F' σ : Type} [DecidableEq P] {lex : Lexer} {o : HashOrder} {gi : GrammarInfo} {prog : Program}

/-- **C77 (generated parsers).** If every rule derives some tokens, patterns do not overlap and constructors do not fail:
the generated parser returns a value for every sentence and no sentence has two parse trees, exactly if no action is
missing from the table. -/
theorem generated_right_iff_actions (h : Generated o lex gi prog) (debug : Bool) (sem : Sem P V E σ) (into : F' → E)
    (w0 : σ) (hD : gi.Disjoint sem) (hpr : gi.ProductiveRules sem) (hS : C70.Succeed gi sem) :
    ((∀ W, gi.Sentence sem W → ∀ items : Nat → Option (Item P F'),
        (∀ i a, W[i]? = some a → items i = some (.ok a)) → items W.length = none →
        ∃ fuel run v, prog.parseFallible debug sem into items fuel w0 = .ok run ∧ run.result = .ok v) ∧
      ∀ W f f', ParseTreeM gi.grammar (Matches sem gi.terminalType) f W →
        ParseTreeM gi.grammar (Matches sem gi.terminalType) f' W → f = f') ↔ C07.ActionsComplete gi.grammar := by
  obtain ⟨F, kt, hF, hx⟩ := h.ctx
  obtain ⟨root, rest, hroot, -⟩ := hx.enc.root_label
  constructor
  · rintro ⟨ha, hu⟩
    have hpm : ProductiveM gi.grammar.productions (gi.Means sem) := productiveM_dec hx.enc (by
      rw [← h.tokMatch_eq]
      exact h.productiveM hpr)
    refine covers_of_trees hpm hD.unique (root := root) (by rw [hroot]; rfl) ?_
    intro f W hf
    have hf : ParseTreeM gi.grammar (Matches sem gi.terminalType) f W :=
      h.parseTree_means.mp ⟨root, rest, hroot, hf⟩
    have hW : ∀ i a, W[i]? = some a → (fun i => W[i]?.map .ok : Nat → Option (Item P F')) i = some (.ok a) := by
      intro i a h; simp [h]
    have hend : (fun i => W[i]?.map .ok : Nat → Option (Item P F')) W.length = none := by simp
    obtain ⟨fuel, run, v, hrun, hv⟩ := ha W ⟨f, hf⟩ _ hW hend
    obtain ⟨c, tr, st, w1, res, hfin⟩ := hx.finish hrun hW (.inr (by intro a; rw [hend]; simp))
    have hgen := hfin.gen
    rcases hfin.done with ⟨v', st', w', rfl, rfl⟩ | ⟨e, w', rfl, rfl⟩
    · cases hgen with
      | accept _ _ g1 g2 g3 g4 =>
        have h1 := hfin.steps
        obtain ⟨-, h2⟩ := hx.accepted h1 g1
        have e := hu _ _ _ hf h2
        rw [h.tokMatch_eq] at h1
        obtain ⟨d, h7, h8⟩ := steps_dec hx.enc (sameFirst_recorded h.grammar hF) h1 (.start W)
        refine ⟨d, _, h7, ?_⟩
        rw [e, h8.trees, ← ofTrees_mapRules]
        simp only [Forest.mapRules, Verif.orig_zero hx.enc]
    · cases hv
  · intro hc
    refine ⟨fun W ⟨f, hf⟩ items hW hend => ?_, fun W f f' hf hf' => ?_⟩
    · obtain ⟨N, run, hN, hr⟩ := C19.sentences_are_evaluated_partial h debug sem into items W f w0 hD hc hW hend hf
      rcases hr with ⟨v, -, h4⟩ | ⟨e, h3, -⟩
      · exact ⟨N, run, v, hN N (Nat.le_refl _), h4⟩
      · obtain ⟨vs, w', h5⟩ := eval_succeeds (tok := .tok) hS f w0
        rw [value, h5] at h3
        cases h3
    · obtain ⟨f1, h3, rfl⟩ := parseTreeM_enc hx.enc hf
      obtain ⟨f2, h4, rfl⟩ := parseTreeM_enc hx.enc hf'
      obtain ⟨r, hr, hr0⟩ := hx.good.root_rule
      rw [← hr0] at h3 h4
      rw [h3.unique (h.closed hc hF) hx.good.rootOk hx.good.rootOnce hx.good.noConflict (h.unique hD) hr h4]

/-- The meaning of patterns as in the sample, with constructors that do not fail. -/
def sem : Sem Nat Nat String Nat := { Sample.sem with body := fun _ _ _ w => (.ok (.user 0), w) }

/-- The sample parser meets the hypotheses. -/
example : ∃ gi prog, Generated .id Sample.lexer gi prog ∧ gi.Disjoint sem ∧ gi.ProductiveRules sem ∧
    C70.Succeed gi sem := by
  obtain ⟨gi, prog, h, h1, h2, -⟩ := Sample.generated
  have e : Matches sem gi.terminalType = Matches Sample.sem gi.terminalType :=
    Verif.matches_congr (sem := Sample.sem) (sem' := sem) rfl rfl
  refine ⟨gi, prog, h, ?_, ?_, ?_⟩
  · unfold GrammarInfo.Disjoint
    rw [e]
    exact Sample.disjoint h1 h2
  · unfold GrammarInfo.ProductiveRules
    rw [e]
    exact Sample.productive h1 h2
  · intro k vs w
    unfold construct
    split
    · exact ⟨_, _, rfl⟩
    · dsimp only
      split
      · exact ⟨_, _, rfl⟩
      · split <;> exact ⟨_, _, rfl⟩
      · exact ⟨_, _, rfl⟩

end

/-! ### Neither half is enough -/

/-- If every label has one rule, there is one tree. -/
theorem one_tree {T L : Type} {P : List (Rule T L)}
    (h1 : ∀ (i j : Nat) (r r' : Rule T L), P[i]? = some r → P[j]? = some r' → r.symbol = r'.symbol → i = j)
    {f f' : Forest T} {α : List (Node T L)} {w w' : List T} (h : Parses P f α w) (h' : Parses P f' α w') : f = f' := by
  induction h generalizing f' w' with
  | nil => cases h'; rfl
  | tok _ ih => cases h' with | tok h => rw [ih h]
  | eps _ ih => cases h' with | eps h => rw [ih h]
  | @prod i r c f α u w hr _ _ ih1 ih2 =>
    generalize e : Node.production r.symbol :: α = β at h'
    cases h' with
    | nil => cases e
    | tok => cases e
    | eps => cases e
    | prod hr' h2 h3 =>
      simp only [List.cons.injEq, Node.production.injEq] at e
      obtain ⟨e1, rfl⟩ := e
      cases h1 _ _ _ _ hr hr' e1
      rw [hr] at hr'
      cases hr'
      rw [ih1 h2, ih2 h3]

/-- **An unambiguous grammar, with a table, can lack actions**: `S -> Y B; Y -> !; B -> A a; A -> !`. -/
theorem unambiguous_is_not_enough : WellFormed C07.witness ∧ Productive C07.witness.productions ∧
    (∃ p, SimParser.new 20 C07.witness = .ok p) ∧
    (∀ w f f', ParseTree C07.witness f w → ParseTree C07.witness f' w → f = f') ∧
    ¬ C07.ActionsComplete C07.witness := by
  obtain ⟨hg, hpr, p, hp, -⟩ := C70.no_dead_rules_refuted_first
  refine ⟨hg, hpr, ⟨p, hp⟩, ?_, fun hc => ?_⟩
  · rintro w f f' ⟨root, rest, e, h⟩ ⟨root', rest', e', h'⟩
    cases e
    cases e'
    refine one_tree (fun i j r r' hi hj he => ?_) h h'
    match i, j, hi, hj with
    | 0, 0, _, _ | 1, 1, _, _ | 2, 2, _, _ | 3, 3, _, _ => rfl
    | 0, 1, rfl, rfl | 0, 2, rfl, rfl | 0, 3, rfl, rfl | 1, 0, rfl, rfl | 1, 2, rfl, rfl | 1, 3, rfl, rfl
    | 2, 0, rfl, rfl | 2, 1, rfl, rfl | 2, 3, rfl, rfl | 3, 0, rfl, rfl | 3, 1, rfl, rfl | 3, 2, rfl, rfl => cases he
    | i + 4, _, hi, _ => cases hi
    | _, j + 4, _, hj => cases hj
  · obtain ⟨-, -, hl, p', hp', hrej⟩ := C02.accepts_all_sentences_refuted
    obtain ⟨N, hN⟩ := C02.accepts_all_sentences_partial _ p' 20 _ hg hc hp' hl
    have h1 := hN (max N 20) (by omega)
    rw [hrej (max N 20) (by omega)] at h1
    cases h1

/-- `R -> S; S -> x B c; S -> x Q C c; B -> b; Q -> b; C -> D; D -> E; E -> F; F -> !`. -/
def hidden : Grammar Nat Nat :=
  ⟨[⟨0, [.production 1]⟩, ⟨1, [.terminal (.token 1), .production 2, .terminal (.token 3)]⟩,
    ⟨1, [.terminal (.token 1), .production 3, .production 4, .terminal (.token 3)]⟩, ⟨2, [.terminal (.token 2)]⟩,
    ⟨3, [.terminal (.token 2)]⟩, ⟨4, [.production 5]⟩, ⟨5, [.production 6]⟩, ⟨6, [.production 7]⟩,
    ⟨7, [.terminal .epsilon]⟩]⟩

def hiddenYield : Node Nat Nat → List Nat
  | .terminal (.token t) => [t]
  | .terminal _ => []
  | .production l => if l ≤ 1 then [1, 2, 3] else if l ≤ 3 then [2] else []

theorem hidden_derives {α : List (Node Nat Nat)} {w : List Nat} (h : Derives hidden.productions α w) :
    w = α.flatMap hiddenYield := by
  induction h with
  | nil => rfl
  | tok _ ih => simp [hiddenYield, ih]
  | eps _ ih => simp [hiddenYield, ih]
  | prod hr _ _ ih1 ih2 =>
    simp only [hidden, List.mem_cons, List.not_mem_nil, or_false] at hr
    rcases hr with rfl | rfl | rfl | rfl | rfl | rfl | rfl | rfl | rfl <;> simp [hiddenYield, ih1, ih2]

/-- **A parser can accept every sentence and lack actions**: the only sentence of `hidden` is accepted, with one of its
two parse trees. -/
theorem accepting_is_not_enough : WellFormed hidden ∧ Productive hidden.productions ∧
    (∃ p, SimParser.new 40 hidden = .ok p ∧
      ∀ w, Language hidden w → ∃ fuel, (p.parseStream fuel w : Outcome (LRTableError Nat Nat) _) = .ok true) ∧
    ¬ C07.ActionsComplete hidden := by
  have hg : WellFormed hidden := by
    refine ⟨?_, ?_⟩
    · unfold Spec.EpsilonLast; decide
    · unfold Spec.NoEndMarker; decide
  have h : (do
      let p ← SimParser.new 40 hidden
      p.parseStream 40 [1, 2, 3]) = Outcome.ok true := by decide +kernel
  rw [Outcome.bind_eq_ok] at h
  obtain ⟨p, hp, h⟩ := h
  have hF : Parses hidden.productions (.node 8 .nil .nil) [.production 7] [] :=
    .prod (i := 8) (r := ⟨7, _⟩) (u := []) (w := []) rfl (.eps .nil) .nil
  have hE : Parses hidden.productions (.node 7 (.node 8 .nil .nil) .nil) [.production 6] [] :=
    .prod (i := 7) (r := ⟨6, _⟩) (u := []) (w := []) rfl hF .nil
  have hD : Parses hidden.productions (.node 6 (.node 7 (.node 8 .nil .nil) .nil) .nil) [.production 5] [] :=
    .prod (i := 6) (r := ⟨5, _⟩) (u := []) (w := []) rfl hE .nil
  have hC : ∀ {f α w}, Parses hidden.productions f α w →
      Parses hidden.productions (.node 5 (.node 6 (.node 7 (.node 8 .nil .nil) .nil) .nil) f) (.production 4 :: α) w :=
    fun h => .prod (i := 5) (r := ⟨4, _⟩) (u := []) rfl hD h
  have hQ : ∀ {f α w}, Parses hidden.productions f α w →
      Parses hidden.productions (.node 4 (.tok 2 .nil) f) (.production 3 :: α) (2 :: w) :=
    fun h => .prod (i := 4) (r := ⟨3, _⟩) (u := [2]) rfl (.tok .nil) h
  have hB : ∀ {f α w}, Parses hidden.productions f α w →
      Parses hidden.productions (.node 3 (.tok 2 .nil) f) (.production 2 :: α) (2 :: w) :=
    fun h => .prod (i := 3) (r := ⟨2, _⟩) (u := [2]) rfl (.tok .nil) h
  have hS1 : Parses hidden.productions _ [.production 1] [1, 2, 3] :=
    .prod (i := 1) (r := ⟨1, _⟩) (u := [1, 2, 3]) (w := []) rfl (.tok (hB (.tok .nil))) .nil
  have hS2 : Parses hidden.productions _ [.production 1] [1, 2, 3] :=
    .prod (i := 2) (r := ⟨1, _⟩) (u := [1, 2, 3]) (w := []) rfl (.tok (hQ (hC (.tok .nil)))) .nil
  have hR1 : ParseTree hidden _ [1, 2, 3] :=
    ⟨_, _, rfl, .prod (i := 0) (r := ⟨0, _⟩) (u := [1, 2, 3]) (w := []) rfl hS1 .nil⟩
  have hR2 : ParseTree hidden _ [1, 2, 3] :=
    ⟨_, _, rfl, .prod (i := 0) (r := ⟨0, _⟩) (u := [1, 2, 3]) (w := []) rfl hS2 .nil⟩
  have hpr : Productive hidden.productions := by
    intro r hr
    simp only [hidden, List.mem_cons, List.not_mem_nil, or_false] at hr
    rcases hr with rfl | rfl | rfl | rfl | rfl | rfl | rfl | rfl | rfl
    · obtain ⟨_, _, e, h⟩ := hR1
      cases e
      exact ⟨_, h.derives⟩
    · exact ⟨_, hS1.derives⟩
    · exact ⟨_, hS1.derives⟩
    · exact ⟨_, (hB .nil).derives⟩
    · exact ⟨_, (hQ .nil).derives⟩
    · exact ⟨_, (hC .nil).derives⟩
    · exact ⟨_, hD.derives⟩
    · exact ⟨_, hE.derives⟩
    · exact ⟨_, hF.derives⟩
  refine ⟨hg, hpr, ⟨p, hp, ?_⟩, fun hc => ?_⟩
  · rintro w ⟨root, rest, e, hw⟩
    cases e
    rw [hidden_derives hw]
    exact ⟨40, h⟩
  · have := ((simulator_right_iff_actions hidden p 40 hg hpr hp).mpr hc).2 _ _ _ hR1 hR2
    simp at this

/-! ### The FIRST sets may be incomplete -/

/-- `S -> A; A -> B; B -> !`. -/
def chain : Grammar Nat Nat := ⟨[⟨0, [.production 1]⟩, ⟨1, [.production 2]⟩, ⟨2, [.terminal .epsilon]⟩]⟩

/-- The code does not record that `A` derives the empty sequence. -/
theorem chain_not_recorded : ¬ Recorded chain 1 .epsilon := by
  intro h
  have hq : C07.query chain 1 .epsilon = .ok false := by decide +kernel
  have hl : (do let ig ← IndexedGrammar.build chain; ig.origLabel 1) = .ok 1 := by decide +kernel
  have ht : (do let ig ← IndexedGrammar.build chain; ig.vocab.idToToken .epsilon) = .ok .epsilon := by
    decide +kernel
  obtain ⟨ig, F, i, k, s, hg, hF, h3, h4, h5, h6⟩ := h
  have henc := (IndexedGrammar.build_ok hg).1
  rw [hg, Outcome.ok_bind] at hl ht
  rw [origLabel_iff] at hl
  rw [idToToken_iff] at ht
  have hr : Recorded chain 1 .epsilon := ⟨ig, F, i, k, s, hg, hF, h3, h4, h5, h6⟩
  rw [recorded_iff hg hF hl ht] at hr
  obtain ⟨F1, hF1, hres⟩ := FirstTable.build_spec (ε := LRTableError Nat Nat) henc.wf
  rw [hF] at hF1
  cases hF1
  have hlt : 1 < ig.labelsCount := (hres.wf.in_lt hr).1
  obtain ⟨s', e, hs, hwf, hin⟩ := hres.wf.get (ε := LRTableError Nat Nat) hlt
  rw [C07.query, hg, Outcome.ok_bind, hF, Outcome.ok_bind, FirstTable.firstSet, e, Outcome.ok_bind,
    hwf.has_eq (EncTok.id_lt ht), (hin _).mp hr] at hq
  cases hq

/-- Nothing follows a label in these rules. -/
theorem chain_follow {g : Grammar Nat Nat} (hg : ∀ r ∈ g.productions, r ∈ chain.productions) : C07.FollowComplete g := by
  intro r hr d l β hd t ht
  replace hr := hg r hr
  simp only [chain, List.mem_cons, List.not_mem_nil, or_false] at hr
  obtain rfl : β = [] := by
    rcases hr with rfl | rfl | rfl
    · rcases d with _ | d
      · cases hd; rfl
      · simp [rhs] at hd
    · rcases d with _ | d
      · cases hd; rfl
      · simp [rhs] at hd
    · simp [rhs] at hd
  rw [← Verif.first_iff] at ht
  cases ht
  rfl

/-- Actions are complete if FIRST sets are, but not conversely: nothing follows a label in the rules of
`S -> A; A -> B; B -> !`, so it does not matter that the table does not record that `A` derives the empty sequence. -/
theorem weaker_than_first_complete : WellFormed chain ∧ Productive chain.productions ∧
    (∃ p, SimParser.new 20 chain = .ok p) ∧ C07.FollowComplete chain ∧ C07.ActionsComplete chain ∧
    ¬ C07.FirstComplete chain := by
  have hf : C07.FollowComplete chain := chain_follow fun _ h => h
  have hB : Derives chain.productions [.production 2] [] :=
    .prod (r := ⟨2, [.terminal .epsilon]⟩) (u := []) (w := []) (by decide) (.eps .nil) .nil
  have hA : Derives chain.productions [.production 1] [] :=
    .prod (r := ⟨1, [.production 2]⟩) (u := []) (w := []) (by decide) hB .nil
  refine ⟨⟨?_, ?_⟩, ?_, ?_, hf, hf.actions, fun hc => ?_⟩
  · unfold Spec.EpsilonLast; decide
  · unfold Spec.NoEndMarker; decide
  · intro r hr
    simp only [chain, List.mem_cons, List.not_mem_nil, or_false] at hr
    rcases hr with rfl | rfl | rfl
    · exact ⟨_, .prod (r := ⟨0, [.production 1]⟩) (u := []) (w := []) (by decide) hA .nil⟩
    · exact ⟨_, hA⟩
    · exact ⟨_, hB⟩
  · have h : (do let _ ← SimParser.new 20 chain; pure ()) = Outcome.ok () := by decide +kernel
    rw [Outcome.bind_eq_ok] at h
    obtain ⟨p, h, -⟩ := h
    exact ⟨p, h⟩
  · have h := hc 1 .epsilon (by
      rw [← Verif.first_iff]
      exact .skip (r := ⟨1, [.production 2]⟩) (by decide)
        (.skip (r := ⟨2, [.terminal .epsilon]⟩) (by decide) (.eps .nil) .nil) .nil)
    exact chain_not_recorded h

end C77

namespace C62

/-- **C62: the same actions do not need the same FIRST sets.** `S -> A; A -> B; B -> !` and `S -> A; B -> !; A -> B`. -/
theorem same_actions_weaker : ∃ (π : Equiv.Perm Nat) (g g' : Grammar Nat Nat),
    Reordered π g.productions g'.productions ∧ SameActions π g g' ∧ ¬ SameFirstSets g g' ∧
      (∃ p, SimParser.new 20 g = .ok p) ∧ ∃ p, SimParser.new 20 g' = .ok p := by
  obtain ⟨π, hπ⟩ := reordered_of_perm (⟨0, [.production 1]⟩ : Rule Nat Nat)
    (List.reverse_perm (C77.chain.productions.drop 1)).symm
  obtain ⟨-, -, hp, -, hc, -⟩ := C77.weaker_than_first_complete
  have hc' : C07.ActionsComplete (⟨⟨0, [.production 1]⟩ :: (C77.chain.productions.drop 1).reverse⟩ : Grammar Nat Nat) :=
    (C77.chain_follow fun r h => hπ.symm.mem h).actions
  refine ⟨π, C77.chain, ⟨_⟩, hπ, sameActions_of_complete hπ hc hc', fun h => ?_, hp,
    GrammarSample.ok_of_kind (by decide +kernel)⟩
  refine C77.chain_not_recorded ((h 1 .epsilon).mpr ?_)
  have hq : (do
      let ig ← IndexedGrammar.build
        (⟨⟨0, [.production 1]⟩ :: (C77.chain.productions.drop 1).reverse⟩ : Grammar Nat Nat)
      let F ← FirstTable.build ig
      let l ← ig.origLabel 2
      let t ← ig.vocab.idToToken .epsilon
      let s ← F.firstSet 2
      let b ← s.has .epsilon
      pure (decide (l = 1 ∧ t = .epsilon ∧ b = true))) = Outcome.ok true := by decide +kernel
  simp only [Outcome.bind_eq_ok, Outcome.pure_eq, Outcome.ok.injEq, decide_eq_true_eq] at hq
  obtain ⟨ig, h1, F, h2, l, h3, t, h4, s, h5, b, h6, rfl, rfl, rfl⟩ := hq
  exact ⟨ig, F, 2, .epsilon, s, h1, h2, h3, h4, h5, h6⟩

end C62
end Verif
