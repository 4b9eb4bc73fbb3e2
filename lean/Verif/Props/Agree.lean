import Verif.Proof.GenDet
import Verif.Props.Generated

/-!
# C19–C22, C27, C28: generated parsers compared with the grammar, the simulator and each other
-/

set_option linter.unusedSectionVars false
set_option autoImplicit false

namespace Verif
open Spec

/-- Inversion: the two ways to be the end of a run that starts from the same input. -/
theorem Spec.Steps.before {T L A : Type} {G : List (Rule T L)} {first : List (Node T L) → AugTok T → Prop}
    {m : A → T → Prop} (hn : NoConflict G first) (hm : Unique m) {s c d : Config T L A} {tr tr' : List Nat}
    (h : Steps G first m s c tr) (h' : Steps G first m s d tr') (hd : Final G first m d) :
    ∃ tr2, Steps G first m c d tr2 := by
  rcases h.linear hn hm h' with ⟨tr2, h2, -⟩ | ⟨tr2, h2, -⟩
  · exact ⟨tr2, h2⟩
  · obtain ⟨rfl, rfl⟩ := h2.final_eq hn hm hd
    exact ⟨_, h2⟩

section
variable {P V E F' σ : Type} [DecidableEq P] {sem : Sem P V E σ} {lex : Lexer} {o : HashOrder}
  {gi : GrammarInfo} {prog : Program}

/-- The tokens `W` have a parse tree. -/
def GrammarInfo.Sentence (gi : GrammarInfo) (sem : Sem P V E σ) (W : List (Token P)) : Prop :=
  ∃ f, ParseTreeM gi.grammar (Matches sem gi.terminalType) f W

/-- Every rule derives some sequence of tokens. -/
def GrammarInfo.ProductiveRules (gi : GrammarInfo) (sem : Sem P V E σ) : Prop :=
  ∀ r ∈ gi.grammar.productions,
    ∃ f w, ParsesM gi.grammar.productions (Matches sem gi.terminalType) f r.rule w

end

namespace Sample

/-- The variant of a token. -/
def variant : Token Nat → String
  | .lit _ => ""
  | .unit n => n
  | .data n _ => n

theorem variant_eq {ty : TokenStream} {sem : Sem Nat Nat String Nat} {a : Token Nat} {s : Sym}
    (h : Matches sem (.enum ty) a s) : variant a = s.name := by
  cases h <;> rfl

/-- No token of the sample grammar stands for two terminals. -/
theorem disjoint {gi : GrammarInfo} (h1 : gi.productionRules = rules)
    (h2 : gi.terminalType = .enum (.ident "Tok" .nil)) : gi.Disjoint sem := by
  intro a s s' ⟨r, hr, hs⟩ ⟨r', hr', hs'⟩ m1 m2
  have key : ∀ r ∈ rules, ∀ s, .symbol s ∈ r.rule → s = ⟨"Plus", .none⟩ ∨ s = ⟨"Num", .wildcard⟩ := by
    intro r hr s hs
    simp only [rules, List.mem_cons, List.not_mem_nil, or_false] at hr
    rcases hr with rfl | rfl | rfl | rfl <;> simp_all
  rw [h2] at m1 m2
  rw [h1] at hr hr'
  rcases key r hr s hs with rfl | rfl <;> rcases key r' hr' s' hs' with rfl | rfl
  · rfl
  · exact absurd ((variant_eq m1).symm.trans (variant_eq m2)) (by simp)
  · exact absurd ((variant_eq m1).symm.trans (variant_eq m2)) (by simp)
  · rfl

/-- The FIRST sets of the sample grammar are complete. -/
theorem firstComplete {gi : GrammarInfo} (h1 : gi.productionRules = rules) : C07.FirstComplete gi.grammar := by
  have hg : gi.grammar = ⟨rules.map ARule.toLr⟩ := by unfold GrammarInfo.grammar; rw [h1]
  have h : ((do
      let ig ← IndexedGrammar.build ⟨rules.map ARule.toLr⟩
      let F ← FirstTable.build ig
      let (F', _) ← FirstTable.propagate ig F
      pure (F == F')) : Outcome (LRTableError Sym String) Bool) = .ok true := by decide +kernel
  obtain ⟨ig, h2, h⟩ := Outcome.bind_eq_ok.mp h
  obtain ⟨F, h3, h⟩ := Outcome.bind_eq_ok.mp h
  obtain ⟨⟨F', b⟩, h4, h⟩ := Outcome.bind_eq_ok.mp h
  simp only [Outcome.pure_eq, Outcome.ok.injEq, beq_iff_eq] at h
  subst h
  rw [hg]
  exact C07.first_complete_if_stable_partial _ ig F b h2 h3 h4

/-- Every rule of the sample grammar derives something. -/
theorem productive {gi : GrammarInfo} (h1 : gi.productionRules = rules)
    (h2 : gi.terminalType = .enum (.ident "Tok" .nil)) : gi.ProductiveRules sem := by
  have hg : gi.grammar = ⟨rules.map ARule.toLr⟩ := by unfold GrammarInfo.grammar; rw [h1]
  unfold GrammarInfo.ProductiveRules
  rw [hg, h2]
  have hL : ParsesM (rules.map ARule.toLr) (Matches sem (.enum (.ident "Tok" .nil))) (.node 3 .nil .nil)
      [.production "L"] ([] ++ []) :=
    .prod (i := 3) (r := ⟨"L", [.terminal .epsilon]⟩) rfl (.eps .nil) .nil
  intro r hr
  simp only [rules, List.map_cons, List.map_nil, ARule.toLr, ANode.toLrNode, List.mem_cons,
    List.not_mem_nil, or_false] at hr
  rcases hr with rfl | rfl | rfl | rfl
  · exact ⟨_, _, hL⟩
  · exact ⟨_, _, .tok .unit hL⟩
  · exact ⟨_, _, .tok (a := .data "Num" 0) .any .nil⟩
  · exact ⟨_, _, .eps .nil⟩

/-- The sample is a sentence: there is a tree. -/
theorem sentence {gi : GrammarInfo} {prog : Program} (h : Generated .id lexer gi prog) (hi : info = .ok gi)
    (hp : generateParser .id lexer gi = .ok prog) :
    ∃ f, ParseTreeM gi.grammar (Matches sem gi.terminalType) f
      [.unit "Plus", .unit "Plus", .data "Num" 5] := by
  obtain ⟨run, h1, h2, h3, h4⟩ := run_of hi hp value623
  obtain ⟨W, f, k1, k2, k3, -⟩ := C18.ok_is_value_of_tree h true sem id _ 50 0 run _ h1 h2
  have : W = [.unit "Plus", .unit "Plus", .data "Num" 5] := by
    have hlen : W.length = 3 := by
      have hle : ¬ W.length < 3 := by
        intro hlt
        have : ∀ i < 3, stream [.unit "Plus", .unit "Plus", .data "Num" 5] none i ≠ none := by decide
        exact this _ hlt k2
      have hge : ¬ 3 < W.length := by
        intro hlt
        have := k1 3 _ (List.getElem?_eq_getElem hlt)
        cases this
      omega
    match W, hlen with
    | [a, b, c], _ =>
      have h0 := k1 0 a rfl
      have h1 := k1 1 b rfl
      have h2 := k1 2 c rfl
      cases h0; cases h1; cases h2; rfl
  rw [← this]
  exact ⟨f, k3⟩

/-- Further samples: a grammar without constructors, with tokens of the enum `Tok`. -/
def make (rules : List ARule) (labels : List String) : Outcome (LRTableError Sym String) GrammarInfo := do
  let ig ← IndexedGrammar.build ⟨rules.map ARule.toLr⟩
  let t ← LRTable.build 30 ig
  pure ⟨"Sample", .enum (.ident "Tok" .nil), none, labels.map fun l => (l, none), rules, ig, t⟩

/-- Runs the parser for a sample in debug and release mode. -/
def runs (o : HashOrder) (rules : List ARule) (labels : List String) (sem : Sem Nat Nat String Nat)
    (ts : List (Token Nat)) : Outcome (LRTableError Sym String)
      (Bool × Except (ParseErr Nat String) (Val Nat Nat) × Except (ParseErr Nat String) (Val Nat Nat)) := do
  let gi ← make rules labels
  match generateParser o lexer gi with
  | .ok prog =>
    match prog.parseFallible true sem id (stream ts none) 50 0,
      prog.parseFallible false sem id (stream ts none) 50 0 with
    | .ok run, .ok run' => pure (compilesB prog, run.result, run'.result)
    | _, _ => Outcome.panic
  | _ => Outcome.panic

theorem runs_ok {o : HashOrder} {rules : List ARule} {labels : List String} {sem : Sem Nat Nat String Nat}
    {ts : List (Token Nat)} {r r' : Except (ParseErr Nat String) (Val Nat Nat)}
    (he : EpsilonLast ⟨rules.map ARule.toLr⟩) (h : runs o rules labels sem ts = .ok (true, r, r')) :
    ∃ gi prog, Generated o lexer gi prog ∧ make rules labels = .ok gi ∧ gi.productionRules = rules ∧
      gi.terminalType = .enum (.ident "Tok" .nil) ∧
      (∃ run, prog.parseFallible true sem id (stream ts none) 50 0 = .ok run ∧ run.result = r) ∧
      ∃ run, prog.parseFallible false sem id (stream ts none) 50 0 = .ok run ∧ run.result = r' := by
  unfold runs at h
  obtain ⟨gi, hi, h⟩ := Outcome.bind_eq_ok.mp h
  split at h
  · rename_i prog hp
    split at h
    · rename_i run run' h1 h2
      simp only [Outcome.pure_eq, Outcome.ok.injEq, Prod.mk.injEq] at h
      obtain ⟨hc, h3, h4⟩ := h
      have hi' := hi
      unfold make at hi'
      obtain ⟨ig, g1, hi'⟩ := Outcome.bind_eq_ok.mp hi'
      obtain ⟨t, g2, hi'⟩ := Outcome.bind_eq_ok.mp hi'
      simp only [Outcome.pure_eq, Outcome.ok.injEq] at hi'
      subst hi'
      exact ⟨⟨"Sample", .enum (.ident "Tok" .nil), none, labels.map fun l => (l, none), rules, ig, t⟩, prog, ⟨g1, ⟨30, g2⟩, he, hp, compiles_of hc⟩, hi, rfl, rfl, ⟨run, h1, h3⟩, run', h2, h4⟩
    · cases h
  · cases h

/-- `S => Y B; Y => !; B => A x; A => !`, the grammar of finding C07. -/
def incomplete : List ARule :=
  [⟨"S", none, [.production "Y", .production "B"], none⟩, ⟨"Y", none, [.epsilon], none⟩,
   ⟨"B", none, [.production "A", .symbol ⟨"X", .none⟩], none⟩, ⟨"A", none, [.epsilon], none⟩]

/-- `S => Num(1) | Num(..)` by way of a label. -/
def overlapping : List ARule :=
  [⟨"S", none, [.production "A"], none⟩, ⟨"A", none, [.symbol ⟨"Num", .pattern "1"⟩], none⟩,
   ⟨"A", none, [.symbol ⟨"Num", .wildcard⟩, .symbol ⟨"X", .none⟩], none⟩]

/-- The pattern `1` matches 1. -/
def sem1 : Sem Nat Nat String Nat :=
  ⟨fun _ => 0, fun s p => s == "1" && p == 1, fun _ _ _ w => (.ok (.user 0), w), fun _ v w => (.ok v, w)⟩

end Sample

section
variable {P V E F' σ : Type} [DecidableEq P] {sem : Sem P V E σ} {lex : Lexer} {o : HashOrder}
  {gi : GrammarInfo} {prog : Program}

namespace C19

/-- The value of a sentence, if no action is missing from the table. -/
theorem _root_.Verif.GenCtx.evaluates {F : FirstTable} {kt : KernelTable} (hx : GenCtx o lex gi prog F kt)
    (hF : Covers gi.indexedGrammar.cfg F.NodesFirst) {debug : Bool} {sem : Sem P V E σ} (hU : Unique (gi.tokMatch sem))
    {into : F' → E} {items : Nat → Option (Item P F')} {W : List (Token P)} {f : Forest (Token P)} {w0 : σ}
    {fuel : Nat} {run : Run P V E σ} (hrun : prog.parseFallible debug sem into items fuel w0 = .ok run)
    (hW : Begins items W) (hend : items W.length = none)
    (hf : ParseTreeM gi.grammar (Matches sem gi.terminalType) f W) :
    (∃ v, value gi sem f w0 = (.ok [v], run.world) ∧ run.result = .ok v) ∨
      ∃ e, value gi sem f w0 = (.error e, run.world) ∧ run.result = .error (.user e) := by
  have hn := hx.good.noConflict
  obtain ⟨f', hf', rfl⟩ := parseTreeM_enc hx.enc hf
  obtain ⟨r, hr, hr0⟩ := hx.good.root_rule
  rw [← hr0] at hf'
  obtain ⟨ch, tr', hs', rfl, hacc⟩ := hf'.accepted hF hx.good.rootOk hx.good.rootOnce hr
  obtain ⟨c, tr, st, w, res, hfin⟩ := hx.finish hrun hW
    (.inr (by intro a; rw [hend]; simp))
  obtain ⟨tr2, hs2⟩ := hfin.steps.before hn hU hs' (.inl hacc)
  have hval : ∀ w, value gi sem ((Forest.node 0 ch .nil).mapRules gi.indexedGrammar.orig) w =
      eval .tok (fun i => construct gi sem (gi.indexedGrammar.orig i)) (.node 0 ch .nil) w :=
    fun w => (value_eq _ w).symm
  rw [hval]
  have hlen : W.length - c.input.length ≤ W.length := Nat.sub_le _ _
  have hnext := hfin.next
  have hno : ∀ f, st.next ≠ some (.error f) := by
    intro f e
    rw [hnext] at e
    rcases Nat.eq_or_lt_of_le hlen with e' | hlt
    · rw [e', hend] at e; cases e
    · rw [hW _ _ (List.getElem?_eq_getElem hlt)] at e; cases e
  have hfinal : Accepting gi.indexedGrammar.cfg F.NodesFirst (gi.tokMatch sem) c →
      Forest.ofTrees c.trees = ch := by
    intro ha
    obtain ⟨rfl, -⟩ := hs2.final_eq hn hU (.inl ha)
    exact Forest.ofTrees_trees ch
  have hgen := hfin.gen
  rcases hfin.done with ⟨v', st', w', rfl, rfl⟩ | ⟨e, w', rfl, rfl⟩
  · left
    cases hgen with
    | accept _ _ g1 g2 g3 g4 =>
      rw [hfinal g1] at g4
      exact ⟨v', g4, rfl⟩
  · cases hgen with
    | stream g => exact absurd g (hno _)
    | overlap _ g => exact absurd g.2.2 (not_overlap_of_unique hU)
    | stuck _ _ g =>
      obtain ⟨e, -⟩ := hs2.final_eq hn hU (.inr g)
      rw [e] at g
      exact absurd (accepting_iff.mp hacc) (stuck_iff.mp g _)
    | acceptFail _ _ g1 g2 g3 g4 =>
      rw [hfinal g1] at g4
      exact .inr ⟨_, g4, rfl⟩
    | @reduceFail c1 i _ e g0 _ g1 g2 =>
      right
      refine ⟨e, ?_, rfl⟩
      generalize hd : (⟨rhs r, ch.trees, []⟩ : Config Nat Nat (Token P)) = d at hs2
      cases hs2 with
      | refl => rw [hd] at hacc; exact absurd hacc (by
          intro hacc
          exact g1.not_final hn hU (.inl hacc))
      | step k1 k2 =>
        obtain ⟨rfl, -⟩ := g1.det hn hU k1
        have := k2.eval_error g2
        rw [← hd] at this
        simp only [Forest.ofTrees_trees] at this
        simp only [eval, this, andThen_error]

/-- **C19, partial.** If no action is missing and patterns are disjoint, a generated parser evaluates every
sentence: it returns the value of the parse tree, or the error of the first constructor to fail. -/
theorem sentences_are_evaluated_partial (h : Generated o lex gi prog) (debug : Bool) (sem : Sem P V E σ)
    (into : F' → E) (items : Nat → Option (Item P F')) (W : List (Token P)) (f : Forest (Token P)) (w0 : σ)
    (hD : gi.Disjoint sem) (hc : C07.ActionsComplete gi.grammar)
    (hW : ∀ i a, W[i]? = some a → items i = some (.ok a)) (hend : items W.length = none)
    (hf : ParseTreeM gi.grammar (Matches sem gi.terminalType) f W) :
    ∃ N run, (∀ fuel ≥ N, prog.parseFallible debug sem into items fuel w0 = .ok run) ∧
      ((∃ v, value gi sem f w0 = (.ok [v], run.world) ∧ run.result = .ok v) ∨
        ∃ e, value gi sem f w0 = (.error e, run.world) ∧ run.result = .error (.user e)) := by
  obtain ⟨N, run, hN⟩ := C03.generated_terminates_partial h debug sem into items W w0 (.inr (.inl hD)) hW
    (by rw [hend]; intro a; simp)
  obtain ⟨F, kt, hF, hx⟩ := h.ctx
  exact ⟨N, run, hN, hx.evaluates (h.closed hc hF) (h.unique hD) (hN N (Nat.le_refl _)) hW hend hf⟩

/-- **C19 is false in general.** `X` is the only sentence of `S => Y B; Y => !; B => A X; A => !`, but the
generated parser rejects it. -/
theorem sentences_are_evaluated_refuted :
    ∃ gi prog, Generated .id Sample.lexer gi prog ∧ gi.Disjoint Sample.sem1 ∧
      gi.Sentence Sample.sem1 [.unit "X"] ∧
      ∃ run, prog.parseFallible true Sample.sem1 id (Sample.stream [.unit "X"] none) 50 0 = .ok run ∧
        run.result = .error (.parseError (some (.unit "X"))) := by
  obtain ⟨gi, prog, h, -, h1, h2, hr, -⟩ := Sample.runs_ok (o := .id) (rules := Sample.incomplete)
    (labels := ["S", "Y", "B", "A"]) (sem := Sample.sem1) (ts := [.unit "X"])
    (r := .error (.parseError (some (.unit "X")))) (r' := .error (.parseError (some (.unit "X"))))
    (by unfold EpsilonLast; decide) (by decide +kernel)
  refine ⟨gi, prog, h, ?_, ?_, hr⟩
  · have key : ∀ s, gi.Terminal s → s = ⟨"X", .none⟩ := by
      rintro s ⟨r, hr, hs⟩
      rw [h1] at hr
      simp only [Sample.incomplete, List.mem_cons, List.not_mem_nil, or_false] at hr
      rcases hr with rfl | rfl | rfl | rfl <;> simp_all
    intro a s s' hs hs' _ _
    rw [key s hs, key s' hs']
  · have hg : gi.grammar = ⟨Sample.incomplete.map ARule.toLr⟩ := by unfold GrammarInfo.grammar; rw [h1]
    unfold GrammarInfo.Sentence
    rw [hg, h2]
    have hY : ∀ {f α w}, ParsesM (Sample.incomplete.map ARule.toLr)
        (Matches Sample.sem1 (.enum (.ident "Tok" .nil))) f α w →
        ParsesM (Sample.incomplete.map ARule.toLr) (Matches Sample.sem1 (.enum (.ident "Tok" .nil)))
          (.node 1 .nil f) (.production "Y" :: α) ([] ++ w) :=
      fun h => .prod (i := 1) (r := ⟨"Y", [.terminal .epsilon]⟩) rfl (.eps .nil) h
    have hA : ∀ {f α w}, ParsesM (Sample.incomplete.map ARule.toLr)
        (Matches Sample.sem1 (.enum (.ident "Tok" .nil))) f α w →
        ParsesM (Sample.incomplete.map ARule.toLr) (Matches Sample.sem1 (.enum (.ident "Tok" .nil)))
          (.node 3 .nil f) (.production "A" :: α) ([] ++ w) :=
      fun h => .prod (i := 3) (r := ⟨"A", [.terminal .epsilon]⟩) rfl (.eps .nil) h
    have hB := ParsesM.prod (P := Sample.incomplete.map ARule.toLr)
      (m := Matches Sample.sem1 (.enum (.ident "Tok" .nil))) (i := 2)
      (r := ⟨"B", [.production "A", .terminal (.token ⟨"X", .none⟩)]⟩) rfl
      (hA (.tok (a := .unit "X") .unit .nil)) .nil
    have hS := ParsesM.prod (P := Sample.incomplete.map ARule.toLr)
      (m := Matches Sample.sem1 (.enum (.ident "Tok" .nil))) (i := 0)
      (r := ⟨"S", [.production "Y", .production "B"]⟩) rfl (hY hB) .nil
    exact ⟨_, _, _, rfl, hS⟩

example : ∃ gi prog, Generated .id Sample.lexer gi prog ∧ gi.Disjoint Sample.sem ∧
    C07.ActionsComplete gi.grammar ∧ ∃ f, ParseTreeM gi.grammar (Matches Sample.sem gi.terminalType) f
      [.unit "Plus", .unit "Plus", .data "Num" 5] := by
  obtain ⟨gi, prog, h, h1, h2, hi, hp⟩ := Sample.generated
  exact ⟨gi, prog, h, Sample.disjoint h1 h2, (Sample.firstComplete h1).actions, Sample.sentence h hi hp⟩

end C19

namespace C20

/-- A token of the generated parser and a terminal of the simulator: `a` stands for `s` and for no other
terminal of the grammar (for none at all if `s` does not occur in the grammar). -/
def Corresponds (gi : GrammarInfo) (sem : Sem P V E σ) (a : Token P) (s : Sym) : Prop :=
  ∀ t, gi.Terminal t → (Matches sem gi.terminalType a t ↔ s = t)

theorem alike (h : Generated o lex gi prog) {a : Token P} {s : Sym} (hc : Corresponds gi sem a s) :
    ∀ k, tokMatch gi.indexedGrammar s k ↔ gi.tokMatch sem a k := by
  have hterm : ∀ t, t ∈ gi.indexedGrammar.vocab.idMap → gi.Terminal t := fun t ht => h.used ht
  intro k
  constructor
  · intro hk
    exact ⟨s, hk, (hc s (hterm s (List.mem_of_getElem? hk))).mpr rfl⟩
  · rintro ⟨t, hk, hm⟩
    have := (hc t (hterm t (List.mem_of_getElem? hk))).mp hm
    rw [this]; exact hk

/-- **C20.** On corresponding inputs, the simulator and a generated parser both finish. If the simulator
accepts, the generated parser returns a value or fails in a constructor; if the simulator rejects, it returns
a parse error or fails in a constructor. -/
theorem generated_and_simulator_agree (h : Generated o lex gi prog) (debug : Bool) (sem : Sem P V E σ)
    (into : F' → E) (items : Nat → Option (Item P F')) (W : List (Token P)) (w : List Sym) (w0 : σ)
    (hD : gi.Disjoint sem) (hW : ∀ i a, W[i]? = some a → items i = some (.ok a)) (hend : items W.length = none)
    (hc : List.Forall₂ (Corresponds gi sem) W w) :
    ∃ N b run, ∀ fuel ≥ N,
      ((SimParser.mk gi.indexedGrammar gi.lrTable).parseStream fuel w : Outcome (LRTableError Sym String) _) = .ok b ∧
      prog.parseFallible debug sem into items fuel w0 = .ok run ∧
      match b, run.result with
      | true, .ok _ => True
      | false, .error (.parseError _) => True
      | _, .error (.user _) => True
      | _, _ => False := by
  obtain ⟨N, run, hN⟩ := C03.generated_terminates_partial h debug sem into items W w0 (.inr (.inl hD)) hW
    (by rw [hend]; intro a; simp)
  obtain ⟨F, kt, hF, hx⟩ := h.ctx
  have hU := h.unique hD
  have hn := hx.good.noConflict
  have hal : Alike (tokMatch gi.indexedGrammar) (gi.tokMatch sem) w W := by
    clear hW hend hN
    induction hc with
    | nil => exact .nil
    | cons h1 _ ih => exact .cons (alike h h1) ih
  obtain ⟨c', tr', h1, h2⟩ := reaches_final (m := tokMatch gi.indexedGrammar) hx.good.rootOk
    hx.good.justified hx.good.noEos _ (.start w) rfl .nil
  have hM := loop_terminates (ε := LRTableError Sym String) hx.good h1 h2 .nil
  generalize tr'.length + (Config.start w).input.length + 1 = M at hM
  obtain ⟨ts', z', h3, h4⟩ := h1.alike (ts := []) (z := W) hal
  obtain ⟨c, tr, st, w1, res, hfin⟩ := hx.finish (hN N (Nat.le_refl _)) hW
    (.inr (by intro a; rw [hend]; simp))
  have hlen : W.length - c.input.length ≤ W.length := Nat.sub_le _ _
  have hnext := hfin.next
  have hno : ∀ f, st.next ≠ some (.error f) := by
    intro f e
    rw [hnext] at e
    rcases Nat.eq_or_lt_of_le hlen with e' | hlt
    · rw [e', hend] at e; cases e
    · rw [hW _ _ (List.getElem?_eq_getElem hlt)] at e; cases e
  have hfinal : Final gi.indexedGrammar.cfg F.NodesFirst (gi.tokMatch sem) ⟨c'.stack, ts', z'⟩ := by
    rcases h2 with h2 | h2
    · exact .inl (h4.accepting h2)
    · exact .inr (h4.stuck h2)
  obtain ⟨tr2, hs2⟩ := hfin.steps.before hn hU h3 hfinal
  have hsim : ∃ b, (∀ fuel ≥ M, ((SimParser.mk gi.indexedGrammar gi.lrTable).parseStream fuel w :
      Outcome (LRTableError Sym String) _) = .ok b) ∧
      ((b = true ∧ Accepting gi.indexedGrammar.cfg F.NodesFirst (gi.tokMatch sem) ⟨c'.stack, ts', z'⟩) ∨
       (b = false ∧ Stuck gi.indexedGrammar.cfg F.NodesFirst (gi.tokMatch sem) ⟨c'.stack, ts', z'⟩)) := by
    have hres : ∀ fuel ≥ M, ∃ b, ((SimParser.mk gi.indexedGrammar gi.lrTable).parseStream fuel w :
        Outcome (LRTableError Sym String) _) = .ok b ∧
        ((b = true ∧ Accepting gi.indexedGrammar.cfg F.NodesFirst (tokMatch gi.indexedGrammar) c') ∨
         (b = false ∧ Stuck gi.indexedGrammar.cfg F.NodesFirst (tokMatch gi.indexedGrammar) c')) := by
      intro fuel hfuel
      rcases loop_sim (ε := LRTableError Sym String) hx.good fuel (c := .start w) .nil with
        e | ⟨c2, tr2, k1, ⟨k2, e⟩ | ⟨k2, e⟩⟩
      · exact absurd e (hM fuel hfuel)
      · obtain ⟨rfl, -⟩ := k1.unique hn hx.good.unique (.inl k2) h1 h2
        exact ⟨true, e, .inl ⟨rfl, k2⟩⟩
      · obtain ⟨rfl, -⟩ := k1.unique hn hx.good.unique (.inr k2) h1 h2
        exact ⟨false, e, .inr ⟨rfl, k2⟩⟩
    obtain ⟨b, hb, hb'⟩ := hres M (Nat.le_refl _)
    refine ⟨b, fun fuel hfuel => loop_mono hfuel hb, ?_⟩
    rcases hb' with ⟨e, k⟩ | ⟨e, k⟩
    · exact .inl ⟨e, h4.accepting k⟩
    · exact .inr ⟨e, h4.stuck k⟩
  obtain ⟨b, hb, hb'⟩ := hsim
  refine ⟨max N M, b, run, fun fuel hfuel => ⟨hb fuel (by omega), hN fuel (by omega), ?_⟩⟩
  have hgen := hfin.gen
  have hAS : Accepting gi.indexedGrammar.cfg F.NodesFirst (gi.tokMatch sem) c →
      ¬ Stuck gi.indexedGrammar.cfg F.NodesFirst (gi.tokMatch sem) c :=
    fun h1 h2 => stuck_iff.mp h2 _ (accepting_iff.mp h1)
  rcases hfin.done with ⟨v', st', w', rfl, rfl⟩ | ⟨e, w', rfl, rfl⟩
  · cases hgen with
    | accept _ _ g1 g2 g3 g4 =>
      obtain ⟨rfl, -⟩ := hs2.final_eq hn hU (.inl g1)
      rcases hb' with ⟨rfl, -⟩ | ⟨-, k⟩
      · trivial
      · exact absurd k (hAS g1)
  · cases hgen with
    | stream g => exact absurd g (hno _)
    | overlap _ g => exact absurd g.2.2 (not_overlap_of_unique hU)
    | stuck _ _ g =>
      obtain ⟨rfl, -⟩ := hs2.final_eq hn hU (.inr g)
      rcases hb' with ⟨-, k⟩ | ⟨rfl, -⟩
      · exact absurd g (hAS k)
      · trivial
    | acceptFail => cases b <;> trivial
    | reduceFail => cases b <;> trivial

/-- Corresponding inputs of the sample grammar, with a token unknown to it at the end. -/
example : ∃ gi prog, Generated .id Sample.lexer gi prog ∧ gi.Disjoint Sample.sem ∧
    List.Forall₂ (Corresponds gi Sample.sem) [.unit "Plus", .data "Num" 5, .unit "Other"]
      [⟨"Plus", .none⟩, ⟨"Num", .wildcard⟩, ⟨"Other", .none⟩] := by
  obtain ⟨gi, prog, h, h1, h2, -⟩ := Sample.generated
  refine ⟨gi, prog, h, Sample.disjoint h1 h2, ?_⟩
  have key : ∀ s, gi.Terminal s → s = ⟨"Plus", .none⟩ ∨ s = ⟨"Num", .wildcard⟩ := by
    rintro s ⟨r, hr, hs⟩
    rw [h1] at hr
    simp only [Sample.rules, List.mem_cons, List.not_mem_nil, or_false] at hr
    rcases hr with rfl | rfl | rfl | rfl <;> simp_all
  have hM : ∀ a : Token Nat, ∀ s, Matches Sample.sem gi.terminalType a s → Sample.variant a = s.name :=
    fun a s hm => Sample.variant_eq (ty := .ident "Tok" .nil) (by rw [← h2]; exact hm)
  refine .cons ?_ (.cons ?_ (.cons ?_ .nil)) <;> intro t ht <;> rcases key t ht with rfl | rfl
  · exact ⟨fun _ => rfl, fun _ => by rw [h2]; exact .unit⟩
  · exact ⟨fun hm => absurd (hM _ _ hm) (by decide), fun e => absurd e (by decide)⟩
  · exact ⟨fun hm => absurd (hM _ _ hm) (by decide), fun e => absurd e (by decide)⟩
  · exact ⟨fun _ => rfl, fun _ => by rw [h2]; exact .any⟩
  · exact ⟨fun hm => absurd (hM _ _ hm) (by decide), fun e => absurd e (by decide)⟩
  · exact ⟨fun hm => absurd (hM _ _ hm) (by decide), fun e => absurd e (by decide)⟩

end C20

namespace C21

theorem _root_.Verif.GenCtx.read_is_prefix {F : FirstTable} {kt : KernelTable} (hc : GenCtx o lex gi prog F kt)
    (hg : IndexedGrammar.build gi.grammar = .ok gi.indexedGrammar) {debug : Bool} {sem : Sem P V E σ} {into : F' → E} {items : Nat → Option (Item P F')} {fuel : Nat} {w0 : σ}
    {run : Run P V E σ} {tok : Option (Token P)}
    (hrun : prog.parseFallible debug sem into items fuel w0 = .ok run)
    (he : run.result = .error (.parseError tok)) :
    ∃ u, (∀ i a, u[i]? = some a → items i = some (.ok a)) ∧ run.pulled = u.length + 1 ∧
      items u.length = tok.map .ok ∧ (gi.ProductiveRules sem → ∃ v, gi.Sentence sem (u ++ v)) := by
  obtain ⟨W, c, tr, st, w, res, hW, hf⟩ := hc.finish' hrun
  have hsane := Sane.start.steps hf.steps
  obtain ⟨u, -, h2⟩ := hsane.parses
  have hu : ∀ i a, u[i]? = some a → items i = some (.ok a) := by
    intro i a hi
    apply hW
    rw [h2, List.getElem?_append_left (List.getElem?_eq_some_iff.mp hi).1]
    exact hi
  have hlen : run.pulled = u.length + 1 := by
    have h3 := hf.pulled
    rw [hf.total]
    rw [h2, List.length_append] at h3
    omega
  have hnext : st.next = items u.length := by
    rw [hf.next]
    congr 1
    rw [h2, List.length_append]
    omega
  refine ⟨u, hu, hlen, ?_, ?_⟩
  · rcases hf.done with ⟨v', st', w', rfl, rfl⟩ | ⟨e', w', rfl, rfl⟩
    · cases he
    · cases he
      have hg := hf.gen
      generalize hx : StepResult.fail (ParseErr.parseError tok) w' = x at hg
      cases hg with
      | stuck g1 =>
        cases hx
        rw [← hnext]
        rcases hf.peek with ⟨f, hp⟩ | hp
        · exact absurd hp (g1 f)
        · exact hp
      | stream => cases hx
      | overlap => cases hx
      | shift => cases hx
      | reduce => cases hx
      | reduceFail => cases hx
      | accept => cases hx
      | acceptFail => cases hx
  · intro hp
    obtain ⟨r, hr, hr0⟩ := hc.good.root_rule
    have hpm : ProductiveM gi.indexedGrammar.cfg (gi.tokMatch sem) := by
      refine productiveM hc.enc gi.noEndMarker (fun t ht => ?_) fun r hr => ?_
      · obtain ⟨q, hq, hm⟩ := IndexedGrammar.build_used hg t ht
        obtain ⟨f, w, hfw⟩ := hp q hq
        exact ParsesM.matched hfw hm
      · obtain ⟨f, w, hfw⟩ := hp r hr
        obtain ⟨i, hi⟩ := List.mem_iff_getElem?.mp hr
        exact ⟨_, _, .prod hi hfw .nil⟩
    obtain ⟨u', f, v, h5, h6⟩ := hsane.prefix hpm hr
    rw [hr0] at h6
    have : u' = u := List.append_cancel_right (h5.symm.trans h2)
    subst this
    exact ⟨v, _, parseTreeM_dec hc.enc h6⟩

/-- **C21 (generated parsers).** A parse error reports the item after the tokens that have been shifted; if
every rule derives something, these tokens begin a sentence. -/
theorem generated_read_is_prefix (h : Generated o lex gi prog) (debug : Bool) (sem : Sem P V E σ)
    (into : F' → E) (items : Nat → Option (Item P F')) (fuel : Nat) (w0 : σ) (run : Run P V E σ)
    (tok : Option (Token P)) (hrun : prog.parseFallible debug sem into items fuel w0 = .ok run)
    (he : run.result = .error (.parseError tok)) :
    ∃ u, (∀ i a, u[i]? = some a → items i = some (.ok a)) ∧ run.pulled = u.length + 1 ∧
      items u.length = tok.map .ok ∧ (gi.ProductiveRules sem → ∃ v, gi.Sentence sem (u ++ v)) := by
  obtain ⟨F, kt, -, hc⟩ := h.ctx
  exact hc.read_is_prefix h.grammar hrun he

/-- The reported item cannot go on with a sentence, if no sentence gets a parse error. -/
theorem no_prefix_of_evaluated {debug : Bool} {sem : Sem P V E σ} {into : F' → E}
    {items : Nat → Option (Item P F')} {fuel : Nat} {w0 : σ} {run : Run P V E σ} {tok : Option (Token P)}
    (hev : ∀ W, gi.Sentence sem W → ∃ N run', (∀ fuel ≥ N, prog.parseFallible debug sem into
      (fun i => (W[i]? : Option (Token P)).map .ok) fuel w0 = .ok run') ∧ run'.result ≠ .error (.parseError tok))
    (hrun : prog.parseFallible debug sem into items fuel w0 = .ok run)
    (he : run.result = .error (.parseError tok)) {u : List (Token P)}
    (h1 : ∀ i a, u[i]? = some a → items i = some (.ok a)) (h2 : run.pulled = u.length + 1)
    (h3 : items u.length = tok.map .ok) :
    match tok with
    | none => ¬ gi.Sentence sem u
    | some a => ∀ v, ¬ gi.Sentence sem (u ++ a :: v) := by
  -- a sentence that agrees with the items pulled would have been evaluated
  have key : ∀ W, (∀ i < run.pulled, items i = (W[i]? : Option (Token P)).map .ok) → ¬ gi.Sentence sem W := by
    intro W hag hW
    obtain ⟨N, run', hN, hres⟩ := hev W hW
    have e1 := C24.unpulled_items_do_not_matter prog debug sem into items _ fuel w0 run hrun hag
    have e2 := hN (max N fuel) (by omega)
    have e3 : prog.parseFallible debug sem into (fun i => (W[i]? : Option (Token P)).map .ok)
      (max N fuel) w0 = .ok run := Program.loop_mono (by omega) e1
    rw [e2] at e3
    cases e3
    exact hres he
  cases tok with
  | none =>
    refine key u fun i hi => ?_
    rcases Nat.lt_or_ge i u.length with hlt | hge
    · rw [h1 i _ (List.getElem?_eq_getElem hlt), List.getElem?_eq_getElem hlt]; rfl
    · have : i = u.length := by omega
      subst this
      rw [h3, List.getElem?_eq_none (Nat.le_refl _)]
  | some a =>
    intro v
    refine key (u ++ a :: v) fun i hi => ?_
    rcases Nat.lt_or_ge i u.length with hlt | hge
    · rw [h1 i _ (List.getElem?_eq_getElem hlt), List.getElem?_append_left hlt,
        List.getElem?_eq_getElem hlt]; rfl
    · have : i = u.length := by omega
      subst this
      rw [h3, List.getElem?_append_right (Nat.le_refl _)]
      simp

/-- **C21 (generated parsers), partial.** If no action is missing and patterns are disjoint, no sentence starts
with the tokens that were shifted followed by the reported token; if the end of the input is reported, the
input is no sentence. -/
theorem generated_rejected_is_no_prefix_partial (h : Generated o lex gi prog) (debug : Bool)
    (sem : Sem P V E σ) (into : F' → E) (items : Nat → Option (Item P F')) (fuel : Nat) (w0 : σ)
    (run : Run P V E σ) (tok : Option (Token P)) (hD : gi.Disjoint sem) (hc : C07.ActionsComplete gi.grammar)
    (hrun : prog.parseFallible debug sem into items fuel w0 = .ok run)
    (he : run.result = .error (.parseError tok)) :
    ∃ u, (∀ i a, u[i]? = some a → items i = some (.ok a)) ∧ run.pulled = u.length + 1 ∧
      items u.length = tok.map .ok ∧
      match tok with
      | none => ¬ gi.Sentence sem u
      | some a => ∀ v, ¬ gi.Sentence sem (u ++ a :: v) := by
  obtain ⟨u, h1, h2, h3, -⟩ := generated_read_is_prefix h debug sem into items fuel w0 run tok hrun he
  refine ⟨u, h1, h2, h3, no_prefix_of_evaluated (fun W ⟨f, hf⟩ => ?_) hrun he h1 h2 h3⟩
  obtain ⟨N, run', hN, hres⟩ := C19.sentences_are_evaluated_partial h debug sem into
    (fun i => (W[i]? : Option (Token P)).map .ok) W f w0 hD hc (fun i a hi => by simp [hi]) (by simp) hf
  refine ⟨N, run', hN, ?_⟩
  rcases hres with ⟨v, -, hv⟩ | ⟨e, -, hv⟩ <;> rw [hv] <;> simp

/-- `Plus Num(1) Plus` is rejected by the sample parser at the last token. -/
example : ∃ gi prog run, Generated .id Sample.lexer gi prog ∧ gi.Disjoint Sample.sem ∧
    C07.ActionsComplete gi.grammar ∧ gi.ProductiveRules Sample.sem ∧
    prog.parseFallible true Sample.sem id
      (Sample.stream [.unit "Plus", .data "Num" 1, .unit "Plus"] none) 50 0 = .ok run ∧
    run.result = .error (.parseError (some (.unit "Plus"))) := by
  obtain ⟨gi, prog, h, h1, h2, hi, hp⟩ := Sample.generated
  obtain ⟨run, k1, k2, -⟩ := Sample.run_of hi hp Sample.rejected
  exact ⟨gi, prog, run, h, Sample.disjoint h1 h2, (Sample.firstComplete h1).actions, Sample.productive h1 h2, k1, k2⟩

end C21

namespace C22

/-- **C22 (generated parsers).** When a parse error is reported, then since the offending item was pulled
nothing has happened: every state of the run in which it is the lookahead has the final stack and the final
world. -/
theorem generated_no_constructor_before_rejection (h : Generated o lex gi prog) (debug : Bool)
    (sem : Sem P V E σ) (into : F' → E) (items : Nat → Option (Item P F')) (fuel : Nat) (w0 : σ)
    (run : Run P V E σ) (tok : Option (Token P))
    (hrun : prog.parseFallible debug sem into items fuel w0 = .ok run)
    (he : run.result = .error (.parseError tok)) (st : PState P V F') (w : σ)
    (hr : GenReach debug sem into items prog w0 st w) (hp : st.pulled = run.pulled) :
    st.stack = run.stack ∧ w = run.world := by
  obtain ⟨F, kt, -, hc⟩ := h.ctx
  have hn := hc.good.noConflict
  obtain ⟨hW, hend⟩ := begins_tokensOf items run.pulled
  obtain ⟨c, tr, st', w1, res, hf⟩ := hc.finish hrun hW hend
  rcases hf.done with ⟨v', st2, w', rfl, rfl⟩ | ⟨e', w', rfl, rfl⟩
  · cases he
  cases he
  have hstuck : ∀ d, Holds gi F kt sem w0 st'.stack w1 d →
      ((∃ f, st'.next = some (.error f)) ∨ st'.next = d.input.head?.map .ok) →
      w' = w1 ∧ Stuck gi.indexedGrammar.cfg F.NodesFirst (gi.tokMatch sem) d := by
    intro d hd hp
    obtain ⟨res, e, hg⟩ := hc.step (debug := debug) (into := into) (items := items) hd hp
    rw [hf.step] at e
    cases e
    generalize hx : StepResult.fail (ParseErr.parseError tok) w' = x at hg
    cases hg <;> cases hx
    rename_i g
    exact ⟨rfl, g⟩
  obtain ⟨n, h1⟩ := hr.after
  obtain ⟨n', h2⟩ := hf.reach.after
  rcases Nat.lt_trichotomy n n' with hlt | rfl | hlt
  · obtain ⟨k, rfl⟩ : ∃ k, n' = k + 1 := ⟨n' - 1, by omega⟩
    simp only [Program.after] at h2
    split at h2
    · rename_i st1 w2 h3
      split at h2
      · rename_i st3 w3 h4
        cases h2
        obtain ⟨st4, w4, h5, h6⟩ := Program.after_le (n := n) (by omega) h3
        rw [h1] at h5
        cases h5
        have hle : st'.pulled ≤ st1.pulled := by
          have := hf.total
          omega
        have hr1 := Program.after_reach h3
        obtain ⟨c1, tr1, res, k1, k2, k3, k4, k5, k6, k7⟩ := hc.reach_step hr1 hW
          (hend.imp_left fun hh => by
            rcases step_items h4 with ⟨_, e, -, -, k⟩ | ⟨⟨-, k⟩, -⟩
            · cases e; have := hf.total; omega
            · have := hf.total; omega)
        rw [h4] at k6
        cases k6
        cases k7 with
        | shift _ _ _ _ g5 _ => omega
        | @reduce c' i _ _ _ _ g3 g4 g5 g6 =>
          have hci : c'.input = c1.input := by cases g3; rfl
          exact absurd (hstuck c' g6 (by rw [g4, hci]; exact k5)).2
            (reduce_not_stuck hc.good.rootOk hc.good.justified hn g3 (NoDead.nil.steps k1))
      · cases h2
    · cases h2
  · rw [h1] at h2
    cases h2
    exact ⟨rfl, (hstuck c hf.holds hf.peek).1.symm⟩
  · obtain ⟨st4, w4, h5, -⟩ := Program.after_le (n := n' + 1) (by omega) h1
    simp only [Program.after, h2, hf.step] at h5
    cases h5

/-- The sample parser rejects the last token of `Plus Num(1) Plus`, having run no constructor. -/
example : ∃ gi prog run, Generated .id Sample.lexer gi prog ∧
    prog.parseFallible true Sample.sem id
      (Sample.stream [.unit "Plus", .data "Num" 1, .unit "Plus"] none) 50 0 = .ok run ∧
    run.result = .error (.parseError (some (.unit "Plus"))) ∧ run.world = 0 := by
  obtain ⟨gi, prog, h, h1, h2, hi, hp⟩ := Sample.generated
  obtain ⟨run, k1, k2, k3, -⟩ := Sample.run_of hi hp Sample.rejected
  exact ⟨gi, prog, run, h, k1, k2, k3⟩

end C22

namespace C27

/-- **C27.** If no token stands for two terminals, then parsers generated from the same grammar and table with
different iteration orders of hash maps (and even in different build modes) have the same results. -/
theorem hash_order_does_not_matter {o' : HashOrder} {lex' : Lexer} {prog' : Program}
    (h : Generated o lex gi prog) (h' : Generated o' lex' gi prog') (debug debug' : Bool) (sem : Sem P V E σ)
    (into : F' → E) (items : Nat → Option (Item P F')) (fuel : Nat) (w0 : σ) (hD : gi.Disjoint sem) :
    prog.parseFallible debug sem into items fuel w0 = prog'.parseFallible debug' sem into items fuel w0 := by
  obtain ⟨F, kt, -, hc⟩ := h.ctx
  exact hc.loop_eq (h'.ctx_of hc.fit) (fun c => not_overlap_of_unique (h.unique hD)) fuel .start

/-- Two iteration orders for the sample grammar, one the reverse of the other. -/
example : ∃ gi prog prog', Generated .id Sample.lexer gi prog ∧
    Generated ⟨fun _ l => l.reverse, fun _ l => l.reverse_perm⟩ Sample.lexer gi prog' ∧
    gi.Disjoint Sample.sem := by
  have h : (do
      let gi ← Sample.info
      match generateParser ⟨fun _ l => l.reverse, fun _ l => l.reverse_perm⟩ Sample.lexer gi with
      | .ok prog => pure (Sample.compilesB prog)
      | _ => pure false) = Outcome.ok true := by decide +kernel
  obtain ⟨gi, prog, hG, h1, h2, hi, hp⟩ := Sample.generated
  rw [hi, Outcome.ok_bind] at h
  split at h
  · rename_i prog' hp'
    simp only [Outcome.pure_eq, Outcome.ok.injEq] at h
    exact ⟨gi, prog, prog', hG, ⟨hG.grammar, hG.table, hG.epsilonLast, hp', Sample.compiles_of h⟩,
      Sample.disjoint h1 h2⟩
  · cases h

end C27

namespace C28

/-- Two of the state's lookahead patterns match the token. -/
def Overlap (gi : GrammarInfo) (sem : Sem P V E σ) (s : Nat) (a : Token P) : Prop :=
  ∃ acts t t' x y, (gi.lrTable.stateActions gi.indexedGrammar s : Outcome MacroError _) = .ok acts ∧ t ≠ t' ∧
    (.token t, x) ∈ acts ∧ (.token t', y) ∈ acts ∧
    Matches sem gi.terminalType a t ∧ Matches sem gi.terminalType a t'

theorem overlap_iff {F : FirstTable} {kt : KernelTable} (hc : GenCtx o lex gi prog F kt)
    {c : Config Nat Nat (Token P)} {s : Nat} (hs : At gi.indexedGrammar F kt c.stack s) {a : Token P}
    {z : List (Token P)} (hz : c.input = a :: z) :
    OverlapAt gi.indexedGrammar.cfg F.NodesFirst (gi.tokMatch sem) c ↔ Overlap gi sem s a := by
  obtain ⟨acts, h1, h2, -⟩ := hc.fit.built.stateActions_eq (ε := MacroError) (hc.fit.entries hs).lt
  have key : ∀ t, (∃ x, (.token t, x) ∈ acts) ↔ ∃ k, gi.indexedGrammar.vocab.idMap[k]? = some t ∧
      ∃ act, Demands gi.indexedGrammar.cfg F.NodesFirst c.stack (.token k) act := by
    intro t
    constructor
    · rintro ⟨x, hx⟩
      obtain ⟨id, h3, h4⟩ := (h2 _ _).mp hx
      cases id with
      | token k =>
        simp only [Vocab.idToToken, Outcome.bind_eq_ok, Outcome.index_eq_ok] at h4
        obtain ⟨t', h5, h6⟩ := h4
        cases h6
        exact ⟨k, h5, (hc.fit.demands_iff hs h3.1).mp ⟨_, h3⟩⟩
      | epsilon => cases h4
      | eos => cases h4
    · rintro ⟨k, hk, hd⟩
      have hlt : Label.id (.token k : AugTokId) < gi.indexedGrammar.vocab.size := by
        have := (List.getElem?_eq_some_iff.mp hk).1
        simp only [Label.id, Vocab.size]; omega
      obtain ⟨act, h3⟩ := (hc.fit.demands_iff hs hlt).mpr hd
      refine ⟨act, (h2 _ _).mpr ⟨_, h3, ?_⟩⟩
      simp only [Vocab.idToToken, Outcome.bind_eq_ok, Outcome.index_eq_ok]
      exact ⟨t, hk, rfl⟩
  constructor
  · rintro ⟨a', z', k, k', hz', hne, ⟨t, hk, hm⟩, ⟨t', hk', hm'⟩, hd, hd'⟩
    rw [hz] at hz'
    cases hz'
    obtain ⟨x, hx⟩ := (key t).mpr ⟨k, hk, hd⟩
    obtain ⟨y, hy⟩ := (key t').mpr ⟨k', hk', hd'⟩
    refine ⟨acts, t, t', x, y, h1, ?_, hx, hy, hm, hm'⟩
    rintro rfl
    exact hne (getElem?_inj_of_nodup hc.fit.vocab.nodup hk hk')
  · rintro ⟨acts', t, t', x, y, e, hne, hx, hy, hm, hm'⟩
    rw [h1] at e
    cases e
    obtain ⟨k, hk, hd⟩ := (key t).mp ⟨x, hx⟩
    obtain ⟨k', hk', hd'⟩ := (key t').mp ⟨y, hy⟩
    refine ⟨a, z, k, k', hz, ?_, ⟨t, hk, hm⟩, ⟨t', hk', hm'⟩, hd, hd'⟩
    rintro rfl
    rw [hk] at hk'
    cases hk'
    exact hne rfl

/-- **C28.** In any state of a run, the lookahead is reported as overlapping exactly if debug assertions are
enabled, the terminals are an enum, and two of the state's lookahead patterns match it. -/
theorem overlap_is_reported (h : Generated o lex gi prog) (debug : Bool) (sem : Sem P V E σ)
    (into : F' → E) (items : Nat → Option (Item P F')) (w0 w : σ) (st : PState P V F') (s : Nat) (v : Val P V)
    (rest : List (Nat × Val P V)) (a : Token P) (hr : GenReach debug sem into items prog w0 st w)
    (hs : st.stack = (s, v) :: rest) (ha : st.next = some (.ok a)) :
    (prog.step debug sem into items st w = .ok (.fail (.overlapping (some a)) w)) ↔
      debug = true ∧ (∃ ty, gi.terminalType = .enum ty) ∧ Overlap gi sem s a := by
  obtain ⟨F, kt, -, hc⟩ := h.ctx
  obtain ⟨hW, hend⟩ := begins_tokensOf items st.pulled
  obtain ⟨c, tr, res, h1, h2, h3, h4, h5, h6, h7⟩ := hc.reach_step hr hW hend
  have hin : ∃ z, c.input = a :: z := by
    rcases h5 with ⟨f, e⟩ | e
    · rw [ha] at e; cases e
    · rw [ha] at e
      cases hz : c.input with
      | nil => rw [hz] at e; cases e
      | cons b z => rw [hz] at e; cases e; exact ⟨z, rfl⟩
  obtain ⟨z, hz⟩ := hin
  have hat : At gi.indexedGrammar F kt c.stack s := by
    obtain ⟨vs, hg, -⟩ := h2
    obtain ⟨s', v', rest', e, hat⟩ := hg.top hc.fit
    rw [hs] at e
    cases e
    exact hat
  have hrep : Reported debug gi F sem c ↔
      debug = true ∧ (∃ ty, gi.terminalType = .enum ty) ∧ Overlap gi sem s a := by
    unfold Reported
    rw [overlap_iff hc hat hz]
    have : gi.terminalType.isEnum = true ↔ ∃ ty, gi.terminalType = .enum ty := by
      cases gi.terminalType <;> simp [TerminalType.isEnum]
    rw [this]
  rw [← hrep, h6]
  constructor
  · intro e
    cases e
    generalize hx : StepResult.fail (ParseErr.overlapping (some a)) w = x at h7
    cases h7 with
    | overlap _ g => exact g
    | stuck => cases hx
    | stream => cases hx
    | shift => cases hx
    | reduce => cases hx
    | reduceFail => cases hx
    | accept => cases hx
    | acceptFail => cases hx
  · intro hrp
    have hno : ∀ f, st.next ≠ some (.error f) := by intro f e; rw [ha] at e; cases e
    cases h7 with
    | overlap _ g => rw [hz]; rfl
    | stream g => exact absurd g (hno _)
    | shift _ g => exact absurd hrp g
    | reduce _ g => exact absurd hrp g
    | reduceFail _ g => exact absurd hrp g
    | accept _ g => exact absurd hrp g
    | acceptFail _ g => exact absurd hrp g
    | stuck _ g => exact absurd hrp g

/-- **C28.** If debug runs report no overlap, debug and release runs are the same. -/
theorem release_is_debug (h : Generated o lex gi prog) (sem : Sem P V E σ) (into : F' → E)
    (items : Nat → Option (Item P F')) (fuel : Nat) (w0 : σ)
    (hno : ∀ run tok, prog.parseFallible true sem into items fuel w0 = .ok run →
      run.result ≠ .error (.overlapping tok)) :
    prog.parseFallible true sem into items fuel w0 = prog.parseFallible false sem into items fuel w0 := by
  obtain ⟨F, kt, -, hc⟩ := h.ctx
  have key : ∀ fuel, ∀ {st : PState P V F'} {w : σ}, GenReach true sem into items prog w0 st w →
      (∀ run tok, prog.loop true sem into items fuel st w = .ok run →
        run.result ≠ .error (.overlapping tok)) →
      prog.loop true sem into items fuel st w = prog.loop false sem into items fuel st w := by
    intro fuel
    induction fuel with
    | zero => intro st w _ _; rfl
    | succ fuel ih =>
      intro st w hr hn
      obtain ⟨hW, hend⟩ := begins_tokensOf items st.pulled
      obtain ⟨c, tr, res, h1, h2, h3, h4, h5, h6, h7⟩ := hc.reach_step hr hW hend
      unfold Program.loop at hn ⊢
      rw [h6, Outcome.ok_bind] at hn ⊢
      rw [step_release h6 ?_, Outcome.ok_bind]
      · cases res with
        | next st' w' => exact ih (.step hr h6) hn
        | accept v st' w' => rfl
        | fail e w => rfl
      · rintro t w' rfl
        exact hn _ t rfl rfl
  exact key fuel .start hno

/-- `S => A; A => Num(1) | Num(..) X`: on `Num(1)` debug builds report the overlap, release builds accept. -/
example : ∃ gi prog, Generated .id Sample.lexer gi prog ∧
    (∃ run, prog.parseFallible true Sample.sem1 id (Sample.stream [.data "Num" 1] none) 50 0 = .ok run ∧
      run.result = .error (.overlapping (some (.data "Num" 1)))) ∧
    ∃ run, prog.parseFallible false Sample.sem1 id (Sample.stream [.data "Num" 1] none) 50 0 = .ok run ∧
      run.result = .ok .unit := by
  obtain ⟨gi, prog, h, -, -, -, h1, h2⟩ := Sample.runs_ok (o := .id) (rules := Sample.overlapping)
    (labels := ["S", "A"]) (sem := Sample.sem1) (ts := [.data "Num" 1])
    (r := .error (.overlapping (some (.data "Num" 1)))) (r' := .ok .unit)
    (by unfold EpsilonLast; decide) (by decide +kernel)
  exact ⟨gi, prog, h, h1, h2⟩

/-- On `Num(2) X` there is no overlap. -/
example : ∃ gi prog, Generated .id Sample.lexer gi prog ∧
    ∃ run, prog.parseFallible true Sample.sem1 id (Sample.stream [.data "Num" 2, .unit "X"] none) 50 0 = .ok run ∧
      run.result = .ok .unit := by
  obtain ⟨gi, prog, h, -, -, -, h1, -⟩ := Sample.runs_ok (o := .id) (rules := Sample.overlapping)
    (labels := ["S", "A"]) (sem := Sample.sem1) (ts := [.data "Num" 2, .unit "X"])
    (r := .ok .unit) (r' := .ok .unit) (by unfold EpsilonLast; decide) (by decide +kernel)
  exact ⟨gi, prog, h, h1⟩

end C28
end
end Verif
