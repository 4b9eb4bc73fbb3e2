import Verif.Props.OrderSample
import Verif.Spec.Extend

/-!
# C72: adding rules to a grammar
-/

set_option linter.unusedSectionVars false
set_option autoImplicit false

namespace Verif
open Spec

namespace C72

section
variable {T L : Type} [DecidableEq T] [DecidableEq L] {ρ : Nat → Nat} {g g' : Grammar T L}

theorem cons {α : Type} {a : α} {rs rs' : List α} (h : Extends ρ (a :: rs) rs') : ∃ rs1, rs' = a :: rs1 := by
  have := h.get 0 a rfl
  rw [h.root] at this
  cases rs' with
  | nil => cases this
  | cons b rs1 =>
    simp only [List.getElem?_cons_zero, Option.some.injEq] at this
    exact ⟨rs1, by rw [this]⟩

theorem language (h : Extends ρ g.productions g'.productions) {w : List T} (hw : Language g w) : Language g' w := by
  obtain ⟨root, rest, e, hd⟩ := hw
  have h' := h
  rw [e] at h'
  obtain ⟨rest', e'⟩ := cons h'
  exact ⟨root, rest', e', h.derives hd⟩

/-- FIRST sets grow. -/
theorem first_grows (h : Extends ρ g.productions g'.productions) (α : List (Node T L)) (t : AugTok T)
    (hf : seqFirst (Recorded g) α t) : InFirst g'.productions α t := h.inFirst (C07.seqFirst_sound hf)

theorem rootNotRecursive (h : Extends ρ g.productions g'.productions) (hr : RootNotRecursive g') :
    RootNotRecursive g := by
  intro root rest e
  have h' := h
  rw [e] at h'
  obtain ⟨rest', e'⟩ := cons h'
  exact hr root rest' e'

/-- A table stands for a grammar without conflicts. -/
theorem noConflict_of_table {ig : IndexedGrammar T L} {t : LRTable} {n : Nat} (hg : IndexedGrammar.build g = .ok ig)
    (he : EpsilonLast g) (ht : LRTable.build n ig = .ok t) : NoConflict g.productions (seqFirst (Recorded g)) := by
  have henc := (IndexedGrammar.build_ok hg).1
  obtain ⟨kt, hkt⟩ := build_eq.mp ht
  obtain ⟨F, hF, hres, hB⟩ := built_of_ok henc.wf hkt
  exact (noConflict_iff henc (sameFirst_recorded hg hF)).mp (hB.noConflict henc.wf hres.wf (henc.epsLast he))

/-- **C72 (conflicts), partial.** If the table of a grammar is built, then so is the table of every grammar with some of
its rules (and the same root rule) that uses its labels correctly. (Missing: grammars with missing actions,
for which this is false.) -/
theorem removing_rules_keeps_table_partial {ig ig' : IndexedGrammar T L} {t' : LRTable} {n : Nat}
    (h : Extends ρ g.productions g'.productions) (he : EpsilonLast g') (hr : RootNotRecursive g')
    (hc : C07.ActionsComplete g') (hg : IndexedGrammar.build g = .ok ig) (hg' : IndexedGrammar.build g' = .ok ig')
    (ht : LRTable.build n ig' = .ok t') : ∃ N, ∀ fuel ≥ N, ∃ t, LRTable.build fuel ig = .ok t := by
  obtain ⟨N, hN⟩ := C13.conflict_error_iff_user hg (fun r hr => he r (h.mem hr)) (rootNotRecursive h hr)
  exact ⟨N, fun fuel hf => (hN fuel hf).2.mpr (h.noConflict (first_grows h)
    (hc.noConflict.mp (noConflict_of_table hg' he ht)))⟩

/-- **C72 (simulator), partial.** What the parser of a grammar accepts is also accepted by the parser of a grammar with
more rules. (Missing: larger grammars with missing actions, for which this is false.) -/
theorem adding_rules_keeps_sentences_partial {p p' : SimParser T L} (h : Extends ρ g.productions g'.productions)
    (hg' : WellFormed g') (hc : C07.ActionsComplete g') {n n' m : Nat} (hp : SimParser.new n g = .ok p)
    (hp' : SimParser.new n' g' = .ok p') (w : List T)
    (ha : (p.parseStream m w : Outcome (LRTableError T L) _) = .ok true) :
    ∃ N, ∀ fuel ≥ N, (p'.parseStream fuel w : Outcome (LRTableError T L) _) = .ok true := by
  have hg : WellFormed g := ⟨fun r hr => hg'.epsilonLast r (h.mem hr), fun r hr => hg'.noEndMarker r (h.mem hr)⟩
  exact C02.accepts_all_sentences_partial g' p' n' w hg' hc hp' (language h (C01.accepts_only_sentences g p n m w hg hp ha))

end

section
variable {P V E F' σ : Type} [DecidableEq P] {lex : Lexer} {o o' : HashOrder} {gi gi' : GrammarInfo}
  {prog prog' : Program} {ρ : Nat → Nat} {sem sem' : Sem P V E σ}

/-- The constructor of a rule does not depend on the other rules. -/
theorem construct_congr {i j : Nat} {r : ARule} (hr : gi.productionRules[i]? = some r)
    (hr' : gi'.productionRules[j]? = some r) (hb : sem'.body j = sem.body i) (hc : sem'.conv j = sem.conv i) :
    construct gi' sem' j = construct gi sem i := by
  funext vs w
  unfold construct
  rw [hr', hr]
  have h1 : (gi.productionRule i : Outcome MacroError _) = .ok r := Outcome.index_eq_ok.mpr hr
  have h2 : (gi'.productionRule j : Outcome MacroError _) = .ok r := Outcome.index_eq_ok.mpr hr'
  dsimp only
  unfold buildConstructor
  rw [h1, h2]
  simp only [Outcome.ok_bind]
  cases hbl : r.block with
  | some b =>
    obtain ⟨d, body⟩ := b
    simp only [rewriteProvided]
    by_cases hd : d ≠ .brace
    · simp only [if_pos hd]
    · simp only [if_neg hd]
      cases (SubstMap.build r.rule).substituteVars r.rule body <;> simp [hb]
  | none =>
    dsimp only
    by_cases h1 : r.returnType.isSome = true
    · simp only [if_pos h1]
      by_cases h2 : r.rule.length ≠ 1
      · simp only [if_pos h2]
      · simp only [if_neg h2, Outcome.pure_eq, hc]
    · simp only [if_neg h1, Outcome.pure_eq]

theorem construct_extend (h : Extends ρ gi.productionRules gi'.productionRules) (hs : KeptMeaning ρ sem sem') {i : Nat}
    {r : ARule} (hr : gi.productionRules[i]? = some r) : construct gi' sem' (ρ i) = construct gi sem i :=
  construct_congr hr (h.get _ _ hr) (hs.body i) (hs.conv i)

theorem matches_congr (h1 : sem'.litVal = sem.litVal) (h2 : sem'.pat = sem.pat) {tt : TerminalType} :
    Matches sem tt = Matches sem' tt := by
  funext a s
  refine propext ⟨fun hm => ?_, fun hm => ?_⟩
  · cases hm with
    | lit => rw [← h1]; exact .lit
    | unit => exact .unit
    | any => exact .any
    | data h => exact .data (by rw [h2]; exact h)
  · cases hm with
    | lit => rw [h1]; exact .lit
    | unit => exact .unit
    | any => exact .any
    | data h => exact .data (by rw [← h2]; exact h)

theorem matches_extend (hs : KeptMeaning ρ sem sem') {tt : TerminalType} : Matches sem tt = Matches sem' tt :=
  matches_congr hs.litVal hs.pat

/-- A tree has the same value in the larger grammar. -/
theorem value_extend (h : Extends ρ gi.productionRules gi'.productionRules) (hs : KeptMeaning ρ sem sem')
    {m : Token P → Sym → Prop} {f : Forest (Token P)} {α : List (Node Sym String)} {W : List (Token P)}
    (hp : ParsesM gi.grammar.productions m f α W) (w : σ) : value gi' sem' (f.mapRules ρ) w = value gi sem f w := by
  unfold value
  induction hp generalizing w with
  | nil => rfl
  | tok _ _ ih => simp only [Forest.mapRules, eval, ih]
  | eps _ ih => exact ih w
  | @prod i r c f α u v hr _ _ ih1 ih2 =>
    have hr' : (gi.productionRules.map ARule.toLr)[i]? = some r := hr
    rw [List.getElem?_map, Option.map_eq_some_iff] at hr'
    obtain ⟨ar, har, -⟩ := hr'
    simp only [Forest.mapRules, eval, ih1, ih2, construct_extend h hs har]

theorem tree_extend (h : Extends ρ gi.productionRules gi'.productionRules) (ht : gi'.terminalType = gi.terminalType)
    (hs : KeptMeaning ρ sem sem') {f : Forest (Token P)} {W : List (Token P)}
    (hf : ParseTreeM gi.grammar (Matches sem gi.terminalType) f W) :
    ParseTreeM gi'.grammar (Matches sem' gi'.terminalType) (f.mapRules ρ) W := by
  obtain ⟨root, rest, e, hd⟩ := hf
  have hm : Extends ρ gi.grammar.productions gi'.grammar.productions := h.map ARule.toLr
  have h' := hm
  rw [e] at h'
  obtain ⟨rest', e'⟩ := cons h'
  refine ⟨root, rest', e', ?_⟩
  rw [ht, ← matches_extend hs]
  exact hm.parsesM hd

theorem disjoint_of_extend (h : Extends ρ gi.productionRules gi'.productionRules) (ht : gi'.terminalType = gi.terminalType)
    (hs : KeptMeaning ρ sem sem') (hD : gi'.Disjoint sem') : gi.Disjoint sem := by
  rintro a s s' ⟨r, hr, h1⟩ ⟨r', hr', h2⟩ h3 h4
  refine hD a s s' ⟨r, h.mem hr, h1⟩ ⟨r', h.mem hr', h2⟩ ?_ ?_ <;> rw [ht, ← matches_extend hs] <;> assumption

/-- **C72 (generated parsers), partial.** What the parser of a grammar turns into a value is turned into the same value,
with the same effects, by the parser of a grammar with more rules. (Missing: larger grammars with missing
actions, for which this is false.) -/
theorem adding_rules_keeps_values_partial (hG : Generated o lex gi prog) (hG' : Generated o' lex gi' prog')
    (h : Extends ρ gi.productionRules gi'.productionRules) (ht : gi'.terminalType = gi.terminalType)
    (hs : KeptMeaning ρ sem sem') (hD : gi'.Disjoint sem') (hc : C07.ActionsComplete gi'.grammar) (debug debug' : Bool)
    (into : F' → E) (items : Nat → Option (Item P F')) (fuel : Nat) (w0 : σ) (run : Run P V E σ) (v : Val P V)
    (hrun : prog.parseFallible debug sem into items fuel w0 = .ok run) (hv : run.result = .ok v) :
    ∃ N run', (∀ fuel' ≥ N, prog'.parseFallible debug' sem' into items fuel' w0 = .ok run') ∧ run'.result = .ok v ∧
      run'.world = run.world := by
  obtain ⟨W, f, h1, h2, h3, h4⟩ := C18.ok_is_value_of_tree hG debug sem into items fuel w0 run v hrun hv
  obtain ⟨N, run', hN, hres⟩ := C19.sentences_are_evaluated_partial hG' debug' sem' into items W _ w0 hD hc h1 h2
    (tree_extend h ht hs h3)
  obtain ⟨root, rest, -, hd⟩ := h3
  rw [value_extend h hs hd, h4] at hres
  refine ⟨N, run', hN, ?_⟩
  rcases hres with ⟨v', e1, e2⟩ | ⟨e, e1, e2⟩
  · simp only [Prod.mk.injEq, Except.ok.injEq, List.cons.injEq, and_true] at e1
    exact ⟨by rw [e2, e1.1], e1.2.symm⟩
  · cases e1

/-- **C72 (sentences), partial.** On the sentences of the smaller grammar both parsers do the same: the same value or the
same error of a constructor, after the same effects. -/
theorem old_sentences_alike_partial (hG : Generated o lex gi prog) (hG' : Generated o' lex gi' prog')
    (h : Extends ρ gi.productionRules gi'.productionRules) (ht : gi'.terminalType = gi.terminalType)
    (hs : KeptMeaning ρ sem sem') (hD : gi'.Disjoint sem') (hc : C07.ActionsComplete gi.grammar)
    (hc' : C07.ActionsComplete gi'.grammar) (debug debug' : Bool) (into : F' → E) (items : Nat → Option (Item P F'))
    (W : List (Token P)) (w0 : σ) (hW : ∀ i a, W[i]? = some a → items i = some (.ok a)) (hend : items W.length = none)
    (hS : gi.Sentence sem W) :
    ∃ N run run', (∀ fuel ≥ N, prog.parseFallible debug sem into items fuel w0 = .ok run ∧
        prog'.parseFallible debug' sem' into items fuel w0 = .ok run') ∧
      run'.result = run.result ∧ run'.world = run.world := by
  obtain ⟨f, hf⟩ := hS
  obtain ⟨N, run, hN, hres⟩ := C19.sentences_are_evaluated_partial hG debug sem into items W f w0
    (disjoint_of_extend h ht hs hD) hc hW hend hf
  obtain ⟨N', run', hN', hres'⟩ := C19.sentences_are_evaluated_partial hG' debug' sem' into items W _ w0 hD hc' hW hend
    (tree_extend h ht hs hf)
  obtain ⟨root, rest, -, hd⟩ := hf
  rw [value_extend h hs hd] at hres'
  refine ⟨max N N', run, run', fun fuel hf => ⟨hN fuel (by omega), hN' fuel (by omega)⟩, ?_⟩
  rcases hres with ⟨v, e1, e2⟩ | ⟨e, e1, e2⟩ <;> rcases hres' with ⟨v', e1', e2'⟩ | ⟨e', e1', e2'⟩ <;>
    rw [e1] at e1' <;> simp only [Prod.mk.injEq, Except.ok.injEq, Except.error.injEq, List.cons.injEq, and_true,
      reduceCtorEq, false_and] at e1'
  · exact ⟨by rw [e2, e2', e1'.1], e1'.2.symm⟩
  · exact ⟨by rw [e2, e2', e1'.1], e1'.2.symm⟩

/-- **C72 (errors), partial.** With more rules, a parse error is not reported earlier. -/
theorem errors_not_earlier_partial (hG : Generated o lex gi prog) (hG' : Generated o' lex gi' prog')
    (h : Extends ρ gi.productionRules gi'.productionRules) (ht : gi'.terminalType = gi.terminalType)
    (hs : KeptMeaning ρ sem sem') (hD : gi'.Disjoint sem') (hp : gi.ProductiveRules sem)
    (hc : C07.ActionsComplete gi'.grammar) (debug debug' : Bool) (into : F' → E) (items : Nat → Option (Item P F'))
    (fuel fuel' : Nat) (w0 : σ) (run run' : Run P V E σ) (tok tok' : Option (Token P))
    (hrun : prog.parseFallible debug sem into items fuel w0 = .ok run)
    (hrun' : prog'.parseFallible debug' sem' into items fuel' w0 = .ok run')
    (he : run.result = .error (.parseError tok)) (he' : run'.result = .error (.parseError tok')) :
    run.pulled ≤ run'.pulled := by
  obtain ⟨u, h1, h2, h3, h4⟩ := C21.generated_read_is_prefix hG debug sem into items fuel w0 run tok hrun he
  obtain ⟨u', k1, k2, k3, k4⟩ := C21.generated_rejected_is_no_prefix_partial hG' debug' sem' into items fuel' w0 run' tok'
    hD hc hrun' he'
  obtain ⟨v, f, hf⟩ := h4 hp
  have hS : gi'.Sentence sem' (u ++ v) := ⟨_, tree_extend h ht hs hf⟩
  rw [h2, k2]
  by_contra hlt
  have hlt : u'.length < u.length := by omega
  have hx := h1 _ _ (List.getElem?_eq_getElem hlt)
  rw [k3] at hx
  cases tok' with
  | none => cases hx
  | some a =>
    simp only [Option.map_some, Option.some.injEq, Except.ok.injEq] at hx
    have hu : u = u' ++ a :: u.drop (u'.length + 1) := by
      have hpre : u.take u'.length = u' := by
        apply List.ext_getElem?
        intro i
        rcases Nat.lt_or_ge i u'.length with hi | hi
        · rw [List.getElem?_take_of_lt hi]
          have e1 := h1 i _ (List.getElem?_eq_getElem (by omega))
          have e2 := k1 i _ (List.getElem?_eq_getElem hi)
          rw [e1] at e2
          simp only [Option.some.injEq, Except.ok.injEq] at e2
          rw [List.getElem?_eq_getElem hi, List.getElem?_eq_getElem (by omega), e2]
        · rw [List.getElem?_eq_none (by simp; omega), List.getElem?_eq_none hi]
      rw [hx]
      conv_lhs => rw [← List.take_append_drop u'.length u, hpre, List.drop_eq_getElem_cons hlt]
    refine k4 (u.drop (u'.length + 1) ++ v) ?_
    have : u' ++ a :: (u.drop (u'.length + 1) ++ v) = u ++ v := by
      conv_rhs => rw [hu]
      simp
    rw [this]
    exact hS

end

/-! ### Samples -/

/-- Room for one more rule after the root rule. -/
def insertAt1 : Nat → Nat
  | 0 => 0
  | i + 1 => i + 2

theorem extends_insert {α : Type} (a b : α) (rs : List α) : Extends insertAt1 (a :: rs) (a :: b :: rs) where
  root := rfl
  inj i j e := by cases i <;> cases j <;> simp [insertAt1] at e ⊢; exact e
  get i r hr := by cases i <;> simpa [insertAt1] using hr

theorem extends_append {α : Type} (rs rs' : List α) : Extends id rs (rs ++ rs') where
  root := rfl
  inj _ _ e := e
  get i r hr := by
    rw [id, List.getElem?_append_left (List.getElem?_eq_some_iff.mp hr).1]
    exact hr

/-- The sample grammar with a rule for `Minus`. -/
def withMinus : List ARule :=
  [⟨"S", some (.ident "T" .nil), [.production "L"], some (.brace, Sample.hash "L")⟩,
   ⟨"L", some (.ident "T" .nil), [.symbol ⟨"Minus", .none⟩, .production "L"], some (.brace, Sample.hash "L")⟩] ++
  Sample.rules.drop 1

theorem withMinus_extends : Extends insertAt1 Sample.rules withMinus := extends_insert _ _ _

/-- Constructors that tell the rules apart. -/
def telling : Sem Nat Nat String Nat := { Sample.sem with body := fun i _ _ w => (.ok (.user i), w) }

/-- The same constructors after the new rule has been added. -/
def telling' : Sem Nat Nat String Nat := { telling with
  body := fun i _ _ w => (.ok (.user (if i = 0 then 0 else if i = 1 then 100 else i - 1)), w)
  conv := fun i => telling.conv (if i = 0 then 0 else if i = 1 then 100 else i - 1) }

theorem telling_kept : KeptMeaning insertAt1 telling telling' where
  litVal := rfl
  pat := rfl
  body i := by cases i <;> rfl
  conv i := by cases i <;> rfl

theorem withMinus_disjoint {gi : GrammarInfo} (h1 : gi.productionRules = withMinus)
    (h2 : gi.terminalType = .enum (.ident "Tok" .nil)) : gi.Disjoint telling' := by
  intro a s s' ⟨r, hr, hs⟩ ⟨r', hr', hs'⟩ m1 m2
  have key : ∀ r ∈ withMinus, ∀ s, .symbol s ∈ r.rule →
      s = ⟨"Plus", .none⟩ ∨ s = ⟨"Num", .wildcard⟩ ∨ s = ⟨"Minus", .none⟩ := by
    intro r hr s hs
    simp only [withMinus, Sample.rules, List.drop_succ_cons, List.drop_zero, List.cons_append, List.nil_append,
      List.mem_cons, List.not_mem_nil, or_false] at hr
    rcases hr with rfl | rfl | rfl | rfl | rfl <;> simp_all
  rw [h2] at m1 m2
  rw [h1] at hr hr'
  have hn := (Sample.variant_eq m1).symm.trans (Sample.variant_eq m2)
  rcases key r hr s hs with rfl | rfl | rfl <;> rcases key r' hr' s' hs' with rfl | rfl | rfl <;> simp at hn ⊢

/-- The hypotheses are met by the sample and the sample with a rule for `Minus`: `Plus Num(5)` has the same value, and
`Minus Num(5)`, which was rejected, has one. -/
example : ∃ (gi : GrammarInfo) (prog : Program) (gi' : GrammarInfo) (prog' : Program),
    Generated .id Sample.lexer gi prog ∧ Generated .id Sample.lexer gi' prog' ∧
      Extends insertAt1 gi.productionRules gi'.productionRules ∧ gi'.terminalType = gi.terminalType ∧
      KeptMeaning insertAt1 telling telling' ∧ gi'.Disjoint telling' ∧ C07.ActionsComplete gi.grammar ∧
      C07.ActionsComplete gi'.grammar ∧ gi.ProductiveRules telling ∧
      (∃ run, prog.parseFallible true telling id (Sample.stream [.unit "Minus", .data "Num" 5] none) 50 0 = .ok run ∧
        run.result = .error (.parseError (some (.unit "Minus")))) ∧
      (∃ run, prog'.parseFallible true telling' id (Sample.stream [.unit "Minus", .data "Num" 5] none) 50 0 = .ok run ∧
        run.result = .ok (.user 0)) := by
  obtain ⟨gi, prog, h, -, h1, h2, hr, -⟩ := Sample.runs_ok (o := .id) (rules := Sample.rules)
    (labels := ["S", "L"]) (sem := telling) (ts := [.unit "Minus", .data "Num" 5])
    (r := .error (.parseError (some (.unit "Minus")))) (r' := .error (.parseError (some (.unit "Minus"))))
    (by unfold EpsilonLast; decide) (by decide +kernel)
  obtain ⟨gi', prog', h', -, h1', h2', hr', -⟩ := Sample.runs_ok (o := .id) (rules := withMinus)
    (labels := ["S", "L"]) (sem := telling') (ts := [.unit "Minus", .data "Num" 5]) (r := .ok (.user 0))
    (r' := .ok (.user 0)) (by unfold EpsilonLast; decide) (by decide +kernel)
  refine ⟨gi, prog, gi', prog', h, h', by rw [h1, h1']; exact withMinus_extends, h2'.trans h2.symm, telling_kept,
    withMinus_disjoint h1' h2', (Sample.firstComplete h1).actions, (Sample.complete_of_stable h1' (by decide +kernel)).actions, ?_, hr, hr'⟩
  have : Matches telling gi.terminalType = Matches Sample.sem gi.terminalType :=
    matches_congr (sem := telling) (sem' := Sample.sem) rfl rfl
  unfold GrammarInfo.ProductiveRules
  rw [this]
  exact Sample.productive h1 h2

/-! ### Refutations -/

/-- `S -> z Y B; Y -> !; B -> A x; B -> w D; A -> C; C -> !; D -> E; E -> d`. -/
def small : List (Rule Nat Nat) :=
  [⟨0, [.terminal (.token 20), .production 1, .production 2]⟩, ⟨1, [.terminal .epsilon]⟩,
   ⟨2, [.production 3, .terminal (.token 21)]⟩, ⟨2, [.terminal (.token 22), .production 5]⟩, ⟨3, [.production 4]⟩,
   ⟨4, [.terminal .epsilon]⟩, ⟨5, [.production 6]⟩, ⟨6, [.terminal (.token 23)]⟩]

/-- `D -> d y`. -/
def added : Rule Nat Nat := ⟨5, [.terminal (.token 23), .terminal (.token 24)]⟩

/-- **C72 is false in general: simulator.** After the rule `D -> d y` has been added to `small`, the sentence `z x`, which
has nothing to do with it, is rejected. -/
theorem adding_rules_keeps_sentences_refuted : Extends id small (small ++ [added]) ∧
    WellFormed (⟨small ++ [added]⟩ : Grammar Nat Nat) ∧ RootNotRecursive (⟨small ++ [added]⟩ : Grammar Nat Nat) ∧
    ∃ p p', SimParser.new 40 ⟨small⟩ = .ok p ∧ SimParser.new 40 ⟨small ++ [added]⟩ = .ok p' ∧
      (p.parseStream 40 [20, 21] : Outcome (LRTableError Nat Nat) _) = .ok true ∧
      (p'.parseStream 40 [20, 21] : Outcome (LRTableError Nat Nat) _) = .ok false := by
  refine ⟨extends_append _ _, ⟨by unfold EpsilonLast; decide, by unfold NoEndMarker; decide⟩, ?_, ?_⟩
  · rintro root rest h
    cases h
    decide
  · have h : (do
        let p ← SimParser.new 40 ⟨small⟩
        let p' ← SimParser.new 40 ⟨small ++ [added]⟩
        let a ← p.parseStream 40 [20, 21]
        let b ← p'.parseStream 40 [20, 21]
        pure (a, b)) = Outcome.ok (true, false) := by decide +kernel
    obtain ⟨p, h1, h⟩ := Outcome.bind_eq_ok.mp h
    obtain ⟨p', h2, h⟩ := Outcome.bind_eq_ok.mp h
    obtain ⟨a, h3, h⟩ := Outcome.bind_eq_ok.mp h
    obtain ⟨b, h4, h⟩ := Outcome.bind_eq_ok.mp h
    simp only [Outcome.pure_eq, Outcome.ok.injEq, Prod.mk.injEq] at h
    obtain ⟨rfl, rfl⟩ := h
    exact ⟨p, p', h1, h2, h3, h4⟩

/-- `missed` (C13) with `B -> w G; G -> H; H -> d`. -/
def ambiguous : List (Rule Nat Nat) := C13.missed.productions ++
  [⟨1, [.terminal (.token 22), .production 6]⟩, ⟨6, [.production 7]⟩, ⟨7, [.terminal (.token 23)]⟩]

/-- `G -> d y`. -/
def hides : Rule Nat Nat := ⟨6, [.terminal (.token 23), .terminal (.token 24)]⟩

/-- **C72 is false in general: conflicts.** The grammar `ambiguous` is refused because of a conflict; after the rule
`G -> d y` has been added it is accepted. -/
theorem removing_rules_keeps_table_refuted : Extends id ambiguous (ambiguous ++ [hides]) ∧
    WellFormed (⟨ambiguous ++ [hides]⟩ : Grammar Nat Nat) ∧ RootNotRecursive (⟨ambiguous ++ [hides]⟩ : Grammar Nat Nat) ∧
    ∃ ig ig', IndexedGrammar.build (⟨ambiguous⟩ : Grammar Nat Nat) = .ok ig ∧
      IndexedGrammar.build (⟨ambiguous ++ [hides]⟩ : Grammar Nat Nat) = .ok ig' ∧
      (∃ t, LRTable.build 40 ig' = .ok t) ∧ ∃ e, LRTable.build 40 ig = .err e := by
  refine ⟨extends_append _ _, ⟨by unfold EpsilonLast; decide, by unfold NoEndMarker; decide⟩, ?_, ?_⟩
  · rintro root rest h
    cases h
    decide
  · have h : (match IndexedGrammar.build (⟨ambiguous⟩ : Grammar Nat Nat),
        IndexedGrammar.build (⟨ambiguous ++ [hides]⟩ : Grammar Nat Nat) with
      | .ok ig, .ok ig' => (match LRTable.build 40 ig, LRTable.build 40 ig' with | .err _, .ok _ => true | _, _ => false)
      | _, _ => false) = true := by decide +kernel
    split at h
    · rename_i ig ig' hi hi'
      split at h
      · rename_i e t he ht
        exact ⟨ig, ig', hi, hi', ⟨t, ht⟩, e, he⟩
      · cases h
    · cases h

/-- `small` for the macro. -/
def smallRules : List ARule :=
  [⟨"S", none, [.symbol ⟨"Z", .none⟩, .production "Y", .production "B"], none⟩, ⟨"Y", none, [.epsilon], none⟩,
   ⟨"B", none, [.production "A", .symbol ⟨"X", .none⟩], none⟩,
   ⟨"B", none, [.symbol ⟨"W", .none⟩, .production "D"], none⟩, ⟨"A", none, [.production "C"], none⟩,
   ⟨"C", none, [.epsilon], none⟩, ⟨"D", none, [.production "E"], none⟩,
   ⟨"E", none, [.symbol ⟨"V", .none⟩], none⟩]

def addedRule : ARule := ⟨"D", none, [.symbol ⟨"V", .none⟩, .symbol ⟨"U", .none⟩], none⟩

/-- **C72 is false in general: generated parsers.** -/
theorem adding_rules_keeps_values_refuted : ∃ (gi : GrammarInfo) (prog : Program) (gi' : GrammarInfo) (prog' : Program),
    Generated .id Sample.lexer gi prog ∧ Generated .id Sample.lexer gi' prog' ∧
      Extends id gi.productionRules gi'.productionRules ∧ gi'.terminalType = gi.terminalType ∧
      KeptMeaning id Sample.sem1 Sample.sem1 ∧ gi'.Disjoint Sample.sem1 ∧
      (∃ run, prog.parseFallible true Sample.sem1 id (Sample.stream [.unit "Z", .unit "X"] none) 50 0 = .ok run ∧
        run.result = .ok .unit) ∧
      ∃ run, prog'.parseFallible true Sample.sem1 id (Sample.stream [.unit "Z", .unit "X"] none) 50 0 = .ok run ∧
        run.result = .error (.parseError (some (.unit "X"))) := by
  obtain ⟨gi, prog, h, -, h1, h2, hr, -⟩ := Sample.runs_ok (o := .id) (rules := smallRules)
    (labels := ["S", "Y", "B", "A", "C", "D", "E"]) (sem := Sample.sem1) (ts := [.unit "Z", .unit "X"])
    (r := .ok .unit) (r' := .ok .unit) (by unfold EpsilonLast; decide) (by decide +kernel)
  obtain ⟨gi', prog', h', -, h1', h2', hr', -⟩ := Sample.runs_ok (o := .id) (rules := smallRules ++ [addedRule])
    (labels := ["S", "Y", "B", "A", "C", "D", "E"]) (sem := Sample.sem1) (ts := [.unit "Z", .unit "X"])
    (r := .error (.parseError (some (.unit "X")))) (r' := .error (.parseError (some (.unit "X"))))
    (by unfold EpsilonLast; decide) (by decide +kernel)
  refine ⟨gi, prog, gi', prog', h, h', by rw [h1, h1']; exact extends_append _ _, h2'.trans h2.symm,
    ⟨rfl, rfl, fun _ => rfl, fun _ => rfl⟩, ?_, hr, hr'⟩
  intro a s s' ⟨r, hr, hs⟩ ⟨r', hr', hs'⟩ m1 m2
  have key : ∀ r ∈ smallRules ++ [addedRule], ∀ s, .symbol s ∈ r.rule → s.paren = .none := by
    intro r hr s hs
    simp only [smallRules, addedRule, List.cons_append, List.nil_append, List.mem_cons, List.not_mem_nil, or_false] at hr
    rcases hr with rfl | rfl | rfl | rfl | rfl | rfl | rfl | rfl | rfl <;> simp at hs <;> (try cases hs) <;> simp_all
  rw [h2'] at m1 m2
  rw [h1'] at hr hr'
  have hn := (Sample.variant_eq m1).symm.trans (Sample.variant_eq m2)
  have e1 := key r hr s hs
  have e2 := key r' hr' s' hs'
  cases s; cases s'
  simp_all

end C72
end Verif
