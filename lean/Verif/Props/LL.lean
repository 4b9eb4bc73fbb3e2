import Verif.Proof.LLCheck
import Verif.Props.Label
import Verif.Props.Macro
import Verif.Props.ErrorText
import Verif.Props.Useful

/-!
# C83: LL(1) grammars are accepted
-/

set_option linter.unusedSectionVars false
set_option autoImplicit false

namespace Verif
open Spec

namespace C81

variable {T L : Type} [DecidableEq T] [DecidableEq L] {g : Grammar T L} {ig : IndexedGrammar T L}

/-- **C81.** An LR(1) grammar is not ambiguous. -/
theorem lr1_unambiguous (hg : WellFormed g) (hp : Productive g.productions) (hi : IndexedGrammar.build g = .ok ig)
    (hl : ¬ NotLR1 g.productions) {w : List T} {f f' : Forest T} (h : ParseTree g f w) (h' : ParseTree g f' w) : f = f' := by
  obtain ⟨root, rest, e, h⟩ := h
  obtain ⟨root', rest', e', h'⟩ := h'
  rw [e] at e'
  cases e'
  have hu := rootUnused hi hp
  have hn := (noConflict_iff_lr1 (nodesProductive hi hg.noEndMarker hp) hg.noEndMarker hu (rootOnce hi)).mpr hl
  exact ParsesM.unique (m := fun a t => a = t) (fun _ _ _ h => h) (.inl hu) (rootOnce hi) hn
    (fun a t t' h h' => h.symm.trans h') (by rw [e]; rfl) (parses_iff_parsesM.mp h) (parses_iff_parsesM.mp h')

/-- **C81, partial.** There is a parser for an LR(1) grammar, which accepts exactly its sentences. (Missing: grammars with missing
actions, see `C83.ll1_parser_refuted`.) -/
theorem lr1_parser_partial (hg : WellFormed g) (hp : Productive g.productions) (hi : IndexedGrammar.build g = .ok ig)
    (hl : ¬ NotLR1 g.productions) (hc : C07.ActionsComplete g) : ∃ N, ∀ fuel ≥ N, ∃ p, SimParser.new fuel g = .ok p ∧
      ∀ w, ∃ M, ∀ fuel' ≥ M, ∃ b, (p.parseStream fuel' w : Outcome (LRTableError T L) _) = .ok b ∧
        (b = true ↔ Language g w) := by
  obtain ⟨N, hN⟩ := lr1_gets_table hg hp hi hl
  refine ⟨N, fun fuel hf => ?_⟩
  obtain ⟨t, ht⟩ := hN fuel hf
  have hnew : SimParser.new fuel g = .ok ⟨ig, t⟩ := by
    unfold SimParser.new
    rw [hi, Outcome.ok_bind, ht, Outcome.ok_bind, Outcome.pure_eq]
  refine ⟨_, hnew, fun w => ?_⟩
  obtain ⟨b, M, hM⟩ := C03.parse_terminates g _ fuel w hg hnew
  refine ⟨M, fun fuel' hf' => ⟨b, hM fuel' hf', ?_⟩⟩
  constructor
  · rintro rfl
    exact C01.accepts_only_sentences g _ fuel M w hg hnew (hM M (Nat.le_refl _))
  · intro hw
    obtain ⟨M', hM'⟩ := C02.accepts_all_sentences_partial g _ fuel w hg hc hnew hw
    have h1 := hM (max M M') (by omega)
    rw [hM' (max M M') (by omega)] at h1
    cases h1
    rfl

section
open CodeGen
variable {lex : Lexer} {tx : Text} {o : HashOrder}

theorem file_noEndMarker (f : GrammarFile) : NoEndMarker f.grammar := by
  intro r hr hm
  simp only [GrammarFile.grammar, List.mem_map] at hr
  obtain ⟨q, -, rfl⟩ := hr
  simp only [ARule.toLr, List.mem_map] at hm
  obtain ⟨n, -, hn⟩ := hm
  cases n <;> simp [ANode.toLrNode] at hn

theorem file_indexed {ss : List Symbol} {f : GrammarFile} (hf : FileSyntax tx ss f)
    (labels : ∃ root rest, f.grammar.productions = root :: rest ∧ C10.RootUnique root rest ∧ C10.Defined f.grammar ∧
      C10.Connected root rest) : WellFormed f.grammar ∧ ∃ ig, IndexedGrammar.build f.grammar = .ok ig := by
  obtain ⟨root, rest, hps, hu, hd, hc⟩ := labels
  have hgr : f.grammar = C10.gr root rest := by rw [C10.gr, ← hps]
  obtain ⟨ig, hig⟩ := (C10.build_succeeds_iff root rest).mpr ⟨hu, hgr ▸ hd, hc⟩
  rw [← hgr] at hig
  exact ⟨⟨(C47.epsilonAlone_file hf).last, file_noEndMarker f⟩, ig, hig⟩

/-- **C81.** A file with an LR(1) grammar becomes a parser, unless something else is wrong with it: the types, the
labels, the terminals or the constructors. -/
theorem lr1_file {t : TokenStream} (hj : JointOk t) {ss : List Symbol} {f : GrammarFile} (hl : Lexes tx t ss)
    (hf : FileSyntax tx ss f) (types : ConsistentTypes tx f.declarations)
    (labels : ∃ root rest, f.grammar.productions = root :: rest ∧ C10.RootUnique root rest ∧ C10.Defined f.grammar ∧
      C10.Connected root rest)
    (terminals : ∀ s, f.Terminal s → C47.Written lex f s) (constructors : ∀ r ∈ f.rules, C47.ConstructorOk r)
    (hp : Productive f.grammar.productions) (hlr : ¬ NotLR1 f.grammar.productions) :
    ∃ N, ∀ fuel ≥ N, ∃ gi prog, buildGrammar o lex tx fuel t = .ok (gi, prog) := by
  obtain ⟨N, hN⟩ := C47.macro_succeeds_iff (o := o) (lex := lex) (tx := tx) hj
  refine ⟨N, fun fuel hfuel => (hN fuel hfuel).mpr ⟨ss, f, hl, hf, ?_⟩⟩
  obtain ⟨hg, ig, hig⟩ := file_indexed hf labels
  obtain ⟨root, rest, hps, hu, hd, hc⟩ := labels
  have hr := C81.rootNotRecursive hig hp
  refine ⟨types, ⟨root, rest, hps, hu, hd, hc, hr root rest hps⟩, ?_, terminals, fun k r hk _ =>
    constructors r (List.mem_of_getElem? hk)⟩
  obtain ⟨M, hM⟩ := C13.conflict_error_iff_user hig hg.epsilonLast hr
  obtain ⟨M', hM'⟩ := lr1_gets_table hg hp hig hlr
  exact (hM (max M M') (by omega)).2.mp (hM' (max M M') (by omega))

end

end C81

namespace C83

section
variable {T L : Type} [DecidableEq T] [DecidableEq L] {g : Grammar T L} {ig : IndexedGrammar T L}

/-- **C83.** An LL(1) grammar without unproductive labels is LR(1). -/
theorem ll1_is_lr1 (hg : WellFormed g) (hp : Productive g.productions) (hi : IndexedGrammar.build g = .ok ig)
    (hl : LL1 g.productions) : ¬ NotLR1 g.productions := by
  have hu := C81.rootUnused hi hp
  have hn := C81.nodesProductive hi hg.noEndMarker hp
  exact lr1_of_noConflict hu (C81.rootOnce hi) (LL.noConflict hl hn hu)

/-- **C83.** It gets a table. -/
theorem ll1_gets_table (hg : WellFormed g) (hp : Productive g.productions) (hi : IndexedGrammar.build g = .ok ig)
    (hl : LL1 g.productions) : ∃ N, ∀ fuel ≥ N, ∃ t, LRTable.build fuel ig = .ok t :=
  C81.lr1_gets_table hg hp hi (ll1_is_lr1 hg hp hi hl)

/-- **C83.** It is not ambiguous. -/
theorem ll1_unambiguous (hg : WellFormed g) (hp : Productive g.productions) (hi : IndexedGrammar.build g = .ok ig)
    (hl : LL1 g.productions) {w : List T} {f f' : Forest T} (h : ParseTree g f w) (h' : ParseTree g f' w) : f = f' :=
  C81.lr1_unambiguous hg hp hi (ll1_is_lr1 hg hp hi hl) h h'

/-- **C83, partial.** There is a parser for it, which accepts exactly its sentences. (Missing: grammars with missing
actions, see `ll1_parser_refuted`.) -/
theorem ll1_parser_partial (hg : WellFormed g) (hp : Productive g.productions) (hi : IndexedGrammar.build g = .ok ig)
    (hl : LL1 g.productions) (hc : C07.ActionsComplete g) : ∃ N, ∀ fuel ≥ N, ∃ p, SimParser.new fuel g = .ok p ∧
      ∀ w, ∃ M, ∀ fuel' ≥ M, ∃ b, (p.parseStream fuel' w : Outcome (LRTableError T L) _) = .ok b ∧
        (b = true ↔ Language g w) :=
  C81.lr1_parser_partial hg hp hi (ll1_is_lr1 hg hp hi hl) hc

end

/-- If every label has one rule only, the grammar is LL(1). -/
theorem ll1_of_one_rule {T L : Type} {P : List (Rule T L)}
    (h : ∀ (i j : Nat) (r r' : Rule T L), P[i]? = some r → P[j]? = some r' → r.symbol = r'.symbol → i = j) : LL1 P :=
  fun i j r r' _ hi hj hs _ _ => h i j r r' hi hj hs

/-- **C83 is false: sentences.** `S -> Y B; Y -> !; B -> A a; A -> !` is LL(1), productive and has one sentence, which
its parser does not accept (finding 1). -/
theorem ll1_parser_refuted : WellFormed C07.witness ∧ Productive C07.witness.productions ∧ LL1 C07.witness.productions ∧
    Language C07.witness [7] ∧ ∃ p, SimParser.new 20 C07.witness = .ok p ∧
      ∀ fuel ≥ 20, (p.parseStream fuel [7] : Outcome (LRTableError Nat Nat) _) = .ok false := by
  refine ⟨C07.first_complete_refuted.1, C70.no_dead_rules_refuted_first.2.1, ll1_of_one_rule ?_,
    C02.accepts_all_sentences_refuted.2.2⟩
  intro i j r r' hi hj hs
  match i, j with
  | 0, 0 | 1, 1 | 2, 2 | 3, 3 => rfl
  | 0, 1 | 0, 2 | 0, 3 | 1, 0 | 1, 2 | 1, 3 | 2, 0 | 2, 1 | 2, 3 | 3, 0 | 3, 1 | 3, 2 => cases hi; cases hj; cases hs
  | i + 4, _ => cases hi
  | _, j + 4 => cases hj

section
variable {lex : Lexer} {tx : Text} {o : HashOrder}

/-- **C83.** A file with an LL(1) grammar becomes a parser, unless something else is wrong with it: the types, the
labels, the terminals or the constructors. -/
theorem ll1_file {t : TokenStream} (hj : JointOk t) {ss : List Symbol} {f : GrammarFile} (hl : Lexes tx t ss)
    (hf : FileSyntax tx ss f) (types : ConsistentTypes tx f.declarations)
    (labels : ∃ root rest, f.grammar.productions = root :: rest ∧ C10.RootUnique root rest ∧ C10.Defined f.grammar ∧
      C10.Connected root rest)
    (terminals : ∀ s, f.Terminal s → C47.Written lex f s) (constructors : ∀ r ∈ f.rules, C47.ConstructorOk r)
    (hp : Productive f.grammar.productions) (hll : LL1 f.grammar.productions) :
    ∃ N, ∀ fuel ≥ N, ∃ gi prog, buildGrammar o lex tx fuel t = .ok (gi, prog) :=
  C81.lr1_file hj hl hf types labels terminals constructors hp (by
    obtain ⟨hg, ig, hi⟩ := C81.file_indexed hf labels
    exact ll1_is_lr1 hg hp hi hll)

end

/-! ### The hypotheses can be met -/

/-- `S -> E; E -> T R; R -> + T R | !; T -> n | ( E )`. -/
def sums : Grammar Nat Nat :=
  ⟨[⟨0, [.production 1]⟩, ⟨1, [.production 3, .production 2]⟩,
    ⟨2, [.terminal (.token 10), .production 3, .production 2]⟩, ⟨2, [.terminal .epsilon]⟩,
    ⟨3, [.terminal (.token 11)]⟩, ⟨3, [.terminal (.token 12), .production 1, .terminal (.token 13)]⟩]⟩

theorem sums_ll1 : LL1 sums.productions :=
  LL.ll1_of_check (null := fun l => l == 2)
    (first := fun l => if l = 2 then [.token 10] else [.token 11, .token 12])
    (follow := fun l => if l = 0 then [.eos] else if l = 3 then [.token 10, .eos, .token 13] else [.eos, .token 13])
    (by decide +kernel)

theorem sums_productive : Productive sums.productions := by
  have hR : Derives sums.productions [.production 2] [] :=
    .prod (r := ⟨2, [.terminal .epsilon]⟩) (u := []) (w := []) (by decide) (.eps .nil) .nil
  have hT : Derives sums.productions [.production 3] [11] :=
    .prod (r := ⟨3, [.terminal (.token 11)]⟩) (u := [11]) (w := []) (by decide) (.tok .nil) .nil
  have hE : Derives sums.productions [.production 1] [11] :=
    .prod (r := ⟨1, [.production 3, .production 2]⟩) (u := [11]) (w := []) (by decide) (hT.append hR) .nil
  have hS : Derives sums.productions [.production 0] [11] :=
    .prod (r := ⟨0, [.production 1]⟩) (u := [11]) (w := []) (by decide) hE .nil
  intro r hr
  simp only [sums, List.mem_cons, List.not_mem_nil, or_false] at hr
  rcases hr with rfl | rfl | rfl | rfl | rfl | rfl
  exacts [⟨_, hS⟩, ⟨_, hE⟩, ⟨_, hR⟩, ⟨_, hR⟩, ⟨_, hT⟩, ⟨_, hT⟩]

theorem sums_complete : C07.FirstComplete sums := by
  have h : ((do
      let ig ← IndexedGrammar.build sums
      let F ← FirstTable.build ig
      let (F', _) ← FirstTable.propagate ig F
      pure (F == F')) : Outcome (LRTableError Nat Nat) Bool) = .ok true := by decide +kernel
  obtain ⟨ig, h2, h⟩ := Outcome.bind_eq_ok.mp h
  obtain ⟨F, h3, h⟩ := Outcome.bind_eq_ok.mp h
  obtain ⟨⟨F', b⟩, h4, h⟩ := Outcome.bind_eq_ok.mp h
  simp only [Outcome.pure_eq, Outcome.ok.injEq, beq_iff_eq] at h
  subst h
  exact C07.first_complete_if_stable_partial _ ig F b h2 h3 h4

/-- The hypotheses of the theorems on grammars. -/
example : WellFormed sums ∧ Productive sums.productions ∧ (∃ ig, IndexedGrammar.build sums = .ok ig) ∧
    LL1 sums.productions ∧ C07.ActionsComplete sums ∧ ∃ f, ParseTree sums f [11, 10, 11] := by
  refine ⟨⟨by unfold EpsilonLast; decide, by unfold NoEndMarker; decide⟩, sums_productive, ⟨_, rfl⟩, sums_ll1,
    sums_complete.actions, language_iff_parseTree.mp ?_⟩
  have h : (do
      let p ← SimParser.new 30 sums
      p.parseStream 50 [11, 10, 11]) = Outcome.ok true := by decide +kernel
  obtain ⟨p, h1, h2⟩ := Outcome.bind_eq_ok.mp h
  exact C01.accepts_only_sentences sums p _ _ _ ⟨by unfold EpsilonLast; decide, by unfold NoEndMarker; decide⟩ h1 h2

/-- `S -> A; A -> a A | a` is not LL(1), although a table is built. -/
def common : Grammar Nat Nat :=
  ⟨[⟨0, [.production 1]⟩, ⟨1, [.terminal (.token 7), .production 1]⟩, ⟨1, [.terminal (.token 7)]⟩]⟩

example : ¬ LL1 common.productions ∧ ∃ ig t, IndexedGrammar.build common = .ok ig ∧ LRTable.build 20 ig = .ok t := by
  constructor
  · intro h
    have h1 : ∀ {α : List (Node Nat Nat)}, Predicts common.productions ⟨1, .terminal (.token 7) :: α⟩ (.token 7) :=
      ⟨by simp, .inl (inFirst_term (by simp))⟩
    have := h 1 2 _ _ (.token 7) rfl rfl rfl h1 h1
    cases this
  · have h : (do
        let ig ← IndexedGrammar.build common
        let t ← LRTable.build 20 ig
        pure t.numStates) = Outcome.ok 4 := by decide +kernel
    obtain ⟨ig, h1, h⟩ := Outcome.bind_eq_ok.mp h
    obtain ⟨t, h2, -⟩ := Outcome.bind_eq_ok.mp h
    exact ⟨ig, t, h1, h2⟩

/-- `<S> => <A>; <A> => Num(..) <B>; <B> => Plus <A> | !;`. -/
def file : GrammarFile := { GrammarSample.file with
  declarations := [⟨"S", none, [([.production "A"], none)]⟩,
    ⟨"A", none, [([.symbol ⟨"Num", .wildcard⟩, .production "B"], none)]⟩,
    ⟨"B", none, [([.symbol ⟨"Plus", .none⟩, .production "A"], none), ([.epsilon], none)]⟩] }

theorem file_printable : C37.PrintableFile GrammarSample.tx GrammarSample.unprint file where
  keywords := GrammarSample.printable.keywords
  name := GrammarSample.printable.name
  terminal := GrammarSample.printable.terminal
  error := GrammarSample.printable.error
  declarations := by
    intro d hd
    simp only [file, List.mem_cons, List.not_mem_nil, or_false] at hd
    rcases hd with rfl | rfl | rfl
    · refine ⟨GrammarSample.ident_of (by decide +kernel), by simp, ?_, by simp⟩
      intro a ha
      simp only [List.mem_cons, List.not_mem_nil, or_false] at ha
      subst ha
      refine ⟨?_, by simp, by simp [Alone], by simp⟩
      intro n hn
      simp only [List.mem_cons, List.not_mem_nil, or_false] at hn
      subst hn
      exact GrammarSample.ident_of (by decide +kernel)
    · refine ⟨GrammarSample.ident_of (by decide +kernel), by simp, ?_, by simp⟩
      intro a ha
      simp only [List.mem_cons, List.not_mem_nil, or_false] at ha
      subst ha
      refine ⟨?_, by simp, by simp [Alone], by simp⟩
      intro n hn
      simp only [List.mem_cons, List.not_mem_nil, or_false] at hn
      rcases hn with rfl | rfl
      · exact GrammarSample.ident_of (by decide +kernel)
      · exact GrammarSample.ident_of (by decide +kernel)
    · refine ⟨GrammarSample.ident_of (by decide +kernel), by simp, ?_, by simp⟩
      intro a ha
      simp only [List.mem_cons, List.not_mem_nil, or_false] at ha
      rcases ha with rfl | rfl
      · refine ⟨?_, by simp, by simp [Alone], by simp⟩
        intro n hn
        simp only [List.mem_cons, List.not_mem_nil, or_false] at hn
        rcases hn with rfl | rfl
        · exact .inl (GrammarSample.ident_of (by decide +kernel))
        · exact GrammarSample.ident_of (by decide +kernel)
      · refine ⟨?_, by simp, by simp [Alone], by simp⟩
        intro n hn
        simp only [List.mem_cons, List.not_mem_nil, or_false] at hn
        subst hn
        trivial

theorem file_ll1 : LL1 file.grammar.productions :=
  LL.ll1_of_check (null := fun l => l == "B")
    (first := fun l => if l = "B" then [.token (⟨"Plus", .none⟩ : Sym)] else [.token ⟨"Num", .wildcard⟩])
    (follow := fun _ => [.eos])
    (by decide +kernel)

theorem file_productive : Productive file.grammar.productions := by
  have hB : Derives file.grammar.productions [.production "B"] [] :=
    .prod (r := ⟨"B", [.terminal .epsilon]⟩) (u := []) (w := []) (by decide +kernel) (.eps .nil) .nil
  have hA : Derives file.grammar.productions [.production "A"] [(⟨"Num", .wildcard⟩ : Sym)] :=
    .prod (r := ⟨"A", [.terminal (.token ⟨"Num", .wildcard⟩), .production "B"]⟩) (u := [(⟨"Num", .wildcard⟩ : Sym)])
      (w := []) (by decide +kernel) (.tok hB) .nil
  have hS : Derives file.grammar.productions [.production "S"] [⟨"Num", .wildcard⟩] :=
    .prod (r := ⟨"S", [.production "A"]⟩) (u := [(⟨"Num", .wildcard⟩ : Sym)]) (w := []) (by decide +kernel) hA .nil
  intro r hr
  simp only [file, GrammarFile.grammar, GrammarFile.rules, Declaration.rules, List.flatMap_cons, List.flatMap_nil,
    List.map_cons, List.map_nil, List.cons_append, List.nil_append, ARule.toLr, List.mem_cons, List.not_mem_nil,
    or_false] at hr
  rcases hr with rfl | rfl | rfl | rfl
  exacts [⟨_, hS⟩, ⟨_, hA⟩, ⟨_, hB⟩, ⟨_, hB⟩]

/-- The hypotheses of `ll1_file`. -/
example : JointOk (C37.fileTokens GrammarSample.unprint file) ∧ ∃ ss,
    Lexes GrammarSample.tx (C37.fileTokens GrammarSample.unprint file) ss ∧ FileSyntax GrammarSample.tx ss file ∧
    ConsistentTypes GrammarSample.tx file.declarations ∧
    (∃ root rest, file.grammar.productions = root :: rest ∧ C10.RootUnique root rest ∧ C10.Defined file.grammar ∧
      C10.Connected root rest) ∧
    (∀ s, file.Terminal s → C47.Written GrammarSample.lexer file s) ∧ (∀ r ∈ file.rules, C47.ConstructorOk r) ∧
    Productive file.grammar.productions ∧ LL1 file.grammar.productions := by
  obtain ⟨hj, ss, hl, hf⟩ := C37.file_print file_printable
  obtain ⟨⟨gi, prog⟩, h⟩ := GrammarSample.ok_of_kind (x := buildGrammar .id GrammarSample.lexer GrammarSample.tx
    1000 (C37.fileTokens GrammarSample.unprint file)) (by decide +kernel)
  obtain ⟨ss', f, hl', hf', -, hg⟩ := C47.good_of_ok hj h
  cases C36.unambiguous hl' hl
  cases C37.unambiguous hf' hf
  obtain ⟨root, rest, h1, h2, h3, h4, -⟩ := hg.labels
  refine ⟨hj, ss, hl, hf, hg.types, ⟨root, rest, h1, h2, h3, h4⟩, hg.terminals, ?_, file_productive, file_ll1⟩
  intro r hr
  simp only [file, GrammarFile.rules, Declaration.rules, List.flatMap_cons, List.flatMap_nil, List.map_cons,
    List.map_nil, List.cons_append, List.nil_append, List.append_nil, List.mem_cons, List.not_mem_nil, or_false] at hr
  rcases hr with rfl | rfl | rfl | rfl <;> exact fun h => absurd rfl h

end C83
end Verif
