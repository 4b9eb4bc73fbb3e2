import Verif.Props.Order
import Verif.Props.GrammarSample

/-!
# C61, C62: samples and refutations
-/

set_option autoImplicit false

namespace Verif
open Spec

namespace Sample

/-- The grammar `incomplete` with its last two rules exchanged. -/
def exchanged : List ARule :=
  [⟨"S", none, [.production "Y", .production "B"], none⟩, ⟨"Y", none, [.epsilon], none⟩, ⟨"A", none, [.epsilon], none⟩,
   ⟨"B", none, [.production "A", .symbol ⟨"X", .none⟩], none⟩]

theorem exchange : Reordered (Equiv.swap 2 3) incomplete exchanged where
  root := by decide
  get i := by
    match i with
    | 0 => rfl
    | 1 => rfl
    | 2 => simp [incomplete, exchanged]
    | 3 => simp [incomplete, exchanged]
    | i + 4 => rw [Equiv.swap_apply_of_ne_of_ne (by omega) (by omega)]; simp [incomplete, exchanged]

theorem sameMeaning (i j : Nat) : SameMeaning (Equiv.swap i j) sem1 sem1 := ⟨rfl, rfl, fun _ => rfl, fun _ => rfl⟩

theorem complete_of_stable' {T L : Type} [DecidableEq T] [DecidableEq L] {g : Grammar T L} (h : ((do
      let ig ← IndexedGrammar.build g
      let F ← FirstTable.build ig
      let (F', _) ← FirstTable.propagate ig F
      pure (F == F')) : Outcome (LRTableError T L) Bool) = .ok true) : C07.FirstComplete g := by
  obtain ⟨ig, h2, h⟩ := Outcome.bind_eq_ok.mp h
  obtain ⟨F, h3, h⟩ := Outcome.bind_eq_ok.mp h
  obtain ⟨⟨F', b⟩, h4, h⟩ := Outcome.bind_eq_ok.mp h
  simp only [Outcome.pure_eq, Outcome.ok.injEq, beq_iff_eq] at h
  subst h
  exact C07.first_complete_if_stable_partial _ ig F b h2 h3 h4

theorem complete_of_stable {rules : List ARule} {gi : GrammarInfo} (h1 : gi.productionRules = rules)
    (h : ((do
      let ig ← IndexedGrammar.build ⟨rules.map ARule.toLr⟩
      let F ← FirstTable.build ig
      let (F', _) ← FirstTable.propagate ig F
      pure (F == F')) : Outcome (LRTableError Sym String) Bool) = .ok true) : C07.FirstComplete gi.grammar := by
  have hg : gi.grammar = ⟨rules.map ARule.toLr⟩ := by unfold GrammarInfo.grammar; rw [h1]
  rw [hg]
  exact complete_of_stable' h

theorem disjoint_incomplete {gi : GrammarInfo} (h1 : gi.productionRules = incomplete) : gi.Disjoint sem1 := by
  have key : ∀ s, gi.Terminal s → s = ⟨"X", .none⟩ := by
    rintro s ⟨r, hr, hs⟩
    rw [h1] at hr
    simp only [incomplete, List.mem_cons, List.not_mem_nil, or_false] at hr
    rcases hr with rfl | rfl | rfl | rfl <;> simp_all
  intro a s s' hs hs' _ _
  rw [key s hs, key s' hs']

theorem both : ∃ gi prog gi' prog', Generated .id lexer gi prog ∧ Generated .id lexer gi' prog' ∧
    gi.productionRules = incomplete ∧ gi'.productionRules = exchanged ∧ gi'.terminalType = gi.terminalType ∧
    (∃ run, prog.parseFallible true sem1 id (stream [.unit "X"] none) 50 0 = .ok run ∧
      run.result = .error (.parseError (some (.unit "X")))) ∧
    ∃ run, prog'.parseFallible true sem1 id (stream [.unit "X"] none) 50 0 = .ok run ∧ ∃ v, run.result = .ok v := by
  obtain ⟨gi, prog, h, -, h1, h2, hr, -⟩ := runs_ok (o := .id) (rules := incomplete)
    (labels := ["S", "Y", "B", "A"]) (sem := sem1) (ts := [.unit "X"])
    (r := .error (.parseError (some (.unit "X")))) (r' := .error (.parseError (some (.unit "X"))))
    (by unfold EpsilonLast; decide) (by decide +kernel)
  obtain ⟨gi', prog', h', -, h1', h2', ⟨run, hr', hv⟩, -⟩ := runs_ok (o := .id) (rules := exchanged)
    (labels := ["S", "Y", "B", "A"]) (sem := sem1) (ts := [.unit "X"]) (r := .ok .unit) (r' := .ok .unit)
    (by unfold EpsilonLast; decide) (by decide +kernel)
  exact ⟨gi, prog, gi', prog', h, h', h1, h1', h2'.trans h2.symm, hr, run, hr', _, hv⟩

end Sample

namespace C62

/-- **C62 is false in general: generated parsers.** Exchanging two rules makes a parser accept what it rejected. -/
theorem generated_order_refuted : ∃ (π : Equiv.Perm Nat) (gi : GrammarInfo) (prog : Program) (gi' : GrammarInfo)
    (prog' : Program), Generated .id Sample.lexer gi prog ∧ Generated .id Sample.lexer gi' prog' ∧
      Reordered π gi.productionRules gi'.productionRules ∧ gi'.terminalType = gi.terminalType ∧
      SameMeaning π Sample.sem1 Sample.sem1 ∧ gi.Disjoint Sample.sem1 ∧
      (∃ run, prog.parseFallible true Sample.sem1 id (Sample.stream [.unit "X"] none) 50 0 = .ok run ∧
        run.result = .error (.parseError (some (.unit "X")))) ∧
      ∃ run, prog'.parseFallible true Sample.sem1 id (Sample.stream [.unit "X"] none) 50 0 = .ok run ∧
        ∃ v, run.result = .ok v := by
  obtain ⟨gi, prog, gi', prog', h, h', h1, h1', ht, hr, hr'⟩ := Sample.both
  exact ⟨Equiv.swap 2 3, gi, prog, gi', prog', h, h', by rw [h1, h1']; exact Sample.exchange, ht, Sample.sameMeaning 2 3,
    Sample.disjoint_incomplete h1, hr, hr'⟩

/-- Constructors that move with the rules. -/
def movedSem {P V E σ : Type} (π : Equiv.Perm Nat) (sem : Sem P V E σ) : Sem P V E σ :=
  ⟨sem.litVal, sem.pat, fun i => sem.body (π.symm i), fun i => sem.conv (π.symm i)⟩

theorem sameMeaning_moved {P V E σ : Type} (π : Equiv.Perm Nat) (sem : Sem P V E σ) :
    SameMeaning π sem (movedSem π sem) := ⟨rfl, rfl, fun i => by simp [movedSem], fun i => by simp [movedSem]⟩

/-- The rules for `Plus` and `Num` exchanged. -/
def swapped : List ARule :=
  [⟨"S", some (.ident "T" .nil), [.production "L"], some (.brace, Sample.hash "L")⟩,
   ⟨"L", some (.ident "T" .nil), [.symbol ⟨"Num", .wildcard⟩], some (.brace, .punct '#' false (.literal "0" .nil))⟩,
   ⟨"L", some (.ident "T" .nil), [.symbol ⟨"Plus", .none⟩, .production "L"], some (.brace, Sample.hash "L")⟩,
   ⟨"L", some (.ident "T" .nil), [.epsilon], some (.brace, .nil)⟩]

theorem swap : Reordered (Equiv.swap 1 2) Sample.rules swapped where
  root := by decide
  get i := by
    match i with
    | 0 => rfl
    | 1 => simp [Sample.rules, swapped]
    | 2 => simp [Sample.rules, swapped]
    | 3 => rfl
    | i + 4 => rw [Equiv.swap_apply_of_ne_of_ne (by omega) (by omega)]; simp [Sample.rules, swapped]

/-- The hypotheses are met by the sample and its reordering, with constructors that tell the rules apart. -/
example : ∃ (π : Equiv.Perm Nat) (gi : GrammarInfo) (prog : Program) (gi' : GrammarInfo) (prog' : Program),
    Generated .id Sample.lexer gi prog ∧ Generated .id Sample.lexer gi' prog' ∧ π 1 = 2 ∧
      Reordered π gi.productionRules gi'.productionRules ∧ gi'.terminalType = gi.terminalType ∧
      SameActions π gi.grammar gi'.grammar ∧ gi.Disjoint Sample.sem ∧
      SameMeaning π { Sample.sem with body := fun i _ _ w => (.ok (.user i), w) }
        (movedSem π { Sample.sem with body := fun i _ _ w => (.ok (.user i), w) }) := by
  obtain ⟨gi, prog, h, h1, h2, -⟩ := Sample.generated
  obtain ⟨gi', prog', h', -, h1', h2', -⟩ := Sample.runs_ok (o := .id) (rules := swapped)
    (labels := ["S", "L"]) (sem := Sample.sem1) (ts := []) (r := .ok (.user 0)) (r' := .ok (.user 0))
    (by unfold EpsilonLast; decide) (by decide +kernel)
  have hre : Reordered (Equiv.swap 1 2) gi.productionRules gi'.productionRules := by rw [h1, h1']; exact swap
  refine ⟨Equiv.swap 1 2, gi, prog, gi', prog', h, h', by simp, hre, h2'.trans h2.symm, ?_, Sample.disjoint h1 h2,
    sameMeaning_moved _ _⟩
  exact (sameFirstSets_of_complete (hre.map ARule.toLr) (Sample.firstComplete h1)
    (Sample.complete_of_stable h1' (by decide +kernel))).actions (hre.map ARule.toLr)

/-- The sample file with its last two declarations exchanged. -/
def otherFile : GrammarFile :=
  { GrammarSample.file with declarations :=
    [⟨"S", some (.ident "u64" .nil),
      [([.production "O", .production "L"], some (.brace, .punct '#' false (.ident "L" .nil)))]⟩,
     ⟨"L", some (.ident "u64" .nil),
      [([.symbol ⟨"Num", .wildcard⟩], some (.brace, .punct '#' false (.literal "0" .nil))),
       ([.production "L", .symbol ⟨"Plus", .none⟩, .symbol ⟨"Num", .pattern "x "⟩],
        some (.brace, .punct '#' false (.ident "L" .nil)))]⟩,
     ⟨"O", none, [([.epsilon], none)]⟩] }

theorem printable_other : C37.PrintableFile GrammarSample.tx GrammarSample.unprint otherFile where
  keywords := GrammarSample.printable.keywords
  name := GrammarSample.printable.name
  terminal := GrammarSample.printable.terminal
  error := GrammarSample.printable.error
  declarations := by
    intro d hd
    apply GrammarSample.printable.declarations
    simp only [otherFile, GrammarSample.file, List.mem_cons, List.not_mem_nil, or_false] at hd ⊢
    rcases hd with rfl | rfl | rfl <;> simp

theorem reordered_other : ∃ π, Reordered π GrammarSample.file.rules otherFile.rules := by
  refine reordered_of_perm _ ?_
  exact (List.perm_append_comm (l₁ := (⟨"O", none, [([.epsilon], none)]⟩ : Declaration).rules)
    (l₂ := (⟨"L", some (.ident "u64" .nil),
      [([.symbol ⟨"Num", .wildcard⟩], some (.brace, .punct '#' false (.literal "0" .nil))),
       ([.production "L", .symbol ⟨"Plus", .none⟩, .symbol ⟨"Num", .pattern "x "⟩],
        some (.brace, .punct '#' false (.ident "L" .nil)))]⟩ : Declaration).rules))

/-- The hypotheses of the theorems on the macro are met by the two files. -/
example : ∃ (π : Equiv.Perm Nat) (t t' : TokenStream) (ss ss' : List Symbol), JointOk t ∧ JointOk t' ∧
    Lexes GrammarSample.tx t ss ∧ Lexes GrammarSample.tx t' ss' ∧ FileSyntax GrammarSample.tx ss GrammarSample.file ∧
    FileSyntax GrammarSample.tx ss' otherFile ∧ Reordered π GrammarSample.file.rules otherFile.rules ∧
    SameActions π GrammarSample.file.grammar otherFile.grammar ∧
    ∃ gi prog, buildGrammar .id GrammarSample.lexer GrammarSample.tx 1000 t = .ok (gi, prog) := by
  obtain ⟨π, hπ⟩ := reordered_other
  obtain ⟨hj, ss, hl, hs⟩ := C37.file_print GrammarSample.printable
  obtain ⟨hj', ss', hl', hs'⟩ := C37.file_print printable_other
  refine ⟨π, _, _, ss, ss', hj, hj', hl, hl', hs, hs', hπ, ?_, GrammarSample.built⟩
  exact (sameFirstSets_of_complete (hπ.map ARule.toLr) (Sample.complete_of_stable' (by decide +kernel))
    (Sample.complete_of_stable' (by decide +kernel))).actions (hπ.map ARule.toLr)

/-- Grammars for the theorems on FIRST sets, tables and the simulator: `S -> A B; A -> a A | !; B -> c b` and its
reversal. -/
example : ∃ (π : Equiv.Perm Nat) (g' : Grammar Nat Nat), Reordered π sampleLR.productions g'.productions ∧
    SameActions π sampleLR g' ∧ g'.productions ≠ sampleLR.productions ∧
    (∃ p, SimParser.new 100 sampleLR = .ok p) ∧ ∃ p, SimParser.new 100 g' = .ok p := by
  obtain ⟨π, hπ⟩ := reordered_of_perm (⟨0, [.production 1, .production 2]⟩ : Rule Nat Nat)
    (List.reverse_perm (sampleLR.productions.drop 1)).symm
  refine ⟨π, ⟨_⟩, hπ, (sameFirstSets_of_complete hπ (Sample.complete_of_stable' (by decide +kernel))
    (Sample.complete_of_stable' (by decide +kernel))).actions hπ, by decide, ?_, ?_⟩
  · exact GrammarSample.ok_of_kind (by decide +kernel)
  · exact GrammarSample.ok_of_kind (by decide +kernel)

end C62

namespace C61

/-- **C61 with the true FIRST sets is false.** The LR(1) parser for `S => Y B; Y => !; B => A X; A => !` accepts `X`; the
generated parser rejects it. -/
theorem generated_is_lr1_refuted : ∃ (gi : GrammarInfo) (prog : Program), Generated .id Sample.lexer gi prog ∧
    gi.Disjoint Sample.sem1 ∧
    (∃ run, prog.parseFallible true Sample.sem1 id (Sample.stream [.unit "X"] none) 50 0 = .ok run ∧
      run.result = .error (.parseError (some (.unit "X")))) ∧
    ∃ v w z, Ends gi.grammar.productions (InFirst gi.grammar.productions) (gi.Means Sample.sem1) .tok
      (construct gi Sample.sem1) 0 [.unit "X"] (.value v) w z := by
  obtain ⟨gi, prog, gi', prog', h, h', h1, h1', ht, hr, run, hr', v, hv⟩ := Sample.both
  refine ⟨gi, prog, h, Sample.disjoint_incomplete h1, hr, ?_⟩
  have hre : Reordered (Equiv.swap 2 3) gi.productionRules gi'.productionRules := by rw [h1, h1']; exact Sample.exchange
  have hD' : gi'.Disjoint Sample.sem1 := by
    intro a s s' k1 k2 k3 k4
    rw [ht] at k3 k4
    exact Sample.disjoint_incomplete h1 a s s' ((C62.terminal_order hre).mpr k1) ((C62.terminal_order hre).mpr k2) k3 k4
  obtain ⟨N, run1, r, z, k1, k2, -, k3, -⟩ := generated_is_lr1_partial h' true Sample.sem1 id
    (Sample.stream [.unit "X"] none) [.unit "X"] 0 hD' (Sample.complete_of_stable h1' (by decide +kernel)).actions
    (by
      intro i a hi
      match i with
      | 0 => cases hi; rfl
      | i + 1 => simp at hi) rfl
  have e : run1 = run := Program.loop_det (k1 N (Nat.le_refl _)) hr'
  subst e
  have hrv : r = .value v := resultOf_inj (k2.symm.trans hv)
  subst hrv
  have hm : Reordered (Equiv.swap 2 3).symm gi'.grammar.productions gi.grammar.productions := hre.symm.map ARule.toLr
  have := hm.moved.ends (hm.moved.demands_iff fun α t => hm.moved.inFirst_iff) (apply' := construct gi Sample.sem1)
    (C62.construct_order hre.symm (Sample.sameMeaning 2 3).symm) k3
  rw [C62.means_order hre.symm ht.symm (Sample.sameMeaning 2 3).symm] at this
  exact ⟨_, _, _, this⟩

end C61
end Verif
