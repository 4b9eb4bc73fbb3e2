import Verif.Proof.Merged
import Verif.Props.LL

/-!
# C84: grammars for smaller parsers are accepted
-/

set_option linter.unusedSectionVars false
set_option autoImplicit false

namespace Verif.C84
open Spec

section
variable {T L : Type} {P : List (Rule T L)}

/-- **C84.** The classes of the textbooks contain each other. -/
theorem classes : (LR0 P → SLR1 P) ∧ (SLR1 P → LALR1 P) :=
  ⟨Merged.slr1_of_lr0, Merged.lalr1_of_slr1⟩

end

section
variable {T L : Type} [DecidableEq T] [DecidableEq L] {g : Grammar T L} {ig : IndexedGrammar T L}

/-- **C84.** An LALR(1) grammar without unproductive labels is LR(1). -/
theorem lalr1_is_lr1 (hp : Productive g.productions) (hi : IndexedGrammar.build g = .ok ig)
    (hl : LALR1 g.productions) : ¬ NotLR1 g.productions :=
  lr1_of_noConflict (C81.rootUnused hi hp) (C81.rootOnce hi) (Merged.noConflict_of_lalr1 hl)

/-- **C84.** It gets a table. -/
theorem lalr1_gets_table (hg : WellFormed g) (hp : Productive g.productions) (hi : IndexedGrammar.build g = .ok ig)
    (hl : LALR1 g.productions) : ∃ N, ∀ fuel ≥ N, ∃ t, LRTable.build fuel ig = .ok t :=
  C81.lr1_gets_table hg hp hi (lalr1_is_lr1 hp hi hl)

/-- **C84, partial.** There is a parser for it, which accepts exactly its sentences. (Missing: grammars with missing
actions, see `lalr1_parser_refuted`.) -/
theorem lalr1_parser_partial (hg : WellFormed g) (hp : Productive g.productions) (hi : IndexedGrammar.build g = .ok ig)
    (hl : LALR1 g.productions) (hc : C07.ActionsComplete g) : ∃ N, ∀ fuel ≥ N, ∃ p, SimParser.new fuel g = .ok p ∧
      ∀ w, ∃ M, ∀ fuel' ≥ M, ∃ b, (p.parseStream fuel' w : Outcome (LRTableError T L) _) = .ok b ∧
        (b = true ↔ Language g w) :=
  C81.lr1_parser_partial hg hp hi (lalr1_is_lr1 hp hi hl) hc

end

section
variable {lex : Lexer} {tx : Text} {o : HashOrder}

/-- **C84.** A file with an LALR(1) grammar becomes a parser, unless something else is wrong with it: the types, the
labels, the terminals or the constructors. -/
theorem lalr1_file {t : TokenStream} (hj : JointOk t) {ss : List Symbol} {f : GrammarFile} (hl : Lexes tx t ss)
    (hf : FileSyntax tx ss f) (types : ConsistentTypes tx f.declarations)
    (labels : ∃ root rest, f.grammar.productions = root :: rest ∧ C10.RootUnique root rest ∧ C10.Defined f.grammar ∧
      C10.Connected root rest)
    (terminals : ∀ s, f.Terminal s → C47.Written lex f s) (constructors : ∀ r ∈ f.rules, C47.ConstructorOk r)
    (hp : Productive f.grammar.productions) (hla : LALR1 f.grammar.productions) :
    ∃ N, ∀ fuel ≥ N, ∃ gi prog, buildGrammar o lex tx fuel t = .ok (gi, prog) :=
  C81.lr1_file hj hl hf types labels terminals constructors hp (by
    obtain ⟨-, ig, hi⟩ := C81.file_indexed hf labels
    exact lalr1_is_lr1 hp hi hla)

end

/-- The LR(0) automaton of `S -> Y B; Y -> !; B -> A a; A -> !`. -/
def witnessAuto : Merged.Auto Nat Nat where
  items := [[(0, 0), (1, 0)], [(0, 1), (2, 0), (3, 0)], [(0, 2)], [(2, 1)], [(2, 2)]]
  go s X := match s, X with
    | 0, .production 1 => 1
    | 1, .production 2 => 2
    | 1, .production 3 => 3
    | 3, .terminal (.token 7) => 4
    | _, _ => 5

theorem witness_lr0 : LR0 C07.witness.productions :=
  Merged.lr0_of_check (M := witnessAuto) (by decide +kernel) (by decide +kernel)

/-- **C84 is false: sentences.** `S -> Y B; Y -> !; B -> A a; A -> !` is even LR(0), but its parser rejects its only
sentence (finding 1): the one of yacc would not. -/
theorem lalr1_parser_refuted : WellFormed C07.witness ∧ Productive C07.witness.productions ∧ LR0 C07.witness.productions ∧
    Language C07.witness [7] ∧ ∃ p, SimParser.new 20 C07.witness = .ok p ∧
      ∀ fuel ≥ 20, (p.parseStream fuel [7] : Outcome (LRTableError Nat Nat) _) = .ok false :=
  ⟨C83.ll1_parser_refuted.1, C83.ll1_parser_refuted.2.1, witness_lr0, C83.ll1_parser_refuted.2.2.2⟩

/-! ### A grammar that is not LALR(1) -/

/-- `Z -> S; S -> a A d | b B d | a B e | b A e; A -> c; B -> c`, the example of the textbooks. -/
def merged : Grammar Nat Nat :=
  ⟨[⟨0, [.production 1]⟩,
    ⟨1, [.terminal (.token 1), .production 2, .terminal (.token 4)]⟩,
    ⟨1, [.terminal (.token 2), .production 3, .terminal (.token 4)]⟩,
    ⟨1, [.terminal (.token 1), .production 3, .terminal (.token 5)]⟩,
    ⟨1, [.terminal (.token 2), .production 2, .terminal (.token 5)]⟩,
    ⟨2, [.terminal (.token 3)]⟩, ⟨3, [.terminal (.token 3)]⟩]⟩

def mergedAuto : Merged.Auto Nat Nat where
  items := [[(0, 0), (1, 0), (2, 0), (3, 0), (4, 0)], [(0, 1)], [(1, 1), (3, 1), (5, 0), (6, 0)],
    [(2, 1), (4, 1), (5, 0), (6, 0)], [(5, 1), (6, 1)], [(5, 1), (6, 1)], [(1, 2)], [(3, 2)], [(2, 2)], [(4, 2)],
    [(1, 3)], [(3, 3)], [(2, 3)], [(4, 3)]]
  go s X := match s, X with
    | 0, .production 1 => 1
    | 0, .terminal (.token 1) => 2
    | 0, .terminal (.token 2) => 3
    | 2, .terminal (.token 3) => 4
    | 3, .terminal (.token 3) => 5
    | 2, .production 2 => 6
    | 2, .production 3 => 7
    | 3, .production 3 => 8
    | 3, .production 2 => 9
    | 6, .terminal (.token 4) => 10
    | 7, .terminal (.token 5) => 11
    | 8, .terminal (.token 4) => 12
    | 9, .terminal (.token 5) => 13
    | _, _ => 14

/-- **C84.** More is accepted than with yacc: this grammar is not LALR(1) and gets a table. -/
theorem more_than_lalr1 : ¬ LALR1 merged.productions ∧ ∃ ig t, IndexedGrammar.build merged = .ok ig ∧
    LRTable.build 50 ig = .ok t := by
  constructor
  · intro h
    have v : ∀ k, k = 1 ∨ k = 2 ∨ k = 3 ∨ k = 4 → Valid merged.productions [] k 0 := by
      rintro k (rfl | rfl | rfl | rfl) <;> exact .close (β := []) .root rfl rfl rfl
    have va1 : Valid merged.productions [.terminal (.token 1)] 1 1 := .move (γ := []) (v 1 (by simp)) rfl rfl
    have va3 : Valid merged.productions [.terminal (.token 1)] 3 1 := .move (γ := []) (v 3 (by simp)) rfl rfl
    have vb2 : Valid merged.productions [.terminal (.token 2)] 2 1 := .move (γ := []) (v 2 (by simp)) rfl rfl
    have vb4 : Valid merged.productions [.terminal (.token 2)] 4 1 := .move (γ := []) (v 4 (by simp)) rfl rfl
    have d1 : InFirst merged.productions [.terminal (.token 4)] (.token 4) := inFirst_term (by simp)
    have la : ValidLook merged.productions (InFirst merged.productions) [.terminal (.token 1), .terminal (.token 3)] 5 1
        (.token 4) :=
      .move (γ := [.terminal (.token 1)]) (.closeFirst va1 rfl rfl rfl (by simp) d1) rfl rfl
    have lb : ValidLook merged.productions (InFirst merged.productions) [.terminal (.token 2), .terminal (.token 3)] 6 1
        (.token 4) :=
      .move (γ := [.terminal (.token 2)]) (.closeFirst vb2 rfl rfl rfl (by simp) d1) rfl rfl
    have wa : Valid merged.productions [.terminal (.token 1), .terminal (.token 3)] 6 1 :=
      .move (γ := [.terminal (.token 1)]) (.close va3 rfl rfl rfl) rfl rfl
    have wb : Valid merged.productions [.terminal (.token 2), .terminal (.token 3)] 5 1 :=
      .move (γ := [.terminal (.token 2)]) (.close vb4 rfl rfl rfl) rfl rfl
    have hm : mergedAuto.check merged.productions = true := by decide +kernel
    have core : SameCore merged.productions [.terminal (.token 1), .terminal (.token 3)]
        [.terminal (.token 2), .terminal (.token 3)] := by
      intro i d
      constructor <;> intro hv
      · have : (i, d) ∈ [(5, 1), (6, 1)] := Merged.Auto.mem_of_valid hm hv
        simp only [List.mem_cons, List.not_mem_nil, or_false, Prod.mk.injEq] at this
        rcases this with ⟨rfl, rfl⟩ | ⟨rfl, rfl⟩
        exacts [wb, lb.valid]
      · have : (i, d) ∈ [(5, 1), (6, 1)] := Merged.Auto.mem_of_valid hm hv
        simp only [List.mem_cons, List.not_mem_nil, or_false, Prod.mk.injEq] at this
        rcases this with ⟨rfl, rfl⟩ | ⟨rfl, rfl⟩
        exacts [la.valid, wa]
    have := h [.terminal (.token 1), .terminal (.token 3)] (.token 4) (.reduce 5) (.reduce 6)
      (.reduce rfl (by simp) la.valid ⟨_, _, rfl, fun _ _ => Iff.rfl, la⟩)
      (.reduce rfl (by simp) wa ⟨_, _, rfl, core, lb⟩)
    cases this
  · have h : (do
        let ig ← IndexedGrammar.build merged
        let t ← LRTable.build 50 ig
        pure t.numStates) = Outcome.ok 14 := by decide +kernel
    obtain ⟨ig, h1, h⟩ := Outcome.bind_eq_ok.mp h
    obtain ⟨t, h2, -⟩ := Outcome.bind_eq_ok.mp h
    exact ⟨ig, t, h1, h2⟩

/-! ### The hypotheses can be met -/

/-- `S -> E; E -> E + T | T; T -> n | ( E )`, with recursion on the left. -/
def sums : Grammar Nat Nat :=
  ⟨[⟨0, [.production 1]⟩, ⟨1, [.production 1, .terminal (.token 10), .production 2]⟩, ⟨1, [.production 2]⟩,
    ⟨2, [.terminal (.token 11)]⟩, ⟨2, [.terminal (.token 12), .production 1, .terminal (.token 13)]⟩]⟩

def sumsAuto : Merged.Auto Nat Nat where
  items := [[(0, 0), (1, 0), (2, 0), (3, 0), (4, 0)], [(0, 1), (1, 1)], [(2, 1)], [(3, 1)],
    [(4, 1), (1, 0), (2, 0), (3, 0), (4, 0)], [(4, 2), (1, 1)], [(1, 2), (3, 0), (4, 0)], [(1, 3)], [(4, 3)]]
  go s X := match s, X with
    | 0, .production 1 => 1
    | 4, .production 1 => 5
    | 0, .production 2 => 2
    | 4, .production 2 => 2
    | 6, .production 2 => 7
    | _, .terminal (.token 11) => 3
    | _, .terminal (.token 12) => 4
    | _, .terminal (.token 10) => 6
    | _, .terminal (.token 13) => 8
    | _, _ => 9

theorem sums_slr1 : SLR1 sums.productions :=
  Merged.slr1_of_check (M := sumsAuto) (null := fun _ => false) (first := fun _ => [.token 11, .token 12])
    (follow := fun l => if l = 0 then [.eos] else [.eos, .token 10, .token 13])
    (by decide +kernel) (by decide +kernel) (by decide +kernel)

theorem sums_productive : Productive sums.productions := by
  have hT : Derives sums.productions [.production 2] [11] :=
    .prod (r := ⟨2, [.terminal (.token 11)]⟩) (u := [11]) (w := []) (by decide) (.tok .nil) .nil
  have hE : Derives sums.productions [.production 1] [11] :=
    .prod (r := ⟨1, [.production 2]⟩) (u := [11]) (w := []) (by decide) hT .nil
  have hS : Derives sums.productions [.production 0] [11] :=
    .prod (r := ⟨0, [.production 1]⟩) (u := [11]) (w := []) (by decide) hE .nil
  intro r hr
  simp only [sums, List.mem_cons, List.not_mem_nil, or_false] at hr
  rcases hr with rfl | rfl | rfl | rfl | rfl
  exacts [⟨_, hS⟩, ⟨_, hE⟩, ⟨_, hE⟩, ⟨_, hT⟩, ⟨_, hT⟩]

theorem sums_complete : C07.FirstComplete sums := by
  have h : ((do
      let ig ← IndexedGrammar.build sums
      let F ← FirstTable.build ig
      let (F', _) ← FirstTable.propagate ig F
      pure (F == F')) : Outcome (LRTableError Nat Nat) Bool) = .ok true := by decide +kernel
  obtain ⟨ig, h2, h⟩ := Outcome.bind_eq_ok.mp h
  obtain ⟨F, h3, h⟩ := Outcome.bind_eq_ok.mp h
  obtain ⟨⟨F', b⟩, h4, h⟩ := Outcome.bind_eq_ok.mp h
  simp only [Outcome.pure_eq, Outcome.ok.injEq, beq_iff_eq] at h
  subst h
  exact C07.first_complete_if_stable_partial _ ig F b h2 h3 h4

/-- The hypotheses of the theorems on grammars. This one is not LL(1). -/
example : WellFormed sums ∧ Productive sums.productions ∧ (∃ ig, IndexedGrammar.build sums = .ok ig) ∧
    SLR1 sums.productions ∧ LALR1 sums.productions ∧ C07.ActionsComplete sums ∧ ¬ LL1 sums.productions := by
  refine ⟨⟨by unfold EpsilonLast; decide, by unfold NoEndMarker; decide⟩, sums_productive, ⟨_, rfl⟩, sums_slr1,
    classes.2 sums_slr1, sums_complete.actions, fun h => ?_⟩
  have f2 : First sums.productions [.production 2] (.token 11) :=
    .take (r := ⟨2, [.terminal (.token 11)]⟩) (by decide) (.term (by simp)) (by simp)
  have f1 : ∀ {α : List (Node Nat Nat)}, First sums.productions (.production 1 :: α) (.token 11) :=
    .take (r := ⟨1, [.production 2]⟩) (by decide) f2 (by simp)
  have := h 1 2 _ _ (.token 11) rfl rfl rfl ⟨by simp, .inl (first_iff.mp f1)⟩ ⟨by simp, .inl (first_iff.mp f2)⟩
  cases this

/-- The file of C83, `<S> => <A>; <A> => Num(..) <B>; <B> => Plus <A> | !;`, is also SLR(1); the other hypotheses of
`lalr1_file` are met as is shown there. -/
def fileAuto : Merged.Auto Sym String where
  items := [[(0, 0), (1, 0)], [(0, 1)], [(1, 1), (2, 0), (3, 0)], [(1, 2)], [(2, 1), (1, 0)], [(2, 2)]]
  go s X := match s, X with
    | 0, .production "A" => 1
    | 4, .production "A" => 5
    | _, .production "B" => 3
    | _, .terminal (.token ⟨"Num", _⟩) => 2
    | _, .terminal (.token ⟨"Plus", _⟩) => 4
    | _, _ => 6

example : LALR1 C83.file.grammar.productions :=
  classes.2 (Merged.slr1_of_check (M := fileAuto) (null := fun l => l == "B")
    (first := fun l => if l = "B" then [.token (⟨"Plus", .none⟩ : Sym)] else [.token ⟨"Num", .wildcard⟩])
    (follow := fun _ => [.eos]) (by decide +kernel) (by decide +kernel) (by decide +kernel))

end Verif.C84
