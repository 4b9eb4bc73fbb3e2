import Verif.Proof.Macro
import Verif.Props.Conflict
import Verif.Props.Agree
import Verif.Props.GrammarSample
import Verif.Props.Symbols

/-!
# The macro, from the tokens of a grammar file to a generated parser

C46 (outcomes), C47 (which files become parsers), C48 (all constructors are checked), C49 (the parser of a file).
-/

set_option linter.unusedSectionVars false
set_option autoImplicit false

namespace Verif
open Spec CodeGen

section
variable {tx : Text} {lex : Lexer} {o : HashOrder}

/-- A terminal of the file. -/
def Spec.GrammarFile.Terminal (f : GrammarFile) (s : Sym) : Prop := ∃ r ∈ f.rules, .symbol s ∈ r.rule

theorem C37.Reads.terminal_iff {gi : GrammarInfo} {f : GrammarFile} (h : C37.Reads gi f) (s : Sym) :
    gi.Terminal s ↔ f.Terminal s := by
  simp [GrammarInfo.Terminal, GrammarFile.Terminal, h.rules]

/-! ### Terminals as they are written -/

theorem lexes_symbol {t : TokenStream} {ss : List Symbol} (h : Lexes tx t ss) {a : Symbol} (ha : a ∈ ss) :
    SymbolTokens tx a.tokens a.sym := by
  induction h with
  | nil => cases ha
  | cons h1 _ ih =>
    rcases List.mem_cons.mp ha with rfl | ha
    · exact h1
    · exact ih ha

theorem nodes_syntax {ss : List Symbol} {ns : List ANode} (h : NodesSyntax tx ss ns) {n : ANode} (hn : n ∈ ns) :
    ∃ s, s ⊆ ss ∧ NodeSyntax tx s n := by
  induction h with
  | nil => cases hn
  | cons h1 _ ih =>
    rcases List.mem_cons.mp hn with rfl | hn
    · exact ⟨_, by simp, h1⟩
    · obtain ⟨s, hs, h⟩ := ih hn
      exact ⟨s, fun x hx => List.mem_append.mpr (.inr (hs hx)), h⟩

theorem rules_syntax {ss : List Symbol} {as : List Alternative} (h : RulesSyntax tx ss as) {a : Alternative}
    (ha : a ∈ as) {n : ANode} (hn : n ∈ a.1) : ∃ s, s ⊆ ss ∧ NodeSyntax tx s n := by
  have one : ∀ {ss : List Symbol} {a : Alternative}, RuleSyntax tx ss a → n ∈ a.1 →
      ∃ s, s ⊆ ss ∧ NodeSyntax tx s n := by
    intro ss a h hn
    cases h with
    | bare h _ _ => exact nodes_syntax h hn
    | block h _ _ _ =>
      obtain ⟨s, hs, h⟩ := nodes_syntax h hn
      exact ⟨s, fun x hx => List.mem_append.mpr (.inl (hs hx)), h⟩
  induction h with
  | one h =>
    simp only [List.mem_singleton] at ha
    subst ha
    exact one h hn
  | cons h1 _ _ ih =>
    rcases List.mem_cons.mp ha with rfl | ha
    · obtain ⟨s, hs, h⟩ := one h1 hn
      exact ⟨s, fun x hx => List.mem_append.mpr (.inl (hs hx)), h⟩
    · obtain ⟨s, hs, h⟩ := ih ha
      exact ⟨s, fun x hx => List.mem_append.mpr (.inr (List.mem_cons_of_mem _ (hs hx))), h⟩

theorem declarations_syntax {ss : List Symbol} {ds : List Declaration} (h : DeclarationsSyntax tx ss ds)
    {d : Declaration} (hd : d ∈ ds) {a : Alternative} (ha : a ∈ d.alternatives) {n : ANode} (hn : n ∈ a.1) :
    ∃ s, s ⊆ ss ∧ NodeSyntax tx s n := by
  induction h with
  | nil => cases hd
  | cons h1 _ ih =>
    rcases List.mem_cons.mp hd with rfl | hd
    · cases h1 with
      | mk _ _ _ _ _ hr _ =>
        obtain ⟨s, hs, h⟩ := rules_syntax hr ha hn
        refine ⟨s, fun x hx => ?_, h⟩
        have := hs hx
        simp [this]
    · obtain ⟨s, hs, h⟩ := ih hd
      exact ⟨s, fun x hx => List.mem_append.mpr (.inr (hs hx)), h⟩

/-- A terminal is written as an identifier, or as a character and without parentheses. -/
theorem terminal_written {t : TokenStream} {ss : List Symbol} {f : GrammarFile} (hl : Lexes tx t ss)
    (hf : FileSyntax tx ss f) {s : Sym} (hs : f.Terminal s) :
    Identifier tx s.name ∨ (s.paren = .none ∧ s.name.toList.head? = some '\'') := by
  obtain ⟨r, hr, hm⟩ := hs
  obtain ⟨d, hd, hr⟩ := List.mem_flatMap.mp hr
  obtain ⟨a, ha, rfl⟩ := List.mem_map.mp hr
  cases hf with
  | mk _ _ _ hds =>
    obtain ⟨w, hw, hn⟩ := declarations_syntax hds hd ha hm
    have ident : ∀ {x : Symbol} {name : String}, x ∈ w → Is (.ident name) x → Identifier tx name := by
      intro x name hx hi
      have := lexes_symbol hl (a := x) (by simp [hw hx])
      rw [hi] at this
      generalize x.tokens = u at this
      cases this with
      | ident h => exact h
      | word h _ => exact h
    cases hn with
    | literal hi =>
      rename_i x text
      have := lexes_symbol hl (a := x) (by simp [hw (List.mem_singleton.mpr rfl)])
      rw [hi] at this
      generalize x.tokens = u at this
      cases this with
      | char h => exact .inr ⟨rfl, by simp [h]⟩
    | plain hi => exact .inl (ident (by simp) hi)
    | wildcard hi _ _ => exact .inl (ident (by simp) hi)
    | pattern hi _ _ => exact .inl (ident (by simp) hi)

/-! ### C46 -/

/-- `Ident::new` accepts the identifiers of the grammar language. -/
def Lexer.Idents (lex : Lexer) (tx : Text) : Prop := ∀ s, Identifier tx s → lex.isIdent s = true

theorem build_not_ub {g : Grammar Sym String} {ig : IndexedGrammar Sym String}
    (hg : IndexedGrammar.build g = .ok ig) : ∃ N, ∀ fuel ≥ N, LRTable.build fuel ig ≠ .ub := by
  have henc := (IndexedGrammar.build_ok hg).1
  obtain ⟨F, eF, -, hsat⟩ := buildWithKernels_sat (X := True) henc.wf (.inr trivial)
  refine ⟨stateBound ig F + 1, fun fuel hf e => ?_⟩
  have h1 := hsat fuel (by omega)
  unfold LRTable.build at e
  cases h : LRTable.buildWithKernels fuel ig with
  | ub => rw [h] at h1; exact h1
  | ok a => rw [h] at e; cases e
  | err _ => rw [h] at e; cases e
  | panic => rw [h] at e; cases e
  | timeout => rw [h] at e; cases e

/-- The result of the grammar parser does not depend on the fuel, if there is enough. -/
theorem parseGrammar_stable (s : SymStream) :
    ∃ N res, res ≠ .timeout ∧ res ≠ .ub ∧ ∀ fuel ≥ N, parseGrammar tx fuel s = res := by
  unfold parseGrammar
  rcases parseName_settled s with ⟨⟨name, s1⟩, h1⟩ | ⟨e, h1⟩
  case inr => rw [h1]; exact ⟨0, .err e, by simp, by simp, fun _ _ => rfl⟩
  rw [h1]
  simp only [Outcome.ok_bind]
  rcases parseTerminalType_settled s1 with ⟨⟨tt, s2⟩, h2⟩ | ⟨e, h2⟩
  case inr => rw [h2]; exact ⟨0, .err e, by simp, by simp, fun _ _ => rfl⟩
  rw [h2]
  simp only [Outcome.ok_bind]
  rcases maybeParseErrorType_settled s2 with ⟨⟨et, s3⟩, h3⟩ | ⟨e, h3⟩
  case inr => rw [h3]; exact ⟨0, .err e, by simp, by simp, fun _ _ => rfl⟩
  rw [h3]
  simp only [Outcome.ok_bind]
  rcases parseDeclarations_settled (tx := tx) (fuel := s3.length + 1) (rules := []) (m := []) (s := s3)
    (by simp) with ⟨⟨rules, m⟩, h4⟩ | ⟨e, h4⟩
  case inr => rw [h4]; exact ⟨0, .err e, by simp, by simp, fun _ _ => rfl⟩
  rw [h4]
  simp only [Outcome.ok_bind]
  rcases C10.build_returns (T := Sym) (L := String) ⟨rules.map ARule.toLr⟩ with ⟨ig, h5⟩ | ⟨e, h5⟩
  case inr => rw [h5]; exact ⟨0, .err (.table e), by simp, by simp, fun _ _ => rfl⟩
  rw [h5]
  simp only [Outcome.mapErr, Outcome.ok_bind]
  obtain ⟨-, N, h6, h7⟩ := C08.build_terminates _ ig h5
  obtain ⟨M, h8⟩ := build_not_ub h5
  have hN : LRTable.build N ig ≠ .ub := by
    rw [← h7 (max N M) (by omega)]
    exact h8 _ (by omega)
  cases h : LRTable.build N ig with
  | timeout => exact absurd h h6
  | ub => exact absurd h hN
  | panic => exact ⟨N, .panic, by simp, by simp, fun fuel hf => by rw [h7 fuel hf, h]; rfl⟩
  | err e => exact ⟨N, .err (.table e), by simp, by simp, fun fuel hf => by rw [h7 fuel hf, h]; rfl⟩
  | ok t => exact ⟨N, .ok _, by simp, by simp, fun fuel hf => by rw [h7 fuel hf, h]; rfl⟩

namespace C46

/-- The grammars for which the macro panics: the root rule mentions the root, or a character stands for a
variant of an enum. -/
def Stops (f : GrammarFile) : Prop :=
  ¬ RootNotRecursive f.grammar ∨
    ((∃ ty, f.terminal = .enum ty) ∧ ∃ s, f.Terminal s ∧ s.paren = .none ∧ s.name.toList.head? = some '\'')

theorem stops_of {t : TokenStream} {ss : List Symbol} {f : GrammarFile} {gi : GrammarInfo}
    (hid : lex.Idents tx) (hl : Lexes tx t ss) (hf : FileSyntax tx ss f) (hr : C37.Reads gi f)
    (h : CodeGen.Stops lex gi) : Stops f := by
  rcases h with ⟨s, hs, hn, hp⟩ | h
  · rw [hr.terminal_iff] at hs
    rcases terminal_written hl hf hs with hw | ⟨h1, h2⟩
    · rw [hid _ hw] at hn
      cases hn
    · rcases hp with hp | hp
      · right
        rw [hr.terminal] at hp
        cases ht : f.terminal with
        | raw ty => rw [ht] at hp; cases hp
        | enum ty => exact ⟨⟨ty, rfl⟩, s, hs, h1, h2⟩
      · exact absurd h1 hp
  · rw [hr.grammar_eq] at h
    exact .inl h

/-- **C46, partial.** Whatever the tokens, the macro terminates and returns a parser or an error, or it panics. It
panics only for files whose root rule mentions the root label, and for files with an enum of terminals one of
which is written as a character. -/
theorem macro_outcomes_partial (hid : lex.Idents tx) {t : TokenStream} (hj : JointOk t) :
    ∃ N res, (∀ fuel ≥ N, buildGrammar o lex tx fuel t = res) ∧
      ((∃ gi prog, res = .ok (gi, prog)) ∨ (∃ e, res = .err e) ∨
        (res = .panic ∧ ∃ ss f, Lexes tx t ss ∧ FileSyntax tx ss f ∧ Stops f)) := by
  obtain ⟨N, res, h1, h2, h3⟩ := parseGrammar_stable (tx := tx) (tokenize tx .empty t)
  cases res with
  | timeout => exact absurd rfl h1
  | ub => exact absurd rfl h2
  | err e =>
    exact ⟨N, .err e, fun fuel hf => by unfold buildGrammar; rw [h3 fuel hf]; rfl, .inr (.inl ⟨e, rfl⟩)⟩
  | panic =>
    refine ⟨N, .panic, fun fuel hf => by unfold buildGrammar; rw [h3 fuel hf]; rfl, .inr (.inr ⟨rfl, ?_⟩)⟩
    have hN := h3 N (Nat.le_refl _)
    rcases C37.outcomes (tx := tx) hj N with ⟨_, h⟩ | ⟨_, h⟩ | ⟨ss, f, ig, h4, h5, h6, h7, h⟩
    · rw [hN] at h; cases h
    · rw [hN] at h; cases h
    · refine ⟨ss, f, h4, h5, .inl fun hr => ?_⟩
      rcases h with ⟨h, -⟩ | ⟨-, h⟩ | ⟨-, h⟩
      · exact (C09.build_never_panics_partial _ _ N h7 hr).1 h
      · rw [hN] at h; cases h
      · rw [hN] at h; cases h
  | ok gi =>
    have hN := h3 N (Nat.le_refl _)
    obtain ⟨ss, f, h4, h5, -, h6, -⟩ := C37.accepted_is_file hj hN
    obtain ⟨F, kt, -, hin, -⟩ := genIn_of hj hN
    have hsat := hin.generateParser_sat (o := o) (lex := lex)
    have hb : ∀ fuel ≥ N, buildGrammar o lex tx fuel t = (do
        let prog ← generateParser o lex gi
        pure (gi, prog)) := fun fuel hf => by unfold buildGrammar; rw [h3 fuel hf]; rfl
    refine ⟨N, _, hb, ?_⟩
    cases hg : generateParser o lex gi with
    | ok prog => exact .inl ⟨gi, prog, rfl⟩
    | err e => exact .inr (.inl ⟨e, rfl⟩)
    | panic =>
      rw [hg] at hsat
      exact .inr (.inr ⟨rfl, ss, f, h4, h5, stops_of hid h4 h5 h6 hsat⟩)
    | ub => rw [hg] at hsat; exact hsat.elim
    | timeout => rw [hg] at hsat; exact hsat.elim

/-- No parser is generated for such files. -/
theorem stops_no_parser (hid : ∀ s, s.toList.head? = some '\'' → lex.isIdent s = false) {t : TokenStream}
    (hj : JointOk t) {ss : List Symbol} {f : GrammarFile} (hl : Lexes tx t ss) (hf : FileSyntax tx ss f)
    (h : Stops f) (fuel : Nat) (gi : GrammarInfo) (prog : Program) :
    buildGrammar o lex tx fuel t ≠ .ok (gi, prog) := by
  intro hb
  obtain ⟨gi', hp, hb⟩ := Outcome.bind_eq_ok.mp hb
  obtain ⟨prog', hg, hb⟩ := Outcome.bind_eq_ok.mp hb
  cases hb
  obtain ⟨F, kt, -, hin, hreach⟩ := genIn_of hj hp
  have hcode : GenCode o lex gi prog F kt := ⟨hin.enc, hin.fit, hg⟩
  obtain ⟨ss', f', hl', hf', -, hr, -⟩ := C37.accepted_is_file hj hp
  cases C36.unambiguous hl hl'
  cases C37.unambiguous hf hf'
  rcases h with h | ⟨⟨ty, ht⟩, s, hs, -, hq⟩
  · rw [← hr.grammar_eq] at h
    exact h hcode.rootNotRecursive
  · have := hcode.writable hreach ((hr.terminal_iff s).mpr hs)
    unfold Writable at this
    rw [hr.terminal, ht] at this
    simp only at this
    rw [hid _ hq] at this
    cases this

end C46

/-! ### C47 -/

theorem buildGrammar_stable (t : TokenStream) :
    ∃ N res, ∀ fuel ≥ N, buildGrammar o lex tx fuel t = res := by
  obtain ⟨N, res, -, -, h⟩ := parseGrammar_stable (tx := tx) (tokenize tx .empty t)
  exact ⟨N, _, fun fuel hf => by unfold buildGrammar; rw [h fuel hf]⟩

namespace C47

/-- How terminals are written: as literals, or as variants of an enum. -/
def Written (lex : Lexer) (f : GrammarFile) (s : Sym) : Prop :=
  match f.terminal with
  | .raw _ => s.paren = .none ∧ lex.isLiteral s.name = true
  | .enum _ => lex.isIdent s.name = true

/-- The constructor of a rule: in braces with all references resolved; for rules without constructor, a typed
rule has exactly one node. -/
def ConstructorOk (r : ARule) : Prop :=
  match r.block with
  | some (d, body) => d = .brace ∧ ∃ out used, Replaced boundVariable r.rule body out used
  | none => r.returnType ≠ none → r.rule.length = 1

/-- The root rule, and the rules that are reduced after some symbols on some lookahead. -/
def UsedRule (f : GrammarFile) (k : Nat) : Prop :=
  k = 0 ∨ ∃ γ tok, Demands f.grammar.productions (seqFirst (Recorded f.grammar)) γ tok (.reduce k)

/-- The files that become parsers. -/
structure Good (lex : Lexer) (tx : Text) (f : GrammarFile) : Prop where
  types : ConsistentTypes tx f.declarations
  labels : ∃ root rest, f.grammar.productions = root :: rest ∧ C10.RootUnique root rest ∧
    C10.Defined f.grammar ∧ C10.Connected root rest ∧ .production root.symbol ∉ root.rule
  conflicts : NoConflict f.grammar.productions (seqFirst (Recorded f.grammar))
  terminals : ∀ s, f.Terminal s → Written lex f s
  constructors : ∀ k r, f.rules[k]? = some r → UsedRule f k → ConstructorOk r

theorem buildConstructor_iff {gi : GrammarInfo} {k : Nat} {r : ARule} (h : gi.productionRules[k]? = some r) :
    (∃ c, buildConstructor gi k = .ok c) ↔ ConstructorOk r := by
  unfold buildConstructor GrammarInfo.productionRule ConstructorOk
  rw [Outcome.index_eq_ok.mpr h]
  simp only [Outcome.ok_bind]
  cases hb : r.block with
  | some b =>
    obtain ⟨d, body⟩ := b
    simp only [C40.provided_exact]
    constructor
    · rintro ⟨c, h1, out, used, h2, -⟩; exact ⟨h1, out, used, h2⟩
    · rintro ⟨h1, out, used, h2⟩; exact ⟨_, h1, out, used, h2, rfl⟩
  | none =>
    simp only
    cases ht : r.returnType with
    | none => simp
    | some ty =>
      simp only [Option.isSome_some, if_true]
      split
      · rename_i hl
        simp [hl]
      · rename_i hl
        rw [Decidable.not_not] at hl
        simp [hl]

theorem used_iff {f : GrammarFile} {gi : GrammarInfo} {F : FirstTable} {kt : KernelTable}
    (h : GenIn gi F kt) (hr : C37.Reads gi f)
    (hg : IndexedGrammar.build gi.grammar = .ok gi.indexedGrammar)
    (hF : (FirstTable.build gi.indexedGrammar : Outcome (LRTableError Sym String) _) = .ok F) (k : Nat) :
    CodeGen.Used gi k ↔ UsedRule f k := by
  unfold CodeGen.Used UsedRule
  rw [← hr.grammar_eq]
  have hS := sameFirst_recorded hg hF
  refine or_congr Iff.rfl ⟨?_, ?_⟩
  · rintro ⟨s, hs, id, i, r, ⟨hid, ha⟩, hi, rfl⟩
    obtain ⟨γ', hγ⟩ := h.fit.built.exists_at hs
    obtain ⟨γ, tok, -, -, hd⟩ := demands_dec h.enc hS (((h.fit.entries hγ).reduce Unit id i hid).mp ha)
    refine ⟨γ, tok, ?_⟩
    rw [← orig_eq hi]
    exact hd
  · rintro ⟨γ, tok, hd⟩
    obtain ⟨γ', t', a', -, -, ha, hd'⟩ := demands_enc h.enc hS hd
    cases a' with
    | shift => cases ha
    | accept => cases ha
    | reduce i =>
      cases ha
      obtain ⟨r, hi⟩ := hd'.rule
      obtain ⟨q, hq, rfl⟩ := cfg_get.mp hi
      have hv : Valid gi.indexedGrammar.cfg γ' i (rhs q.rule).length := by
        cases hd' with
        | reduce hr' _ hv =>
          rw [hi] at hr'
          cases hr'
          exact hv.valid
      obtain ⟨s, hs⟩ := h.fit.at_of_valid hv
      have hid := (hd'.lt h.fit.wf h.fit.res.wf).1
      have hE := h.fit.entries hs
      exact ⟨s, hE.lt, t', i, q, ⟨hid, (hE.reduce Unit t' i hid).mpr hd'⟩, hq, (orig_eq hq).symm⟩

theorem epsilonAlone_file {ss : List Symbol} {f : GrammarFile} (hs : FileSyntax tx ss f) :
    EpsilonAlone f.grammar := by
  obtain ⟨ds, hd⟩ := declarations_of_file hs
  intro r hm
  simp only [GrammarFile.grammar, List.mem_map] at hm
  obtain ⟨q, hq, rfl⟩ := hm
  obtain ⟨d, -, -, -, -, h2⟩ := rule_of_declaration hd hq
  by_cases he : .epsilon ∈ q.rule
  · left
    simp [ARule.toLr, h2 he, ANode.toLrNode]
  · right
    intro hm
    simp only [ARule.toLr, List.mem_map] at hm
    obtain ⟨n, hn, e⟩ := hm
    cases n with
    | epsilon => exact he hn
    | production _ => cases e
    | symbol _ => cases e

/-- If the macro returns a parser, whatever the fuel, then the file is good. -/
theorem good_of_ok {t : TokenStream} (hj : JointOk t) {fuel : Nat} {gi : GrammarInfo} {prog : Program}
    (hb : buildGrammar o lex tx fuel t = .ok (gi, prog)) :
    ∃ ss f, Lexes tx t ss ∧ FileSyntax tx ss f ∧ C37.Reads gi f ∧ Good lex tx f := by
  obtain ⟨gi', hp, hb⟩ := Outcome.bind_eq_ok.mp hb
  obtain ⟨prog', hgen, hb⟩ := Outcome.bind_eq_ok.mp hb
  cases hb
  obtain ⟨F, kt, hF, hin, hreach⟩ := genIn_of hj hp
  have hcode : GenCode o lex gi prog F kt := ⟨hin.enc, hin.fit, hgen⟩
  obtain ⟨ss, f, hl, hs, hc, hr, hg, -⟩ := C37.accepted_is_file hj hp
  refine ⟨ss, f, hl, hs, hr, hc, ?_, ?_, ?_, ?_⟩
  · cases hps : f.grammar.productions with
    | nil =>
      exfalso
      rw [← hr.grammar_eq] at hps
      obtain ⟨q, hq, -⟩ := hin.enc.root
      obtain ⟨p, hp', -⟩ := hin.enc.rule q (List.mem_of_getElem? hq)
      rw [hps] at hp'
      cases hp'
    | cons root rest =>
      have hgr : gi.grammar = C10.gr root rest := by
        rw [hr.grammar_eq, C10.gr, ← hps]
      have h1 := (C10.build_succeeds_iff root rest).mp ⟨_, hgr ▸ hg⟩
      rw [← hgr, hr.grammar_eq] at h1
      refine ⟨root, rest, rfl, h1.1, h1.2.1, h1.2.2, ?_⟩
      have h2 := hcode.rootNotRecursive
      rw [hr.grammar_eq] at h2
      exact h2 root rest hps
  · rw [← hr.grammar_eq]
    refine (noConflict_iff hin.enc (sameFirst_recorded hg hF)).mp ?_
    exact hin.fit.built.noConflict hin.fit.wf hin.fit.res.wf hin.fit.eps
  · intro s hs
    have := hcode.writable hreach ((hr.terminal_iff s).mpr hs)
    unfold Writable at this
    unfold Written
    rw [← hr.terminal]
    exact this
  · intro k r hk hu
    rw [← hr.rules] at hk
    exact (buildConstructor_iff hk).mp (hcode.constructors ((used_iff hin hr hg hF k).mpr hu))

/-- **C47.** The macro returns a parser exactly for the files of the grammar language with consistent types,
a root label that is neither repeated nor referred to, no undefined or unreachable labels, no conflict (with
FIRST sets as the code records them), terminals that can be written as patterns, and correct constructors. -/
theorem macro_succeeds_iff {t : TokenStream} (hj : JointOk t) :
    ∃ N, ∀ fuel ≥ N, (∃ gi prog, buildGrammar o lex tx fuel t = .ok (gi, prog)) ↔
      ∃ ss f, Lexes tx t ss ∧ FileSyntax tx ss f ∧ Good lex tx f := by
  obtain ⟨N, res, hN⟩ := buildGrammar_stable (o := o) (lex := lex) (tx := tx) t
  refine ⟨N, fun fuel hf => ⟨?_, ?_⟩⟩
  · rintro ⟨gi, prog, hb⟩
    obtain ⟨ss, f, hl, hs, -, hgood⟩ := good_of_ok hj hb
    exact ⟨ss, f, hl, hs, hgood⟩
  · rintro ⟨ss, f, hl, hs, hgood⟩
    obtain ⟨root, rest, hps, hu, hd, hc, hrec⟩ := hgood.labels
    have hgr : f.grammar = C10.gr root rest := by
      rw [C10.gr, ← hps]
    obtain ⟨ig, hig⟩ := (C10.build_succeeds_iff root rest).mpr ⟨hu, hgr ▸ hd, hc⟩
    rw [← hgr] at hig
    have heps : EpsilonLast f.grammar := (epsilonAlone_file hs).last
    have hrr : RootNotRecursive f.grammar := by
      intro r' rest' h
      rw [hps] at h
      cases h
      exact hrec
    obtain ⟨M, hM⟩ := C13.conflict_error_iff_user hig heps hrr
    obtain ⟨table, ht⟩ := (hM (max N M) (by omega)).2.mpr hgood.conflicts
    obtain ⟨gi, hp, hr, -, -⟩ := C37.file_is_accepted hl hs hgood.types hig ht
    obtain ⟨F, kt, hF, hin, -⟩ := genIn_of hj hp
    obtain ⟨-, -, -, -, -, -, hg, -⟩ := C37.accepted_is_file hj hp
    have hw : ∀ s, gi.Terminal s → Written lex f s := fun s h => hgood.terminals s ((hr.terminal_iff s).mp h)
    have hsat := hin.generateParser_sat (o := o) (lex := lex)
    cases hgen : generateParser o lex gi with
    | ok prog =>
      refine ⟨gi, prog, ?_⟩
      rw [hN fuel hf, ← hN (max N M) (by omega)]
      unfold buildGrammar
      rw [hp]
      simp only [Outcome.ok_bind, hgen]
      rfl
    | ub => rw [hgen] at hsat; exact hsat.elim
    | timeout => rw [hgen] at hsat; exact hsat.elim
    | err e =>
      rw [hgen] at hsat
      exfalso
      rcases hsat with ⟨hty, s, hs, he⟩ | ⟨k, hk, hu, he⟩
      · have := hw s hs
        unfold Written at this
        rw [← hr.terminal] at this
        cases hte : gi.terminalType with
        | enum ty => rw [hte] at hty; cases hty
        | raw ty =>
          rw [hte] at this
          simp only at this
          unfold Sym.asLiteral at he
          simp [this.1, this.2] at he
      · obtain ⟨r, hkr⟩ : ∃ r, gi.productionRules[k]? = some r := ⟨_, List.getElem?_eq_getElem hk⟩
        obtain ⟨c, hc'⟩ := (buildConstructor_iff hkr).mpr
          (hgood.constructors k r (hr.rules ▸ hkr) ((used_iff hin hr hg hF k).mp hu))
        rw [hc'] at he
        cases he
    | panic =>
      rw [hgen] at hsat
      exfalso
      rcases hsat with ⟨s, hs, hni, hty⟩ | hnr
      · have := hw s hs
        unfold Written at this
        rw [← hr.terminal] at this
        cases hte : gi.terminalType with
        | enum ty =>
          rw [hte] at this
          simp only at this
          rw [this] at hni
          cases hni
        | raw ty =>
          rw [hte] at this hty
          simp only at this
          rcases hty with hty | hty
          · cases hty
          · exact hty this.1
      · rw [hr.grammar_eq] at hnr
        exact hnr hrr

end C47

/-! ### C48 -/

namespace C48

/-- **C48, partial.** If the macro returns a parser then the constructors of all rules are correct, provided
that every rule derives some sequence of terminals and no action is missing. -/
theorem constructors_checked_partial {t : TokenStream} (hj : JointOk t) {fuel : Nat} {gi : GrammarInfo}
    {prog : Program} (hb : buildGrammar o lex tx fuel t = .ok (gi, prog))
    (hp : Productive gi.grammar.productions) (hc : C07.ActionsComplete gi.grammar) :
    ∀ r ∈ gi.productionRules, C47.ConstructorOk r := by
  obtain ⟨gi', hpar, hb⟩ := Outcome.bind_eq_ok.mp hb
  obtain ⟨prog', hgen, hb⟩ := Outcome.bind_eq_ok.mp hb
  cases hb
  obtain ⟨F, kt, hF, hin, hreach⟩ := genIn_of hj hpar
  have hcode : GenCode o lex gi prog F kt := ⟨hin.enc, hin.fit, hgen⟩
  obtain ⟨-, -, -, -, -, -, hg, -⟩ := C37.accepted_is_file hj hpar
  intro r hr
  obtain ⟨k, hk⟩ := List.mem_iff_getElem?.mp hr
  have hlt := (List.getElem?_eq_some_iff.mp hk).1
  exact (C47.buildConstructor_iff hk).mp (hcode.constructors
    (hin.all_used hp (hc.covers hg hF) hreach hlt))

end C48

/-! ### C49 -/

namespace C49

section
variable {P V E σ : Type} [DecidableEq P]

theorem list_eq {α β : Type} {g : α → β} (hg : ∀ a b, g a = g b → a = b) {W W' : List α}
    (h : ∀ (i : Nat) a, W'[i]? = some a → (W[i]?).map g = some (g a)) (he : (W[W'.length]?).map g = none) : W = W' := by
  have hlen : W.length ≤ W'.length := by simpa using he
  apply List.ext_getElem?
  intro i
  cases hi : W'[i]? with
  | none =>
    have := List.getElem?_eq_none_iff.mp hi
    exact List.getElem?_eq_none_iff.mpr (by omega)
  | some a =>
    have := h i a hi
    cases hw : W[i]? with
    | none => rw [hw] at this; cases this
    | some b =>
      rw [hw] at this
      simp only [Option.map_some, Option.some.injEq] at this
      rw [hg _ _ this]

/-- The parser that the macro returns is one to which the theorems on generated parsers apply, for the grammar
that the file says. -/
theorem macro_generated {t : TokenStream} (hj : JointOk t) {fuel : Nat} {gi : GrammarInfo} {prog : Program}
    (hb : buildGrammar o lex tx fuel t = .ok (gi, prog))
    (hn : ∀ r ∈ gi.productionRules, r.rule = [.epsilon] → r.block = none → r.returnType = none) :
    ∃ ss f, Lexes tx t ss ∧ FileSyntax tx ss f ∧ C37.Reads gi f ∧ Generated o lex gi prog := by
  obtain ⟨gi', hpar, hb⟩ := Outcome.bind_eq_ok.mp hb
  obtain ⟨prog', hgen, hb⟩ := Outcome.bind_eq_ok.mp hb
  cases hb
  obtain ⟨ss, f, hl, hs, -, hr, hg, ht⟩ := C37.accepted_is_file hj hpar
  exact ⟨ss, f, hl, hs, hr, hg, ⟨_, ht⟩, (C38.epsilonAlone hj hpar).last, hgen, C40.default_bound hg hgen hn⟩

theorem reads {t : TokenStream} (hj : JointOk t) {ss : List Symbol} {f : GrammarFile}
    (hl : Lexes tx t ss) (hf : FileSyntax tx ss f) {fuel : Nat} {gi : GrammarInfo} {prog : Program}
    (hb : buildGrammar o lex tx fuel t = .ok (gi, prog)) : C37.Reads gi f := by
  obtain ⟨gi', hpar, hb'⟩ := Outcome.bind_eq_ok.mp hb
  obtain ⟨prog', hgen, hb'⟩ := Outcome.bind_eq_ok.mp hb'
  cases hb'
  obtain ⟨ss', f', hl', hf', -, hr, -⟩ := C37.accepted_is_file hj hpar
  cases C36.unambiguous hl hl'
  cases C37.unambiguous hf hf'
  exact hr

theorem _root_.Verif.C37.Reads.disjoint {gi : GrammarInfo} {f : GrammarFile} (hr : C37.Reads gi f)
    {sem : Sem P V E σ} (h : ∀ a s s', f.Terminal s → f.Terminal s' → Matches sem f.terminal a s →
      Matches sem f.terminal a s' → s = s') : gi.Disjoint sem := by
  intro a s s' h1 h2 h3 h4
  rw [hr.terminal] at h3 h4
  exact h a s s' ((hr.terminal_iff _).mp h1) ((hr.terminal_iff _).mp h2) h3 h4

/-- **C49.** From the tokens of a grammar file to results: the parser that the macro returns for a file ends
on every finite sequence of tokens without undefined behaviour or panics. If it returns a value then the
tokens have a parse tree in the grammar of the file, of which this is the value. -/
theorem macro_sound {t : TokenStream} (hj : JointOk t) {ss : List Symbol} {f : GrammarFile}
    (hl : Lexes tx t ss) (hf : FileSyntax tx ss f) {fuel : Nat} {gi : GrammarInfo} {prog : Program}
    (hb : buildGrammar o lex tx fuel t = .ok (gi, prog))
    (hn : ∀ r ∈ f.rules, r.rule = [.epsilon] → r.block = none → r.returnType = none)
    (debug : Bool) (sem : Sem P V E σ) (W : List (Token P)) (w0 : σ)
    (ho : (debug = true ∧ ∃ ty, f.terminal = .enum ty) ∨
      (∀ a s s', f.Terminal s → f.Terminal s' → Matches sem f.terminal a s → Matches sem f.terminal a s' → s = s') ∨
      C07.ActionsComplete f.grammar) :
    ∃ N run, (∀ fuel ≥ N, prog.parse debug sem (fun i => W[i]?) fuel w0 = .ok run) ∧
      ∀ v, run.result = .ok v → ∃ tree, ParseTreeM f.grammar (Matches sem f.terminal) tree W ∧
        value gi sem tree w0 = (.ok [v], run.world) := by
  have hr := reads hj hl hf hb
  obtain ⟨-, -, -, -, -, hG⟩ := macro_generated hj hb (by rw [hr.rules]; exact hn)
  obtain ⟨N, run, hN⟩ := C03.generated_terminates_partial hG debug sem (fun e : Empty => nomatch e)
    (fun i => (W[i]?).map .ok) W w0 (by
    rcases ho with ⟨h1, ty, h2⟩ | h | h
    · exact .inl ⟨h1, ty, by rw [hr.terminal, h2]⟩
    · exact .inr (.inl (hr.disjoint h))
    · exact .inr (.inr (by rw [hr.grammar_eq]; exact h))) (fun i a h => by simp [h]) (by simp)
  refine ⟨N, run, hN, fun v hv => ?_⟩
  obtain ⟨W', tree, h1, h2, h3, h4⟩ := C18.ok_is_value_of_tree hG debug sem _ _ N w0 run v (hN N (Nat.le_refl _)) hv
  cases list_eq (fun a b h => by cases h; rfl) h1 h2
  rw [hr.grammar_eq, hr.terminal] at h3
  exact ⟨tree, h3, h4⟩

/-- **C49, partial: completeness.** The parser that the macro returns evaluates every sentence of the grammar
of the file, if the FIRST sets of this grammar are complete and no token matches two terminals. -/
theorem macro_complete_partial {t : TokenStream} (hj : JointOk t) {ss : List Symbol} {f : GrammarFile}
    (hl : Lexes tx t ss) (hf : FileSyntax tx ss f) {fuel : Nat} {gi : GrammarInfo} {prog : Program}
    (hb : buildGrammar o lex tx fuel t = .ok (gi, prog))
    (hn : ∀ r ∈ f.rules, r.rule = [.epsilon] → r.block = none → r.returnType = none)
    (hc : C07.ActionsComplete f.grammar) (debug : Bool) (sem : Sem P V E σ)
    (hD : ∀ a s s', f.Terminal s → f.Terminal s' → Matches sem f.terminal a s → Matches sem f.terminal a s' →
      s = s')
    (W : List (Token P)) (tree : Forest (Token P)) (w0 : σ)
    (ht : ParseTreeM f.grammar (Matches sem f.terminal) tree W) :
    ∃ N run, (∀ fuel ≥ N, prog.parse debug sem (fun i => W[i]?) fuel w0 = .ok run) ∧
      ((∃ v, value gi sem tree w0 = (.ok [v], run.world) ∧ run.result = .ok v) ∨
        ∃ e, value gi sem tree w0 = (.error e, run.world) ∧ run.result = .error (.user e)) := by
  have hr := reads hj hl hf hb
  obtain ⟨-, -, -, -, -, hG⟩ := macro_generated hj hb (by rw [hr.rules]; exact hn)
  exact C19.sentences_are_evaluated_partial hG debug sem (fun e : Empty => nomatch e)
    (fun i => (W[i]?).map .ok) W tree w0 (hr.disjoint hD) (by rw [hr.grammar_eq]; exact hc)
    (fun i a h => by simp [h]) (by simp) (by rw [hr.grammar_eq, hr.terminal]; exact ht)

end

end C49

end

/-! ## Concrete cases -/

namespace GrammarSample

/-- Identifiers as in the sample; every text is a literal. -/
def lexer : Lexer := ⟨fun _ => true, fun s => tx.isIdentifier s⟩

theorem idents : lexer.Idents tx := fun _ h => isIdentifier_iff.mpr h

/-- What the macro returns, up to its contents. -/
def kind {ε α : Type} : Outcome ε α → Nat
  | .ok _ => 0
  | .err _ => 1
  | .panic => 2
  | .ub => 3
  | .timeout => 4

theorem ok_of_kind {ε α : Type} {x : Outcome ε α} (h : kind x = 0) : ∃ a, x = .ok a := by
  cases x <;> simp [kind] at h
  exact ⟨_, rfl⟩

/-- The sample gives a parser. -/
theorem built : ∃ gi prog, buildGrammar .id lexer tx 1000 tokens = .ok (gi, prog) := by
  obtain ⟨⟨gi, prog⟩, h⟩ := ok_of_kind (x := buildGrammar .id lexer tx 1000 tokens) (by decide +kernel)
  exact ⟨gi, prog, h⟩

/-- **C46**: a root rule that mentions the root, `<S> => a <S>`, stops the macro. -/
def recursive : TokenStream := withDeclarations
  [⟨"S", none, [([.symbol ⟨"a", .none⟩, .production "S"], none)]⟩]

/-- **C46**: so does a character as variant of an enum, `<S> => 'a'`. -/
def quoted : TokenStream := withDeclarations [⟨"S", none, [([.symbol ⟨"'a'", .none⟩], none)]⟩]

theorem recursive_stops :
    kind (buildGrammar .id lexer tx 1000 recursive) = 2 ∧ kind (buildGrammar .id lexer tx 1000 quoted) = 2 := by
  decide +kernel

/-- **C46**: an error, as the label A is undefined. -/
example : kind (buildGrammar .id lexer tx 1000 (withDeclarations [⟨"S", none, [([.production "A"], none)]⟩])) = 1 := by
  decide +kernel

/-- **C46**: no text that begins with a quote is an identifier, and there are files that stop the macro. -/
example : (∀ s, s.toList.head? = some '\'' → lexer.isIdent s = false) ∧
    C46.Stops { file with declarations := [⟨"S", none, [([.symbol ⟨"'a'", .none⟩], none)]⟩] } := by
  constructor
  · intro s hs
    by_contra h
    obtain ⟨⟨c, rest, hc, h1⟩, -⟩ := isIdentifier_iff.mp (show tx.isIdentifier s = true by simpa [lexer] using h)
    rw [hc] at hs
    cases hs
    revert h1
    decide
  · right
    refine ⟨⟨_, rfl⟩, ⟨"'a'", .none⟩, ?_, rfl, by decide⟩
    simp [GrammarFile.Terminal, GrammarFile.rules, Declaration.rules]

/-- The file of the sample is lexed and parsed. -/
theorem file_syntax : ∃ ss, Lexes tx tokens ss ∧ FileSyntax tx ss file := (C37.file_print printable).2

/-- **C47**: the sample is a good file. -/
example : C47.Good lexer tx file := by
  obtain ⟨gi, prog, h⟩ := built
  obtain ⟨ss, f, hl, hf, -, hg⟩ := C47.good_of_ok tokens_joint h
  obtain ⟨ss', hl', hf'⟩ := file_syntax
  cases C36.unambiguous hl hl'
  cases C37.unambiguous hf hf'
  exact hg

theorem firstComplete : C07.FirstComplete file.grammar := by
  have h : ((do
      let ig ← IndexedGrammar.build file.grammar
      let F ← FirstTable.build ig
      let (F', _) ← FirstTable.propagate ig F
      pure (F == F')) : Outcome (LRTableError Sym String) Bool) = .ok true := by decide +kernel
  obtain ⟨ig, h2, h⟩ := Outcome.bind_eq_ok.mp h
  obtain ⟨F, h3, h⟩ := Outcome.bind_eq_ok.mp h
  obtain ⟨⟨F', b⟩, h4, h⟩ := Outcome.bind_eq_ok.mp h
  simp only [Outcome.pure_eq, Outcome.ok.injEq, beq_iff_eq] at h
  subst h
  exact C07.first_complete_if_stable_partial _ ig F b h2 h3 h4

theorem productive : Productive file.grammar.productions := by
  have hO : Derives file.grammar.productions [.production "O"] ([] ++ []) :=
    .prod (r := ⟨"O", [.terminal .epsilon]⟩) (by simp [file, GrammarFile.grammar, GrammarFile.rules,
      Declaration.rules, ARule.toLr, ANode.toLrNode]) (.eps .nil) .nil
  have hL : Derives file.grammar.productions [.production "L"] ([⟨"Num", .wildcard⟩] ++ []) :=
    .prod (r := ⟨"L", [.terminal (.token ⟨"Num", .wildcard⟩)]⟩) (by simp [file, GrammarFile.grammar,
      GrammarFile.rules, Declaration.rules, ARule.toLr, ANode.toLrNode]) (.tok .nil) .nil
  have hOL : Derives file.grammar.productions [.production "O", .production "L"] ([] ++ ([⟨"Num", .wildcard⟩] ++ [])) :=
    .prod (r := ⟨"O", [.terminal .epsilon]⟩) (by simp [file, GrammarFile.grammar, GrammarFile.rules,
      Declaration.rules, ARule.toLr, ANode.toLrNode]) (.eps .nil) hL
  have hS : Derives file.grammar.productions [.production "S"] (([] ++ ([⟨"Num", .wildcard⟩] ++ [])) ++ []) :=
    .prod (r := ⟨"S", [.production "O", .production "L"]⟩) (by simp [file, GrammarFile.grammar,
      GrammarFile.rules, Declaration.rules, ARule.toLr, ANode.toLrNode]) hOL .nil
  intro r hr
  simp only [file, GrammarFile.grammar, GrammarFile.rules, Declaration.rules, List.flatMap_cons, List.flatMap_nil,
    List.map_cons, List.map_nil, List.cons_append, List.nil_append, ARule.toLr, List.mem_cons, List.not_mem_nil,
    or_false] at hr
  rcases hr with rfl | rfl | rfl | rfl
  · exact ⟨_, hS⟩
  · exact ⟨_, hO⟩
  · exact ⟨_, hL⟩
  · exact ⟨_, hL⟩

/-- **C48**: the hypotheses hold for the sample. -/
example : ∃ gi prog, buildGrammar .id lexer tx 1000 tokens = .ok (gi, prog) ∧
    Productive gi.grammar.productions ∧ C07.ActionsComplete gi.grammar := by
  obtain ⟨gi, prog, h⟩ := built
  obtain ⟨ss, hl, hf⟩ := file_syntax
  have hr := C49.reads tokens_joint hl hf h
  exact ⟨gi, prog, h, hr.grammar_eq ▸ productive, hr.grammar_eq ▸ firstComplete.actions⟩

/-- **C49**: so do those of the theorems from tokens to results. -/
example : ∃ ss, Lexes tx tokens ss ∧ FileSyntax tx ss file ∧
    (∃ gi prog, buildGrammar .id lexer tx 1000 tokens = .ok (gi, prog)) ∧
    (∀ r ∈ file.rules, r.rule = [.epsilon] → r.block = none → r.returnType = none) ∧
    (∃ ty, file.terminal = .enum ty) ∧ C07.ActionsComplete file.grammar := by
  obtain ⟨ss, hl, hf⟩ := file_syntax
  exact ⟨ss, hl, hf, built, by decide +kernel, ⟨_, rfl⟩, firstComplete.actions⟩

end GrammarSample

namespace C46

/-- **C46, refuted in general.** The macro panics for the file with `<S> => a <S>`. -/
theorem macro_panics_refuted : ∃ t, JointOk t ∧
    buildGrammar .id GrammarSample.lexer GrammarSample.tx 1000 t = .panic := by
  refine ⟨GrammarSample.recursive, by
    simp [GrammarSample.recursive, GrammarSample.withDeclarations, C37.fileTokens, GrammarSample.file, C37.cat,
      C37.opTokens, C37.typeOptionTokens, C37.declarationTokens, C37.rulesTokens, C37.ruleTokens, C37.nodeTokens,
      JointOk, TokenStream.append], ?_⟩
  have h := GrammarSample.recursive_stops.1
  revert h
  cases buildGrammar .id GrammarSample.lexer GrammarSample.tx 1000 GrammarSample.recursive <;>
    simp [GrammarSample.kind]

end C46

namespace C48

/-- `<B> => b { #Nope }`. -/
def nope : ARule := ⟨"B", none, [.symbol ⟨"b", .none⟩], some (.brace, .punct '#' false (.ident "Nope" .nil))⟩

theorem not_ok : ¬ C47.ConstructorOk nope := by
  have h : (match rewriteProvided 0 [.symbol ⟨"b", .none⟩] .brace (.punct '#' false (.ident "Nope" .nil)) with
    | .ok _ => true | _ => false) = false := by decide +kernel
  rintro ⟨h1, out, used, h2⟩
  have := (C40.provided_exact 0 [.symbol ⟨"b", .none⟩] .brace
    (.punct '#' false (.ident "Nope" .nil)) (.provided 0 out)).mpr ⟨rfl, out, used, h2, rfl⟩
  rw [this] at h
  cases h

/-- `<S> => <B> <C>; <B> => b { #Nope }; <C> => <C> c;` -/
def unchecked : TokenStream := GrammarSample.withDeclarations
  [⟨"S", none, [([.production "B", .production "C"], none)]⟩,
   ⟨"B", none, [([.symbol ⟨"b", .none⟩], some (.brace, .punct '#' false (.ident "Nope" .nil)))]⟩,
   ⟨"C", none, [([.production "C", .symbol ⟨"c", .none⟩], none)]⟩]

/-- **C48, refuted in general.** The constructor of B refers to a node that does not exist; as C derives
nothing, B is never reduced, and the macro returns a parser. -/
theorem constructors_checked_refuted :
    ∃ t, JointOk t ∧ ∃ gi prog, buildGrammar .id GrammarSample.lexer GrammarSample.tx 1000 t = .ok (gi, prog) ∧
      ∃ r ∈ gi.productionRules, ¬ C47.ConstructorOk r := by
  refine ⟨unchecked, by
    simp [unchecked, GrammarSample.withDeclarations, C37.fileTokens, GrammarSample.file, C37.cat, C37.opTokens,
      C37.typeOptionTokens, C37.declarationTokens, C37.rulesTokens, C37.ruleTokens, C37.nodeTokens, JointOk, TokenStream.append], ?_⟩
  have h : (match buildGrammar .id GrammarSample.lexer GrammarSample.tx 1000 unchecked with
      | .ok (gi, _) => gi.productionRules.any (· == nope)
      | _ => false) = true := by decide +kernel
  cases hb : buildGrammar .id GrammarSample.lexer GrammarSample.tx 1000 unchecked with
  | ok x =>
    rw [hb] at h
    obtain ⟨gi, prog⟩ := x
    simp only [List.any_eq_true, beq_iff_eq] at h
    obtain ⟨r, hr, rfl⟩ := h
    exact ⟨gi, prog, rfl, _, hr, not_ok⟩
  | _ => rw [hb] at h; cases h

end C48
end Verif
