import Verif.Props.Sorted
import Verif.Props.GrammarPrint

/-!
# C76: the rules of a grammar file in the right order
-/

set_option linter.unusedSectionVars false
set_option autoImplicit false

namespace Verif
open Spec

namespace C76

section
variable {tx : Text}

theorem tokensOf_append (a b : List Symbol) : Spec.tokensOf (a ++ b) = (Spec.tokensOf a).append (Spec.tokensOf b) := by
  induction a with
  | nil => rfl
  | cons s a ih => rw [List.cons_append, Spec.tokensOf, Spec.tokensOf, ih, TokenStream.append_assoc]

/-- All symbols are written with tokens for them. -/
def Written (tx : Text) (ss : List Symbol) : Prop := ∀ s ∈ ss, SymbolTokens tx s.tokens s.sym

theorem lexes_iff {t : TokenStream} {ss : List Symbol} : Lexes tx t ss ↔ t = Spec.tokensOf ss ∧ Written tx ss := by
  constructor
  · intro h
    induction h with
    | nil => exact ⟨rfl, by simp [Written]⟩
    | cons hs _ ih =>
      refine ⟨by rw [Spec.tokensOf, ih.1], fun s h => ?_⟩
      rcases List.mem_cons.mp h with rfl | h
      · exact hs
      · exact ih.2 s h
  · rintro ⟨rfl, h⟩
    induction ss with
    | nil => exact .nil
    | cons s ss ih => exact .cons (h s List.mem_cons_self) (ih fun s hs => h s (List.mem_cons_of_mem _ hs))

/-- The last token may be marked as joined, if punctuation follows. -/
def EndOk (t : TokenStream) : Prop := JointOk (t.append (.punct ';' false .nil))

theorem endOk_of_append {a b : TokenStream} (h : JointOk (a.append b)) : EndOk a := by
  unfold EndOk
  induction a with
  | nil => exact ⟨(fun h => by cases h), trivial⟩
  | group d i r _ ih => exact ih h
  | ident n r ih => exact ih h
  | literal n r ih => exact ih h
  | punct c j r ih =>
    refine ⟨fun hj hq => ?_, ih h.2⟩
    obtain ⟨c', j', r', e⟩ := h.1 hj hq
    cases r with
    | nil => exact ⟨_, _, _, rfl⟩
    | punct c1 j1 r1 => exact ⟨_, _, _, rfl⟩
    | group d i r => cases e
    | ident n r => cases e
    | literal n r => cases e

theorem jointOk_right {a b : TokenStream} (h : JointOk (a.append b)) : JointOk b := by
  induction a with
  | nil => exact h
  | group d i r _ ih => exact ih h
  | ident n r ih => exact ih h
  | literal n r ih => exact ih h
  | punct c j r ih => exact ih h.2

theorem EndOk.append {a : TokenStream} (h : EndOk a) {c : Char} {j : Bool} {r : TokenStream}
    (h' : JointOk (.punct c j r)) : JointOk (a.append (.punct c j r)) := by
  unfold EndOk at h
  induction a with
  | nil => exact h'
  | group d i r _ ih => exact ih h
  | ident n r ih => exact ih h
  | literal n r ih => exact ih h
  | punct c1 j1 r1 ih =>
    refine ⟨fun hj hq => ?_, ih h.2⟩
    obtain ⟨c', j', r', e⟩ := h.1 hj hq
    cases r1 with
    | nil => exact ⟨_, _, _, rfl⟩
    | punct c1 j1 r1 => exact ⟨_, _, _, rfl⟩
    | group d i r => cases e
    | ident n r => cases e
    | literal n r => cases e

/-- A part of symbols that can be followed by punctuation. -/
theorem endOk_part {x y z : List Symbol} (h : JointOk (Spec.tokensOf (x ++ (y ++ z)))) : EndOk (Spec.tokensOf y) := by
  rw [tokensOf_append, tokensOf_append] at h
  exact endOk_of_append (jointOk_right h)

/-- The declaration with one rule. -/
def single (r : ARule) : Declaration := ⟨r.name, r.returnType, [(r.rule, r.block)]⟩

theorem single_rules (rs : List ARule) : (rs.map single).flatMap Declaration.rules = rs := by
  induction rs with
  | nil => rfl
  | cons r rs ih => simp only [List.map_cons, List.flatMap_cons, ih]; rfl

/-- Symbols of a declaration which can stand anywhere. -/
structure Segment (tx : Text) (ss : List Symbol) (d : Declaration) : Prop where
  syn : DeclarationSyntax tx ss d
  written : Written tx ss
  joint : JointOk (Spec.tokensOf ss)
  begins : ∃ c j r, Spec.tokensOf ss = .punct c j r

theorem rules_part {ss : List Symbol} {as : List Alternative} (h : RulesSyntax tx ss as) {a : Alternative} (ha : a ∈ as) :
    ∃ x y z, ss = x ++ (y ++ z) ∧ RuleSyntax tx y a := by
  induction h with
  | one h =>
    rw [List.mem_singleton] at ha
    subst ha
    exact ⟨[], _, [], by simp, h⟩
  | @cons ss rest a' as p h _ _ ih =>
    rcases List.mem_cons.mp ha with rfl | ha
    · exact ⟨[], ss, p :: rest, rfl, h⟩
    · obtain ⟨x, y, z, rfl, h'⟩ := ih ha
      exact ⟨ss ++ p :: x, y, z, by simp, h'⟩

theorem Written.part {x y z : List Symbol} (h : Written tx (x ++ (y ++ z))) : Written tx y :=
  fun s hs => h s (by simp [hs])

/-- `=>` and `;`. -/
def arrowSymbol : Symbol := ⟨.op .arrow, .punct '=' true (.punct '>' false .nil)⟩
@[inherit_doc arrowSymbol] def semiSymbol : Symbol := ⟨.op .semicolon, .punct ';' false .nil⟩

theorem segment_of {x ss z : List Symbol} {d : Declaration} (h : DeclarationSyntax tx ss d)
    (hw : Written tx (x ++ (ss ++ z))) (hj : JointOk (Spec.tokensOf (x ++ (ss ++ z)))) {a : Alternative}
    (ha : a ∈ d.alternatives) : ∃ s, Segment tx s ⟨d.label, d.type, [a]⟩ := by
  cases h with
  | @mk s1 s2 s3 arrow semi ts rs label ty as h1 h2 h3 ht h4 hr h5 =>
    obtain ⟨u, y, v, rfl, hy⟩ := rules_part hr ha
    have hj1 : EndOk (Spec.tokensOf (s1 :: s2 :: s3 :: ts)) := endOk_part (x := x) (z := arrow :: (u ++ (y ++ v) ++ [semi]) ++ z)
      (by simpa using hj)
    have hj2 : EndOk (Spec.tokensOf y) := endOk_part (x := x ++ s1 :: s2 :: s3 :: (ts ++ arrow :: u)) (z := v ++ [semi] ++ z)
      (by simpa using hj)
    have hw1 : Written tx (s1 :: s2 :: s3 :: ts) := Written.part (x := x) (z := arrow :: (u ++ (y ++ v) ++ [semi]) ++ z)
      (by simpa using hw)
    have hw2 : Written tx y := Written.part (x := x ++ s1 :: s2 :: s3 :: (ts ++ arrow :: u)) (z := v ++ [semi] ++ z)
      (by simpa using hw)
    have e : Spec.tokensOf (s1 :: s2 :: s3 :: (ts ++ arrowSymbol :: (y ++ [semiSymbol]))) =
        (Spec.tokensOf (s1 :: s2 :: s3 :: ts)).append (.punct '=' true (.punct '>' false
          ((Spec.tokensOf y).append (.punct ';' false .nil)))) := by
      rw [show s1 :: s2 :: s3 :: (ts ++ arrowSymbol :: (y ++ [semiSymbol])) =
        (s1 :: s2 :: s3 :: ts) ++ (arrowSymbol :: (y ++ [semiSymbol])) by simp, tokensOf_append]
      congr 1
      rw [Spec.tokensOf, tokensOf_append]
      rfl
    refine ⟨s1 :: s2 :: s3 :: (ts ++ arrowSymbol :: (y ++ [semiSymbol])),
      .mk h1 h2 h3 ht rfl (.one hy) rfl, ?_, ?_, ?_⟩
    · intro s hs
      simp only [List.mem_cons, List.mem_append, List.not_mem_nil, or_false] at hs
      rcases hs with hs | hs | hs | hs | hs | hs | hs
      · exact hw1 s (by simp [hs])
      · exact hw1 s (by simp [hs])
      · exact hw1 s (by simp [hs])
      · exact hw1 s (by simp [hs])
      · subst hs; exact .arrow false
      · exact hw2 s hs
      · subst hs; exact .single .semicolon
    · rw [e]
      exact hj1.append ⟨fun _ _ => ⟨_, _, _, rfl⟩, (fun h => by cases h), hj2⟩
    · have := hw1 s1 (by simp)
      obtain ⟨k, t⟩ := s1
      cases h1
      cases this with
      | single h => exact ⟨_, _, _, rfl⟩

theorem segment_of_declarations {x ss z : List Symbol} {ds : List Declaration} (h : DeclarationsSyntax tx ss ds)
    (hw : Written tx (x ++ (ss ++ z))) (hj : JointOk (Spec.tokensOf (x ++ (ss ++ z)))) {r : ARule}
    (hr : r ∈ ds.flatMap Declaration.rules) : ∃ s, Segment tx s (single r) := by
  induction h generalizing x z with
  | nil => cases hr
  | @cons s ss d ds h _ ih =>
    rw [List.flatMap_cons, List.mem_append] at hr
    rcases hr with hr | hr
    · obtain ⟨a, ha, rfl⟩ := List.mem_map.mp hr
      exact segment_of (x := x) (z := ss ++ z) h (by simpa using hw) (by simpa using hj) ha
    · exact ih (x := x ++ s) (z := z) (by simpa using hw) (by simpa using hj) hr

theorem segments {rs : List ARule} (h : ∀ r ∈ rs, ∃ s, Segment tx s (single r)) :
    ∃ ss, DeclarationsSyntax tx ss (rs.map single) ∧ Written tx ss ∧ JointOk (Spec.tokensOf ss) ∧
      (rs ≠ [] → ∃ c j r, Spec.tokensOf ss = .punct c j r) := by
  induction rs with
  | nil => exact ⟨[], .nil, by simp [Written], trivial, fun h => absurd rfl h⟩
  | cons r rs ih =>
    obtain ⟨s, hs⟩ := h r List.mem_cons_self
    obtain ⟨ss, h1, h2, h3, -⟩ := ih fun r hr => h r (List.mem_cons_of_mem _ hr)
    refine ⟨s ++ ss, .cons hs.syn h1, ?_, ?_, fun _ => ?_⟩
    · intro x hx
      rcases List.mem_append.mp hx with hx | hx
      · exact hs.written x hx
      · exact h2 x hx
    · rw [tokensOf_append]; exact C37.joint_append hs.joint h3
    · obtain ⟨c, j, r, e⟩ := hs.begins
      rw [tokensOf_append, e]
      exact ⟨_, _, _, rfl⟩

/-- The rules of a file can be written in another order. -/
theorem rewrite_file {t : TokenStream} (hj : JointOk t) {ss : List Symbol} {f : GrammarFile} (hl : Lexes tx t ss)
    (hf : FileSyntax tx ss f) {rs : List ARule} (hrs : ∀ r ∈ rs, r ∈ f.rules) (hne : rs ≠ []) :
    ∃ t' ss' f', JointOk t' ∧ Lexes tx t' ss' ∧ FileSyntax tx ss' f' ∧ f'.rules = rs ∧ f'.name = f.name ∧
      f'.terminal = f.terminal ∧ f'.error = f.error := by
  obtain ⟨rfl, hw⟩ := lexes_iff.mp hl
  cases hf with
  | @mk n o e ds f h1 h2 h3 h4 =>
    have hseg : ∀ r ∈ rs, ∃ s, Segment tx s (single r) := fun r hr =>
      segment_of_declarations (x := n ++ (o ++ e)) (z := []) h4 (by simpa using hw) (by simpa using hj) (hrs r hr)
    obtain ⟨ds', k1, k2, k3, k4⟩ := segments hseg
    obtain ⟨c, j, r, k5⟩ := k4 hne
    have hend : EndOk (Spec.tokensOf (n ++ (o ++ e))) := endOk_part (x := []) (z := ds) (by simpa using hj)
    refine ⟨Spec.tokensOf (n ++ (o ++ (e ++ ds'))), n ++ (o ++ (e ++ ds')), ⟨f.name, f.terminal, f.error, rs.map single⟩, ?_, ?_,
      .mk h1 h2 h3 k1, single_rules rs, rfl, rfl, rfl⟩
    · rw [show n ++ (o ++ (e ++ ds')) = (n ++ (o ++ e)) ++ ds' by simp, tokensOf_append, k5]
      rw [k5] at k3
      exact hend.append k3
    · refine lexes_iff.mpr ⟨rfl, fun s hs => ?_⟩
      simp only [List.mem_append] at hs
      rcases hs with hs | hs | hs | hs
      · exact hw s (by simp [hs])
      · exact hw s (by simp [hs])
      · exact hw s (by simp [hs])
      · exact k2 s hs

/-- **C76 (files).** If the labels of a file are used correctly and a terminal is in sight, then the file can be
written with its rules in another order, the root rule first, for which the FIRST sets are complete. -/
theorem file_order_exists {t : TokenStream} (hj : JointOk t) {ss : List Symbol} {f : GrammarFile} (hl : Lexes tx t ss)
    (hf : FileSyntax tx ss f) (hg : ∃ ig, IndexedGrammar.build f.grammar = .ok ig)
    (ht : InSight f.grammar.productions) :
    ∃ π t' ss' f', JointOk t' ∧ Lexes tx t' ss' ∧ FileSyntax tx ss' f' ∧ f'.name = f.name ∧ f'.terminal = f.terminal ∧
      f'.error = f.error ∧ Reordered π f.rules f'.rules ∧ C07.FirstComplete f'.grammar := by
  have hrules : ∃ root rest, f.rules = root :: rest := by
    cases h : f.rules with
    | nil =>
      rcases ht with ⟨r, hr, -⟩ | ⟨r, hr, -⟩ <;> (unfold GrammarFile.grammar at hr; rw [h] at hr; cases hr)
    | cons root rest => exact ⟨root, rest, rfl⟩
  obtain ⟨root, rest, e⟩ := hrules
  have hg0 := hg
  unfold GrammarFile.grammar at hg ht
  rw [e] at hg ht
  obtain ⟨rest', hp, hs, hfo⟩ := sortable_map ARule.toLr hg ht
  obtain ⟨π, hπ⟩ := reordered_of_perm root hp
  rw [← e] at hπ
  obtain ⟨t', ss', f', h1, h2, h3, h4, h5, h6, h7⟩ := rewrite_file hj hl hf (rs := root :: rest')
    (fun r hr => hπ.symm.mem hr) (by simp)
  rw [← h4] at hπ hs hfo
  have hm : Reordered π f.grammar.productions f'.grammar.productions := hπ.map ARule.toLr
  obtain ⟨ig', hg'⟩ := C62.build_order' hm hg0
  exact ⟨π, t', ss', f', h1, h2, h3, h5, h6, h7, hπ, first_complete_if_sorted hg' hs hfo⟩

/-- What a file has to respect: consistent types, a root label that is neither repeated nor referred to, no undefined or
unreachable labels, no LR(1) conflict, terminals that can be written as patterns, and correct constructors of the rules
that are reduced by the LR(1) parser. -/
structure Correct (lex : Lexer) (tx : Text) (f : GrammarFile) : Prop where
  types : ConsistentTypes tx f.declarations
  labels : ∃ root rest, f.grammar.productions = root :: rest ∧ C10.RootUnique root rest ∧
    C10.Defined f.grammar ∧ C10.Connected root rest ∧ .production root.symbol ∉ root.rule
  conflicts : NoConflict f.grammar.productions (InFirst f.grammar.productions)
  terminals : ∀ s, f.Terminal s → C47.Written lex f s
  constructors : ∀ k r, f.rules[k]? = some r →
    (k = 0 ∨ ∃ γ tok, Demands f.grammar.productions (InFirst f.grammar.productions) γ tok (.reduce k)) →
    C47.ConstructorOk r

theorem build_of_labels {g : Grammar Sym String} (h : ∃ root rest, g.productions = root :: rest ∧ C10.RootUnique root rest ∧
    C10.Defined g ∧ C10.Connected root rest ∧ .production root.symbol ∉ root.rule) :
    ∃ ig, IndexedGrammar.build g = .ok ig := by
  obtain ⟨root, rest, e, h1, h2, h3, -⟩ := h
  obtain ⟨P⟩ := g
  dsimp only at e
  subst e
  exact (C10.build_succeeds_iff root rest).mpr ⟨h1, h2, h3⟩

theorem good_iff {lex : Lexer} {f : GrammarFile} (hc : C07.FirstComplete f.grammar) :
    C47.Good lex tx f ↔ Correct lex tx f := by
  have e := seqFirst_recorded hc
  constructor
  · rintro ⟨h1, h2, h3, h4, h5⟩
    refine ⟨h1, h2, e ▸ h3, h4, fun k r hk hu => h5 k r hk ?_⟩
    unfold C47.UsedRule
    rw [e]
    exact hu
  · rintro ⟨h1, h2, h3, h4, h5⟩
    refine ⟨h1, h2, e ▸ h3, h4, fun k r hk hu => h5 k r hk ?_⟩
    unfold C47.UsedRule at hu
    rw [e] at hu
    exact hu

theorem correct_order {π : Equiv.Perm Nat} {lex : Lexer} {f f' : GrammarFile} {ss ss' : List Symbol}
    (hs : FileSyntax tx ss f) (hs' : FileSyntax tx ss' f') (ht : f'.terminal = f.terminal) (h : Reordered π f.rules f'.rules)
    (hG : Correct lex tx f) : Correct lex tx f' := by
  have hm : Reordered π f.grammar.productions f'.grammar.productions := h.map ARule.toLr
  refine ⟨?_, ?_, ?_, ?_, ?_⟩
  · have key : ∀ d ∈ f'.declarations, ∃ d0 ∈ f.declarations, d0.label = d.label ∧ d0.type = d.type := by
      intro d hd
      obtain ⟨r, hr, h1, h2⟩ := C62.rule_of_file hs' hd
      obtain ⟨ds, hds⟩ := declarations_of_file hs
      obtain ⟨d0, h3, h4, h5, -⟩ := rule_of_declaration hds (h.symm.mem hr)
      exact ⟨d0, h3, h4.trans h1, h5.trans h2⟩
    intro d hd d' hd' e
    obtain ⟨d0, h1, h2, h3⟩ := key d hd
    obtain ⟨d1, h4, h5, h6⟩ := key d' hd'
    have := hG.types d0 h1 d1 h4 (by rw [h2, h5, e])
    rwa [h3, h6] at this
  · obtain ⟨root, rest, e, h1, h2, h3, h4⟩ := hG.labels
    have hb := (C10.build_succeeds_iff root rest).mpr ⟨h1, by rwa [C10.gr, ← e], h3⟩
    rw [e] at hm
    obtain ⟨rest', e'⟩ := hm.cons
    obtain ⟨h5, h6, h7⟩ := (C10.build_succeeds_iff root rest').mp
      (C62.build_order' (g := C10.gr root rest) (g' := C10.gr root rest') (by rwa [e'] at hm) hb)
    refine ⟨root, rest', e', h5, ?_, h7, h4⟩
    rwa [C10.gr, ← e'] at h6
  · exact hm.symm.moved.noConflict (fun α t => hm.symm.moved.inFirst) hG.conflicts
  · rintro s ⟨r, hr, hs⟩
    have := hG.terminals s ⟨r, h.symm.mem hr, hs⟩
    unfold C47.Written at this ⊢
    rwa [ht]
  · intro k r hk hu
    have hk' : f.rules[π.symm k]? = some r := (h.symm.get k).trans hk
    refine hG.constructors _ r hk' ?_
    rcases hu with rfl | ⟨γ, tok, hd⟩
    · exact .inl h.symm.root
    · exact .inr ⟨γ, tok, hm.symm.moved.demands (fun α t => hm.symm.moved.inFirst) hd⟩

theorem parseTreeM_order {A : Type} {π : Equiv.Perm Nat} {g g' : Grammar Sym String} {m : A → Sym → Prop} {W : List A}
    {tree : Forest A} (h : Reordered π g.productions g'.productions) (ht : ParseTreeM g m tree W) :
    ParseTreeM g' m (tree.mapRules π) W := by
  obtain ⟨root, rest, e, hp⟩ := ht
  have hp' := h.moved.parsesM hp
  rw [e] at h
  obtain ⟨rest', e'⟩ := h.cons
  exact ⟨root, rest', e', hp'⟩

theorem value_order {P V E σ : Type} [DecidableEq P] {π : Equiv.Perm Nat} {gi gi' : GrammarInfo} {sem sem' : Sem P V E σ}
    (h : Reordered π gi.productionRules gi'.productionRules) (hs : SameMeaning π sem sem') (tree : Forest (Token P)) (w : σ) :
    value gi' sem' (tree.mapRules π) w = value gi sem tree w := by
  unfold value
  rw [eval_mapRules]
  congr 1
  funext i
  exact C62.construct_order h hs i

/-- **C76 (macro), partial.** For every file with a terminal in sight there are tokens of a file with the same rules in
another order, such that the macro accepts these tokens exactly if the original file is `Correct`, and the parser that it
returns evaluates the parse trees of the original file: on every input with a parse tree it returns the value of this
tree, or the error of the first constructor to fail; all other input it does not accept. (Missing: files without a
terminal in sight, see `order_refuted`.) -/
theorem macro_exists_partial {t : TokenStream} (hj : JointOk t) {ss : List Symbol} {f : GrammarFile} (hl : Lexes tx t ss)
    (hf : FileSyntax tx ss f) (ht : InSight f.grammar.productions)
    (hn : ∀ r ∈ f.rules, r.rule = [.epsilon] → r.block = none → r.returnType = none) :
    ∃ π t' ss' f', JointOk t' ∧ Lexes tx t' ss' ∧ FileSyntax tx ss' f' ∧ f'.name = f.name ∧ f'.terminal = f.terminal ∧
      f'.error = f.error ∧ Reordered π f.rules f'.rules ∧ ∀ (o : HashOrder) (lex : Lexer),
      (∃ N, ∀ fuel ≥ N, (∃ gi prog, buildGrammar o lex tx fuel t' = .ok (gi, prog)) ↔ Correct lex tx f) ∧
      ∀ fuel gi prog, buildGrammar o lex tx fuel t' = .ok (gi, prog) →
        ∀ (P V E σ : Type) [DecidableEq P] (sem sem' : Sem P V E σ) (debug : Bool) (W : List (Token P)) (w0 : σ),
        SameMeaning π sem sem' → (∀ a s s', f.Terminal s → f.Terminal s' → Matches sem f.terminal a s →
          Matches sem f.terminal a s' → s = s') →
        ∃ N run, (∀ fuel ≥ N, prog.parse debug sem' (fun i => W[i]?) fuel w0 = .ok run) ∧
          (∀ v, run.result = .ok v → ∃ tree, ParseTreeM f.grammar (Matches sem f.terminal) tree W) ∧
          ∀ (gi0 : GrammarInfo) (tree : Forest (Token P)), gi0.productionRules = f.rules →
            ParseTreeM f.grammar (Matches sem f.terminal) tree W →
            (∃ v, value gi0 sem tree w0 = (.ok [v], run.world) ∧ run.result = .ok v) ∨
              ∃ e, value gi0 sem tree w0 = (.error e, run.world) ∧ run.result = .error (.user e) := by
  by_cases hg : ∃ ig, IndexedGrammar.build f.grammar = .ok ig
  case neg =>
    have hbad : ∀ {o : HashOrder} {lex : Lexer} {fuel gi prog}, buildGrammar o lex tx fuel t ≠ .ok (gi, prog) := by
      intro o lex fuel gi prog hb
      obtain ⟨ss1, f1, k1, k2, -, k3⟩ := C47.good_of_ok hj hb
      cases C36.unambiguous hl k1
      cases C37.unambiguous hf k2
      exact hg (build_of_labels k3.labels)
    refine ⟨.refl _, t, ss, f, hj, hl, hf, rfl, rfl, rfl, ⟨rfl, fun _ => rfl⟩, fun o lex => ⟨⟨0, fun fuel _ => ?_⟩, ?_⟩⟩
    · exact ⟨fun ⟨gi, prog, hb⟩ => absurd hb hbad, fun hc => absurd (build_of_labels hc.labels) hg⟩
    · intro fuel gi prog hb
      exact absurd hb hbad
  obtain ⟨π, t', ss', f', h1, h2, h3, h4, h5, h6, h7, h8⟩ := file_order_exists hj hl hf hg ht
  have hm : Reordered π f.grammar.productions f'.grammar.productions := h7.map ARule.toLr
  refine ⟨π, t', ss', f', h1, h2, h3, h4, h5, h6, h7, fun o lex => ⟨?_, ?_⟩⟩
  · obtain ⟨N, hN⟩ := C47.macro_succeeds_iff (o := o) (lex := lex) (tx := tx) h1
    refine ⟨N, fun fuel hfu => ?_⟩
    rw [hN fuel hfu]
    constructor
    · rintro ⟨ss1, f1, k1, k2, k3⟩
      cases C36.unambiguous h2 k1
      cases C37.unambiguous h3 k2
      exact correct_order h3 hf h5.symm h7.symm ((good_iff h8).mp k3)
    · intro hcor
      exact ⟨ss', f', h2, h3, (good_iff h8).mpr (correct_order hf h3 h5 h7 hcor)⟩
  · intro fuel gi prog hb P V E σ _ sem sem' debug W w0 hs hD
    have hn' : ∀ r ∈ f'.rules, r.rule = [.epsilon] → r.block = none → r.returnType = none :=
      fun r hr => hn r (h7.symm.mem hr)
    have hterm : ∀ s, f'.Terminal s ↔ f.Terminal s := fun s =>
      ⟨fun ⟨r, hr, hs⟩ => ⟨r, h7.symm.mem hr, hs⟩, fun ⟨r, hr, hs⟩ => ⟨r, h7.mem hr, hs⟩⟩
    have hmat : (Matches sem' f'.terminal : Token P → Sym → Prop) = Matches sem f.terminal := by
      funext a s
      rw [h5]
      exact propext ⟨C62.matches_order hs.symm, C62.matches_order hs⟩
    have hD' : ∀ a s s', f'.Terminal s → f'.Terminal s' → Matches sem' f'.terminal a s → Matches sem' f'.terminal a s' →
        s = s' := by
      intro a s s' k1 k2 k3 k4
      rw [hmat] at k3 k4
      exact hD a s s' ((hterm s).mp k1) ((hterm s').mp k2) k3 k4
    obtain ⟨N, run, hN, hv⟩ := C49.macro_sound h1 h2 h3 hb hn' debug sem' W w0 (.inr (.inl hD'))
    refine ⟨N, run, hN, fun v hr => ?_, fun gi0 tree hgi htree => ?_⟩
    · obtain ⟨tree, k1, -⟩ := hv v hr
      rw [hmat] at k1
      exact ⟨_, parseTreeM_order hm.symm k1⟩
    · obtain ⟨N', run', hN', k⟩ := C49.macro_complete_partial h1 h2 h3 hb hn' h8.actions debug sem' hD' W (tree.mapRules π) w0
        (by rw [hmat]; exact parseTreeM_order hm htree)
      have e : run' = run := by
        have a1 := hN (max N N') (by omega)
        rw [hN' (max N N') (by omega)] at a1
        cases a1; rfl
      subst e
      have hr := C49.reads h1 h2 h3 hb
      have hre : Reordered π gi0.productionRules gi.productionRules := by rw [hgi, hr.rules]; exact h7
      rw [value_order hre hs] at k
      exact k

end

/-- The sample file meets the hypotheses. -/
example : ∃ ss, Lexes GrammarSample.tx GrammarSample.tokens ss ∧ FileSyntax GrammarSample.tx ss GrammarSample.file ∧
    JointOk GrammarSample.tokens ∧ InSight GrammarSample.file.grammar.productions ∧
    ∀ r ∈ GrammarSample.file.rules, r.rule = [.epsilon] → r.block = none → r.returnType = none := by
  obtain ⟨ss, hl, hf⟩ := GrammarSample.file_syntax
  exact ⟨ss, hl, hf, GrammarSample.tokens_joint, inSight_of_begins ⟨_, .tail _ (.tail _ (.head _)), _, [], _, rfl, by simp [AllEpsilon]⟩,
    by decide +kernel⟩

end C76
end Verif
