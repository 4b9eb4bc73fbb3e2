import Verif.Proof.GrammarFile
import Verif.Proof.GenFacts
import Verif.Props.GrammarIndex

/-!
# C37, C38, C39: the grammar language
-/

set_option autoImplicit false

namespace Verif
open Spec

variable {tx : Text}

/-- The rules of a file. -/
def Spec.GrammarFile.rules (f : GrammarFile) : List ARule := f.declarations.flatMap Declaration.rules

/-- The grammar of a file. -/
def Spec.GrammarFile.grammar (f : GrammarFile) : Grammar Sym String := ⟨f.rules.map ARule.toLr⟩

namespace C37

/-- What the macro knows about a file. -/
structure Reads (gi : GrammarInfo) (f : GrammarFile) : Prop where
  name : gi.name = f.name
  terminal : gi.terminalType = f.terminal
  error : gi.errorType = f.error
  rules : gi.productionRules = f.rules
  types : ∀ l, gi.labelTypes.lookup l = (f.declarations.find? (fun d => d.label == l)).map (·.type)

theorem Reads.grammar_eq {gi : GrammarInfo} {f : GrammarFile} (h : Reads gi f) : gi.grammar = f.grammar := by
  simp [GrammarInfo.grammar, GrammarFile.grammar, h.rules]

theorem mapErr_ok {ε ε' α : Type} {f : ε → ε'} {x : Outcome ε α} {a : α} :
    x.mapErr f = .ok a ↔ x = .ok a := by
  cases x <;> simp [Outcome.mapErr]

/-- What is accepted is a file of the grammar language with consistent types, and the result is what the
file says. -/
theorem accepted_is_file {t : TokenStream} (hj : JointOk t) {fuel : Nat} {gi : GrammarInfo}
    (h : parseGrammar tx fuel (tokenize tx .empty t) = .ok gi) :
    ∃ ss f, Lexes tx t ss ∧ FileSyntax tx ss f ∧ ConsistentTypes tx f.declarations ∧ Reads gi f ∧
      IndexedGrammar.build gi.grammar = .ok gi.indexedGrammar ∧
      LRTable.build fuel gi.indexedGrammar = .ok gi.lrTable := by
  unfold parseGrammar at h
  obtain ⟨⟨name, s1⟩, h1, g⟩ := Outcome.bind_eq_ok.mp h
  clear h
  obtain ⟨n, e1, hn⟩ := parseName_ok.mp h1
  obtain ⟨⟨tt, s2⟩, h2, h⟩ := Outcome.bind_eq_ok.mp g
  clear g
  obtain ⟨tts, e2, ht⟩ := parseTerminalType_ok.mp h2
  obtain ⟨⟨et, s3⟩, h3, g⟩ := Outcome.bind_eq_ok.mp h
  clear h
  obtain ⟨es, e3, he⟩ := maybeParseErrorType_sound h3
  obtain ⟨⟨rules, m⟩, h4, h⟩ := Outcome.bind_eq_ok.mp g
  clear g
  obtain ⟨ds, decls, e4, hd, hr, hm⟩ := parseDeclarations_sound h4
  obtain ⟨ig, h5, g⟩ := Outcome.bind_eq_ok.mp h
  clear h
  obtain ⟨table, h6, h⟩ := Outcome.bind_eq_ok.mp g
  cases h
  rw [mapErr_ok] at h5 h6
  have e : tokenize tx .empty t = items (n ++ (tts ++ (es ++ ds))) := by
    rw [e1, e2, e3, e4]; simp [items]
  have hc := addAll_sound (tx := tx) mapOf_nil consistent_nil hm
  simp only [List.nil_append] at hc hr
  refine ⟨n ++ (tts ++ (es ++ ds)), ⟨name, tt, et, decls⟩, (tokenize_iff hj _).mp e, .mk hn ht he hd, hc.2,
    ⟨rfl, rfl, rfl, hr, hc.1⟩, h5, h6⟩

/-- A declaration does not begin like an option. -/
theorem declarations_head {ss : List Symbol} {ds : List Declaration} (h : DeclarationsSyntax tx ss ds)
    (hne : ds ≠ []) : ∃ x r, items ss = .ok x :: r ∧ ¬ Is (.ident "error_type") x := by
  cases h with
  | nil => exact absurd rfl hne
  | cons hd _ =>
    cases hd with
    | mk ha _ _ _ _ _ _ =>
      refine ⟨_, _, rfl, ?_⟩
      simp only [Is] at *
      rw [ha]
      intro h; cases h

theorem syntax_parses {t : TokenStream} {ss : List Symbol} {f : GrammarFile} (hl : Lexes tx t ss)
    (hf : FileSyntax tx ss f) (hne : f.declarations ≠ []) :
    ∃ s1 s2 ds, parseName (tokenize tx .empty t) = .ok (f.name, s1) ∧
      parseTerminalType s1 = .ok (f.terminal, s2) ∧
      maybeParseErrorType s2 = .ok (f.error, items ds) ∧ DeclarationsSyntax tx ds f.declarations := by
  rw [tokenize_complete hl]
  cases hf with
  | @mk n t e ds f hn ht he hd =>
    refine ⟨items (t ++ (e ++ ds)), items (e ++ ds), ds, ?_, ?_, ?_, hd⟩
    · exact parseName_ok.mpr ⟨n, by simp [items], hn⟩
    · exact parseTerminalType_ok.mpr ⟨t, by simp [items], ht⟩
    · have := maybeParseErrorType_complete he (declarations_head hd hne)
      rw [← this]
      simp [items]

/-- Every file of the grammar language with consistent types and an acceptable grammar is accepted, with
what the file says. -/
theorem file_is_accepted {t : TokenStream} {ss : List Symbol} {f : GrammarFile} (hl : Lexes tx t ss)
    (hf : FileSyntax tx ss f) (hc : ConsistentTypes tx f.declarations) {ig : IndexedGrammar Sym String}
    (hi : IndexedGrammar.build f.grammar = .ok ig) {fuel : Nat} {table : LRTable}
    (ht : LRTable.build fuel ig = .ok table) :
    ∃ gi, parseGrammar tx fuel (tokenize tx .empty t) = .ok gi ∧ Reads gi f ∧ gi.indexedGrammar = ig ∧
      gi.lrTable = table := by
  have hne : f.declarations ≠ [] := by
    intro e
    simp only [GrammarFile.grammar, GrammarFile.rules, e, List.flatMap_nil, List.map_nil] at hi
    cases hi
  obtain ⟨s1, s2, ds, h1, h2, h3, hd⟩ := syntax_parses hl hf hne
  obtain ⟨m, hm⟩ := addAll_complete (ds0 := []) mapOf_nil (by simpa using hc)
  have h4 := parseDeclarations_complete hd (fuel := (items ds).length + 1)
    (by have := DeclarationsSyntax_length hd; simp only [items, List.length_map]; omega) [] hm
  have hc' := addAll_sound (tx := tx) mapOf_nil consistent_nil hm
  simp only [List.nil_append] at hc' h4
  refine ⟨⟨f.name, f.terminal, f.error, m, f.rules, ig, table⟩, ?_, ⟨rfl, rfl, rfl, rfl, hc'.1⟩, rfl, rfl⟩
  unfold parseGrammar
  simp only [h1, Outcome.ok_bind, h2, h3, h4]
  have hi' : IndexedGrammar.build ⟨(f.declarations.flatMap Declaration.rules).map ARule.toLr⟩ = .ok ig := hi
  rw [hi']
  simp only [Outcome.mapErr, Outcome.ok_bind, ht]
  rfl

/-- **C37.** The macro's parser accepts exactly the files of the grammar language whose types are consistent
and whose grammar can be indexed and has a table. -/
theorem accepts_exactly {t : TokenStream} (hj : JointOk t) (fuel : Nat) :
    (∃ gi, parseGrammar tx fuel (tokenize tx .empty t) = .ok gi) ↔
      ∃ ss f, Lexes tx t ss ∧ FileSyntax tx ss f ∧ ConsistentTypes tx f.declarations ∧
        ∃ ig, IndexedGrammar.build f.grammar = .ok ig ∧ ∃ table, LRTable.build fuel ig = .ok table := by
  constructor
  · rintro ⟨gi, h⟩
    obtain ⟨ss, f, h1, h2, h3, h4, h5, h6⟩ := accepted_is_file hj h
    exact ⟨ss, f, h1, h2, h3, _, h4.grammar_eq ▸ h5, _, h6⟩
  · rintro ⟨ss, f, h1, h2, h3, ig, h4, table, h5⟩
    obtain ⟨gi, h, -⟩ := file_is_accepted h1 h2 h3 h4 h5
    exact ⟨gi, h⟩

/-! ## Unambiguity -/

theorem mkRule_injective (l : String) (ty : Option TokenStream) :
    Function.Injective fun a : Alternative => (⟨l, ty, a.1, a.2⟩ : ARule) := by
  rintro ⟨a, b⟩ ⟨a', b'⟩ h
  simp only [ARule.mk.injEq, true_and] at h
  rw [h.1, h.2]

theorem declaration_unique {ss ss' : List Symbol} {d d' : Declaration} (h : DeclarationSyntax tx ss d)
    (h' : DeclarationSyntax tx ss' d') {s s' : SymStream} (e : items ss ++ s = items ss' ++ s') :
    d = d' ∧ s = s' := by
  have hm : ∀ d : Declaration, LabelTypes.add tx [] d.label d.type = .ok [(d.label, d.type)] := fun d =>
    add_ok.mpr (.inr ⟨rfl, rfl⟩)
  have h1 := parseDeclaration_complete h (hm d) s
  have h2 := parseDeclaration_complete h' (hm d') s'
  rw [e, h2] at h1
  simp only [Outcome.ok.injEq, Prod.mk.injEq, List.cons.injEq, and_true] at h1
  obtain ⟨h3, ⟨h4, h5⟩, h6⟩ := h1
  obtain ⟨l, ty, as⟩ := d
  obtain ⟨l', ty', as'⟩ := d'
  simp only at h4 h5
  subst h4
  subst h5
  simp only [Declaration.rules] at h3
  have := (List.map_inj_right (fun a b e => mkRule_injective _ _ e)).mp h3
  exact ⟨by rw [this], h6.symm⟩

theorem items_injective {a b : List Symbol} (h : items a = items b) : a = b :=
  (List.map_inj_right (fun a b e => by cases e; rfl)).mp h

theorem declarations_unique {ss : List Symbol} {ds ds' : List Declaration}
    (h : DeclarationsSyntax tx ss ds) (h' : DeclarationsSyntax tx ss ds') : ds = ds' := by
  induction h generalizing ds' with
  | nil =>
    generalize hs : ([] : List Symbol) = ss at h'
    cases h' with
    | nil => rfl
    | cons hd _ =>
      have := DeclarationSyntax_length hd
      simp at hs
      exact absurd hs.1 this
  | @cons s ss d ds hd hds ih =>
    generalize hs : s ++ ss = all at h'
    cases h' with
    | nil =>
      have := DeclarationSyntax_length hd
      simp at hs
      exact absurd hs.1 this
    | @cons s' ss' d' ds' hd' hds' =>
      have e : items s ++ items ss = items s' ++ items ss' := by
        have := congrArg items hs
        simpa [items] using this
      obtain ⟨rfl, e'⟩ := declaration_unique hd hd' e
      have := items_injective e'
      subst this
      rw [ih hds']

/-- **C37.** The language is unambiguous: symbols can be read as one file at most. -/
theorem unambiguous {ss : List Symbol} {f f' : GrammarFile} (h : FileSyntax tx ss f)
    (h' : FileSyntax tx ss f') : f = f' := by
  cases h with
  | @mk n t e ds f hn ht he hd =>
  generalize hs : n ++ (t ++ (e ++ ds)) = all at h'
  cases h' with
  | @mk n' t' e' ds' f' hn' ht' he' hd' =>
  have hs := congrArg items hs
  simp only [items, List.map_append] at hs
  have h1 : parseName (items n ++ (items t ++ (items e ++ items ds))) = _ :=
    parseName_ok.mpr ⟨n, rfl, hn⟩
  have h1' : parseName (items n' ++ (items t' ++ (items e' ++ items ds'))) = _ :=
    parseName_ok.mpr ⟨n', rfl, hn'⟩
  rw [show items n ++ (items t ++ (items e ++ items ds)) = _ from hs, h1'] at h1
  simp only [Outcome.ok.injEq, Prod.mk.injEq] at h1
  obtain ⟨e1, hs⟩ := h1
  have h2 : parseTerminalType (items t ++ (items e ++ items ds)) = _ :=
    parseTerminalType_ok.mpr ⟨t, rfl, ht⟩
  have h2' : parseTerminalType (items t' ++ (items e' ++ items ds')) = _ :=
    parseTerminalType_ok.mpr ⟨t', rfl, ht'⟩
  rw [← hs, h2'] at h2
  simp only [Outcome.ok.injEq, Prod.mk.injEq] at h2
  obtain ⟨e2, hs⟩ := h2
  have key : f.error = f'.error ∧ items ds = items ds' := by
    have next : ∀ {ds : List Symbol} {decls : List Declaration}, DeclarationsSyntax tx ds decls →
        (∃ x r, items ds = .ok x :: r ∧ ¬ Is (.ident "error_type") x) ∨ ds = [] := by
      intro ds decls h
      by_cases hne : decls = []
      · subst hne
        cases h
        exact .inr rfl
      · exact .inl (declarations_head h hne)
    have opt : ∀ {e : List Symbol} {ty : Option TokenStream}, ErrorSyntax e ty →
        (e = [] ∧ ty = none) ∨ ∃ x r, items e = .ok x :: r ∧ Is (.ident "error_type") x := by
      intro e ty h
      cases h with
      | none => exact .inl ⟨rfl, rfl⟩
      | some h =>
        obtain ⟨k, r, rfl, hk⟩ := TypeOptionSyntax_head h
        exact .inr ⟨k, items r, rfl, hk⟩
    rcases opt he with ⟨he0, hty⟩ | ⟨x, r, hx, hxk⟩ <;> rcases opt he' with ⟨he0', hty'⟩ | ⟨x', r', hx', hxk'⟩
    · rw [hty, hty']
      refine ⟨rfl, ?_⟩
      rw [he0, he0'] at hs
      simpa [items] using hs.symm
    · rw [he0, hx'] at hs
      rcases next hd with ⟨y, s, hy, hyn⟩ | hy
      · rw [hy] at hs
        simp only [items, List.map_nil, List.nil_append, List.cons_append, List.cons.injEq, Except.ok.injEq] at hs
        rw [← hs.1] at hyn
        exact absurd hxk' hyn
      · rw [hy] at hs
        simp at hs
    · rw [he0', hx] at hs
      rcases next hd' with ⟨y, s, hy, hyn⟩ | hy
      · rw [hy] at hs
        simp only [items, List.map_nil, List.nil_append, List.cons_append, List.cons.injEq, Except.ok.injEq] at hs
        rw [hs.1] at hyn
        exact absurd hxk hyn
      · rw [hy] at hs
        simp at hs
    · have run : ∀ {e : List Symbol} {ty : Option TokenStream} (_ : ErrorSyntax e ty) {x : Symbol}
          {r : SymStream} (_ : items e = .ok x :: r) (_ : Is (.ident "error_type") x) (s : SymStream),
          maybeParseErrorType (items e ++ s) = .ok (ty, s) := by
        intro e ty h x r hx hk s
        cases h with
        | none => cases hx
        | some h =>
          obtain ⟨k, r', rfl, hk'⟩ := TypeOptionSyntax_head h
          have h1 : parseOptionRemainder parseType (items r' ++ s) = _ := (typeOption_cons hk').mpr ⟨k :: r', rfl, h⟩
          have h2 := isIdent_iff.mpr hk'
          simp only [maybeParseErrorType, items, List.map_cons, List.cons_append, peekExpectSymbol,
            Outcome.ok_bind, h2, if_true, List.tail_cons, h1]
          rfl
      have h3 := run he hx hxk (items ds)
      have h3' := run he' hx' hxk' (items ds')
      rw [← hs, h3'] at h3
      simp only [Outcome.ok.injEq, Prod.mk.injEq] at h3
      exact ⟨h3.1.symm, h3.2.symm⟩
  obtain ⟨e3, hs⟩ := key
  have := items_injective hs
  subst this
  have e4 := declarations_unique hd hd'
  obtain ⟨a, b, c, d⟩ := f
  obtain ⟨a', b', c', d'⟩ := f'
  simp only at e1 e2 e3 e4
  rw [e1, e2, e3, e4]

/-! ## Outcomes -/

/-- **C37.** The parser of the grammar language itself neither panics nor loops: its outcome is a value or an
error, or it is the outcome of building the table for the grammar of a file. -/
theorem outcomes {t : TokenStream} (hj : JointOk t) (fuel : Nat) :
    (∃ gi, parseGrammar tx fuel (tokenize tx .empty t) = .ok gi) ∨
    (∃ e, parseGrammar tx fuel (tokenize tx .empty t) = .err e) ∨
    ∃ ss f ig, Lexes tx t ss ∧ FileSyntax tx ss f ∧ ConsistentTypes tx f.declarations ∧
      IndexedGrammar.build f.grammar = .ok ig ∧
      ((LRTable.build fuel ig = .panic ∧ parseGrammar tx fuel (tokenize tx .empty t) = .panic) ∨
       (LRTable.build fuel ig = .ub ∧ parseGrammar tx fuel (tokenize tx .empty t) = .ub) ∨
       (LRTable.build fuel ig = .timeout ∧ parseGrammar tx fuel (tokenize tx .empty t) = .timeout)) := by
  have h0 : ∃ x, parseGrammar tx fuel (tokenize tx .empty t) = x := ⟨_, rfl⟩
  obtain ⟨x, hx⟩ := h0
  rw [hx]
  unfold parseGrammar at hx
  rcases parseName_settled (tokenize tx .empty t) with ⟨⟨name, s1⟩, h1⟩ | ⟨e, h1⟩
  case inr => rw [h1] at hx; exact .inr (.inl ⟨e, hx.symm⟩)
  rw [h1] at hx
  simp only [Outcome.ok_bind] at hx
  rcases parseTerminalType_settled s1 with ⟨⟨tt, s2⟩, h2⟩ | ⟨e, h2⟩
  case inr => rw [h2] at hx; exact .inr (.inl ⟨e, hx.symm⟩)
  rw [h2] at hx
  simp only [Outcome.ok_bind] at hx
  rcases maybeParseErrorType_settled s2 with ⟨⟨et, s3⟩, h3⟩ | ⟨e, h3⟩
  case inr => rw [h3] at hx; exact .inr (.inl ⟨e, hx.symm⟩)
  rw [h3] at hx
  simp only [Outcome.ok_bind] at hx
  rcases parseDeclarations_settled (tx := tx) (fuel := s3.length + 1) (rules := []) (m := []) (s := s3)
    (by simp) with ⟨⟨rules, m⟩, h4⟩ | ⟨e, h4⟩
  case inr => rw [h4] at hx; exact .inr (.inl ⟨e, hx.symm⟩)
  rw [h4] at hx
  simp only [Outcome.ok_bind] at hx
  rcases C10.build_returns (T := Sym) (L := String) ⟨rules.map ARule.toLr⟩ with ⟨ig, h5⟩ | ⟨e, h5⟩
  case inr => rw [h5] at hx; exact .inr (.inl ⟨_, hx.symm⟩)
  rw [h5] at hx
  simp only [Outcome.mapErr, Outcome.ok_bind] at hx
  obtain ⟨n, e1, hn⟩ := parseName_ok.mp h1
  obtain ⟨tts, e2, ht⟩ := parseTerminalType_ok.mp h2
  obtain ⟨es, e3, he⟩ := maybeParseErrorType_sound h3
  obtain ⟨ds, decls, e4, hd, hr, hm⟩ := parseDeclarations_sound h4
  have hc := addAll_sound (tx := tx) mapOf_nil consistent_nil hm
  simp only [List.nil_append] at hc hr
  have e : tokenize tx .empty t = items (n ++ (tts ++ (es ++ ds))) := by
    rw [e1, e2, e3, e4]; simp [items]
  have hf : FileSyntax tx (n ++ (tts ++ (es ++ ds))) ⟨name, tt, et, decls⟩ := .mk hn ht he hd
  have hlex := (tokenize_iff hj _).mp e
  have hg : IndexedGrammar.build (⟨name, tt, et, decls⟩ : GrammarFile).grammar = .ok ig := by
    rw [← h5, hr]; rfl
  cases h6 : LRTable.build fuel ig with
  | ok table => rw [h6] at hx; exact .inl ⟨_, hx.symm⟩
  | err e => rw [h6] at hx; exact .inr (.inl ⟨_, hx.symm⟩)
  | panic =>
    rw [h6] at hx
    exact .inr (.inr ⟨_, _, ig, hlex, hf, hc.2, hg, .inl ⟨h6, hx.symm⟩⟩)
  | ub =>
    rw [h6] at hx
    exact .inr (.inr ⟨_, _, ig, hlex, hf, hc.2, hg, .inr (.inl ⟨h6, hx.symm⟩)⟩)
  | timeout =>
    rw [h6] at hx
    exact .inr (.inr ⟨_, _, ig, hlex, hf, hc.2, hg, .inr (.inr ⟨h6, hx.symm⟩)⟩)

/-- **C37.** What is not a file of the grammar language with consistent types is rejected with an error. -/
theorem rejects {t : TokenStream} (hj : JointOk t) (fuel : Nat)
    (h : ¬ ∃ ss f, Lexes tx t ss ∧ FileSyntax tx ss f ∧ ConsistentTypes tx f.declarations) :
    ∃ e, parseGrammar tx fuel (tokenize tx .empty t) = .err e := by
  rcases outcomes (tx := tx) hj fuel with ⟨gi, h1⟩ | h1 | ⟨ss, f, ig, h1, h2, h3, -⟩
  · obtain ⟨ss, f, h2, h3, h4, -⟩ := accepted_is_file hj h1
    exact absurd ⟨ss, f, h2, h3, h4⟩ h
  · exact h1
  · exact absurd ⟨ss, f, h1, h2, h3⟩ h

end C37

/-- The nodes and the type of every rule come from a declaration. -/
theorem rule_of_declaration {ss : List Symbol} {ds : List Declaration} (h : DeclarationsSyntax tx ss ds)
    {r : ARule} (hr : r ∈ ds.flatMap Declaration.rules) :
    ∃ d ∈ ds, d.label = r.name ∧ d.type = r.returnType ∧ r.rule ≠ [] ∧ Alone r.rule := by
  obtain ⟨d, hd, hr⟩ := List.mem_flatMap.mp hr
  obtain ⟨a, ha, rfl⟩ := List.mem_map.mp hr
  refine ⟨d, hd, rfl, rfl, ?_⟩
  have key : ∀ {ss : List Symbol} {ds : List Declaration}, DeclarationsSyntax tx ss ds → ∀ d ∈ ds,
      ∃ s, DeclarationSyntax tx s d := by
    intro ss ds h
    induction h with
    | nil => intro d hd; cases hd
    | cons hd _ ih =>
      intro d hd'
      rcases List.mem_cons.mp hd' with rfl | hd'
      · exact ⟨_, hd⟩
      · exact ih d hd'
  have rules : ∀ {rs : List Symbol} {as : List Alternative}, RulesSyntax tx rs as → ∀ a ∈ as,
      ∃ s, RuleSyntax tx s a := by
    intro rs as h
    induction h with
    | one h => intro a ha; simp only [List.mem_singleton] at ha; subst ha; exact ⟨_, h⟩
    | cons h _ _ ih =>
      intro a ha
      rcases List.mem_cons.mp ha with rfl | ha
      · exact ⟨_, h⟩
      · exact ih a ha
  obtain ⟨s, hs⟩ := key h d hd
  cases hs with
  | mk _ _ _ _ _ hrs _ =>
    obtain ⟨s, hs⟩ := rules hrs a ha
    obtain ⟨-, -, -, -, h1, h2, -⟩ := RuleSyntax_parts hs
    exact ⟨h1, h2⟩

theorem declarations_of_file {ss : List Symbol} {f : GrammarFile} (h : FileSyntax tx ss f) :
    ∃ ds, DeclarationsSyntax tx ds f.declarations := by
  cases h with
  | mk _ _ _ hd => exact ⟨_, hd⟩

namespace C38

/-- **C38.** Every rule that the macro passes on is non-empty, contains epsilon only as its single node and
never contains the end-of-stream marker. -/
theorem epsilon_alone {t : TokenStream} (hj : JointOk t) {fuel : Nat} {gi : GrammarInfo}
    (h : parseGrammar tx fuel (tokenize tx .empty t) = .ok gi) :
    ∀ r ∈ gi.grammar.productions, r.rule ≠ [] ∧
      (.terminal .epsilon ∈ r.rule → r.rule = [.terminal .epsilon]) ∧ .terminal .eos ∉ r.rule := by
  obtain ⟨ss, f, -, hf, -, hr, -⟩ := C37.accepted_is_file hj h
  obtain ⟨ds, hd⟩ := declarations_of_file hf
  intro r hm
  simp only [GrammarInfo.grammar, List.mem_map] at hm
  obtain ⟨q, hq, rfl⟩ := hm
  rw [hr.rules] at hq
  obtain ⟨d, -, -, -, h1, h2⟩ := rule_of_declaration hd hq
  refine ⟨by simpa [ARule.toLr] using h1, ?_, ?_⟩
  · intro he
    simp only [ARule.toLr, List.mem_map] at he ⊢
    obtain ⟨n, hn, e⟩ := he
    cases n with
    | epsilon => rw [h2 hn]; rfl
    | production _ => cases e
    | symbol _ => cases e
  · intro he
    simp only [ARule.toLr, List.mem_map] at he
    obtain ⟨n, hn, e⟩ := he
    cases n <;> cases e

/-- In particular the grammar meets the condition under which the theorems on tables and parsers hold. -/
theorem epsilonAlone {t : TokenStream} (hj : JointOk t) {fuel : Nat} {gi : GrammarInfo}
    (h : parseGrammar tx fuel (tokenize tx .empty t) = .ok gi) : EpsilonAlone gi.grammar := by
  intro r hr
  obtain ⟨-, h1, -⟩ := epsilon_alone hj h r hr
  by_cases he : .terminal .epsilon ∈ r.rule
  · left
    rw [h1 he]
    simp
  · exact .inr he

/-- **C38.** A rule that mixes epsilon with other nodes is rejected with an error that says so. -/
theorem mixed_rejected {ss bs : List Symbol} {ns : List ANode} {block : Option (Delim × TokenStream)}
    (hs : NodesSyntax tx ss ns) (hb : BlockSyntax bs block) {s' : SymStream} (he : AtRuleEnd s')
    (hm : .epsilon ∈ ns) (hl : 1 < ns.length) (name : String) (ty : Option TokenStream) :
    parseRule tx name ty (items ss ++ (items bs ++ s')) = .err .epsilonNotAlone := by
  cases hs with
  | nil => cases hm
  | @cons s ss n ns hn hr =>
    have hp : NotParen (items ss ++ (items bs ++ s')) :=
      NodesSyntax_notParen hr (BlockSyntax_notParen hb he)
    have e : items (s ++ ss) ++ (items bs ++ s') = items s ++ (items ss ++ (items bs ++ s')) := by simp [items]
    unfold parseRule
    rw [e, parseNode_complete hn hp]
    simp only [Outcome.ok_bind]
    have hlen := NodesSyntax_length hr
    rw [parseNodes_complete hr hb he (by simp only [items, List.length_append, List.length_map]; omega) [n]]
    simp only [Outcome.ok_bind]
    rw [if_pos]
    rw [Bool.and_eq_true, decide_eq_true_eq, List.any_eq_true]
    exact ⟨by simpa using hl, .epsilon, by simpa using hm, rfl⟩

end C38

namespace C39

/-- **C39.** The lookup of a label's type never fails: neither for the labels of rules nor for those that
rules refer to. -/
theorem lookup_total {t : TokenStream} (hj : JointOk t) {fuel : Nat} {gi : GrammarInfo}
    (h : parseGrammar tx fuel (tokenize tx .empty t) = .ok gi) (l : String)
    (hl : (∃ r ∈ gi.productionRules, r.name = l) ∨ ∃ r ∈ gi.productionRules, .production l ∈ r.rule) :
    ∃ ty, (gi.labelType l : Outcome MacroError _) = .ok ty := by
  obtain ⟨ss, f, -, hf, -, hr, hi, -⟩ := C37.accepted_is_file hj h
  obtain ⟨ds, hd⟩ := declarations_of_file hf
  have hname : ∃ r ∈ gi.productionRules, r.name = l := by
    rcases hl with hl | ⟨r, hr', hp⟩
    · exact hl
    · cases hps : gi.productionRules with
      | nil => rw [hps] at hr'; cases hr'
      | cons q0 qs =>
        have hgr : gi.grammar = C10.gr q0.toLr (qs.map ARule.toLr) := by
          simp [GrammarInfo.grammar, hps, C10.gr]
        have hdef := ((C10.build_succeeds_iff _ _).mp ⟨_, hgr ▸ hi⟩).2.1
        obtain ⟨q, hq, hql⟩ := hdef r.toLr (by
            rw [← hgr]; simp only [GrammarInfo.grammar]; exact List.mem_map_of_mem hr') l (by
            simp only [ARule.toLr, List.mem_map]; exact ⟨_, hp, rfl⟩)
        rw [← hgr] at hq
        simp only [GrammarInfo.grammar, List.mem_map] at hq
        obtain ⟨q', hq', rfl⟩ := hq
        exact ⟨q', hps ▸ hq', hql⟩
  obtain ⟨r, hrm, rfl⟩ := hname
  rw [hr.rules] at hrm
  obtain ⟨d, hdm, hdl, -⟩ := rule_of_declaration hd hrm
  unfold GrammarInfo.labelType
  rw [hr.types]
  cases hfind : f.declarations.find? (fun d => d.label == r.name) with
  | none =>
    rw [List.find?_eq_none] at hfind
    exact absurd (by simpa using hdl) (hfind d hdm)
  | some d => exact ⟨d.type, rfl⟩

/-- **C39.** All rules of a label carry the type that is looked up for it, or all carry none. -/
theorem types_consistent {t : TokenStream} (hj : JointOk t) {fuel : Nat} {gi : GrammarInfo}
    (h : parseGrammar tx fuel (tokenize tx .empty t) = .ok gi) {r : ARule} (hr : r ∈ gi.productionRules) :
    ∃ ty, (gi.labelType r.name : Outcome MacroError _) = .ok ty ∧ SameType tx ty r.returnType := by
  obtain ⟨ss, f, -, hf, hc, hrd, -⟩ := C37.accepted_is_file hj h
  obtain ⟨ds, hd⟩ := declarations_of_file hf
  rw [hrd.rules] at hr
  obtain ⟨d, hdm, hdl, hdt, -⟩ := rule_of_declaration hd hr
  unfold GrammarInfo.labelType
  rw [hrd.types]
  cases hfind : f.declarations.find? (fun d => d.label == r.name) with
  | none =>
    rw [List.find?_eq_none] at hfind
    exact absurd (by simpa using hdl) (hfind d hdm)
  | some d0 =>
    refine ⟨d0.type, rfl, ?_⟩
    have h0 := List.find?_some hfind
    simp only [beq_iff_eq] at h0
    rw [← hdt]
    exact hc d0 (List.mem_of_find?_eq_some hfind) d hdm (by rw [h0, hdl])

/-- **C39.** A file that declares one label with different types is rejected with an error. -/
theorem inconsistent_rejected {t : TokenStream} (hj : JointOk t) (fuel : Nat) {ss : List Symbol}
    {f : GrammarFile} (hl : Lexes tx t ss) (hf : FileSyntax tx ss f)
    (hc : ¬ ConsistentTypes tx f.declarations) :
    ∃ e, parseGrammar tx fuel (tokenize tx .empty t) = .err e := by
  refine C37.rejects hj fuel ?_
  rintro ⟨ss', f', hl', hf', hc'⟩
  have e1 := tokenize_complete hl
  rw [tokenize_complete hl'] at e1
  have := C37.items_injective e1
  subst this
  rw [C37.unambiguous hf' hf] at hc'
  exact hc hc'

end C39
end Verif
