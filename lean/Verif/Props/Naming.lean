import Verif.Proof.NamingMacro
import Verif.Props.GrammarPrint
import Verif.Props.Emit
import Mathlib.Data.Set.Function

/-!
# C60: names do not matter
-/

set_option linter.unusedSectionVars false
set_option autoImplicit false

namespace Verif.C60
open Spec

section
variable {T L T' L' T'' L'' : Type}

theorem renameTok_comp (σ : T → T') (σ' : T' → T'') (t : AugTok T) :
    renameTok σ' (renameTok σ t) = renameTok (σ' ∘ σ) t := by cases t <;> rfl

theorem renameError_comp (σ : T → T') (σ' : T' → T'') (τ : L → L') (τ' : L' → L'') (e : LRTableError T L) :
    renameError σ' τ' (renameError σ τ e) = renameError (σ' ∘ σ) (τ' ∘ τ) e := by
  cases e <;> simp [renameError, renameTok_comp]

theorem renameGrammar_comp (σ : T → T') (σ' : T' → T'') (τ : L → L') (τ' : L' → L'') (g : Grammar T L) :
    renameGrammar σ' τ' (renameGrammar σ τ g) = renameGrammar (σ' ∘ σ) (τ' ∘ τ) g := by
  have : renameNode σ' τ' ∘ renameNode σ τ = renameNode (σ' ∘ σ) (τ' ∘ τ) := by
    funext n
    cases n <;> simp [renameNode, renameTok_comp]
  simp [renameGrammar, renameRule, this, Function.comp_def]

theorem rename_comp (σ : T → T') (σ' : T' → T'') (τ : L → L') (τ' : L' → L'') (ig : IndexedGrammar T L) :
    (ig.rename σ τ).rename σ' τ' = ig.rename (σ' ∘ σ) (τ' ∘ τ) := by
  simp [IndexedGrammar.rename, Vocab.rename, Function.comp_def]

theorem mapOutcome_comp {ε ε' ε'' α β γ : Type} (fe : ε → ε') (fe' : ε' → ε'') (f : α → β) (f' : β → γ)
    (x : Outcome ε α) : mapOutcome fe' f' (mapOutcome fe f x) = mapOutcome (fe' ∘ fe) (f' ∘ f) x := by
  cases x <;> rfl

/-- A grammar is the renaming of one whose symbols are those that occur. -/
theorem restrict (g : Grammar T L) {S : T → Prop} {M : L → Prop} (hS : ∀ t, TokenOf g t → S t)
    (hM : ∀ l, LabelOf g l → M l) :
    ∃ g₀ : Grammar {t // S t} {l // M l}, renameGrammar Subtype.val Subtype.val g₀ = g := by
  have nodes : ∀ ns : List (Node T L), (∀ t, .terminal (.token t) ∈ ns → S t) → (∀ l, .production l ∈ ns → M l) →
      ∃ ns₀ : List (Node {t // S t} {l // M l}), ns₀.map (renameNode Subtype.val Subtype.val) = ns := by
    intro ns
    induction ns with
    | nil => exact fun _ _ => ⟨[], rfl⟩
    | cons n ns ih =>
      intro h1 h2
      obtain ⟨ns₀, h⟩ := ih (fun t ht => h1 t (by simp [ht])) (fun l hl => h2 l (by simp [hl]))
      cases n with
      | production l => exact ⟨.production ⟨l, h2 l (by simp)⟩ :: ns₀, by simp [h, renameNode]⟩
      | terminal t =>
        cases t with
        | token t => exact ⟨.terminal (.token ⟨t, h1 t (by simp)⟩) :: ns₀, by simp [h, renameNode, renameTok]⟩
        | epsilon => exact ⟨.terminal .epsilon :: ns₀, by simp [h, renameNode, renameTok]⟩
        | eos => exact ⟨.terminal .eos :: ns₀, by simp [h, renameNode, renameTok]⟩
  have rules : ∀ rs : List (Rule T L), (∀ r ∈ rs, r ∈ g.productions) →
      ∃ rs₀ : List (Rule {t // S t} {l // M l}), rs₀.map (renameRule Subtype.val Subtype.val) = rs := by
    intro rs
    induction rs with
    | nil => exact fun _ => ⟨[], rfl⟩
    | cons r rs ih =>
      intro hr
      obtain ⟨rs₀, h⟩ := ih fun q hq => hr q (by simp [hq])
      have hm := hr r (by simp)
      obtain ⟨ns₀, hn⟩ := nodes r.rule (fun t ht => hS t ⟨r, hm, ht⟩) (fun l hl => hM l ⟨r, hm, .inr hl⟩)
      exact ⟨⟨⟨r.symbol, hM _ ⟨r, hm, .inl rfl⟩⟩, ns₀⟩ :: rs₀, by simp [h, hn, renameRule]⟩
  obtain ⟨rs₀, h⟩ := rules g.productions fun _ => id
  exact ⟨⟨rs₀⟩, by cases g; simpa [renameGrammar] using h⟩

variable [DecidableEq T] [DecidableEq L] [DecidableEq T'] [DecidableEq L']

theorem injective_val {α β : Type} {S : α → Prop} {f : α → β} (h : Set.InjOn f {a | S a}) :
    Function.Injective (f ∘ (Subtype.val : {a // S a} → α)) :=
  fun a b e => Subtype.ext (h a.2 b.2 e)

/-- **C60.** Building the indexed grammar of a renamed grammar gives the same rules and numbers with the new names, and
the same error with the new names. -/
theorem grammar_names (g : Grammar T L) {σ : T → T'} {τ : L → L'} (hσ : Set.InjOn σ {t | TokenOf g t})
    (hτ : Set.InjOn τ {l | LabelOf g l}) :
    IndexedGrammar.build (renameGrammar σ τ g) =
      mapOutcome (renameError σ τ) (fun ig => ig.rename σ τ) (IndexedGrammar.build g) := by
  obtain ⟨g₀, hg₀⟩ := restrict g (fun _ => id) (fun _ => id)
  have h1 := (build_rename Subtype.val_injective Subtype.val_injective g₀).eq_map
  have h2 := (build_rename (injective_val hσ) (injective_val hτ) g₀).eq_map
  rw [← renameGrammar_comp, hg₀] at h2
  rw [hg₀] at h1
  rw [h1, h2, mapOutcome_comp]
  congr 1
  · funext e; exact (renameError_comp ..).symm
  · funext ig; exact (rename_comp ..).symm

/-- **C60.** The table of a renamed grammar is the same table; conflicts are the same with the new names. (No condition
on the names: the table is computed from numbers.) -/
theorem table_names (fuel : Nat) (ig : IndexedGrammar T L) (σ : T → T') (τ : L → L') :
    LRTable.build fuel (ig.rename σ τ) = mapOutcome (renameError σ τ) id (LRTable.build fuel ig) :=
  (((ig.rename_shape σ τ).table fuel).mono fun _ _ e => e.symm).eq_map

/-- **C60.** A renamed grammar and its original have the same table, or the same error up to names. -/
theorem library_names (fuel : Nat) (g : Grammar T L) {σ : T → T'} {τ : L → L'} (hσ : Set.InjOn σ {t | TokenOf g t})
    (hτ : Set.InjOn τ {l | LabelOf g l}) :
    SimParser.new fuel (renameGrammar σ τ g) =
      mapOutcome (renameError σ τ) (fun p => ⟨p.grammar.rename σ τ, p.lrTable⟩) (SimParser.new fuel g) := by
  unfold SimParser.new
  rw [grammar_names g hσ hτ]
  cases IndexedGrammar.build g <;> try rfl
  rename_i ig
  simp only [mapOutcome, Outcome.ok_bind, table_names fuel ig σ τ]
  cases LRTable.build fuel ig <;> rfl

/-- **C60.** The parser of the renamed grammar does with the renamed input what the parser of the grammar does with the
input: no token of the input may become the name of another token. -/
theorem parse_names {ε : Type} (fuel : Nat) (g : Grammar T L) {σ : T → T'} {τ : L → L'} {w : List T}
    (hσ : Set.InjOn σ {t | TokenOf g t ∨ t ∈ w}) (hτ : Set.InjOn τ {l | LabelOf g l}) {p : SimParser T L}
    (hp : SimParser.new fuel g = .ok p) :
    ∃ p', SimParser.new fuel (renameGrammar σ τ g) = .ok p' ∧ p'.lrTable = p.lrTable ∧
      ∀ fuel', (p'.parseStream fuel' (w.map σ) : Outcome ε Bool) = p.parseStream fuel' w := by
  refine ⟨⟨p.grammar.rename σ τ, p.lrTable⟩, ?_, rfl, fun fuel' => ?_⟩
  · rw [library_names fuel g (hσ.mono fun t ht => .inl ht) hτ, hp]
    rfl
  · obtain ⟨g₀, hg₀⟩ := restrict g (S := fun t => TokenOf g t ∨ t ∈ w) (fun _ => .inl) (fun _ => id)
    have h0 := (simulator_rename Subtype.val_injective Subtype.val_injective fuel g₀).eq_map
    rw [hg₀, hp] at h0
    have hp₀ : ∃ p₀, SimParser.new fuel g₀ = .ok p₀ := by
      cases h : SimParser.new fuel g₀ <;> rw [h] at h0 <;> cases h0
      exact ⟨_, rfl⟩
    obtain ⟨p₀, hp₀⟩ := hp₀
    rw [hp₀] at h0
    simp only [mapOutcome, Outcome.ok.injEq] at h0
    subst h0
    have hw : ∃ w₀ : List {t // TokenOf g t ∨ t ∈ w}, w₀.map Subtype.val = w :=
      ⟨w.attach.map fun t => ⟨t.1, .inr t.2⟩, by simp [Function.comp_def]⟩
    obtain ⟨w₀, hw₀⟩ := hw
    have h1 := (parse_rename (ε := ε) (ε' := ε) (E := Eq) (τ := (Subtype.val : {l // LabelOf g l} → L))
      Subtype.val_injective p₀ fuel' w₀).mono fun _ _ e => e.symm
    have h2 := (parse_rename (ε := ε) (ε' := ε) (E := Eq) (τ := (τ ∘ Subtype.val : {l // LabelOf g l} → L'))
      (injective_val hσ) p₀ fuel' w₀).mono fun _ _ e => e.symm
    have e1 : (SimParser.parseStream fuel' ⟨p₀.grammar.rename Subtype.val Subtype.val, p₀.lrTable⟩ w : Outcome ε Bool) =
        p₀.parseStream fuel' w₀ := by
      rw [hw₀] at h1
      have := (OutRel.eq_map (fe := id) (f := id) (h1.mono' ?_))
      · rw [this]; cases (p₀.parseStream fuel' w₀ : Outcome ε Bool) <;> rfl
      · exact fun _ _ e => e.symm
    have e2 : (SimParser.parseStream fuel' ⟨(p₀.grammar.rename Subtype.val Subtype.val).rename σ τ, p₀.lrTable⟩
        (w.map σ) : Outcome ε Bool) = p₀.parseStream fuel' w₀ := by
      rw [← List.map_map, hw₀] at h2
      rw [rename_comp]
      have := (OutRel.eq_map (fe := id) (f := id) (h2.mono' ?_))
      · rw [this]; cases (p₀.parseStream fuel' w₀ : Outcome ε Bool) <;> rfl
      · exact fun _ _ e => e.symm
    exact e2.trans e1.symm

end

/-! ### The macro -/

section
variable {tx : Text} {τ : String → String}

theorem rules_rename (f : GrammarFile) : (renameFile τ f).rules = f.rules.map (renameARule τ) := by
  simp only [GrammarFile.rules, renameFile, List.flatMap_map, List.map_flatMap]
  congr 1
  funext d
  simp [Declaration.rules, renameDeclaration, renameAlternative, renameARule, Function.comp_def]

theorem grammar_rename (f : GrammarFile) : (renameFile τ f).grammar = renameGrammar id τ f.grammar := by
  have : ∀ r : ARule, (renameARule τ r).toLr = renameRule id τ r.toLr := by
    intro r
    simp only [ARule.toLr, renameARule, renameRule, List.map_map, Rule.mk.injEq, true_and]
    congr 1
    funext n
    cases n <;> rfl
  simp [GrammarFile.grammar, renameGrammar, rules_rename, Function.comp_def, this]

variable (hτ : Function.Injective τ)
include hτ

theorem types_rename (f : GrammarFile) (l : String) :
    ((renameFile τ f).declarations.find? (fun d => d.label == τ l)).map (·.type) =
      (f.declarations.find? (fun d => d.label == l)).map (·.type) := by
  have : (fun d : Declaration => d.label == τ l) ∘ renameDeclaration τ = fun d => d.label == l := by
    funext d
    by_cases h : d.label = l
    · simp [renameDeclaration, h]
    · have h' : τ d.label ≠ τ l := fun e => h (hτ e)
      simp only [Function.comp, renameDeclaration]
      rw [beq_eq_false_iff_ne.mpr h, beq_eq_false_iff_ne.mpr h']
  simp only [renameFile, List.find?_map, this, Option.map_map]
  cases f.declarations.find? (fun d => d.label == l) <;> rfl

theorem consistent_rename (f : GrammarFile) :
    ConsistentTypes tx (renameFile τ f).declarations ↔ ConsistentTypes tx f.declarations := by
  constructor
  · intro h d hd d' hd' e
    exact h (renameDeclaration τ d) (List.mem_map_of_mem hd) (renameDeclaration τ d') (List.mem_map_of_mem hd')
      (congrArg τ e)
  · intro h d hd d' hd' e
    obtain ⟨c, hc, rfl⟩ := List.mem_map.mp hd
    obtain ⟨c', hc', rfl⟩ := List.mem_map.mp hd'
    exact h c hc c' hc' (hτ e)

theorem info_rename {f : GrammarFile} {gi gi' : GrammarInfo} (h : C37.Reads gi f)
    (h' : C37.Reads gi' (renameFile τ f)) (hi : gi'.indexedGrammar = gi.indexedGrammar.rename id τ)
    (ht : gi'.lrTable = gi.lrTable) : SameInfo τ gi gi' where
  name := h'.name.trans h.name.symm
  terminalType := h'.terminal.trans h.terminal.symm
  errorType := h'.error.trans h.error.symm
  labelTypes l := by rw [h'.types, h.types, types_rename hτ]
  rules := by rw [h'.rules, h.rules, rules_rename]
  indexed := hi
  table := ht

omit hτ in
/-- The text of the generated parser is made from the program and from parts of the file that do not mention labels. -/
theorem emit_same {gi gi' : GrammarInfo} (h : SameInfo τ gi gi') (retok : String → TokenStream) (isPub : Bool)
    (prog : Program) : Emit.parser gi' retok isPub prog = Emit.parser gi retok isPub prog := by
  obtain ⟨n, tt, et, lt, rs, ig, t⟩ := gi
  obtain ⟨n', tt', et', lt', rs', ig', t'⟩ := gi'
  obtain ⟨h1, h2, h3, -, -, -, h7⟩ := h
  dsimp only at h1 h2 h3 h7
  subst h1 h2 h3 h7
  have e0 : ∀ (gi gi' : GrammarInfo), gi'.name = gi.name → gi'.terminalType = gi.terminalType →
      Emit.stateName gi' = Emit.stateName gi ∧ Emit.stateMatcher gi' = Emit.stateMatcher gi ∧
      Emit.matcher gi' = Emit.matcher gi ∧ Emit.tokenExpr gi' = Emit.tokenExpr gi ∧
      Emit.popArm gi' = Emit.popArm gi ∧ Emit.pops gi' = Emit.pops gi := by
    intro gi gi' h1 h2
    have a : Emit.stateName gi' = Emit.stateName gi := by
      funext n; simp only [Emit.stateName, Emit.enumName, h1]
    have b : Emit.tokenType gi' = Emit.tokenType gi := by simp only [Emit.tokenType, h2]
    have c : Emit.popArm gi' = Emit.popArm gi := by funext v n; simp only [Emit.popArm, a, b]
    refine ⟨a, ?_, ?_, ?_, c, ?_⟩
    · funext n; simp only [Emit.stateMatcher, a]
    · funext n m
      cases m with
      | eos => rfl
      | token p => cases p <;> simp only [Emit.matcher, Emit.pattern, b]
    · funext e; cases e <;> simp only [Emit.tokenExpr, b]
    · funext body l
      induction l with
      | nil => rfl
      | cons p l ih => simp only [Emit.pops, c, ih]
  obtain ⟨e1, e2, e3, e4, e5, e6⟩ := e0 ⟨n', tt', et', lt, rs, ig, t'⟩ ⟨n', tt', et', lt', rs', ig', t'⟩ rfl rfl
  have e7 : ∀ code, Emit.actions ⟨n', tt', et', lt', rs', ig', t'⟩ code =
      Emit.actions ⟨n', tt', et', lt, rs, ig, t'⟩ code := by
    intro code
    have a : Emit.reduceArm ⟨n', tt', et', lt', rs', ig', t'⟩ = Emit.reduceArm ⟨n', tt', et', lt, rs, ig, t'⟩ := by
      funext arm
      have : ∀ c r gc, Emit.gotoCode ⟨n', tt', et', lt', rs', ig', t'⟩ c r gc =
          Emit.gotoCode ⟨n', tt', et', lt, rs, ig, t'⟩ c r gc := by
        intro c r gc; cases gc <;> simp only [Emit.gotoCode, e1, e2]
      simp only [Emit.reduceArm, e3, e6, this]
    have b : Emit.acceptArm ⟨n', tt', et', lt', rs', ig', t'⟩ = Emit.acceptArm ⟨n', tt', et', lt, rs, ig, t'⟩ := by
      funext arm; simp only [Emit.acceptArm, e3, e6]
    have c : Emit.shiftArm ⟨n', tt', et', lt', rs', ig', t'⟩ = Emit.shiftArm ⟨n', tt', et', lt, rs, ig, t'⟩ := by
      funext arm; simp only [Emit.shiftArm, e1, e3, e4]
    have d : ∀ r ms, Emit.overlapCheck ⟨n', tt', et', lt', rs', ig', t'⟩ r ms =
        Emit.overlapCheck ⟨n', tt', et', lt, rs, ig, t'⟩ r ms := by
      intro r ms; cases ms <;> simp only [Emit.overlapCheck, e3]
    simp only [Emit.actions, a, b, c, d]
  have e8 : ∀ res, Emit.function ⟨n', tt', et', lt', rs', ig', t'⟩ retok res =
      Emit.function ⟨n', tt', et', lt, rs, ig, t'⟩ retok res := by
    intro res; funext p; simp only [Emit.function, e7]; rfl
  have e9 : ∀ k, Emit.parseLoop ⟨n', tt', et', lt', rs', ig', t'⟩ k =
      Emit.parseLoop ⟨n', tt', et', lt, rs, ig, t'⟩ k := by
    intro k; simp only [Emit.parseLoop, e1, e2]
  simp only [Emit.parser, e8, e9]
  rfl

omit hτ in
theorem file_of {t : TokenStream} (hj : JointOk t) {ss : List Symbol} {f : GrammarFile} (hl : Lexes tx t ss)
    (hf : FileSyntax tx ss f) {fuel : Nat} {gi : GrammarInfo}
    (h : parseGrammar tx fuel (tokenize tx .empty t) = .ok gi) :
    ConsistentTypes tx f.declarations ∧ C37.Reads gi f ∧ IndexedGrammar.build f.grammar = .ok gi.indexedGrammar ∧
      LRTable.build fuel gi.indexedGrammar = .ok gi.lrTable := by
  obtain ⟨ss', f', hl', hf', h1, h2, h3, h4⟩ := C37.accepted_is_file hj h
  have e := tokenize_complete hl
  rw [tokenize_complete hl'] at e
  cases C37.items_injective e
  cases C37.unambiguous hf hf'
  exact ⟨h1, h2, h2.grammar_eq ▸ h3, h4⟩

/-- The two grammars are read alike. -/
theorem parse_same {t t' : TokenStream} (hj : JointOk t) {ss ss' : List Symbol} {f : GrammarFile}
    (hl : Lexes tx t ss) (hf : FileSyntax tx ss f) (hl' : Lexes tx t' ss')
    (hf' : FileSyntax tx ss' (renameFile τ f)) {fuel : Nat} {gi : GrammarInfo}
    (h : parseGrammar tx fuel (tokenize tx .empty t) = .ok gi) :
    ∃ gi', parseGrammar tx fuel (tokenize tx .empty t') = .ok gi' ∧ SameInfo τ gi gi' := by
  obtain ⟨h1, h2, h3, h4⟩ := file_of hj hl hf h
  have h5 := grammar_names f.grammar (σ := id) (τ := τ) Function.injective_id.injOn hτ.injOn
  rw [h3, ← grammar_rename] at h5
  have h6 := table_names fuel gi.indexedGrammar id τ
  rw [h4] at h6
  obtain ⟨gi', h7, h8, h9, h10⟩ := C37.file_is_accepted hl' hf' ((consistent_rename hτ f).mpr h1) h5 h6
  exact ⟨gi', h7, info_rename hτ h2 h8 h9 h10⟩

/-- If the renamed file is accepted, so is the file. -/
theorem parse_same_back {t t' : TokenStream} (hj' : JointOk t') {ss ss' : List Symbol} {f : GrammarFile}
    (hl : Lexes tx t ss) (hf : FileSyntax tx ss f) (hl' : Lexes tx t' ss')
    (hf' : FileSyntax tx ss' (renameFile τ f)) {fuel : Nat} {gi' : GrammarInfo}
    (h : parseGrammar tx fuel (tokenize tx .empty t') = .ok gi') :
    ∃ gi, parseGrammar tx fuel (tokenize tx .empty t) = .ok gi ∧ SameInfo τ gi gi' := by
  obtain ⟨h1, h2, h3, h4⟩ := file_of hj' hl' hf' h
  have h5 := grammar_names f.grammar (σ := id) (τ := τ) Function.injective_id.injOn hτ.injOn
  rw [← grammar_rename, h3] at h5
  obtain ⟨ig, hi, e1⟩ : ∃ ig, IndexedGrammar.build f.grammar = .ok ig ∧ gi'.indexedGrammar = ig.rename id τ := by
    cases hb : IndexedGrammar.build f.grammar <;> rw [hb] at h5 <;> first | exact ⟨_, rfl, Outcome.ok.inj h5⟩ | cases h5
  have h6 := table_names fuel ig id τ
  rw [← e1, h4] at h6
  have ht : LRTable.build fuel ig = .ok gi'.lrTable := by
    cases hb : LRTable.build fuel ig <;> rw [hb] at h6 <;> cases h6
    rfl
  obtain ⟨gi, h7, h8, h9, h10⟩ := C37.file_is_accepted hl hf ((consistent_rename hτ f).mp h1) hi ht
  exact ⟨gi, h7, info_rename hτ h8 h2 (by rw [e1, h9]) h10.symm⟩

/-- **C60.** Renaming the labels of a file, together with the references to them in rules and constructors, does not
change what the macro writes: the file is accepted if and only if it was before, and the code is the same, token by
token. -/
theorem macro_names {t t' : TokenStream} (hj : JointOk t) (hj' : JointOk t') {ss ss' : List Symbol}
    {f : GrammarFile} (hl : Lexes tx t ss) (hf : FileSyntax tx ss f) (hl' : Lexes tx t' ss')
    (hf' : FileSyntax tx ss' (renameFile τ f)) (o : HashOrder) (lex : Lexer) (fuel : Nat) (prog : Program) :
    ((∃ gi, buildGrammar o lex tx fuel t = .ok (gi, prog)) ↔ ∃ gi', buildGrammar o lex tx fuel t' = .ok (gi', prog)) ∧
    ∀ gi gi', buildGrammar o lex tx fuel t = .ok (gi, prog) → buildGrammar o lex tx fuel t' = .ok (gi', prog) →
      ∀ retok isPub, Emit.parser gi' retok isPub prog = Emit.parser gi retok isPub prog := by
  have gen : ∀ {gi gi' : GrammarInfo}, SameInfo τ gi gi' →
      (generateParser o lex gi = .ok prog ↔ generateParser o lex gi' = .ok prog) := by
    intro gi gi' h
    have := generateParser_rename hτ h o lex
    constructor <;> intro e <;> rw [e] at this
    · cases hg : generateParser o lex gi' <;> rw [hg] at this <;>
        first | exact this.elim | exact congrArg Outcome.ok this.symm
    · cases hg : generateParser o lex gi <;> rw [hg] at this <;>
        first | exact this.elim | exact congrArg Outcome.ok this
  have split : ∀ {t : TokenStream} {gi : GrammarInfo}, buildGrammar o lex tx fuel t = .ok (gi, prog) →
      parseGrammar tx fuel (tokenize tx .empty t) = .ok gi ∧ generateParser o lex gi = .ok prog := by
    intro t gi h
    obtain ⟨gi₁, h1, h⟩ := Outcome.bind_eq_ok.mp h
    obtain ⟨p₁, h2, h⟩ := Outcome.bind_eq_ok.mp h
    cases h
    exact ⟨h1, h2⟩
  have join : ∀ {t : TokenStream} {gi : GrammarInfo}, parseGrammar tx fuel (tokenize tx .empty t) = .ok gi →
      generateParser o lex gi = .ok prog → buildGrammar o lex tx fuel t = .ok (gi, prog) := by
    intro t gi h1 h2
    simp [buildGrammar, h1, h2]
  refine ⟨⟨?_, ?_⟩, ?_⟩
  · rintro ⟨gi, h⟩
    obtain ⟨h1, h2⟩ := split h
    obtain ⟨gi', h3, h4⟩ := parse_same hτ hj hl hf hl' hf' h1
    exact ⟨gi', join h3 ((gen h4).mp h2)⟩
  · rintro ⟨gi', h⟩
    obtain ⟨h1, h2⟩ := split h
    obtain ⟨gi, h3, h4⟩ := parse_same_back hτ hj' hl hf hl' hf' h1
    exact ⟨gi, join h3 ((gen h4).mpr h2)⟩
  · intro gi gi' h h' retok isPub
    obtain ⟨h1, -⟩ := split h
    obtain ⟨h1', -⟩ := split h'
    obtain ⟨gi₂, h3, h4⟩ := parse_same hτ hj hl hf hl' hf' h1
    rw [h1'] at h3
    cases h3
    exact emit_same h4 retok isPub prog

end
end Verif.C60
