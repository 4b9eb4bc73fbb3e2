import Verif.Proof.LocatedTokens
import Verif.Props.GrammarSample

/-!
# C65: errors of the macro point at what is wrong
-/

set_option autoImplicit false
set_option linter.unusedSectionVars false

namespace Verif
open Spec Located

namespace C65

variable {S : Type} (sp : Spans S) (tx : Text)

/-- **C65.** Places and texts of errors do not change what is accepted and which error there is: the model with places does
what the model without them does, of which the other theorems speak. -/
theorem same_outcomes (fuel : Nat) (T : LTokens S) :
    (∀ gi, (∃ rules, Located.parseGrammar sp tx fuel (stream sp tx T) = .ok (gi, rules)) ↔
      Verif.parseGrammar tx fuel (Verif.tokenize tx .empty T.erase) = .ok gi) ∧
    ∀ k, (∃ e, Located.parseGrammar sp tx fuel (stream sp tx T) = .err e ∧ e.kind = k) ↔
      Verif.parseGrammar tx fuel (Verif.tokenize tx .empty T.erase) = .err k := by
  have h := parseGrammar_rel sp tx fuel (stream sp tx T)
  rw [show (stream sp tx T).erase = Verif.tokenize tx .empty T.erase from tokenize_erase sp tx T .empty] at h
  generalize Located.parseGrammar sp tx fuel (stream sp tx T) = x at h
  generalize Verif.parseGrammar tx fuel (Verif.tokenize tx .empty T.erase) = y at h
  constructor
  · intro gi
    constructor
    · rintro ⟨rules, rfl⟩
      cases y with
      | ok b => rw [show b = gi from h.1]
      | _ => exact h.elim
    · rintro rfl
      cases x with
      | ok a =>
        obtain ⟨a, rules⟩ := a
        rw [show gi = a from h.1]
        exact ⟨rules, rfl⟩
      | _ => exact h.elim
  · intro k
    constructor
    · rintro ⟨e, rfl, rfl⟩
      cases y with
      | err b => rw [show b = e.kind from h]
      | _ => exact h.elim
    · rintro rfl
      cases x with
      | err a => exact ⟨a, rfl, (show k = a.kind from h).symm⟩
      | _ => exact h.elim

variable {tx} {sp}
variable {T : LTokens S} {fuel : Nat} {e : Diag S}

theorem TypeIn.kind' {p : List (LSymbol S)} (h : TypeIn sp tx p e) : e.kind = .typeMismatch := h.1.1

theorem EpsIn.kind' {L : List Symbol → Prop} {p : List (LSymbol S)} (h : EpsIn tx L p e) : e.kind = .epsilonNotAlone := by
  obtain ⟨a, k, b, ext, -, -, -, h, -⟩ := h
  exact h.1

/-- The errors there are. -/
theorem bad_kind {V : List Symbol → Prop} {Q : List (LSymbol S) → Diag S → Prop} {α : Type}
    {P : LStream S → Outcome (Diag S) α} {s : LStream S} (h : Bad sp V Q P s e)
    (hs : ∀ d, .error d ∈ s.items → LexKind d.kind) :
    LexKind e.kind ∨ e.kind = .unexpectedEnd ∨ ∃ p, Q p e := by
  cases h with
  | item pre x rest h1 h2 _ _ _ =>
    refine .inl ?_
    cases x with
    | ok y => exact .inl h2.1
    | error d =>
      rw [h2.1]
      exact hs d (by rw [h1]; simp)
  | ended _ _ h _ _ => exact .inr (.inl h)
  | other pre _ _ h => exact .inr (.inr ⟨pre, h⟩)

/-- **C65.** There are eight kinds of errors of the parser of grammar files. -/
theorem kinds (h : Located.parseGrammar sp tx fuel (stream sp tx T) = .err e) :
    LexKind e.kind ∨ e.kind = .unexpectedEnd ∨ e.kind = .epsilonNotAlone ∨ e.kind = .typeMismatch ∨
      ∃ te, e.kind = .table te := by
  rcases bad_kind (badL_grammar sp tx fuel _ e h) (tokenize_kinds sp tx T .empty) with h | h | ⟨p, h⟩
  · exact .inl h
  · exact .inr (.inl h)
  · cases h with
    | types _ _ _ _ h => exact .inr (.inr (.inr (.inl h.1.1)))
    | epsilon h => exact .inr (.inr (.inl (EpsIn.kind' h)))
    | table te h _ => exact .inr (.inr (.inr (.inr ⟨te, h⟩)))

/-- **C65. Errors of syntax.** The error is at the beginning of what follows the longest part of the input that begins some
file (`T1`; up to the check that epsilon is alone in its rule, which comes later). What is there is no symbol, or it is a
symbol with which no file continues. -/
theorem syntax_error (hj : JointOk T.erase) (h : Located.parseGrammar sp tx fuel (stream sp tx T) = .err e)
    (hk : LexKind e.kind) :
    ∃ (T1 T2 : LTokens S) (ss : List Symbol), T = T1.append T2 ∧ Lexes tx T1.erase ss ∧ Located.Begins tx (FileL tx) ss ∧
      AtHead sp T2 e.span ∧
      ((∀ (t r : TokenStream) (k : SymT), T2.erase = t.append r → ¬ SymbolTokens tx t k) ∨
        e.kind = .unexpectedToken ∧ ∃ (t R : LTokens S) (k : SymT), T2 = t.append R ∧ SymbolTokens tx t.erase k ∧
          ∀ ext, ¬ FileL tx (ss ++ ⟨k, t.erase⟩ :: ext)) := by
  cases badL_grammar sp tx fuel _ e h with
  | item pre x rest h1 h2 h3 h4 _ =>
    obtain ⟨T1, T2, h5, h6, h7, h8⟩ := tokenize_place sp tx hj h1
    refine ⟨T1, T2, syms pre, h5, h6, h3, ?_, ?_⟩
    · rw [h2.span]
      exact h7
    · cases x with
      | error d => exact .inl h8.1
      | ok y =>
        obtain ⟨t, R, h9, h10, h11⟩ := h8
        refine .inr ⟨h2.1, t, R, y.symbol.sym, h9, h10, fun ext => ?_⟩
        rw [← h11]
        exact not_file sp tx h2.1 h4 ext
  | ended _ _ h _ _ =>
    rw [h] at hk
    rcases hk with hk | hk | hk | hk <;> cases hk
  | other _ _ _ h =>
    cases h with
    | types _ _ _ _ h =>
      rw [h.1.1] at hk
      rcases hk with hk | hk | hk | hk <;> cases hk
    | epsilon h =>
      rw [EpsIn.kind' h] at hk
      rcases hk with hk | hk | hk | hk <;> cases hk
    | table te h _ =>
      rw [h] at hk
      rcases hk with hk | hk | hk | hk <;> cases hk

/-- **C65, partial. Unexpected end.** The whole input begins some file; the error is at the whole invocation or at some symbol
of the input. Missing: that it is at the last symbol (`end_place_refuted`). -/
theorem end_error_partial (hj : JointOk T.erase) (h : Located.parseGrammar sp tx fuel (stream sp tx T) = .err e)
    (hk : e.kind = .unexpectedEnd) :
    ∃ ss, Lexes tx T.erase ss ∧ Located.Begins tx (FileL tx) ss ∧
      (e.span = sp.callSite ∨ ∃ T1 T2 : LTokens S, T = T1.append T2 ∧ AtHead sp T2 e.span) := by
  cases badL_grammar sp tx fuel _ e h with
  | item pre x rest h1 h2 h3 h4 _ =>
    have h5 := tokenize_kinds sp tx T .empty
    cases x with
    | ok y =>
      rw [h2.1] at hk
      cases hk
    | error d =>
      have h6 := h5 d (by rw [show Located.tokenize sp tx .empty T = _ from h1]; simp)
      rw [← h2.1, hk] at h6
      rcases h6 with h6 | h6 | h6 | h6 <;> cases h6
  | ended pre h1 _ h3 h4 =>
    refine ⟨syms pre, tokenize_all sp tx hj h1, h3, ?_⟩
    rcases h4 with h4 | ⟨y, hy, h4⟩
    · exact .inl h4
    · right
      obtain ⟨a, b, rfl⟩ := List.append_of_mem hy
      have h1 : Located.tokenize sp tx .empty T = okItems (a ++ y :: b) := h1
      rw [okItems_append] at h1
      obtain ⟨T1, T2, h5, -, h6, -⟩ := tokenize_place sp tx hj h1
      exact ⟨T1, T2, h5, by rw [h4]; exact h6⟩
  | other _ _ _ h =>
    cases h with
    | types _ _ _ _ h =>
      rw [h.1.1] at hk
      cases hk
    | epsilon h =>
      rw [EpsIn.kind' h] at hk
      cases hk
    | table te h _ =>
      rw [h] at hk
      cases hk

/-- Where a symbol of the input is: its span is at the beginning of the tokens after those of the symbols before it. -/
theorem symbol_place (hj : JointOk T.erase) {pre : List (LSymbol S)} {y : LSymbol S} {rest : List (LItem S)}
    (h : Located.tokenize sp tx .empty T = okItems pre ++ .ok y :: rest) :
    ∃ T1 T2 : LTokens S, T = T1.append T2 ∧ Lexes tx T1.erase (syms pre) ∧ AtHead sp T2 y.span ∧
      ∃ t R : LTokens S, T2 = t.append R ∧ SymbolTokens tx t.erase y.symbol.sym ∧ y.symbol.tokens = t.erase :=
  tokenize_place sp tx hj h

/-- **C65. Epsilon that is not alone.** The error is at the first `!` of the first rule that contains `!` and other nodes. -/
theorem epsilon_error (h : Located.parseGrammar sp tx fuel (stream sp tx T) = .err e) (hk : e.kind = .epsilonNotAlone) :
    ∃ p rest, Located.tokenize sp tx .empty T = okItems p ++ rest ∧ EpsIn tx (FileL tx) p e := by
  cases badL_grammar sp tx fuel _ e h with
  | item pre x rest h1 h2 h3 h4 _ =>
    have h5 := tokenize_kinds sp tx T .empty
    cases x with
    | ok y =>
      rw [h2.1] at hk
      cases hk
    | error d =>
      have h6 := h5 d (by rw [show Located.tokenize sp tx .empty T = _ from h1]; simp)
      rw [← h2.1, hk] at h6
      rcases h6 with h6 | h6 | h6 | h6 <;> cases h6
  | ended _ _ h _ _ =>
    rw [h] at hk
    cases hk
  | other p rest h1 h =>
    cases h with
    | types _ _ _ _ h =>
      rw [h.1.1] at hk
      cases hk
    | epsilon h => exact ⟨p, rest, h1, h⟩
    | table te h _ =>
      rw [h] at hk
      cases hk

/-- **C65. Types that disagree.** The error is at the type of the first declaration whose type is not that of an earlier
declaration of its label; if it has no type, at that of the earlier one. -/
theorem type_error (h : Located.parseGrammar sp tx fuel (stream sp tx T) = .err e) (hk : e.kind = .typeMismatch) :
    ∃ o w rest, Located.tokenize sp tx .empty T = okItems (o ++ w) ++ rest ∧ OptionsL (syms o) ∧ TypeIn sp tx w e := by
  cases badL_grammar sp tx fuel _ e h with
  | item pre x rest h1 h2 h3 h4 _ =>
    have h5 := tokenize_kinds sp tx T .empty
    cases x with
    | ok y =>
      rw [h2.1] at hk
      cases hk
    | error d =>
      have h6 := h5 d (by rw [show Located.tokenize sp tx .empty T = _ from h1]; simp)
      rw [← h2.1, hk] at h6
      rcases h6 with h6 | h6 | h6 | h6 <;> cases h6
  | ended _ _ h _ _ =>
    rw [h] at hk
    cases hk
  | other p rest h1 h =>
    cases h with
    | types o w h2 h3 h4 => exact ⟨o, w, rest, by rw [← h2]; exact h1, h3, h4⟩
    | epsilon h =>
      rw [EpsIn.kind' h] at hk
      cases hk
    | table te h _ =>
      rw [h] at hk
      cases hk

/-- **C65. Errors of tables.** The input is a file with consistent types, for which there is no table. The error is at the
whole invocation, and its message is the text of the error of `lr_table`. -/
theorem table_error (hj : JointOk T.erase) (h : Located.parseGrammar sp tx fuel (stream sp tx T) = .err e)
    {te : LRTableError Sym String} (hk : e.kind = .table te) :
    e.span = sp.callSite ∧ e.message = String.ofList (ErrorText.tableMessage te) ∧
      ∃ ss f, Lexes tx T.erase ss ∧ FileSyntax tx ss f ∧ ConsistentTypes tx f.declarations ∧
        (IndexedGrammar.build f.grammar = .err te ∨
          ∃ ig, IndexedGrammar.build f.grammar = .ok ig ∧ LRTable.build fuel ig = .err te) := by
  have hno : ∀ {V : List Symbol → Prop} {Q : List (LSymbol S) → Diag S → Prop} {α : Type}
      {P : LStream S → Outcome (Diag S) α} {s : LStream S}, Bad sp V Q P s e →
      (∀ d, .error d ∈ s.items → LexKind d.kind) → (∀ p, ¬ Q p e) → False := by
    intro V Q α P s h1 h2 h3
    rcases bad_kind h1 h2 with h4 | h4 | ⟨p, h4⟩
    · rw [hk] at h4
      rcases h4 with h4 | h4 | h4 | h4 <;> cases h4
    · rw [hk] at h4
      cases h4
    · exact h3 p h4
  have hk0 : ∀ d, .error d ∈ (stream sp tx T).items → LexKind d.kind := tokenize_kinds sp tx T .empty
  have hsub : ∀ {s s' : LStream S} {pre : List (LSymbol S)}, (∀ d, .error d ∈ s.items → LexKind d.kind) →
      s.items = okItems pre ++ s'.items → ∀ d, .error d ∈ s'.items → LexKind d.kind := by
    intro s s' pre h1 h2 d h3
    exact h1 d (by rw [h2]; exact List.mem_append_right _ h3)
  have hrel := tokenize_erase sp tx T .empty
  rw [parseGrammar_eq] at h
  rcases bind_err h with h1 | ⟨⟨n, s1⟩, h1, h⟩
  · exact (hno (badL_name sp _ e h1) hk0 fun _ h => h).elim
  obtain ⟨pn, o1⟩ := okL_name sp _ n s1 h1
  have hk1 := hsub hk0 o1.items
  rcases bind_err h with h2 | ⟨⟨t, s2⟩, h2, h⟩
  · exact (hno (badL_terminalType sp _ e h2) hk1 fun _ h => h).elim
  obtain ⟨pt, o2⟩ := okL_terminalType sp _ t s2 h2
  have hk2 := hsub hk1 o2.items
  rcases bind_err h with h3 | ⟨⟨et, s3⟩, h3, h⟩
  · exact (hno (badL_errorType sp _ e h3) hk2 fun _ h => h).elim
  obtain ⟨pe, o3⟩ := okL_errorType sp _ et s3 h3
  have hk3 := hsub hk2 o3.items
  rcases bind_err h with h4 | ⟨⟨rules, m⟩, h4, h⟩
  · refine (hno (badL_decls sp tx [] [] [] ⟨_, .nil⟩ (by intro _ _ h; cases h) s3 e h4) hk3 fun p hp => ?_).elim
    rcases hp with hp | hp
    · have := hp.1.1
      rw [hk] at this
      cases this
    · have := EpsIn.kind' hp
      rw [hk] at this
      cases this
  obtain ⟨b, hb, hb'⟩ := ok_of_rel (parseDeclarations_rel sp tx (s3.items.length + 1) [] [] s3) h4
  subst hb'
  obtain ⟨ds, decls, h5, h6, h7, h8⟩ := parseDeclarations_sound hb
  have hc := addAll_sound (tx := tx) mapOf_nil consistent_nil h8
  simp only [List.nil_append, List.map_nil] at hc h7
  have hlex : Lexes tx T.erase (syms pn ++ (syms pt ++ (syms pe ++ ds))) := by
    refine (tokenize_iff hj _).mp ?_
    have h9 := hrel
    rw [show Located.tokenize sp tx .empty T = _ from o1.items, o2.items, o3.items] at h9
    rw [show Verif.tokenize tx .empty T.erase = _ from h9.symm]
    have h10 : s3.items.map eraseItem = Verif.items ds := h5
    simp only [List.map_append, h10, Verif.items]
    simp only [okItems, syms, List.map_map]
    rfl
  have hfile : FileSyntax tx (syms pn ++ (syms pt ++ (syms pe ++ ds))) ⟨n, t, et, decls⟩ :=
    .mk (name_pre sp h1 o1) (terminalType_pre sp h2 o2) (errorType_pre sp h3 o3) h6
  have hg : (⟨(rules.map LRule.erase).map ARule.toLr⟩ : Grammar Sym String) =
      (⟨n, t, et, decls⟩ : GrammarFile).grammar := by
    rw [show rules.map LRule.erase = _ from h7]
    rfl
  unfold grammarEnd at h
  dsimp only at h
  rw [hg] at h
  rcases bind_err h with h9 | ⟨ig, h9, h⟩
  · obtain ⟨te', h10, rfl⟩ := mapErr_err h9
    cases hk
    exact ⟨rfl, rfl, _, _, hlex, hfile, hc.2, .inl h10⟩
  · rcases bind_err h with h10 | ⟨_, -, h⟩
    · obtain ⟨te', h11, rfl⟩ := mapErr_err h10
      cases hk
      exact ⟨rfl, rfl, _, _, hlex, hfile, hc.2, .inr ⟨ig, C37.mapErr_ok.mp h9, h11⟩⟩
    · cases h

end C65

namespace C65
open GrammarSample

/-! ### Concrete cases

Spans are the positions of tokens; the spans of two tokens cannot be joined (as on stable Rust). -/

def positions : Spans Nat := ⟨1000, fun _ _ => none⟩

inductive Tok where
  | i (name : String)
  | l (text : String)
  | p (ch : Char)
  | j (ch : Char)

/-- Tokens, numbered from `n`. -/
def number (n : Nat) : List Tok → LTokens Nat
  | [] => .nil
  | .i name :: r => .ident name n (number (n + 1) r)
  | .l text :: r => .literal text n (number (n + 1) r)
  | .p ch :: r => .punct ch false n (number (n + 1) r)
  | .j ch :: r => .punct ch true n (number (n + 1) r)

/-- `name: A; terminal: char;` -/
def header : List Tok := [.i "name", .p ':', .i "A", .p ';', .i "terminal", .p ':', .i "char", .p ';']

/-- `<label>` -/
def label (name : String) : List Tok := [.p '<', .i name, .p '>']

def arrow : List Tok := [.j '=', .p '>']

/-- The error of a file: its kind, its span and its message. -/
def diagnosis (ts : List Tok) : Option (MacroError × Nat × String) :=
  match Located.parseGrammar positions tx 100 (stream positions tx (number 0 ts)) with
  | .err e => some (e.kind, e.span, e.message)
  | _ => none

theorem diagnosed {ts : List Tok} {k : MacroError} {n : Nat} {m : String} (h : diagnosis ts = some (k, n, m)) :
    Located.parseGrammar positions tx 100 (stream positions tx (number 0 ts)) = .err ⟨k, m, n⟩ := by
  unfold diagnosis at h
  split at h
  · rename_i e h'
    rw [h']
    obtain ⟨k', m', n'⟩ := e
    cases h
    rfl
  · cases h

/-- `<S> => 'a'; <S> 'b';`: there should be an arrow instead of `'b'`. -/
def noArrow : List Tok := header ++ label "S" ++ arrow ++ [.l "'a'", .p ';'] ++ label "S" ++ [.l "'b'", .p ';']

theorem noArrow_err : diagnosis noArrow = some (.unexpectedToken, 18, "Expected `=>` to follow production name") := by decide +kernel

/-- `<S> => 'a' + 'b';`: `+` is no symbol. -/
def plus : List Tok := header ++ label "S" ++ arrow ++ [.l "'a'", .p '+', .l "'b'", .p ';']

theorem plus_err : diagnosis plus = some (.unexpectedToken, 14, "Unexpected token \"+\"") := by decide +kernel

/-- `<S> => 'a' 'b' ! 'c' !;`: epsilon is not alone. -/
def epsilon : List Tok := header ++ label "S" ++ arrow ++ [.l "'a'", .l "'b'", .p '!', .l "'c'", .p '!', .p ';']

theorem epsilon_err : diagnosis epsilon = some (.epsilonNotAlone, 15, "Epsilon may only appear in a rule by itself") := by decide +kernel

/-- `<S>: u8 => 'a'; <S>: u16 => 'b';`: the types of `S` differ. -/
def types : List Tok := header ++ label "S" ++ [.p ':', .i "u8"] ++ arrow ++ [.l "'a'", .p ';'] ++ label "S" ++
  [.p ':', .i "u16"] ++ arrow ++ [.l "'b'", .p ';']

theorem types_err : diagnosis types = some (.typeMismatch, 21, "Production rules for the same label have different return types") := by decide +kernel

/-- `<S> => <T>;`: there is no rule for `T`. -/
def noRule : List Tok := header ++ label "S" ++ arrow ++ label "T" ++ [.p ';']

theorem noRule_err : diagnosis noRule = some (.table (.unrecognizedLabel "T"), 1000, "Unrecognized label \"<T>\"") := by
  decide +kernel

/-- `name: A; terminal: std::char; <S> => 'a'`: the semicolon is missing. -/
def noSemicolon : List Tok := [.i "name", .p ':', .i "A", .p ';', .i "terminal", .p ':', .i "std", .j ':', .p ':', .i "char",
  .p ';'] ++ label "S" ++ arrow ++ [.l "'a'"]

theorem noSemicolon_err : diagnosis noSemicolon = some (.unexpectedEnd, 9, "Unexpected end of input") := by decide +kernel

/-- Joined punctuation is followed by punctuation. -/
def jointOk : TokenStream → Bool
  | .nil => true
  | .group _ _ r => jointOk r
  | .ident _ r => jointOk r
  | .literal _ r => jointOk r
  | .punct _ joint r => (!joint || (match r with | .punct .. => true | _ => false)) && jointOk r

theorem jointOk_of {t : TokenStream} (h : jointOk t = true) : JointOk t := by
  induction t with
  | nil => trivial
  | group _ _ r _ ih => exact ih h
  | ident _ r ih => exact ih h
  | literal _ r ih => exact ih h
  | punct ch joint r ih =>
    simp only [jointOk, Bool.and_eq_true] at h
    refine ⟨fun hj _ => ?_, ih h.2⟩
    rw [hj] at h
    cases r with
    | punct c j r => exact ⟨c, j, r, rfl⟩
    | _ => exact Bool.noConfusion h.1

/-- The hypotheses of the theorems are met. -/
example : ∃ (T1 T2 : LTokens Nat) (ss : List Symbol), number 0 noArrow = T1.append T2 ∧ Lexes tx T1.erase ss ∧ Located.Begins tx (FileL tx) ss ∧
    AtHead positions T2 18 :=
  have ⟨T1, T2, ss, h1, h2, h3, h4, _⟩ := syntax_error (jointOk_of (by decide +kernel)) (diagnosed noArrow_err) (.inl rfl)
  ⟨T1, T2, ss, h1, h2, h3, h4⟩

example : ∃ (T1 T2 : LTokens Nat) (ss : List Symbol), number 0 plus = T1.append T2 ∧ Lexes tx T1.erase ss ∧ Located.Begins tx (FileL tx) ss ∧
    AtHead positions T2 14 :=
  have ⟨T1, T2, ss, h1, h2, h3, h4, _⟩ := syntax_error (jointOk_of (by decide +kernel)) (diagnosed plus_err) (.inl rfl)
  ⟨T1, T2, ss, h1, h2, h3, h4⟩

example : ∃ p rest, Located.tokenize positions tx .empty (number 0 epsilon) = okItems p ++ rest ∧
    EpsIn tx (FileL tx) p ⟨.epsilonNotAlone, "Epsilon may only appear in a rule by itself", 15⟩ :=
  epsilon_error (diagnosed epsilon_err) rfl

example : ∃ o w rest, Located.tokenize positions tx .empty (number 0 types) = okItems (o ++ w) ++ rest ∧
    OptionsL (syms o) ∧
    TypeIn positions tx w ⟨.typeMismatch, "Production rules for the same label have different return types", 21⟩ :=
  type_error (diagnosed types_err) rfl

example : ∃ ss f, Lexes tx (number 0 noRule).erase ss ∧ FileSyntax tx ss f :=
  have ⟨_, _, ss, f, h1, h2, _⟩ := table_error (jointOk_of (by decide +kernel)) (diagnosed noRule_err) rfl
  ⟨ss, f, h1, h2⟩

example : ∃ ss, Lexes tx (number 0 noSemicolon).erase ss ∧ Located.Begins tx (FileL tx) ss :=
  have ⟨ss, h1, h2, _⟩ := end_error_partial (jointOk_of (by decide +kernel)) (diagnosed noSemicolon_err) rfl
  ⟨ss, h1, h2⟩

/-- **C65, what is missing.** When the input ends too early, the error need not be at its last symbol: in
`name: A; terminal: std::char; <S> => 'a'` it is at `char`, which is token 9, and not at `'a'`, which is token 16. -/
theorem end_place_refuted :
    ¬ ∀ (S : Type) (sp : Spans S) (tx : Text) (T : LTokens S) (fuel : Nat) (e : Diag S) (pre : List (LSymbol S))
      (y : LSymbol S), Located.parseGrammar sp tx fuel (stream sp tx T) = .err e → e.kind = .unexpectedEnd →
      Located.tokenize sp tx .empty T = okItems (pre ++ [y]) → e.span = y.span := by
  intro h
  have h1 : ∀ l : List (LItem Nat), l.all (fun x => match x with | .ok _ => true | .error _ => false) = true →
      ∃ p : List (LSymbol Nat), l = okItems p := by
    intro l hl
    induction l with
    | nil => exact ⟨[], rfl⟩
    | cons x r ih =>
      simp only [List.all_cons, Bool.and_eq_true] at hl
      obtain ⟨p, rfl⟩ := ih hl.2
      cases x with
      | ok y => exact ⟨y :: p, rfl⟩
      | error d => exact Bool.noConfusion hl.1
  have h2 : (Located.tokenize positions tx .empty (number 0 noSemicolon)).all
      (fun x => match x with | .ok _ => true | .error _ => false) = true := by decide +kernel
  have h3 : (match (Located.tokenize positions tx .empty (number 0 noSemicolon)).getLast? with
      | some (.ok y) => y.span | _ => 9) = 16 := by decide +kernel
  obtain ⟨p, hp⟩ := h1 _ h2
  rcases List.eq_nil_or_concat p with rfl | ⟨q, y, rfl⟩
  · rw [hp] at h3
    exact absurd h3 (by decide)
  · rw [List.concat_eq_append] at hp
    have h4 := h Nat positions tx _ 100 _ q y (diagnosed noSemicolon_err) rfl hp
    rw [hp, okItems_append] at h3
    simp only [okItems, List.map_cons, List.map_nil, List.getLast?_concat] at h3
    rw [← h4] at h3
    exact absurd h3 (by decide)

end C65
end Verif
