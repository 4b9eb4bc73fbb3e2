import Verif.Model.Located
import Verif.Proof.Naming

/-!
# Forgetting spans and texts of errors
-/

set_option autoImplicit false
set_option linter.unusedSectionVars false

namespace Verif.Located

variable {S : Type}

/-- An item without its spans and text. -/
def eraseItem : LItem S → SymItem
  | .ok x => .ok x.symbol
  | .error e => .error e.kind

/-- A stream without spans and texts. -/
def LStream.erase (s : LStream S) : SymStream := s.items.map eraseItem

/-- A builder without spans. -/
def LPunct.erase : LPunct S → PunctBuilder
  | .empty => .empty
  | .prevWasEq t _ => .prevWasEq t
  | .prevWasColon t _ => .prevWasColon t

/-- The result of `consume_next` without spans and text. -/
def eraseResult : Except (Diag S) (Option (LSymbol S)) → Except MacroError (Option Symbol)
  | .ok o => .ok (o.map (·.symbol))
  | .error e => .error e.kind

theorem consumeNext_erase (sp : Spans S) (b : LPunct S) (ch : Char) (joint : Bool) (span : S) :
    b.erase.consumeNext ch joint = ((b.consumeNext sp ch joint span).1.erase,
      eraseResult (b.consumeNext sp ch joint span).2) := by
  cases b with
  | empty =>
    change PunctBuilder.consumeNext .empty ch joint = _
    simp only [PunctBuilder.consumeNext, LPunct.consumeNext]
    repeat' split
    all_goals rfl
  | prevWasEq t a =>
    change PunctBuilder.consumeNext (.prevWasEq t) ch joint = _
    simp only [PunctBuilder.consumeNext, LPunct.consumeNext]
    split <;> rfl
  | prevWasColon t a =>
    change PunctBuilder.consumeNext (.prevWasColon t) ch joint = _
    simp only [PunctBuilder.consumeNext, LPunct.consumeNext]
    split <;> rfl

theorem fromGroup_erase (d : Delim) (a b : S) (inner : LTokens S) :
    eraseItem (fromGroup d a b inner) = Symbol.fromGroup d inner.erase := by cases d <;> rfl

theorem fromIdent_erase (tx : Text) (name : String) (a : S) :
    eraseItem (fromIdent tx name a) = Symbol.fromIdent tx name := by
  unfold fromIdent Symbol.fromIdent
  split <;> rfl

theorem fromLiteral_erase (tx : Text) (text : String) (a : S) :
    eraseItem (fromLiteral tx text a) = Symbol.fromLiteral tx text := by
  unfold fromLiteral Symbol.fromLiteral
  dsimp only
  split
  · rfl
  · split <;> rfl

/-- The tokenizer does not look at spans. -/
theorem tokenize_erase (sp : Spans S) (tx : Text) (t : LTokens S) (b : LPunct S) :
    (tokenize sp tx b t).map eraseItem = Verif.tokenize tx b.erase t.erase := by
  induction t generalizing b with
  | nil => rfl
  | group d a c inner rest _ ih =>
    simp only [tokenize, Verif.tokenize, LTokens.erase, List.map_cons, ih, fromGroup_erase]
  | ident name a rest ih => simp only [tokenize, Verif.tokenize, LTokens.erase, List.map_cons, ih, fromIdent_erase]
  | literal text a rest ih =>
    simp only [tokenize, Verif.tokenize, LTokens.erase, List.map_cons, ih, fromLiteral_erase]
  | punct ch joint a rest ih =>
    simp only [tokenize, Verif.tokenize, LTokens.erase]
    rw [consumeNext_erase sp b ch joint a]
    rcases b.consumeNext sp ch joint a with ⟨b', e | (_ | x)⟩
    · simp [eraseItem, eraseResult, ih]
    · simp [eraseResult, ih]
    · simp [eraseItem, eraseResult, ih]

/-- Errors of the same kind. -/
abbrev EK (e : Diag S) (k : MacroError) : Prop := k = e.kind

/-- A value with the stream left, and the same without spans. -/
abbrev RS {α β : Type} (f : α → β) (a : α × LStream S) (b : β × SymStream) : Prop := b = (f a.1, a.2.erase)

variable (sp : Spans S) (tx : Text)

theorem expectSymbol_rel (s : LStream S) :
    OutRel EK (RS (·.symbol)) (expectSymbol sp s) (Verif.expectSymbol s.erase) := by
  obtain ⟨_ | ⟨_ | x, l⟩, c⟩ := s <;> rfl

theorem peekExpectSymbol_rel (s : LStream S) :
    OutRel EK (fun x y => y = x.symbol ∧ ∃ l, s.items = .ok x :: l) (peekExpectSymbol sp s)
      (Verif.peekExpectSymbol s.erase) := by
  obtain ⟨_ | ⟨_ | x, l⟩, c⟩ := s
  · rfl
  · rfl
  · exact ⟨rfl, l, rfl⟩

theorem take_erase (s : LStream S) : (take s).erase = s.erase.tail := by
  obtain ⟨_ | ⟨_ | x, l⟩, c⟩ := s <;> rfl

theorem intercept_rel {α β : Type} {R : α → β → Prop} {x : Outcome (Diag S) α} {y : Outcome MacroError β} (m : String)
    (h : OutRel EK R x y) : OutRel EK R (intercept m x) y := by
  cases x <;> cases y <;> exact h

theorem expectSymbolWith_rel (cmp : SymT → Bool) (m : String) (s : LStream S) :
    OutRel EK (fun a b => b.2 = a.2.erase) (expectSymbolWith sp cmp m s) (Verif.expectSymbolWith cmp s.erase) := by
  refine .bind (expectSymbol_rel sp s) fun a b e => ?_
  obtain ⟨x, s⟩ := a
  subst e
  dsimp only
  split
  · rfl
  · rfl

theorem parseIdentifier_rel (s : LStream S) :
    OutRel EK (RS id) (parseIdentifier sp s) (Verif.parseIdentifier s.erase) := by
  refine .bind (expectSymbol_rel sp s) fun a b e => ?_
  obtain ⟨x, s⟩ := a
  subst e
  dsimp only
  cases x.symbol.sym <;> rfl

theorem parseTypeLoop_rel (acc : LType S) (c : Option S) (l : List (LItem S)) :
    OutRel EK (RS (·.1)) (parseTypeLoop sp acc c l) (Verif.parseTypeLoop acc.1 (l.map eraseItem)) := by
  induction l generalizing acc c with
  | nil => rfl
  | cons i l ih =>
    cases i with
    | error e => rfl
    | ok x =>
      simp only [parseTypeLoop, List.map_cons, eraseItem, Verif.parseTypeLoop]
      split
      · rfl
      · exact ih _ _

theorem parseType_rel (s : LStream S) :
    OutRel EK (RS (·.1)) (parseType sp s) (Verif.parseType s.erase) := by
  refine .bind (expectSymbol_rel sp s) fun a b e => ?_
  obtain ⟨x, s⟩ := a
  subst e
  exact parseTypeLoop_rel sp _ _ _

theorem parseProductionRef_rel (s : LStream S) :
    OutRel EK (RS (·.1)) (parseProductionRef sp s) (Verif.parseProductionRef s.erase) := by
  refine .bind (expectSymbolWith_rel sp _ _ s) fun a b e => ?_
  obtain ⟨x, s⟩ := a
  obtain ⟨_, _⟩ := b
  dsimp only at e
  subst e
  refine .bind (expectSymbol_rel sp s) fun a b e => ?_
  obtain ⟨x, s⟩ := a
  subst e
  dsimp only
  cases x.symbol.sym with
  | ident name =>
    refine .bind (expectSymbolWith_rel sp _ _ s) fun a b e => ?_
    obtain ⟨x, s⟩ := a
    obtain ⟨_, _⟩ := b
    dsimp only at e
    subst e
    rfl
  | _ => rfl

theorem parseTerminalIdent_rel (name : String) (a : S) (s : LStream S) :
    OutRel EK (RS (·.1)) (parseTerminalIdent sp tx name a s) (Verif.parseTerminalIdent tx name s.erase) := by
  refine .bind (peekExpectSymbol_rel sp s) fun x y e => ?_
  obtain ⟨rfl, -⟩ := e
  cases x.symbol.sym with
  | paren inner =>
    dsimp only
    split
    · exact congrArg (Prod.mk _) (take_erase s).symm
    · exact congrArg (Prod.mk _) (take_erase s).symm
  | _ => rfl

theorem parseTerminal_rel (s : LStream S) :
    OutRel EK (RS (·.1)) (parseTerminal sp tx s) (Verif.parseTerminal tx s.erase) := by
  refine .bind (expectSymbol_rel sp s) fun a b e => ?_
  obtain ⟨x, s⟩ := a
  subst e
  dsimp only
  cases x.symbol.sym with
  | ident name => exact parseTerminalIdent_rel sp tx _ _ _
  | op o => cases o <;> rfl
  | _ => rfl

theorem parseNode_rel (s : LStream S) :
    OutRel EK (RS (·.1)) (parseNode sp tx s) (Verif.parseNode tx s.erase) := by
  refine .bind (peekExpectSymbol_rel sp s) fun x y e => ?_
  obtain ⟨rfl, -⟩ := e
  have h1 := parseTerminal_rel sp tx s
  cases x.symbol.sym with
  | op o =>
    cases o with
    | beginProd =>
      refine .bind (parseProductionRef_rel sp s) fun a b e => ?_
      obtain ⟨r, s⟩ := a
      subst e
      rfl
    | _ => exact h1
  | _ => exact h1

theorem maybeParseReturnType_rel (s : LStream S) :
    OutRel EK (RS (Option.map (·.1))) (maybeParseReturnType sp s) (Verif.maybeParseReturnType s.erase) := by
  refine .bind (peekExpectSymbol_rel sp s) fun x y e => ?_
  obtain ⟨rfl, -⟩ := e
  cases x.symbol.sym with
  | op o =>
    cases o with
    | colon =>
      dsimp only
      rw [← take_erase]
      refine .bind (parseType_rel sp _) fun a b e => ?_
      obtain ⟨r, s⟩ := a
      subst e
      rfl
    | _ => rfl
  | _ => rfl

/-- A constructor without spans. -/
def eraseBlock (b : LBlock S) : Delim × TokenStream := (b.delim, b.body.erase)

theorem parseNodes_rel (fuel : Nat) (rule : List (LNode S)) (s : LStream S) :
    OutRel EK (fun a b => b = (a.1.1.map (·.1), a.1.2.map eraseBlock, a.2.erase)) (parseNodes sp tx fuel rule s)
      (Verif.parseNodes tx fuel (rule.map (·.1)) s.erase) := by
  induction fuel generalizing rule s with
  | zero => exact True.intro
  | succ fuel ih =>
    refine .bind (peekExpectSymbol_rel sp s) fun x y e => ?_
    obtain ⟨rfl, -⟩ := e
    have h1 : OutRel EK (fun a b => b = (a.1.1.map (·.1), a.1.2.map eraseBlock, a.2.erase))
        (parseNode sp tx s >>= fun p => parseNodes sp tx fuel (rule ++ [p.1]) p.2)
        (Verif.parseNode tx s.erase >>= fun p => Verif.parseNodes tx fuel (rule.map (·.1) ++ [p.1]) p.2) := by
      refine .bind (parseNode_rel sp tx s) fun a b e => ?_
      obtain ⟨r, s⟩ := a
      subst e
      have := ih (rule ++ [r]) s
      rw [List.map_append] at this
      exact this
    cases hx : x.symbol.sym with
    | op o => cases o <;> first | rfl | exact h1
    | group d inner =>
      refine OutRel.pure ?_
      simp only [Option.map_some, eraseBlock, take_erase, x.inner_eq _ _ hx]
    | _ => exact h1

theorem find_epsilon (rule : List (LNode S)) :
    (rule.find? fun n => n.1.isEpsilon).isSome = (rule.map (·.1)).any ANode.isEpsilon := by
  induction rule with
  | nil => rfl
  | cons n ns ih =>
    rw [List.find?_cons, List.map_cons, List.any_cons, ← ih]
    cases n.1.isEpsilon <;> rfl

theorem parseRule_rel (name : String) (ty : Option (LType S)) (s : LStream S) :
    OutRel EK (RS LRule.erase) (parseRule sp tx name ty s) (Verif.parseRule tx name (ty.map (·.1)) s.erase) := by
  refine .bind (parseNode_rel sp tx s) fun a b e => ?_
  obtain ⟨r, s⟩ := a
  subst e
  have h := parseNodes_rel sp tx (s.items.length + 1) [r] s
  have hl : s.erase.length = s.items.length := List.length_map _
  dsimp only
  rw [hl]
  refine .bind h fun a b e => ?_
  obtain ⟨⟨rule, block⟩, s⟩ := a
  subst e
  dsimp only
  have hf := find_epsilon rule
  by_cases h1 : rule.length > 1
  · rw [if_pos h1]
    cases h2 : rule.find? fun n => n.1.isEpsilon with
    | none =>
      rw [h2] at hf
      rw [if_neg (by simp [← hf])]
      rfl
    | some n =>
      rw [h2] at hf
      rw [if_pos (by simp [← hf, h1])]
      rfl
  · rw [if_neg h1, if_neg (by simp; omega)]
    rfl

/-- A map of labels to types without spans. -/
def LLabelTypes.erase (m : LLabelTypes S) : LabelTypes := m.map fun p => (p.1, p.2.map (·.1))

theorem lookup_erase (m : LLabelTypes S) (l : String) :
    (LLabelTypes.erase m).lookup l = (m.lookup l).map (Option.map (·.1)) := by
  induction m with
  | nil => rfl
  | cons p m ih =>
    obtain ⟨k, v⟩ := p
    simp only [LLabelTypes.erase, List.map_cons, List.lookup_cons] at *
    split
    · rfl
    · exact ih

theorem add_rel (m : LLabelTypes S) (l : String) (ty : Option (LType S)) :
    OutRel EK (fun a b => b = LLabelTypes.erase a) (m.add tx l ty)
      ((LLabelTypes.erase m).add tx l (ty.map (·.1))) := by
  unfold LLabelTypes.add LabelTypes.add
  rw [lookup_erase]
  cases m.lookup l with
  | none => rfl
  | some o =>
    simp only [Option.map_some]
    split
    · rfl
    · cases ty <;> cases o <;> first | rfl | exact True.intro

theorem parseAlternatives_rel (name : String) (ty : Option (LType S)) (fuel : Nat) (rules : List (LRule S))
    (s : LStream S) :
    OutRel EK (RS (List.map LRule.erase)) (parseAlternatives sp tx name ty fuel rules s)
      (Verif.parseAlternatives tx name (ty.map (·.1)) fuel (rules.map LRule.erase) s.erase) := by
  induction fuel generalizing rules s with
  | zero => exact True.intro
  | succ fuel ih =>
    refine .bind (expectSymbol_rel sp s) fun a b e => ?_
    obtain ⟨x, s⟩ := a
    subst e
    dsimp only
    cases x.symbol.sym with
    | op o =>
      cases o with
      | pipe =>
        refine .bind (parseRule_rel sp tx name ty s) fun a b e => ?_
        obtain ⟨r, s⟩ := a
        subst e
        have := ih (rules ++ [r]) s
        rw [List.map_append] at this
        exact this
      | _ => rfl
    | _ => rfl

theorem parseDeclaration_rel (m : LLabelTypes S) (s : LStream S) :
    OutRel EK (fun a b => b = (a.1.1.map LRule.erase, LLabelTypes.erase a.1.2, a.2.erase)) (parseDeclaration sp tx m s)
      (Verif.parseDeclaration tx (LLabelTypes.erase m) s.erase) := by
  refine .bind (parseProductionRef_rel sp s) fun a b e => ?_
  obtain ⟨name, s⟩ := a
  subst e
  refine .bind (maybeParseReturnType_rel sp s) fun a b e => ?_
  obtain ⟨ty, s⟩ := a
  subst e
  refine .bind (add_rel tx m name.1 ty) fun m b e => ?_
  subst e
  refine .bind (expectSymbolWith_rel sp _ _ s) fun a b e => ?_
  obtain ⟨x, s⟩ := a
  obtain ⟨_, _⟩ := b
  dsimp only at e
  subst e
  refine .bind (parseRule_rel sp tx _ ty s) fun a b e => ?_
  obtain ⟨r, s⟩ := a
  subst e
  have h := parseAlternatives_rel sp tx name.1 ty (s.items.length + 1) [r] s
  have hl : s.erase.length = s.items.length := List.length_map _
  dsimp only
  rw [hl]
  refine .bind h fun a b e => ?_
  obtain ⟨rules, s⟩ := a
  subst e
  rfl

theorem parseDeclarations_rel (fuel : Nat) (rules : List (LRule S)) (m : LLabelTypes S) (s : LStream S) :
    OutRel EK (fun a b => b = (a.1.map LRule.erase, LLabelTypes.erase a.2)) (parseDeclarations sp tx fuel rules m s)
      (Verif.parseDeclarations tx fuel (rules.map LRule.erase) (LLabelTypes.erase m) s.erase) := by
  induction fuel generalizing rules m s with
  | zero => exact True.intro
  | succ fuel ih =>
    obtain ⟨_ | ⟨i, l⟩, c⟩ := s
    · rfl
    · refine .bind (parseDeclaration_rel sp tx m ⟨i :: l, c⟩) fun a b e => ?_
      obtain ⟨⟨r, m⟩, s⟩ := a
      subst e
      have := ih (rules ++ r) m s
      rw [List.map_append] at this
      exact this

theorem parseOptionRemainder_rel {α β : Type} {f : α → β} (option : String)
    {v : LStream S → Outcome (Diag S) (α × LStream S)} {v' : SymStream → Outcome MacroError (β × SymStream)}
    (hv : ∀ s, OutRel EK (RS f) (v s) (v' s.erase)) (s : LStream S) :
    OutRel EK (RS f) (parseOptionRemainder sp option v s) (Verif.parseOptionRemainder v' s.erase) := by
  refine .bind (expectSymbolWith_rel sp _ _ s) fun a b e => ?_
  obtain ⟨x, s⟩ := a
  obtain ⟨_, _⟩ := b
  dsimp only at e
  subst e
  refine .bind (hv s) fun a b e => ?_
  obtain ⟨x, s⟩ := a
  subst e
  refine .bind (expectSymbolWith_rel sp _ _ s) fun a b e => ?_
  obtain ⟨x, s⟩ := a
  obtain ⟨_, _⟩ := b
  dsimp only at e
  subst e
  rfl

theorem parseName_rel (s : LStream S) : OutRel EK (RS id) (parseName sp s) (Verif.parseName s.erase) := by
  refine intercept_rel _ (.bind (expectSymbolWith_rel sp _ _ s) fun a b e => ?_)
  obtain ⟨x, s⟩ := a
  obtain ⟨_, _⟩ := b
  dsimp only at e
  subst e
  exact parseOptionRemainder_rel sp _ (parseIdentifier_rel sp) _

theorem parseTerminalType_rel (s : LStream S) :
    OutRel EK (RS id) (parseTerminalType sp s) (Verif.parseTerminalType s.erase) := by
  refine .bind (intercept_rel _ (expectSymbol_rel sp s)) fun a b e => ?_
  obtain ⟨x, s⟩ := a
  subst e
  dsimp only
  split
  · refine .bind (intercept_rel _ (parseOptionRemainder_rel sp _ (parseType_rel sp) _)) fun a b e => ?_
    subst e
    rfl
  · split
    · refine .bind (intercept_rel _ (parseOptionRemainder_rel sp _ (parseType_rel sp) _)) fun a b e => ?_
      subst e
      rfl
    · rfl

theorem maybeParseErrorType_rel (s : LStream S) :
    OutRel EK (RS id) (maybeParseErrorType sp s) (Verif.maybeParseErrorType s.erase) := by
  refine .bind (intercept_rel _ (peekExpectSymbol_rel sp s)) fun x y e => ?_
  obtain ⟨rfl, -⟩ := e
  split
  · rw [← take_erase]
    refine .bind (intercept_rel _ (parseOptionRemainder_rel sp _ (parseType_rel sp) _)) fun a b e => ?_
    subst e
    rfl
  · rfl

theorem mapErr_rel {α : Type} (x : Outcome (LRTableError Sym String) α) :
    OutRel EK Eq (x.mapErr (tableError sp)) (x.mapErr MacroError.table) := by
  cases x <;> first | rfl | exact True.intro

/-- The parser of grammars does not look at spans. -/
theorem parseGrammar_rel (fuel : Nat) (s : LStream S) :
    OutRel EK (fun a b => b = a.1 ∧ b.productionRules = a.2.map LRule.erase) (parseGrammar sp tx fuel s)
      (Verif.parseGrammar tx fuel s.erase) := by
  refine .bind (parseName_rel sp s) fun a b e => ?_
  obtain ⟨name, s⟩ := a
  subst e
  refine .bind (parseTerminalType_rel sp s) fun a b e => ?_
  obtain ⟨tt, s⟩ := a
  subst e
  refine .bind (maybeParseErrorType_rel sp s) fun a b e => ?_
  obtain ⟨et, s⟩ := a
  subst e
  have h := parseDeclarations_rel sp tx (s.items.length + 1) [] [] s
  have hl : s.erase.length = s.items.length := List.length_map _
  dsimp only
  rw [hl]
  refine .bind h fun a b e => ?_
  obtain ⟨rules, m⟩ := a
  subst e
  refine .bind_eq (mapErr_rel sp _) fun ig => ?_
  refine .bind_eq (mapErr_rel sp _) fun table => ?_
  exact ⟨rfl, rfl⟩

end Verif.Located
