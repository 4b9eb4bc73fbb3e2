import Verif.Proof.LocatedFile

/-!
# Symbols and the tokens they are made of, with their places
-/

set_option autoImplicit false
set_option linter.unusedSectionVars false

namespace Verif.Located

open Verif.Spec

variable {S : Type} (sp : Spans S) (tx : Text)

/-- Where an item is. -/
def itemSpan : LItem S → S
  | .ok y => y.span
  | .error d => d.span

theorem Blames.span {e : Diag S} {x : LItem S} (h : Blames e x) : e.span = itemSpan x := by
  cases x with
  | ok y => exact h.2
  | error d => exact h.2.1

theorem append_erase (t u : LTokens S) : (t.append u).erase = t.erase.append u.erase := by
  induction t with
  | nil => rfl
  | group d a b inner rest _ ih => simp [LTokens.append, LTokens.erase, TokenStream.append, ih]
  | ident n a rest ih => simp [LTokens.append, LTokens.erase, TokenStream.append, ih]
  | literal n a rest ih => simp [LTokens.append, LTokens.erase, TokenStream.append, ih]
  | punct c j a rest ih => simp [LTokens.append, LTokens.erase, TokenStream.append, ih]

theorem append_assoc' (t u v : LTokens S) : (t.append u).append v = t.append (u.append v) := by
  induction t with
  | nil => rfl
  | group d a b inner rest _ ih => simp [LTokens.append, ih]
  | ident n a rest ih => simp [LTokens.append, ih]
  | literal n a rest ih => simp [LTokens.append, ih]
  | punct c j a rest ih => simp [LTokens.append, ih]

/-- The kinds of errors of the tokenizer. -/
def LexKind (k : MacroError) : Prop :=
  k = .unexpectedToken ∨ k = .groupWithoutDelimiter ∨ k = .badIdentifier ∨ k = .badLiteral

/-- What the tokenizer does with the first symbol of tokens. -/
structure Step (sp : Spans S) (tx : Text) (T : LTokens S) (i : LItem S) (b : LPunct S) (R : LTokens S) : Prop where
  eq : tokenize sp tx .empty T = i :: tokenize sp tx b R
  head : AtHead sp T (itemSpan i)
  ok : ∀ y, i = .ok y → b = .empty ∧ JointOk R.erase ∧ ∃ t : LTokens S, T = t.append R ∧ SymbolTokens tx t.erase y.symbol.sym ∧
    y.symbol.tokens = t.erase
  text : ∀ d, i = .error d → LexText T d.message

theorem step_punct_empty (ch : Char) (joint : Bool) (a : S) (rest : LTokens S)
    (hj : JointOk (LTokens.punct ch joint a rest).erase) :
    (∃ i b R, Step sp tx (.punct ch joint a rest) i b R) := by
  by_cases h1 : ∃ o, Single ch o
  · obtain ⟨o, ho⟩ := h1
    refine ⟨.ok ⟨⟨.op o, .punct ch joint .nil⟩, a, .nil, by intro _ _ h; cases h⟩, .empty, rest, ?_, .punct .., ?_, by intro _ h; cases h⟩
    · cases ho <;> rfl
    · intro y hy
      cases hy
      exact ⟨rfl, hj.2, .punct ch joint a .nil, rfl, .single ho, rfl⟩
  by_cases h2 : ch = ':' ∧ joint = false
  · obtain ⟨rfl, rfl⟩ := h2
    refine ⟨.ok ⟨⟨.op .colon, .punct ':' false .nil⟩, a, .nil, by intro _ _ h; cases h⟩, .empty, rest, rfl, .punct .., ?_, by intro _ h; cases h⟩
    intro y hy
    cases hy
    exact ⟨rfl, hj.2, .punct ':' false a .nil, rfl, .colon, rfl⟩
  by_cases h3 : (ch = ':' ∨ ch = '=') ∧ joint = true
  · obtain ⟨h3, rfl⟩ := h3
    have hq : ch ≠ '\'' := by rcases h3 with rfl | rfl <;> decide
    obtain ⟨c, j, r, hr⟩ := hj.1 rfl hq
    obtain ⟨c', j', a', r', rfl⟩ : ∃ c' j' a' r', rest = .punct c' j' a' r' := by
      cases rest with
      | punct c' j' a' r' => exact ⟨_, _, _, _, rfl⟩
      | _ => cases hr
    rcases h3 with rfl | rfl
    · by_cases hc : c' = ':'
      · subst hc
        refine ⟨.ok ⟨⟨.op .scope, .punct ':' true (.punct ':' j' .nil)⟩, sp.merge a a', .nil, by intro _ _ h; cases h⟩,
          .empty, r', rfl, .both .., ?_, by intro _ h; cases h⟩
        intro y hy
        cases hy
        exact ⟨rfl, hj.2.2, .punct ':' true a (.punct ':' j' a' .nil), rfl, .scope j', rfl⟩
      · refine ⟨.error ⟨.unexpectedToken, "Unexpected token \":" ++ c'.toString ++ "\"", a'⟩,
          .prevWasColon (.punct ':' true .nil) a, r', ?_, .second .., fun y hy => (by cases hy), fun d hd => by
            cases hd
            exact .both ':' c' j' a a' r'⟩
        have : (LPunct.prevWasColon (.punct ':' true .nil) a).consumeNext sp c' j' a' =
            (.prevWasColon (.punct ':' true .nil) a,
              .error ⟨.unexpectedToken, "Unexpected token \":" ++ c'.toString ++ "\"", a'⟩) := by
          simp only [LPunct.consumeNext, hc, if_false]
        change tokenize sp tx (LPunct.prevWasColon (.punct ':' true .nil) a) (.punct c' j' a' r') = _
        rw [tokenize, this]
    · by_cases hc : c' = '>'
      · subst hc
        refine ⟨.ok ⟨⟨.op .arrow, .punct '=' true (.punct '>' j' .nil)⟩, sp.merge a a', .nil, by intro _ _ h; cases h⟩,
          .empty, r', rfl, .both .., ?_, by intro _ h; cases h⟩
        intro y hy
        cases hy
        exact ⟨rfl, hj.2.2, .punct '=' true a (.punct '>' j' a' .nil), rfl, .arrow j', rfl⟩
      · refine ⟨.error ⟨.unexpectedToken, "Unexpected token \"=" ++ c'.toString ++ "\"", a'⟩,
          .prevWasEq (.punct '=' true .nil) a, r', ?_, .second .., fun y hy => (by cases hy), fun d hd => by
            cases hd
            exact .both '=' c' j' a a' r'⟩
        have : (LPunct.prevWasEq (.punct '=' true .nil) a).consumeNext sp c' j' a' =
            (.prevWasEq (.punct '=' true .nil) a,
              .error ⟨.unexpectedToken, "Unexpected token \"=" ++ c'.toString ++ "\"", a'⟩) := by
          simp only [LPunct.consumeNext, hc, if_false]
        change tokenize sp tx (LPunct.prevWasEq (.punct '=' true .nil) a) (.punct c' j' a' r') = _
        rw [tokenize, this]
  · have key : LPunct.consumeNext sp .empty ch joint a =
        (.empty, .error ⟨.unexpectedToken, "Unexpected token \"" ++ ch.toString ++ "\"", a⟩) := by
      have s1 : ch ≠ ';' := fun h => h1 ⟨_, h ▸ Single.semicolon⟩
      have s2 : ch ≠ '#' := fun h => h1 ⟨_, h ▸ Single.numberSign⟩
      have s3 : ch ≠ '<' := fun h => h1 ⟨_, h ▸ Single.beginProd⟩
      have s4 : ch ≠ '>' := fun h => h1 ⟨_, h ▸ Single.endProd⟩
      have s5 : ch ≠ '|' := fun h => h1 ⟨_, h ▸ Single.pipe⟩
      have s6 : ch ≠ '!' := fun h => h1 ⟨_, h ▸ Single.bang⟩
      simp only [LPunct.consumeNext, s1, s2, s3, s4, s5, s6, if_false]
      by_cases e1 : ch = '='
      · have hf : joint = false := by
          cases joint with
          | false => rfl
          | true => exact absurd ⟨.inr e1, rfl⟩ h3
        subst e1 hf
        rfl
      · simp only [e1, if_false]
        by_cases e2 : ch = ':'
        · cases joint with
          | false => exact absurd ⟨e2, rfl⟩ h2
          | true => exact absurd ⟨.inl e2, rfl⟩ h3
        · simp only [e2, if_false]
    refine ⟨.error ⟨.unexpectedToken, _, a⟩, .empty, rest, ?_, .punct .., fun y hy => (by cases hy), fun d hd => by
      cases hd
      exact .punct ch joint a rest⟩
    rw [tokenize, key]

theorem step_exists (T : LTokens S) (hne : T ≠ .nil) (hj : JointOk T.erase) : ∃ i b R, Step sp tx T i b R := by
  cases T with
  | nil => exact absurd rfl hne
  | group d a c inner rest =>
    refine ⟨fromGroup d a c inner, .empty, rest, rfl, ?_, ?_, fun e he => by
      cases d <;> cases he
      exact .group a c inner rest⟩
    · cases d <;> first | exact .group .. | exact .open ..
    · intro y hy
      refine ⟨rfl, hj, .group d a c inner .nil, rfl, ?_⟩
      cases d with
      | none => cases hy
      | brace => cases hy; exact ⟨.brace _, rfl⟩
      | paren => cases hy; exact ⟨.paren _, rfl⟩
      | bracket => cases hy; exact ⟨.bracket _, rfl⟩
  | ident name a rest =>
    refine ⟨fromIdent tx name a, .empty, rest, rfl, ?_, ?_, fun e he => by
      unfold fromIdent at he
      split at he <;> cases he
      exact .ident name a rest⟩
    · unfold fromIdent
      split <;> exact .ident ..
    · intro y hy
      refine ⟨rfl, hj, .ident name a .nil, rfl, ?_⟩
      unfold fromIdent at hy
      split at hy
      · rename_i h
        cases hy
        exact ⟨.ident (isIdentifier_iff.mp h), rfl⟩
      · cases hy
  | literal text a rest =>
    refine ⟨fromLiteral tx text a, .empty, rest, rfl, ?_, ?_, fun e he => by
      unfold fromLiteral at he
      split at he
      · cases he
      · split at he <;> cases he
        exact .literal text a rest⟩
    · unfold fromLiteral
      split
      · exact .literal ..
      · split <;> exact .literal ..
    · intro y hy
      refine ⟨rfl, hj, .literal text a .nil, rfl, ?_⟩
      unfold fromLiteral at hy
      split at hy
      · rename_i h
        cases hy
        obtain ⟨r, hr⟩ := List.head?_eq_some_iff.mp h
        exact ⟨.char hr, rfl⟩
      · rename_i h
        split at hy
        · rename_i h'
          cases hy
          exact ⟨.word (isIdentifier_iff.mp h') h, rfl⟩
        · cases hy
  | punct ch joint a rest => exact step_punct_empty sp tx ch joint a rest hj

/-- What is at the place of an item: a symbol, or what is not a symbol. -/
def ItemTokens (tx : Text) (T : LTokens S) : LItem S → Prop
  | .ok y => ∃ t R : LTokens S, T = t.append R ∧ SymbolTokens tx t.erase y.symbol.sym ∧ y.symbol.tokens = t.erase
  | .error d => (∀ (t r : TokenStream) (k : SymT), T.erase = t.append r → ¬ SymbolTokens tx t k) ∧ LexText T d.message

theorem tokenize_place {T : LTokens S} (hj : JointOk T.erase) {pre : List (LSymbol S)} {x : LItem S}
    {rest : List (LItem S)} (h : tokenize sp tx .empty T = okItems pre ++ x :: rest) :
    ∃ T1 T2 : LTokens S, T = T1.append T2 ∧ Lexes tx T1.erase (syms pre) ∧ AtHead sp T2 (itemSpan x) ∧ ItemTokens tx T2 x := by
  have hne : T ≠ .nil := by
    rintro rfl
    have := congrArg List.length h
    simp [tokenize] at this
  obtain ⟨i, b, R, hs⟩ := step_exists sp tx T hne hj
  induction pre generalizing T i b R with
  | nil =>
    have h1 := hs.eq
    rw [h] at h1
    cases h1
    refine ⟨.nil, T, rfl, .nil, hs.head, ?_⟩
    cases x with
    | ok y =>
      obtain ⟨-, -, t, h2, h3, h4⟩ := hs.ok y rfl
      exact ⟨t, R, h2, h3, h4⟩
    | error d =>
      refine ⟨?_, hs.text d rfl⟩
      intro t r k h2 h3
      have h4 := tokenize_erase sp tx T .empty
      rw [h, h2] at h4
      change _ = Verif.tokenize tx .empty (t.append r) at h4
      rw [tokenize_symbol h3] at h4
      cases h4
  | cons y pre ih =>
    have h1 := hs.eq
    rw [h] at h1
    have h2 : (Except.ok y : LItem S) = i := (List.cons.inj h1).1
    have h3 := (List.cons.inj h1).2
    obtain ⟨rfl, hj', t, rfl, h5, h6⟩ := hs.ok y h2.symm
    have hne' : R ≠ .nil := by
      rintro rfl
      have := congrArg List.length h3
      simp [tokenize] at this
    obtain ⟨i', b', R', hs'⟩ := step_exists sp tx R hne' hj'
    obtain ⟨T1, T2, rfl, h7, h8, h9⟩ := ih hj' h3.symm hne' i' b' R' hs'
    refine ⟨t.append T1, T2, (append_assoc' ..).symm, ?_, h8, h9⟩
    have h10 := Lexes.cons h5 h7
    rw [append_erase]
    rw [show syms (y :: pre) = ⟨y.symbol.sym, t.erase⟩ :: syms pre by rw [← h6]; rfl]
    exact h10

theorem tokenize_all {T : LTokens S} (hj : JointOk T.erase) {pre : List (LSymbol S)}
    (h : tokenize sp tx .empty T = okItems pre) : Lexes tx T.erase (syms pre) := by
  refine (tokenize_iff hj _).mp ?_
  have h4 := tokenize_erase sp tx T .empty
  rw [h] at h4
  rw [show Verif.tokenize tx .empty T.erase = _ from h4.symm]
  simp [okItems, syms, eraseItem]

theorem consumeNext_kind (b : LPunct S) (ch : Char) (j : Bool) (a : S) :
    match (b.consumeNext sp ch j a).2 with
    | .error d => d.kind = .unexpectedToken
    | .ok _ => True := by
  cases b with
  | empty =>
    simp only [LPunct.consumeNext]
    by_cases h1 : ch = ';'; · simp only [h1, if_true]
    simp only [h1, if_false]
    by_cases h2 : ch = '#'; · simp only [h2, if_true]
    simp only [h2, if_false]
    by_cases h3 : ch = '<'; · simp only [h3, if_true]
    simp only [h3, if_false]
    by_cases h4 : ch = '>'; · simp only [h4, if_true]
    simp only [h4, if_false]
    by_cases h5 : ch = '|'; · simp only [h5, if_true]
    simp only [h5, if_false]
    by_cases h6 : ch = '!'; · simp only [h6, if_true]
    simp only [h6, if_false]
    by_cases h7 : ch = '='; · cases j <;> simp only [h7, if_true]; all_goals trivial
    simp only [h7, if_false]
    by_cases h8 : ch = ':'; · cases j <;> simp only [h8, if_true]; all_goals trivial
    simp only [h8, if_false]
  | prevWasEq t c =>
    simp only [LPunct.consumeNext]
    by_cases h : ch = '>'
    · simp only [h, if_true]
    · simp only [h, if_false]
  | prevWasColon t c =>
    simp only [LPunct.consumeNext]
    by_cases h : ch = ':'
    · simp only [h, if_true]
    · simp only [h, if_false]

theorem tokenize_kinds (T : LTokens S) (b : LPunct S) (d : Diag S) (h : .error d ∈ tokenize sp tx b T) :
    LexKind d.kind := by
  induction T generalizing b with
  | nil => cases h
  | group dl a c inner rest _ ih =>
    rcases List.mem_cons.mp h with h | h
    · cases dl <;> cases h
      exact .inr (.inl rfl)
    · exact ih _ h
  | ident name a rest ih =>
    rcases List.mem_cons.mp h with h | h
    · unfold fromIdent at h
      split at h <;> cases h
      exact .inr (.inr (.inl rfl))
    · exact ih _ h
  | literal name a rest ih =>
    rcases List.mem_cons.mp h with h | h
    · unfold fromLiteral at h
      split at h
      · cases h
      · split at h <;> cases h
        exact .inr (.inr (.inr rfl))
    · exact ih _ h
  | punct ch j a rest ih =>
    unfold tokenize at h
    have key : ∀ b' d', b.consumeNext sp ch j a = (b', .error d') → d'.kind = .unexpectedToken := by
      intro b' d' hc
      have h1 := consumeNext_kind sp b ch j a
      rw [hc] at h1
      exact h1
    split at h
    · exact ih _ h
    · rcases List.mem_cons.mp h with h | h
      · cases h
      · exact ih _ h
    · rename_i b' d' hc
      rcases List.mem_cons.mp h with h | h
      · cases h
        exact .inl (key _ _ hc)
      · exact ih _ h

/-! ### Symbols without places get one -/

/-- Tokens, all at one place. -/
def liftTokens (a : S) : TokenStream → LTokens S
  | .nil => .nil
  | .group d inner rest => .group d a a (liftTokens a inner) (liftTokens a rest)
  | .ident name rest => .ident name a (liftTokens a rest)
  | .literal text rest => .literal text a (liftTokens a rest)
  | .punct ch joint rest => .punct ch joint a (liftTokens a rest)

theorem liftTokens_erase (a : S) (t : TokenStream) : (liftTokens a t).erase = t := by
  induction t with
  | nil => rfl
  | group d inner rest ih1 ih2 => simp only [liftTokens, LTokens.erase, ih1, ih2]
  | ident n rest ih => simp only [liftTokens, LTokens.erase, ih]
  | literal n rest ih => simp only [liftTokens, LTokens.erase, ih]
  | punct c j rest ih => simp only [liftTokens, LTokens.erase, ih]

/-- A symbol at a place. -/
def lift (a : S) (x : Symbol) : LSymbol S where
  symbol := x
  span := a
  inner := match x.sym with
    | .group _ t => liftTokens a t
    | _ => .nil
  inner_eq := by
    intro d t h
    rw [h]
    exact liftTokens_erase a t

theorem syms_lift (a : S) (q : List Symbol) : syms (q.map (lift a)) = q := by
  simp only [syms, List.map_map]
  exact List.map_id'' (fun _ => rfl) q

/-- An item that makes the parser fail whatever comes after it is not in a file. -/
theorem not_file {fuel : Nat} {c : Option S} {pre : List (LSymbol S)} {x : LSymbol S} {e : Diag S}
    (hk : e.kind = .unexpectedToken)
    (h : ∀ rest, parseGrammar sp tx fuel ⟨okItems pre ++ .ok x :: rest, c⟩ = .err e) (ext : List Symbol) :
    ¬ FileL tx (syms pre ++ x.symbol :: ext) := by
  rintro ⟨f, hf⟩
  have h1 := h (okItems (ext.map (lift sp.callSite)))
  have h2 := parseGrammar_rel sp tx fuel ⟨okItems pre ++ .ok x :: okItems (ext.map (lift sp.callSite)), c⟩
  rw [h1] at h2
  have h3 : LStream.erase ⟨okItems pre ++ .ok x :: okItems (ext.map (lift sp.callSite)), c⟩ =
      Verif.items (syms pre ++ x.symbol :: ext) := by
    have key : ∀ l : List (LSymbol S), (okItems l).map eraseItem = Verif.items (syms l) := by
      intro l
      simp only [okItems, syms, Verif.items, List.map_map]
      rfl
    have h4 : syms (ext.map (lift sp.callSite)) = ext := syms_lift sp.callSite ext
    rw [LStream.erase, List.map_append, List.map_cons, key, key, h4]
    simp [Verif.items, eraseItem]
  rw [h3] at h2
  cases h4 : Verif.parseGrammar tx fuel (Verif.items (syms pre ++ x.symbol :: ext)) with
  | err k =>
    rw [h4] at h2
    have h5 : k = e.kind := h2
    rcases file_kind tx hf h4 with h6 | h6 | ⟨te, h6⟩ <;> rw [h5, hk] at h6 <;> cases h6
  | _ =>
    rw [h4] at h2
    exact h2.elim

end Verif.Located
