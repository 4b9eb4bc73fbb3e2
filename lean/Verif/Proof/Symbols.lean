import Verif.Spec.Symbols

/-!
# Tokenisation yields the symbols of the specification
-/

set_option autoImplicit false

namespace Verif
open Spec

variable {tx : Text}

theorem isIdentifier_iff {s : String} : tx.isIdentifier s = true ↔ Identifier tx s := by
  unfold Text.isIdentifier Identifier Text.leading Text.identChar
  simp only [Bool.and_eq_true, List.all_eq_true, Bool.or_eq_true, beq_iff_eq]
  constructor
  · rintro ⟨h1, h2⟩
    refine ⟨?_, h2⟩
    split at h1
    · cases h1
    · rename_i c rest e
      exact ⟨c, rest, e, by simpa using h1⟩
  · rintro ⟨⟨c, rest, e, h1⟩, h2⟩
    refine ⟨?_, h2⟩
    rw [e]
    simpa using h1

/-- Each symbol is found. -/
theorem tokenize_symbol {t : TokenStream} {s : SymT} (h : SymbolTokens tx t s) (rest : TokenStream) :
    tokenize tx .empty (t.append rest) = .ok ⟨s, t⟩ :: tokenize tx .empty rest := by
  cases h with
  | brace inner => rfl
  | paren inner => rfl
  | bracket inner => rfl
  | ident hi =>
    simp only [TokenStream.append, tokenize, Symbol.fromIdent, isIdentifier_iff.mpr hi, if_true]
  | char hc =>
    simp only [TokenStream.append, tokenize, Symbol.fromLiteral, hc, List.head?_cons, if_true]
  | word hi hne =>
    simp only [TokenStream.append, tokenize, Symbol.fromLiteral, hne, if_false, isIdentifier_iff.mpr hi, if_true]
  | single hs => cases hs <;> rfl
  | colon => rfl
  | arrow j => rfl
  | scope j => rfl

theorem tokenize_complete {t : TokenStream} {ss : List Symbol} (h : Lexes tx t ss) :
    tokenize tx .empty t = ss.map .ok := by
  induction h with
  | nil => rfl
  | cons hs _ ih => rw [tokenize_symbol hs, ih]; rfl

/-- What a punctuation character does when nothing is pending. -/
theorem consumeNext_empty (ch : Char) (joint : Bool) :
    (∃ o, Single ch o ∧ PunctBuilder.empty.consumeNext ch joint =
        (.empty, .ok (some ⟨.op o, .punct ch joint .nil⟩))) ∨
      (ch = ':' ∧ joint = false ∧ PunctBuilder.empty.consumeNext ch joint =
        (.empty, .ok (some ⟨.op .colon, .punct ch joint .nil⟩))) ∨
      (ch = '=' ∧ joint = true ∧ PunctBuilder.empty.consumeNext ch joint =
        (.prevWasEq (.punct ch joint .nil), .ok none)) ∨
      (ch = ':' ∧ joint = true ∧ PunctBuilder.empty.consumeNext ch joint =
        (.prevWasColon (.punct ch joint .nil), .ok none)) ∨
      ∃ e, PunctBuilder.empty.consumeNext ch joint = (.empty, .error e) := by
  generalize hx : PunctBuilder.empty.consumeNext ch joint = x
  unfold PunctBuilder.consumeNext at hx
  simp only at hx
  split at hx
  · rename_i h; subst h; exact .inl ⟨_, .semicolon, hx.symm⟩
  split at hx
  · rename_i h; subst h; exact .inl ⟨_, .numberSign, hx.symm⟩
  split at hx
  · rename_i h; subst h; exact .inl ⟨_, .beginProd, hx.symm⟩
  split at hx
  · rename_i h; subst h; exact .inl ⟨_, .endProd, hx.symm⟩
  split at hx
  · rename_i h; subst h; exact .inl ⟨_, .pipe, hx.symm⟩
  split at hx
  · rename_i h; subst h; exact .inl ⟨_, .bang, hx.symm⟩
  split at hx
  · rename_i h
    split at hx
    · rename_i hj; exact .inr (.inr (.inl ⟨h, hj, hx.symm⟩))
    · exact .inr (.inr (.inr (.inr ⟨_, hx.symm⟩)))
  split at hx
  · rename_i h
    split at hx
    · rename_i hj; exact .inr (.inr (.inr (.inl ⟨h, hj, hx.symm⟩)))
    · rename_i hj; exact .inr (.inl ⟨h, by simpa using hj, hx.symm⟩)
  · exact .inr (.inr (.inr (.inr ⟨_, hx.symm⟩)))

theorem map_ok_cons {x : SymItem} {l : List SymItem} {ss : List Symbol}
    (h : x :: l = ss.map .ok) : ∃ s ss', x = .ok s ∧ l = ss'.map .ok ∧ ss = s :: ss' := by
  cases ss with
  | nil => cases h
  | cons s ss =>
    simp only [List.map_cons, List.cons.injEq] at h
    exact ⟨s, ss, h.1, h.2, rfl⟩

theorem tokenize_sound (t : TokenStream) (hj : JointOk t) :
    (∀ ss, tokenize tx .empty t = ss.map .ok → Lexes tx t ss) ∧
    (∀ p c j r, t = .punct c j r → ∀ ss, tokenize tx (.prevWasEq p) t = ss.map .ok →
      c = '>' ∧ ∃ ss', ss = ⟨.op .arrow, p.append (.punct c j .nil)⟩ :: ss' ∧ Lexes tx r ss') ∧
    (∀ p c j r, t = .punct c j r → ∀ ss, tokenize tx (.prevWasColon p) t = ss.map .ok →
      c = ':' ∧ ∃ ss', ss = ⟨.op .scope, p.append (.punct c j .nil)⟩ :: ss' ∧ Lexes tx r ss') := by
  induction t with
  | nil =>
    refine ⟨?_, (by rintro p c j r h; cases h), (by rintro p c j r h; cases h)⟩
    intro ss h
    cases ss with
    | nil => exact .nil
    | cons s ss => cases h
  | group d inner rest _ ih =>
    refine ⟨?_, (by rintro p c j r h; cases h), (by rintro p c j r h; cases h)⟩
    intro ss h
    obtain ⟨s, ss', h1, h2, rfl⟩ := map_ok_cons h
    have := (ih hj).1 ss' h2
    cases d <;> cases h1
    · exact .cons (.brace inner) this
    · exact .cons (.paren inner) this
    · exact .cons (.bracket inner) this
  | ident name rest ih =>
    refine ⟨?_, (by rintro p c j r h; cases h), (by rintro p c j r h; cases h)⟩
    intro ss h
    obtain ⟨s, ss', h1, h2, rfl⟩ := map_ok_cons h
    have := (ih hj).1 ss' h2
    unfold Symbol.fromIdent at h1
    split at h1
    · rename_i hi
      cases h1
      exact .cons (.ident (isIdentifier_iff.mp hi)) this
    · cases h1
  | literal text rest ih =>
    refine ⟨?_, (by rintro p c j r h; cases h), (by rintro p c j r h; cases h)⟩
    intro ss h
    obtain ⟨s, ss', h1, h2, rfl⟩ := map_ok_cons h
    have := (ih hj).1 ss' h2
    unfold Symbol.fromLiteral at h1
    simp only at h1
    split at h1
    · rename_i hq
      cases h1
      obtain ⟨r, hr⟩ := List.head?_eq_some_iff.mp hq
      exact .cons (.char hr) this
    · rename_i hq
      split at h1
      · rename_i hi
        cases h1
        exact .cons (.word (isIdentifier_iff.mp hi) hq) this
      · cases h1
  | punct ch joint rest ih =>
    obtain ⟨hj1, hj2⟩ := hj
    have ih := ih hj2
    refine ⟨?_, ?_, ?_⟩
    · intro ss h
      rw [tokenize] at h
      rcases consumeNext_empty ch joint with ⟨o, ho, e⟩ | ⟨rfl, rfl, e⟩ | ⟨rfl, rfl, e⟩ | ⟨rfl, rfl, e⟩ | ⟨x, e⟩
      · rw [e] at h
        obtain ⟨s, ss', h1, h2, rfl⟩ := map_ok_cons h
        cases h1
        exact .cons (.single ho) (ih.1 ss' h2)
      · rw [e] at h
        obtain ⟨s, ss', h1, h2, rfl⟩ := map_ok_cons h
        cases h1
        exact .cons .colon (ih.1 ss' h2)
      · rw [e] at h
        obtain ⟨c, j, r, hr⟩ := hj1 rfl (by decide)
        obtain ⟨rfl, ss', rfl, hl⟩ := ih.2.1 _ c j r hr ss h
        rw [hr]
        exact .cons (.arrow j) hl
      · rw [e] at h
        obtain ⟨c, j, r, hr⟩ := hj1 rfl (by decide)
        obtain ⟨rfl, ss', rfl, hl⟩ := ih.2.2 _ c j r hr ss h
        rw [hr]
        exact .cons (.scope j) hl
      · rw [e] at h
        obtain ⟨s, ss', h1, h2, rfl⟩ := map_ok_cons h
        cases h1
    · intro p c j r hr ss h
      cases hr
      rw [tokenize] at h
      unfold PunctBuilder.consumeNext at h
      simp only at h
      by_cases hc : ch = '>'
      · simp only [hc, if_true] at h
        obtain ⟨s, ss', h1, h2, rfl⟩ := map_ok_cons h
        cases h1
        subst hc
        exact ⟨rfl, ss', rfl, ih.1 ss' h2⟩
      · simp only [hc, if_false] at h
        obtain ⟨s, ss', h1, h2, rfl⟩ := map_ok_cons h
        cases h1
    · intro p c j r hr ss h
      cases hr
      rw [tokenize] at h
      unfold PunctBuilder.consumeNext at h
      simp only at h
      by_cases hc : ch = ':'
      · simp only [hc, if_true] at h
        obtain ⟨s, ss', h1, h2, rfl⟩ := map_ok_cons h
        cases h1
        subst hc
        exact ⟨rfl, ss', rfl, ih.1 ss' h2⟩
      · simp only [hc, if_false] at h
        obtain ⟨s, ss', h1, h2, rfl⟩ := map_ok_cons h
        cases h1

theorem tokenize_iff {t : TokenStream} (hj : JointOk t) (ss : List Symbol) :
    tokenize tx .empty t = ss.map .ok ↔ Lexes tx t ss :=
  ⟨fun h => (tokenize_sound t hj).1 ss h, tokenize_complete⟩

end Verif
