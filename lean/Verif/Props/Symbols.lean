import Verif.Proof.Symbols

/-!
# C36: tokenisation of the macro's input
-/

set_option autoImplicit false

namespace Verif.C36
open Verif Verif.Spec

variable {tx : Text}

/-- Tokenisation succeeds with exactly the symbols that the input is the concatenation of. -/
theorem exact {t : TokenStream} (hj : JointOk t) (ss : List Symbol) :
    tokenize tx .empty t = ss.map .ok ↔ Lexes tx t ss :=
  tokenize_iff hj ss

theorem lexes_tokens {t : TokenStream} {ss : List Symbol} (h : Lexes tx t ss) : tokensOf ss = t := by
  induction h with
  | nil => rfl
  | cons _ _ ih => simp only [tokensOf, ih]

/-- No token is lost, none is invented, and their order is kept. -/
theorem tokens_kept {t : TokenStream} (hj : JointOk t) {ss : List Symbol}
    (h : tokenize tx .empty t = ss.map .ok) : tokensOf ss = t :=
  lexes_tokens ((exact hj ss).mp h)

/-- A token stream has at most one reading. -/
theorem unambiguous {t : TokenStream} {ss ss' : List Symbol} (h : Lexes tx t ss) (h' : Lexes tx t ss') :
    ss = ss' := by
  have h1 := tokenize_complete h
  rw [tokenize_complete h'] at h1
  have inj : Function.Injective (Except.ok : Symbol → SymItem) := fun a b e => by cases e; rfl
  exact (List.map_inj_right (fun a b e => inj e)).mp h1.symm

theorem all_ok_or_error (l : List SymItem) : (∃ ss : List Symbol, l = ss.map .ok) ∨ ∃ e, .error e ∈ l := by
  induction l with
  | nil => exact .inl ⟨[], rfl⟩
  | cons x l ih =>
    rcases ih with ⟨ss, rfl⟩ | ⟨e, he⟩
    · cases x with
      | ok s => exact .inl ⟨s :: ss, rfl⟩
      | error e => exact .inr ⟨e, by simp⟩
    · exact .inr ⟨e, by simp [he]⟩

/-- A stream that is no concatenation of symbols is rejected with an error. -/
theorem rejects_exactly {t : TokenStream} (hj : JointOk t) :
    (∃ e, .error e ∈ tokenize tx .empty t) ↔ ¬ ∃ ss, Lexes tx t ss := by
  constructor
  · rintro ⟨e, he⟩ ⟨ss, hl⟩
    rw [tokenize_complete hl] at he
    simp at he
  · intro h
    rcases all_ok_or_error (tokenize tx .empty t) with ⟨ss, hs⟩ | he
    · exact absurd ⟨ss, (exact hj ss).mp hs⟩ h
    · exact he

/-- What follows a readable beginning is read on its own. -/
theorem tokenize_append {u : TokenStream} {ss : List Symbol} (h : Lexes tx u ss) (rest : TokenStream) :
    tokenize tx .empty (u.append rest) = ss.map .ok ++ tokenize tx .empty rest := by
  have assoc : ∀ a b c : TokenStream, (a.append b).append c = a.append (b.append c) := by
    intro a b c
    induction a with
    | nil => rfl
    | group d i r _ ih => simp only [TokenStream.append, ih]
    | ident n r ih => simp only [TokenStream.append, ih]
    | literal n r ih => simp only [TokenStream.append, ih]
    | punct n j r ih => simp only [TokenStream.append, ih]
  induction h with
  | nil => rfl
  | cons hs _ ih => rw [assoc, tokenize_symbol hs, ih]; rfl

/-- An equals sign is only accepted as the first half of an adjacent `=>`. -/
theorem arrow_exactly {u : TokenStream} {ss : List Symbol} (hu : Lexes tx u ss) (joint : Bool)
    (rest : TokenStream) (hj : JointOk (.punct '=' joint rest)) :
    (∃ items, tokenize tx .empty (u.append (.punct '=' joint rest)) = ss.map .ok ++ items ∧
      ∃ t, items.head? = some (.ok ⟨.op .arrow, t⟩)) ↔
    joint = true ∧ ∃ j r, rest = .punct '>' j r := by
  rw [tokenize_append hu]
  constructor
  · rintro ⟨items, h, t, ht⟩
    rw [List.append_cancel_left_eq] at h
    subst h
    cases joint with
    | false => simp [tokenize, PunctBuilder.consumeNext] at ht
    | true =>
      obtain ⟨c, j, r, rfl⟩ := hj.1 rfl (by decide)
      by_cases hc : c = '>'
      · subst hc; exact ⟨rfl, j, r, rfl⟩
      · simp [tokenize, PunctBuilder.consumeNext, hc] at ht
  · rintro ⟨rfl, j, r, rfl⟩
    exact ⟨_, rfl, _, rfl⟩

/-- `::` is recognised exactly when the two colons are adjacent; a colon apart from the next token is `:`. -/
theorem scope_exactly {u : TokenStream} {ss : List Symbol} (hu : Lexes tx u ss) (joint : Bool)
    (rest : TokenStream) (hj : JointOk (.punct ':' joint rest)) :
    ((∃ items, tokenize tx .empty (u.append (.punct ':' joint rest)) = ss.map .ok ++ items ∧
      ∃ t, items.head? = some (.ok ⟨.op .scope, t⟩)) ↔ joint = true ∧ ∃ j r, rest = .punct ':' j r) ∧
    ((∃ items, tokenize tx .empty (u.append (.punct ':' joint rest)) = ss.map .ok ++ items ∧
      ∃ t, items.head? = some (.ok ⟨.op .colon, t⟩)) ↔ joint = false) := by
  rw [tokenize_append hu]
  constructor
  · constructor
    · rintro ⟨items, h, t, ht⟩
      rw [List.append_cancel_left_eq] at h
      subst h
      cases joint with
      | false => simp [tokenize, PunctBuilder.consumeNext] at ht
      | true =>
        obtain ⟨c, j, r, rfl⟩ := hj.1 rfl (by decide)
        by_cases hc : c = ':'
        · subst hc; exact ⟨rfl, j, r, rfl⟩
        · simp [tokenize, PunctBuilder.consumeNext, hc] at ht
    · rintro ⟨rfl, j, r, rfl⟩
      exact ⟨_, rfl, _, rfl⟩
  · constructor
    · rintro ⟨items, h, t, ht⟩
      rw [List.append_cancel_left_eq] at h
      subst h
      cases joint with
      | false => rfl
      | true =>
        obtain ⟨c, j, r, rfl⟩ := hj.1 rfl (by decide)
        by_cases hc : c = ':'
        · subst hc; simp [tokenize, PunctBuilder.consumeNext] at ht
        · simp [tokenize, PunctBuilder.consumeNext, hc] at ht
    · rintro rfl
      exact ⟨_, rfl, _, rfl⟩

/-- Without the promise of `Spacing::Joint` tokens may be lost: the equals sign at the end of this stream is
dropped in silence. -/
theorem joint_needed : ∃ t : TokenStream, ¬ JointOk t ∧ ∃ ss : List Symbol,
    tokenize tx .empty t = ss.map .ok ∧ tokensOf ss ≠ t := by
  refine ⟨.punct '=' true .nil, ?_, [], rfl, ?_⟩
  · rintro ⟨h, _⟩
    obtain ⟨c, j, r, h⟩ := h rfl (by decide)
    cases h
  · intro h; cases h

/-! ## A concrete case: `<S>: T::U => a 'b' { x }` -/

/-- ASCII letters and digits. -/
def ascii : Text where
  alphabetic := Char.isAlpha
  alphanumeric := Char.isAlphanum
  print := fun _ => ""

def sample : TokenStream :=
  .punct '<' false (.ident "S" (.punct '>' true (.punct ':' false (.ident "T" (.punct ':' true (.punct ':' false
    (.ident "U" (.punct '=' true (.punct '>' false (.ident "a" (.literal "'b'"
      (.group .brace (.ident "x" .nil) .nil))))))))))))

example : JointOk sample := by simp [sample, JointOk]

example : ((tokenize ascii .empty sample).filterMap (fun | .ok s => some s.sym | .error _ => none)) =
    [.op .beginProd, .ident "S", .op .endProd, .op .colon, .ident "T", .op .scope, .ident "U", .op .arrow,
      .ident "a", .literal "'b'", .group .brace (.ident "x" .nil)] ∧
    (tokenize ascii .empty sample).length = 11 := by
  constructor
  · decide +kernel
  · decide +kernel

/-- `= >` with a space is rejected. -/
example : ∃ e, .error e ∈ tokenize ascii .empty (.punct '=' false (.punct '>' false .nil)) := by
  exact ⟨_, List.mem_cons_self ..⟩

end Verif.C36
