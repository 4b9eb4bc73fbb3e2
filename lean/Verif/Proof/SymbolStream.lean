import Verif.Spec.SymbolStream

set_option autoImplicit false
set_option linter.unusedSectionVars false

namespace Verif.Stream

open Located Spec.Stream

variable {σ α S ε : Type}

/-- The buffer stands at position `k` of the iterator `it` that began in `s0`. -/
def At (it : Iter σ α) (s0 : σ) (p : Peekable σ α) (k : Nat) : Prop :=
  (p.peeked = none ∧ p.iter = after it s0 k) ∨
    (p.peeked = some (output it s0 k) ∧ p.iter = after it s0 (k + 1))

theorem Peekable.next_at {it : Iter σ α} {s0 : σ} {p : Peekable σ α} {k : Nat} (h : At it s0 p k) :
    (p.next it).1 = output it s0 k ∧ At it s0 (p.next it).2 (k + 1) := by
  unfold Peekable.next
  rcases h with ⟨h1, h2⟩ | ⟨h1, h2⟩
  · rw [h1]; dsimp only; rw [h2]; exact ⟨rfl, .inl ⟨rfl, rfl⟩⟩
  · rw [h1]; exact ⟨rfl, .inl ⟨rfl, h2⟩⟩

theorem Peekable.peek_at {it : Iter σ α} {s0 : σ} {p : Peekable σ α} {k : Nat} (h : At it s0 p k) :
    (p.peek it).1 = output it s0 k ∧ At it s0 (p.peek it).2 k := by
  unfold Peekable.peek
  rcases h with ⟨h1, h2⟩ | ⟨h1, h2⟩
  · rw [h1]; dsimp only; rw [h2]; exact ⟨rfl, .inr ⟨rfl, rfl⟩⟩
  · rw [h1]; exact ⟨rfl, .inr ⟨h1, h2⟩⟩

/-- The stream is at a reading. -/
def Reads (it : Iter σ (LItem S)) (s0 : σ) (s : SymbolStream σ S) (r : Reading S) : Prop :=
  At it s0 s.iter r.position ∧ s.currentSpan = r.span

variable {it : Iter σ (LItem S)} {s0 : σ} {s : SymbolStream σ S} {r : Reading S} {sp : Spans S} {debug : Bool}

theorem orEnd_eq (sp : Spans S) (x : Option S) (y : Option (LItem S)) : orEnd sp x y = itemOrEnd sp x y := by
  cases y <;> rfl

theorem expectSymbol_reads (h : Reads it s0 s r) :
    (s.expectSymbol sp it).1 = itemOrEnd sp r.span (output it s0 r.position) ∧
      Reads it s0 (s.expectSymbol sp it).2 ⟨r.position + 1, r.span⟩ := by
  obtain ⟨h1, h2⟩ := Peekable.next_at h.1
  unfold SymbolStream.expectSymbol
  refine ⟨?_, h2, h.2⟩
  dsimp only
  rw [orEnd_eq, h1, h.2]

theorem next_reads (h : Reads it s0 s r) :
    (s.next it).1 = output it s0 r.position ∧
      Reads it s0 (s.next it).2 ⟨r.position + 1, spanOf (output it s0 r.position)⟩ := by
  obtain ⟨h1, h2⟩ := Peekable.next_at h.1
  unfold SymbolStream.next
  refine ⟨h1, h2, ?_⟩
  dsimp only
  rw [h1]
  rcases output it s0 r.position with _ | _ | _ <;> rfl

theorem proxyNew_reads (h : Reads it s0 s r) {y : LSymbol S} (hy : output it s0 r.position = some (.ok y)) :
    ∃ s', (proxyNew debug it s : Outcome ε _) = .ok (y, s') ∧ Reads it s0 s' r := by
  unfold proxyNew
  obtain ⟨h1, h2⟩ := Peekable.peek_at h.1
  cases debug
  · simp only [Bool.false_eq_true, if_false, Outcome.pure_eq, Outcome.ok_bind]
    rw [h1, hy]
    exact ⟨_, rfl, h2, h.2⟩
  · obtain ⟨h3, h4⟩ := Peekable.peek_at h2
    simp only [if_true, Outcome.pure_eq, Outcome.ok_bind]
    rw [h1, hy]
    simp only [Outcome.assert_true, Outcome.ok_bind]
    rw [h3, hy]
    exact ⟨_, rfl, h4, h.2⟩

theorem peek_reads (h : Reads it s0 s r) :
    ∃ s', (s.peek debug it : Outcome ε _) = .ok (output it s0 r.position, s') ∧ Reads it s0 s' r := by
  obtain ⟨h1, h2⟩ := Peekable.peek_at h.1
  have h3 : Reads it s0 { s with iter := (s.iter.peek it).2 } r := ⟨h2, h.2⟩
  unfold SymbolStream.peek
  dsimp only
  rw [h1]
  cases hy : output it s0 r.position with
  | none => exact ⟨_, rfl, h3⟩
  | some x =>
    cases x with
    | error e => exact ⟨_, rfl, h3⟩
    | ok y =>
      obtain ⟨s', h4, h5⟩ := proxyNew_reads (ε := ε) (debug := debug) h3 hy
      exact ⟨s', by dsimp only; rw [h4]; rfl, h5⟩

theorem peekExpectSymbol_reads (h : Reads it s0 s r) :
    ∃ s', (s.peekExpectSymbol sp debug it : Outcome ε _) =
        .ok (itemOrEnd sp r.span (output it s0 r.position), s') ∧ Reads it s0 s' r := by
  obtain ⟨s', h1, h2⟩ := peek_reads (ε := ε) (debug := debug) h
  refine ⟨s', ?_, h2⟩
  unfold SymbolStream.peekExpectSymbol
  rw [h1, ← orEnd_eq, h.2]
  rfl

theorem proxyTake_reads (h : Reads it s0 s r) {y : LSymbol S} (hy : output it s0 r.position = some (.ok y)) :
    ∃ s', (proxyTake debug it y s : Outcome ε _) = .ok (y, s') ∧
      Reads it s0 s' ⟨r.position + 1, spanOf (output it s0 r.position)⟩ := by
  obtain ⟨h1, h2⟩ := next_reads h
  refine ⟨_, ?_, h2⟩
  unfold proxyTake
  dsimp only
  rw [h1, hy]
  cases debug <;> rfl

/-- Every call is answered as the specification says. -/
theorem serve_reads (h : Reads it s0 s r) (c : Call S) :
    ∃ s', (serve sp debug it s c : Outcome ε _) = .ok ((answer sp (output it s0 r.position) r c).1, s') ∧
      Reads it s0 s' (answer sp (output it s0 r.position) r c).2 := by
  cases c with
  | expectSymbol =>
    obtain ⟨h1, h2⟩ := expectSymbol_reads (sp := sp) h
    exact ⟨_, by unfold serve; dsimp only; rw [h1]; rfl, h2⟩
  | next =>
    obtain ⟨h1, h2⟩ := next_reads h
    exact ⟨_, by unfold serve; dsimp only; rw [h1]; rfl, h2⟩
  | peek wanted =>
    obtain ⟨s', h1, h2⟩ := peek_reads (ε := ε) (debug := debug) h
    unfold serve answer
    rw [h1]
    simp only [Outcome.ok_bind]
    cases hy : output it s0 r.position with
    | none => exact ⟨_, rfl, h2⟩
    | some x =>
      cases x with
      | error e => exact ⟨_, rfl, h2⟩
      | ok y =>
        dsimp only
        by_cases hw : wanted y
        · rw [if_pos hw, if_pos hw]
          obtain ⟨s'', h3, h4⟩ := proxyTake_reads (ε := ε) (debug := debug) h2 hy
          rw [h3, ← hy]
          exact ⟨s'', rfl, h4⟩
        · rw [if_neg hw, if_neg hw]
          exact ⟨_, rfl, h2⟩
  | peekExpectSymbol wanted =>
    obtain ⟨s', h1, h2⟩ := peekExpectSymbol_reads (ε := ε) (sp := sp) (debug := debug) h
    unfold serve answer
    rw [h1]
    simp only [Outcome.ok_bind]
    cases hy : output it s0 r.position with
    | none => exact ⟨_, rfl, h2⟩
    | some x =>
      cases x with
      | error e => exact ⟨_, rfl, h2⟩
      | ok y =>
        dsimp only [itemOrEnd]
        by_cases hw : wanted y
        · rw [if_pos hw, if_pos hw]
          obtain ⟨s'', h3, h4⟩ := proxyTake_reads (ε := ε) (debug := debug) h2 hy
          rw [h3, ← hy]
          exact ⟨s'', rfl, h4⟩
        · rw [if_neg hw, if_neg hw]
          exact ⟨_, rfl, h2⟩

theorem serveAll_reads (sp : Spans S) (debug : Bool) (it : Iter σ (LItem S)) (s0 : σ) (user : User S) (n : Nat) :
    ∃ s', (serveAll sp debug it user (.new s0) n : Outcome ε _) =
        .ok ((answers sp (output it s0) user n).1, s') ∧
      Reads it s0 s' (answers sp (output it s0) user n).2 := by
  induction n with
  | zero => exact ⟨_, rfl, .inl ⟨rfl, rfl⟩, rfl⟩
  | succ n ih =>
    obtain ⟨s1, h1, h2⟩ := ih
    obtain ⟨s2, h3, h4⟩ := serve_reads (ε := ε) (sp := sp) (debug := debug) h2 (user (answers sp (output it s0) user n).1)
    refine ⟨s2, ?_, h4⟩
    unfold serveAll
    rw [h1]
    simp only [Outcome.ok_bind]
    rw [h3]
    rfl

/-! ### The iterator of symbols -/

theorem tokenizerNext_tokenize (sp : Spans S) (tx : Text) (fuel : Nat) (b : LPunct S) (t : LTokens S)
    (h : topLevel t < fuel) :
    (Located.tokenize sp tx b t = [] ∧ (tokenizerNext sp tx fuel (b, t)).1 = none ∧
        (tokenizerNext sp tx fuel (b, t)).2.2 = .nil) ∨
      ∃ x rest, Located.tokenize sp tx b t = x :: rest ∧ (tokenizerNext sp tx fuel (b, t)).1 = some x ∧
        Located.tokenize sp tx (tokenizerNext sp tx fuel (b, t)).2.1 (tokenizerNext sp tx fuel (b, t)).2.2 = rest := by
  induction fuel generalizing b t with
  | zero => omega
  | succ fuel ih =>
    cases t with
    | nil => exact .inl ⟨rfl, rfl, rfl⟩
    | group d span spanOpen inner rest =>
      have e : tokenizerNext sp tx (fuel + 1) (b, .group d span spanOpen inner rest) = (some (fromGroup d span spanOpen inner), b, rest) := by
        simp only [tokenizerNext, consumeNextToken]
        cases fromGroup d span spanOpen inner <;> rfl
      rw [e]
      exact .inr ⟨_, _, rfl, rfl, rfl⟩
    | ident name span rest =>
      have e : tokenizerNext sp tx (fuel + 1) (b, .ident name span rest) = (some (fromIdent tx name span), b, rest) := by
        simp only [tokenizerNext, consumeNextToken]
        cases fromIdent tx name span <;> rfl
      rw [e]
      exact .inr ⟨_, _, rfl, rfl, rfl⟩
    | literal text span rest =>
      have e : tokenizerNext sp tx (fuel + 1) (b, .literal text span rest) = (some (fromLiteral tx text span), b, rest) := by
        simp only [tokenizerNext, consumeNextToken]
        cases fromLiteral tx text span <;> rfl
      rw [e]
      exact .inr ⟨_, _, rfl, rfl, rfl⟩
    | punct ch joint span rest =>
      simp only [tokenizerNext, consumeNextToken, Located.tokenize]
      rcases b.consumeNext sp ch joint span with ⟨b', r⟩
      cases r with
      | error e => exact .inr ⟨_, _, rfl, rfl, rfl⟩
      | ok o =>
        cases o with
        | some x => exact .inr ⟨_, _, rfl, rfl, rfl⟩
        | none => exact ih b' rest (by simp only [topLevel] at h; omega)

/-- The next item of the iterator is the first of the list, and leaves the rest of it. -/
theorem tokenizer_head (sp : Spans S) (tx : Text) (s : LPunct S × LTokens S) :
    (tokenizer sp tx s).1 = (Located.tokenize sp tx s.1 s.2).head? ∧
      Located.tokenize sp tx (tokenizer sp tx s).2.1 (tokenizer sp tx s).2.2 = (Located.tokenize sp tx s.1 s.2).tail := by
  rcases tokenizerNext_tokenize sp tx (topLevel s.2 + 1) s.1 s.2 (by omega) with ⟨h1, h2, h3⟩ | ⟨x, rest, h1, h2, h3⟩
  · unfold tokenizer
    rw [h1, h2, h3]; exact ⟨rfl, rfl⟩
  · unfold tokenizer
    rw [h1, h2, h3]; exact ⟨rfl, rfl⟩

theorem tokenizer_after (sp : Spans S) (tx : Text) (s : LPunct S × LTokens S) (n : Nat) :
    Located.tokenize sp tx (after (tokenizer sp tx) s n).1 (after (tokenizer sp tx) s n).2 =
      (Located.tokenize sp tx s.1 s.2).drop n := by
  induction n with
  | zero => rfl
  | succ n ih =>
    show Located.tokenize sp tx (tokenizer sp tx _).2.1 (tokenizer sp tx _).2.2 = _
    rw [(tokenizer_head sp tx _).2, ih, List.tail_drop]

theorem tokenizer_output (sp : Spans S) (tx : Text) (s : LPunct S × LTokens S) (n : Nat) :
    output (tokenizer sp tx) s n = (Located.tokenize sp tx s.1 s.2)[n]? := by
  show (tokenizer sp tx _).1 = _
  rw [(tokenizer_head sp tx _).1, tokenizer_after, List.head?_drop]

/-! ### The list model -/

theorem listServe_answer (sp : Spans S) (items : List (LItem S)) (r : Reading S) (c : Call S) :
    listServe sp ⟨items.drop r.position, r.span⟩ c =
      ((answer sp items[r.position]? r c).1,
        ⟨items.drop (answer sp items[r.position]? r c).2.position, (answer sp items[r.position]? r c).2.span⟩) := by
  rw [← List.head?_drop]
  have ht : items.drop (r.position + 1) = (items.drop r.position).tail := by rw [List.tail_drop]
  generalize hl : items.drop r.position = l
  rw [hl] at ht
  rcases r with ⟨k, span⟩
  dsimp only at hl ht ⊢
  cases c with
  | expectSymbol =>
    rcases l with _ | ⟨_ | _, l⟩ <;>
      simp only [listServe, Located.expectSymbol, answer, itemOrEnd, ht, List.head?, List.tail, unexpectedEnd]
  | next =>
    rcases l with _ | ⟨_ | _, l⟩ <;>
      simp only [listServe, Located.take, answer, spanOf, ht, List.head?, List.tail]
  | peek wanted =>
    rcases l with _ | ⟨_ | x, l⟩
    · simp only [listServe, answer, hl, List.head?]
    · simp only [listServe, answer, hl, List.head?]
    · simp only [listServe, answer, List.head?]
      by_cases hw : wanted x = true
      · simp only [hw, if_true, Located.take, spanOf, ht, List.tail]
      · rw [if_neg hw, if_neg hw]; simp only [hl]
  | peekExpectSymbol wanted =>
    rcases l with _ | ⟨_ | x, l⟩
    · simp only [listServe, Located.peekExpectSymbol, answer, itemOrEnd, hl, List.head?, unexpectedEnd]
    · simp only [listServe, Located.peekExpectSymbol, answer, itemOrEnd, hl, List.head?]
    · simp only [listServe, Located.peekExpectSymbol, answer, List.head?]
      by_cases hw : wanted x = true
      · simp only [hw, if_true, Located.take, spanOf, ht, List.tail]
      · rw [if_neg hw, if_neg hw]; simp only [hl]

theorem listServeAll_answers (sp : Spans S) (items : List (LItem S)) (user : User S) (n : Nat) :
    listServeAll sp ⟨items, none⟩ user n =
      ((answers sp (items[·]?) user n).1,
        ⟨items.drop (answers sp (items[·]?) user n).2.position, (answers sp (items[·]?) user n).2.span⟩) := by
  induction n with
  | zero => rfl
  | succ n ih =>
    simp only [listServeAll, answers]
    rw [ih]
    dsimp only
    rw [listServe_answer]

end Verif.Stream
