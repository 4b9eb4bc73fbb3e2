import Verif.Proof.LocatedErase
import Verif.Proof.GrammarSyntax
import Verif.Spec.LocatedText

/-!
# What the parsers of the grammar language read before they fail
-/

set_option autoImplicit false
set_option linter.unusedSectionVars false

namespace Verif.Located

open Verif.Spec

variable {S : Type} {α β : Type}

/-- `P` reads `pre`, looks at most at the item after it and returns `v`. -/
structure OkAt (P : LStream S → Outcome (Diag S) (α × LStream S)) (s : LStream S) (pre : List (LSymbol S)) (v : α)
    (s' : LStream S) : Prop where
  items : s.items = okItems pre ++ s'.items
  current : s'.current = s.current ∨ ∃ y ∈ pre, s'.current = some y.span
  again : ∀ t, t.head? = s'.items.head? → P ⟨okItems pre ++ t, s.current⟩ = .ok (v, ⟨t, s'.current⟩)

/-- What the message offers instead of a symbol `x` may follow `p`. -/
def Hinted (V : List Symbol → Prop) (e : Diag S) (x : LItem S) (p : List Symbol) : Prop :=
  ∀ y, x = .ok y → Guides V e.message p

theorem Hinted.error {V : List Symbol → Prop} {e d : Diag S} {p : List Symbol} : Hinted V e (.error d) p :=
  fun _ h => by cases h

theorem Hinted.mono {V V' : List Symbol → Prop} {e : Diag S} {x : LItem S} {p : List Symbol} (h : Hinted V e x p)
    (hV : ∀ p, V p → V' p) : Hinted V' e x p := fun y hy =>
  ⟨(h y hy).1, fun k hk z hz => hV _ ((h y hy).2 k hk z hz)⟩

theorem Hinted.prepend {V : List Symbol → Prop} {e : Diag S} {x : LItem S} {w p : List Symbol}
    (h : Hinted (fun p => V (w ++ p)) e x p) : Hinted V e x (w ++ p) := fun y hy =>
  ⟨(h y hy).1, fun k hk z hz => by
    rw [List.append_assoc]
    exact (h y hy).2 k hk z hz⟩

theorem headline_append (a b : List Char) : headline (a ++ ':' :: ' ' :: b) = headline a := by
  fun_induction headline a with
  | case1 => rfl
  | case2 => rfl
  | case3 c r h ih =>
    cases r with
    | nil => rw [List.cons_append, headline.eq_3 _ _ (by intro _ _ h; cases h)]; rfl
    | cons d r =>
      rw [List.cons_append, headline.eq_3 _ _ ?_, ih]
      intro r' h1 h2
      cases h2
      exact h r h1 rfl

theorem headline_more (m t : String) : headline (m ++ ": " ++ t).toList = headline m.toList := by
  have : (m ++ ": " ++ t).toList = m.toList ++ ':' :: ' ' :: t.toList := by
    rw [String.toList_append, String.toList_append, List.append_assoc]
    rfl
  rw [this, headline_append]

theorem blames_error (d : Diag S) : Blames d (.error d) := ⟨rfl, rfl, "", (String.append_empty).symm⟩

/-- `P` reads `pre` and fails at the item after it, or because there is none, or for a reason `Q` that is not one of syntax.
`V`: what is read begins something of the right form. -/
inductive Bad (sp : Spans S) (V : List Symbol → Prop) (Q : List (LSymbol S) → Diag S → Prop)
    (P : LStream S → Outcome (Diag S) α) (s : LStream S) (e : Diag S) : Prop
  | item (pre : List (LSymbol S)) (x : LItem S) (rest : List (LItem S)) (items : s.items = okItems pre ++ x :: rest)
      (blames : Blames e x) (viable : V (syms pre))
      (again : ∀ rest', P ⟨okItems pre ++ x :: rest', s.current⟩ = .err e)
      (hint : Hinted V e x (syms pre))
  | ended (pre : List (LSymbol S)) (items : s.items = okItems pre) (kind : e.kind = .unexpectedEnd)
      (viable : V (syms pre)) (span : e.span = s.current.getD sp.callSite ∨ ∃ y ∈ pre, e.span = y.span)
  | other (pre : List (LSymbol S)) (rest : List (LItem S)) (items : s.items = okItems pre ++ rest) (reason : Q pre e)

variable (sp : Spans S) (tx : Text)

section General
variable {V V' : List Symbol → Prop} {Q Q' : List (LSymbol S) → Diag S → Prop}

theorem Bad.mono {P : LStream S → Outcome (Diag S) α} {s : LStream S} {e : Diag S} (h : Bad sp V Q P s e)
    (hV : ∀ p, V p → V' p) (hQ : ∀ p, Q p e → Q' p e) : Bad sp V' Q' P s e := by
  cases h with
  | item pre x rest h1 h2 h3 h4 h5 => exact .item pre x rest h1 h2 (hV _ h3) h4 (h5.mono hV)
  | ended pre h1 h2 h3 h4 => exact .ended pre h1 h2 (hV _ h3) h4
  | other pre rest h1 h2 => exact .other pre rest h1 (hQ _ h2)

/-- Everything that `P` returns is as in `OkAt`. -/
def OkL (P : LStream S → Outcome (Diag S) (α × LStream S)) (s : LStream S) : Prop :=
  ∀ v s', P s = .ok (v, s') → ∃ pre, OkAt P s pre v s'

/-- Every error of `P` is as in `Bad`. -/
def BadL (V : List Symbol → Prop) (Q : List (LSymbol S) → Diag S → Prop) (P : LStream S → Outcome (Diag S) α)
    (s : LStream S) : Prop :=
  ∀ e, P s = .err e → Bad sp V Q P s e

theorem okItems_append (a b : List (LSymbol S)) : okItems (a ++ b) = okItems a ++ okItems b := List.map_append

theorem okL_pure (v : α) (s : LStream S) : OkL (fun s => (pure (v, s) : Outcome (Diag S) _)) s := by
  intro v' s' h
  cases Outcome.ok.inj h
  exact ⟨[], rfl, .inl rfl, fun t _ => rfl⟩

theorem badL_pure (v : LStream S → α) (s : LStream S) : BadL sp V Q (fun s => (pure (v s) : Outcome (Diag S) _)) s := by
  intro e h
  cases h

theorem okL_err (f : LStream S → Diag S) (s : LStream S) :
    OkL (α := α) (fun s => (.err (f s) : Outcome (Diag S) _)) s := by
  intro v' s' h
  cases h

theorem okL_bind {P : LStream S → Outcome (Diag S) (α × LStream S)} {K : α × LStream S → Outcome (Diag S) (β × LStream S)}
    {s : LStream S} (hP : OkL P s) (hK : ∀ v s', P s = .ok (v, s') → OkL (fun s => K (v, s)) s') :
    OkL (fun s => P s >>= K) s := by
  intro w s2 h
  obtain ⟨⟨v, s1⟩, h1, h2⟩ := Outcome.bind_eq_ok.mp h
  obtain ⟨pre, a1, a2, a3⟩ := hP v s1 h1
  obtain ⟨pre', b1, b2, b3⟩ := hK v s1 h1 w s2 h2
  refine ⟨pre ++ pre', ?_, ?_, ?_⟩
  · rw [a1, b1, okItems_append, List.append_assoc]
  · rcases b2 with b2 | ⟨y, hy, b2⟩
    · rcases a2 with a2 | ⟨y, hy, a2⟩
      · exact .inl (b2.trans a2)
      · exact .inr ⟨y, List.mem_append_left _ hy, b2.trans a2⟩
    · exact .inr ⟨y, List.mem_append_right _ hy, b2⟩
  · intro t ht
    have h3 := a3 (okItems pre' ++ t) (by
      rw [b1]
      cases pre' with
      | nil => exact ht
      | cons _ _ => rfl)
    rw [okItems_append, List.append_assoc, h3]
    exact b3 t ht

theorem badL_bind {V1 : List Symbol → Prop} {Q1 : List (LSymbol S) → Diag S → Prop}
    {P : LStream S → Outcome (Diag S) (α × LStream S)} {K : α × LStream S → Outcome (Diag S) β} {s : LStream S}
    (hP : BadL sp V1 Q1 P s) (hV : ∀ p, V1 p → V p) (hQ : ∀ p e, Q1 p e → Q p e) (hO : OkL P s)
    (hK : ∀ v s' pre, P s = .ok (v, s') → OkAt P s pre v s' →
      BadL sp (fun p => V (syms pre ++ p)) (fun p e => Q (pre ++ p) e) (fun s => K (v, s)) s') :
    BadL sp V Q (fun s => P s >>= K) s := by
  intro e h
  cases hp : P s with
  | ok p =>
    obtain ⟨v, s1⟩ := p
    obtain ⟨pre, hO⟩ := hO v s1 hp
    have h2 := h
    dsimp only at h2
    rw [hp] at h2
    obtain ⟨a1, a2, a3⟩ := hO
    cases hK v s1 pre hp ⟨a1, a2, a3⟩ e h2 with
    | item pre' x rest h1 hb hv hag hh =>
      refine .item (pre ++ pre') x rest (by rw [a1, h1, okItems_append, List.append_assoc]) hb ?_ ?_ ?_
      · rw [syms, List.map_append]
        exact hv
      · intro rest'
        have h3 := a3 (okItems pre' ++ x :: rest') (by
          rw [h1]
          cases pre' <;> rfl)
        rw [okItems_append, List.append_assoc, h3]
        exact hag rest'
      · rw [syms, List.map_append]
        exact hh.prepend
    | ended pre' h1 hk hv hs =>
      refine .ended (pre ++ pre') (by rw [a1, h1, okItems_append]) hk ?_ ?_
      · rw [syms, List.map_append]
        exact hv
      · rcases hs with hs | ⟨y, hy, hs⟩
        · rcases a2 with a2 | ⟨y, hy, a2⟩
          · rw [a2] at hs
            exact .inl hs
          · rw [a2] at hs
            exact .inr ⟨y, List.mem_append_left _ hy, hs⟩
        · exact .inr ⟨y, List.mem_append_right _ hy, hs⟩
    | other pre' rest h1 hq =>
      exact .other (pre ++ pre') rest (by rw [a1, h1, okItems_append, List.append_assoc]) hq
  | err e' =>
    have h2 := h
    dsimp only at h2
    rw [hp] at h2
    have he : e' = e := Outcome.err.inj h2
    subst he
    cases hP e' hp with
    | item pre' x rest h1 hb hv hag hh =>
      refine .item pre' x rest h1 hb (hV _ hv) (fun rest' => ?_) (hh.mono hV)
      rw [hag]
      rfl
    | ended pre' h1 hk hv hs => exact .ended pre' h1 hk (hV _ hv) hs
    | other pre' rest h1 hq => exact .other pre' rest h1 (hQ _ _ hq)
  | panic =>
    dsimp only at h
    rw [hp] at h
    cases h
  | ub =>
    dsimp only at h
    rw [hp] at h
    cases h
  | timeout =>
    dsimp only at h
    rw [hp] at h
    cases h

/-- A step that does not read. -/
theorem okL_const {c : Outcome (Diag S) α} {K : α → LStream S → Outcome (Diag S) (β × LStream S)} {s : LStream S}
    (hK : ∀ v, c = .ok v → OkL (K v) s) : OkL (fun s => c >>= fun v => K v s) s := by
  intro w s2 h
  obtain ⟨v, h1, h2⟩ := Outcome.bind_eq_ok.mp h
  subst h1
  exact hK v rfl w s2 h2

theorem badL_const {c : Outcome (Diag S) α} {K : α → LStream S → Outcome (Diag S) β} {s : LStream S}
    (hc : ∀ e, c = .err e → Q [] e) (hK : ∀ v, c = .ok v → BadL sp V Q (K v) s) :
    BadL sp V Q (fun s => c >>= fun v => K v s) s := by
  intro e h
  cases c with
  | ok v => exact hK v rfl e h
  | err e' =>
    have he : e' = e := Outcome.err.inj h
    exact .other [] s.items rfl (he ▸ hc e' rfl)
  | panic => cases h
  | ub => cases h
  | timeout => cases h

theorem okL_intercept {P : LStream S → Outcome (Diag S) (α × LStream S)} (m : String) {s : LStream S} (h : OkL P s) :
    OkL (fun s => intercept m (P s)) s := by
  intro v s' hp
  cases hp' : P s with
  | ok p =>
    dsimp only at hp
    rw [hp'] at hp
    cases Outcome.ok.inj hp
    obtain ⟨pre, a1, a2, a3⟩ := h v s' hp'
    exact ⟨pre, a1, a2, fun t ht => by rw [a3 t ht]; rfl⟩
  | _ =>
    dsimp only at hp
    rw [hp'] at hp
    cases hp

theorem badL_intercept {P : LStream S → Outcome (Diag S) α} (m : String) {s : LStream S}
    (h : BadL sp V Q P s)
    (hQ : ∀ p e, Q p e → Q p { e with message := e.message ++ ": " ++ m }) :
    BadL sp V Q (fun s => intercept m (P s)) s := by
  intro e hp
  cases hp' : P s with
  | err e' =>
    dsimp only at hp
    rw [hp'] at hp
    have he := Outcome.err.inj hp
    subst he
    cases h e' hp' with
    | item pre x rest h1 hb hv hag hh =>
      refine .item pre x rest h1 ?_ hv (fun rest' => by dsimp only; rw [hag]; rfl) ?_
      · cases x with
        | ok y => exact hb
        | error d =>
          obtain ⟨b1, b2, t, b3⟩ := hb
          exact ⟨b1, b2, t ++ (": " ++ m), by simp only [b3, String.append_assoc]⟩
      · intro y hy
        have h5 := hh y hy
        rwa [Guides, offers, ← headline_more e'.message m] at h5
    | ended pre h1 hk hv hs => exact .ended pre h1 hk hv hs
    | other pre rest h1 hq => exact .other pre rest h1 (hQ _ _ hq)
  | _ =>
    dsimp only at hp
    rw [hp'] at hp
    cases hp

theorem okL_expect (s : LStream S) : OkL (expectSymbol sp) s := by
  obtain ⟨_ | ⟨_ | x, l⟩, c⟩ := s <;> intro v s' h <;> cases h
  exact ⟨[x], rfl, .inl rfl, fun t _ => rfl⟩

theorem expect_pre {s s' : LStream S} {x : LSymbol S} {pre : List (LSymbol S)} (h : expectSymbol sp s = .ok (x, s'))
    (hO : OkAt (expectSymbol sp) s pre x s') : pre = [x] := by
  obtain ⟨_ | ⟨_ | y, l⟩, c⟩ := s <;> cases h
  have h1 := hO.items
  match pre, h1 with
  | [], h1 => exact absurd (congrArg List.length h1) (by simp)
  | [y], h1 => cases h1; rfl
  | y :: z :: r, h1 =>
    have := congrArg List.length h1
    simp at this
    omega

theorem badL_expect (hV : V []) (s : LStream S) : BadL sp V Q (expectSymbol sp) s := by
  obtain ⟨_ | ⟨d | x, l⟩, c⟩ := s <;> intro e h <;> cases h
  · exact .ended [] rfl rfl hV (.inl rfl)
  · exact .item [] _ l rfl (blames_error _) hV (fun _ => rfl) .error

/-- `expect_symbol` followed by something that blames the symbol. -/
theorem badL_expectThen {K : LSymbol S × LStream S → Outcome (Diag S) β} (hV : V []) (s : LStream S)
    (hK : ∀ x s', expectSymbol sp s = .ok (x, s') →
      (∃ e, (∀ s, K (x, s) = .err e) ∧ e.kind = .unexpectedToken ∧ e.span = x.span ∧
        Guides V e.message []) ∨
      BadL sp (fun p => V (x.symbol :: p)) (fun p e => Q (x :: p) e) (fun s => K (x, s)) s') :
    BadL sp V Q (fun s => expectSymbol sp s >>= K) s := by
  intro e h
  obtain ⟨_ | ⟨d | x, l⟩, c⟩ := s
  · cases h
    exact .ended [] rfl rfl hV (.inl rfl)
  · cases h
    exact .item [] _ l rfl (blames_error _) hV (fun _ => rfl) .error
  · rcases hK x ⟨l, c⟩ rfl with ⟨e', h1, h2, h3, h5⟩ | h1
    · have h4 := h1 ⟨l, c⟩
      have he : e' = e := Outcome.err.inj (h4.symm.trans h)
      subst he
      exact .item [] _ l rfl ⟨h2, h3⟩ hV (fun rest' => h1 ⟨rest', c⟩) fun _ _ => h5
    · cases h1 e h with
      | item pre y rest h1 hb hv hag hh =>
        exact .item (x :: pre) y rest (by rw [show l = _ from h1]; rfl) hb hv hag (Hinted.prepend (w := [x.symbol]) hh)
      | ended pre h1 hk hv hs =>
        refine .ended (x :: pre) (by rw [show l = _ from h1]; rfl) hk hv ?_
        rcases hs with hs | ⟨y, hy, hs⟩
        · exact .inl hs
        · exact .inr ⟨y, List.mem_cons_of_mem _ hy, hs⟩
      | other pre rest h1 hq => exact .other (x :: pre) rest (by rw [show l = _ from h1]; rfl) hq

theorem okL_peek {K : LSymbol S → LStream S → Outcome (Diag S) (β × LStream S)} (s : LStream S)
    (hK : ∀ x l, s.items = .ok x :: l → OkL (K x) s) :
    OkL (fun s => peekExpectSymbol sp s >>= fun x => K x s) s := by
  obtain ⟨_ | ⟨d | x, l⟩, c⟩ := s <;> intro v s' h
  · cases h
  · cases h
  · obtain ⟨pre, a1, a2, a3⟩ := hK x l rfl v s' h
    refine ⟨pre, a1, a2, fun t ht => ?_⟩
    have : ∃ r, okItems pre ++ t = .ok x :: r := by
      cases pre with
      | nil =>
        rw [← show _ = s'.items from a1] at ht
        cases t with
        | nil => cases ht
        | cons y t => cases ht; exact ⟨t, rfl⟩
      | cons y pre =>
        have := congrArg List.head? a1
        cases this
        exact ⟨_, rfl⟩
    obtain ⟨r, hr⟩ := this
    have h3 := a3 t ht
    rw [hr] at h3 ⊢
    exact h3

theorem badL_peek {K : LSymbol S → LStream S → Outcome (Diag S) β} (hV : V []) (s : LStream S)
    (hK : ∀ x l, s.items = .ok x :: l → BadL sp V Q (K x) s) :
    BadL sp V Q (fun s => peekExpectSymbol sp s >>= fun x => K x s) s := by
  obtain ⟨_ | ⟨d | x, l⟩, c⟩ := s <;> intro e h
  · cases h
    exact .ended [] rfl rfl hV (.inl rfl)
  · cases h
    exact .item [] _ l rfl (blames_error _) hV (fun _ => rfl) .error
  · cases hK x l rfl e h with
    | item pre y rest h1 hb hv hag hh =>
      refine .item pre y rest h1 hb hv (fun rest' => ?_) hh
      have : ∃ r, okItems pre ++ y :: rest' = .ok x :: r := by
        cases pre with
        | nil =>
          cases h1
          exact ⟨_, rfl⟩
        | cons z pre =>
          have := congrArg List.head? h1
          cases this
          exact ⟨_, rfl⟩
      obtain ⟨r, hr⟩ := this
      have h3 := hag rest'
      rw [hr] at h3 ⊢
      exact h3
    | ended pre h1 hk hv hs => exact .ended pre h1 hk hv hs
    | other pre rest h1 hq => exact .other pre rest h1 hq

/-- What follows `take`. -/
theorem okL_take {K : LStream S → Outcome (Diag S) (β × LStream S)} {s : LStream S} {x : LSymbol S} {l : List (LItem S)}
    (hs : s.items = .ok x :: l) (hK : OkL K (take s)) : OkL (fun s => K (take s)) s := by
  obtain ⟨i, c⟩ := s
  cases hs
  intro v s' h
  obtain ⟨pre, a1, a2, a3⟩ := hK v s' h
  refine ⟨x :: pre, ?_, ?_, a3⟩
  · rw [show l = _ from a1]
    rfl
  · rcases a2 with a2 | ⟨y, hy, a2⟩
    · exact .inr ⟨x, List.mem_cons_self, a2⟩
    · exact .inr ⟨y, List.mem_cons_of_mem _ hy, a2⟩

theorem badL_take {K : LStream S → Outcome (Diag S) β} {s : LStream S} {x : LSymbol S} {l : List (LItem S)}
    (hs : s.items = .ok x :: l)
    (hK : BadL sp (fun p => V (x.symbol :: p)) (fun p e => Q (x :: p) e) K (take s)) :
    BadL sp V Q (fun s => K (take s)) s := by
  obtain ⟨i, c⟩ := s
  cases hs
  intro e h
  cases hK e h with
  | item pre y rest h1 hb hv hag hh =>
    exact .item (x :: pre) y rest (by rw [show l = _ from h1]; rfl) hb hv hag (Hinted.prepend (w := [x.symbol]) hh)
  | ended pre h1 hk hv hs =>
    refine .ended (x :: pre) (by rw [show l = _ from h1]; rfl) hk hv (.inr ?_)
    rcases hs with hs | ⟨y, hy, hs⟩
    · exact ⟨x, List.mem_cons_self, hs⟩
    · exact ⟨y, List.mem_cons_of_mem _ hy, hs⟩
  | other pre rest h1 hq => exact .other (x :: pre) rest (by rw [show l = _ from h1]; rfl) hq

end General

end Verif.Located
