import Verif.Model.SymbolStream

/-!
# What the users of the symbol stream see

Independently of how the stream buffers: there is a position, and every call answers from the item at it.
-/

set_option autoImplicit false

namespace Verif.Spec.Stream

open Located Verif.Stream

variable {σ α S ε : Type}

/-- State of an iterator after `n` calls of `next`. -/
def after (it : Iter σ α) (s : σ) : Nat → σ
  | 0 => s
  | n + 1 => (it (after it s n)).2

/-- What call number `n` (from 0) of `next` returns. -/
def output (it : Iter σ α) (s : σ) (n : Nat) : Option α := (it (after it s n)).1

/-- What a user of the stream can do: call one of its methods; `peek` and `peek_expect_symbol` are followed by `take`
if the proxied symbol is as wanted, else the proxy is dropped. -/
inductive Call (S : Type) where
  | expectSymbol
  | next
  | peek (wanted : LSymbol S → Bool)
  | peekExpectSymbol (wanted : LSymbol S → Bool)

/-- What the user gets; for `peek` and `peek_expect_symbol`, what the proxy shows, and what `take` gives. -/
inductive Answer (S : Type) where
  | expected (r : LItem S)
  | next (r : Option (LItem S))
  | peeked (r : Option (LItem S)) (taken : Option (LSymbol S))
  | peekExpected (r : LItem S) (taken : Option (LSymbol S))

/-- A user may let each call depend on the answers so far. -/
abbrev User (S : Type) := List (Answer S) → Call S

/-- The real stream answers a call. -/
def serve (sp : Spans S) (debug : Bool) (it : Iter σ (LItem S)) (s : SymbolStream σ S) :
    Call S → Outcome ε (Answer S × SymbolStream σ S)
  | .expectSymbol => let (x, s) := s.expectSymbol sp it; pure (.expected x, s)
  | .next => let (x, s) := s.next it; pure (.next x, s)
  | .peek wanted => do
    let (x, s) ← s.peek debug it
    match x with
    | some (.ok y) =>
      if wanted y then
        let (z, s) ← proxyTake debug it y s
        pure (.peeked x (some z), s)
      else pure (.peeked x none, s)
    | x => pure (.peeked x none, s)
  | .peekExpectSymbol wanted => do
    let (x, s) ← s.peekExpectSymbol sp debug it
    match x with
    | .ok y =>
      if wanted y then
        let (z, s) ← proxyTake debug it y s
        pure (.peekExpected x (some z), s)
      else pure (.peekExpected x none, s)
    | x => pure (.peekExpected x none, s)

/-- `n` calls, with the answers in order. -/
def serveAll (sp : Spans S) (debug : Bool) (it : Iter σ (LItem S)) (user : User S) (s : SymbolStream σ S) :
    Nat → Outcome ε (List (Answer S) × SymbolStream σ S)
  | 0 => pure ([], s)
  | n + 1 => do
    let (as, s) ← serveAll sp debug it user s n
    let (a, s) ← serve sp debug it s (user as)
    pure (as ++ [a], s)

/-- A position, and the span of the symbol before it if that was read by `next` or `take`. -/
structure Reading (S : Type) where
  position : Nat
  span : Option S

/-- The span of an item that was read. -/
def spanOf : Option (LItem S) → Option S
  | some (.ok x) => some x.span
  | _ => none

/-- The item, or the error for the end of the input. -/
def itemOrEnd (sp : Spans S) (span : Option S) : Option (LItem S) → LItem S
  | some x => x
  | none => .error ⟨.unexpectedEnd, "Unexpected end of input", span.getD sp.callSite⟩

/-- What the answer to a call is if the item at the position is `item`, and where the reader is then: `expect_symbol` and
`next` read the item, the others read it if it is a symbol and wanted, and otherwise leave it. -/
def answer (sp : Spans S) (item : Option (LItem S)) (r : Reading S) : Call S → Answer S × Reading S
  | .expectSymbol => (.expected (itemOrEnd sp r.span item), ⟨r.position + 1, r.span⟩)
  | .next => (.next item, ⟨r.position + 1, spanOf item⟩)
  | .peek wanted =>
    match item with
    | some (.ok x) =>
      if wanted x then (.peeked item (some x), ⟨r.position + 1, spanOf item⟩) else (.peeked item none, r)
    | _ => (.peeked item none, r)
  | .peekExpectSymbol wanted =>
    match item with
    | some (.ok x) =>
      if wanted x then (.peekExpected (.ok x) (some x), ⟨r.position + 1, spanOf item⟩)
      else (.peekExpected (.ok x) none, r)
    | _ => (.peekExpected (itemOrEnd sp r.span item) none, r)

/-- The answers to `n` calls over the items `items`. -/
def answers (sp : Spans S) (items : Nat → Option (LItem S)) (user : User S) : Nat → List (Answer S) × Reading S
  | 0 => ([], ⟨0, none⟩)
  | n + 1 =>
    let (as, r) := answers sp items user n
    let (a, r) := answer sp (items r.position) r (user as)
    (as ++ [a], r)

/-- The list model of `Verif.Model.Located` answers a call (`peek` is a look at its head there). After an error the parser
stops, and that model has no state: here the item is dropped. -/
def listServe (sp : Spans S) (l : LStream S) : Call S → Answer S × LStream S
  | .expectSymbol =>
    match Located.expectSymbol sp l with
    | .ok (x, l) => (.expected (.ok x), l)
    | .err e => (.expected (.error e), { l with items := l.items.tail })
    | _ => (.expected (.error (unexpectedEnd sp l.current)), l)
  | .next => (.next l.items.head?, Located.take l)
  | .peek wanted =>
    match l.items.head? with
    | some (.ok x) =>
      if wanted x then (.peeked (some (.ok x)) (some x), Located.take l) else (.peeked (some (.ok x)) none, l)
    | x => (.peeked x none, l)
  | .peekExpectSymbol wanted =>
    match Located.peekExpectSymbol sp l with
    | .ok x => if wanted x then (.peekExpected (.ok x) (some x), Located.take l) else (.peekExpected (.ok x) none, l)
    | .err e => (.peekExpected (.error e) none, l)
    | _ => (.peekExpected (.error (unexpectedEnd sp l.current)) none, l)

/-- `n` calls of the list model. -/
def listServeAll (sp : Spans S) (l : LStream S) (user : User S) : Nat → List (Answer S) × LStream S
  | 0 => ([], l)
  | n + 1 =>
    let (as, l) := listServeAll sp l user n
    let (a, l) := listServe sp l (user as)
    (as ++ [a], l)

end Verif.Spec.Stream
