import Verif.Model.Located

/-!
# Model of the stream of symbols the macro parses

parser_generator_impl/src/symbol_stream.rs and the iterator of symbol.rs:310-319, operation by operation, with the
`Peekable` of the standard library and the `unwrap_unchecked`s of `SymbolProxy`. `Verif.Model.Located` has the list of
remaining symbols in place of this state; `Verif.Props.SymbolStream` shows that it behaves alike.
-/

set_option autoImplicit false

namespace Verif.Stream

open Located

variable {σ α S ε : Type}

/-- An `Iterator`: what `next` returns, and the state afterwards. After `None` it may return anything (it need not be
fused). -/
abbrev Iter (σ α : Type) := σ → Option α × σ

/-- `std::iter::Peekable`: the iterator, and the item that was peeked. -/
structure Peekable (σ α : Type) where
  iter : σ
  peeked : Option (Option α)

/-- `Peekable::next`: the peeked item if there is one (`self.peeked.take()`), or the next one of the iterator. -/
def Peekable.next (it : Iter σ α) (p : Peekable σ α) : Option α × Peekable σ α :=
  match p.peeked with
  | some v => (v, { p with peeked := none })
  | none => ((it p.iter).1, { iter := (it p.iter).2, peeked := none })

/-- `Peekable::peek`: `self.peeked.get_or_insert_with(|| iter.next()).as_ref()`. -/
def Peekable.peek (it : Iter σ α) (p : Peekable σ α) : Option α × Peekable σ α :=
  match p.peeked with
  | some v => (v, p)
  | none => ((it p.iter).1, { iter := (it p.iter).2, peeked := some (it p.iter).1 })

/-- symbol_stream.rs:20-23 `SymbolStreamImpl`. -/
structure SymbolStream (σ S : Type) where
  iter : Peekable σ (LItem S)
  currentSpan : Option S

/-- symbol_stream.rs:26-31 `new`. -/
def SymbolStream.new (s : σ) : SymbolStream σ S := ⟨⟨s, none⟩, none⟩

/-- `opt.ok_or_else(|| ParserGeneratorError::new("Unexpected end of input", prev_span.unwrap_or(call_site)))` and `flatten`
(:46-52, :59-65). -/
def orEnd {β : Type} (sp : Spans S) (prevSpan : Option S) : Option (Except (Diag S) β) → Except (Diag S) β
  | none => .error ⟨.unexpectedEnd, "Unexpected end of input", prevSpan.getD sp.callSite⟩
  | some r => r

/-- symbol_stream.rs:41-53 `expect_symbol`. -/
def SymbolStream.expectSymbol (sp : Spans S) (it : Iter σ (LItem S)) (s : SymbolStream σ S) :
    LItem S × SymbolStream σ S :=
  let prevSpan := s.currentSpan
  let (x, iter) := s.iter.next it
  (orEnd sp prevSpan x, { s with iter })

/-- symbol_stream.rs:68-75 `next`. -/
def SymbolStream.next (it : Iter σ (LItem S)) (s : SymbolStream σ S) : Option (LItem S) × SymbolStream σ S :=
  let (x, iter) := s.iter.next it
  (x, { iter, currentSpan := match x with
        | some (.ok y) => some y.span
        | _ => none })

/-- symbol_stream.rs:97-109 `SymbolProxy::new`: the copy of the symbol. (`debug_assert!` peeks as well, in debug builds.) -/
def proxyNew (debug : Bool) (it : Iter σ (LItem S)) (s : SymbolStream σ S) :
    Outcome ε (LSymbol S × SymbolStream σ S) := do
  let s ← if debug then do
      let (x, iter) := s.iter.peek it
      Outcome.assert (match x with
        | some (.ok _) => true
        | _ => false)
      pure { s with iter }
    else pure s
  let (x, iter) := s.iter.peek it
  let r ← Outcome.unwrapUnchecked x
  let y ← Outcome.unwrapUnchecked (match r with
    | .ok y => some y
    | .error _ => none)
  pure (y, { s with iter })

/-- symbol_stream.rs:77-84 `peek`; the error is cloned. -/
def SymbolStream.peek (debug : Bool) (it : Iter σ (LItem S)) (s : SymbolStream σ S) :
    Outcome ε (Option (Except (Diag S) (LSymbol S)) × SymbolStream σ S) := do
  let (x, iter) := s.iter.peek it
  let s := { s with iter }
  match x with
  | none => pure (none, s)
  | some (.error e) => pure (some (.error e), s)
  | some (.ok _) =>
    let (y, s) ← proxyNew debug it s
    pure (some (.ok y), s)

/-- symbol_stream.rs:55-66 `peek_expect_symbol`. -/
def SymbolStream.peekExpectSymbol (sp : Spans S) (debug : Bool) (it : Iter σ (LItem S)) (s : SymbolStream σ S) :
    Outcome ε (Except (Diag S) (LSymbol S) × SymbolStream σ S) := do
  let prevSpan := s.currentSpan
  let (x, s) ← s.peek debug it
  pure (orEnd sp prevSpan x, s)

/-- symbol_stream.rs:112-116 `SymbolProxy::take`. A proxy borrows the stream mutably, so nothing is done to it between
`peek` and `take`. -/
def proxyTake (debug : Bool) (it : Iter σ (LItem S)) (symbol : LSymbol S) (s : SymbolStream σ S) :
    Outcome ε (LSymbol S × SymbolStream σ S) := do
  let (x, s) := s.next it
  if debug then
    Outcome.assert (match x with
      | some (.ok _) => true
      | _ => false)
  pure (symbol, s)

/-- symbol.rs:300-307 `consume_next_token` on the first token; the state of `scan` (:315) is the builder. -/
def consumeNextToken (sp : Spans S) (tx : Text) (b : LPunct S) :
    LTokens S → Option (Except (Diag S) (Option (LSymbol S)) × LPunct S × LTokens S)
  | .nil => none
  | .group d span spanOpen inner rest => some ((fromGroup d span spanOpen inner).map some, b, rest)
  | .ident name span rest => some ((fromIdent tx name span).map some, b, rest)
  | .literal text span rest => some ((fromLiteral tx text span).map some, b, rest)
  | .punct ch joint span rest =>
    let (b, r) := b.consumeNext sp ch joint span
    some (r, b, rest)

/-- `Result::transpose`. -/
def transpose {β δ : Type} : Except δ (Option β) → Option (Except δ β)
  | .ok none => none
  | .ok (some x) => some (.ok x)
  | .error e => some (.error e)

/-- symbol.rs:310-319: one `next` of the iterator `tokenize_from_stream` returns: `filter_map` (:318) passes over what
`transpose` turns into `None`. `fuel` bounds this loop; the number of tokens is enough. -/
def tokenizerNext (sp : Spans S) (tx : Text) : Nat → Iter (LPunct S × LTokens S) (LItem S)
  | 0, s => (none, s)
  | fuel + 1, (b, t) =>
    match consumeNextToken sp tx b t with
    | none => (none, b, t)
    | some (r, s) =>
      match transpose r with
      | some x => (some x, s)
      | none => tokenizerNext sp tx fuel s

/-- Number of tokens at the top level. -/
def topLevel : LTokens S → Nat
  | .nil => 0
  | .group _ _ _ _ rest => topLevel rest + 1
  | .ident _ _ rest => topLevel rest + 1
  | .literal _ _ rest => topLevel rest + 1
  | .punct _ _ _ rest => topLevel rest + 1

/-- The iterator of symbol.rs:310-319. -/
def tokenizer (sp : Spans S) (tx : Text) : Iter (LPunct S × LTokens S) (LItem S) :=
  fun s => tokenizerNext sp tx (topLevel s.2 + 1) s

end Verif.Stream
