import Verif.Proof.SymbolStream
import Verif.Props.GrammarSample

/-!
# C69: the stream of symbols
-/

set_option autoImplicit false

namespace Verif.C69

open Located Verif.Stream Spec.Stream

variable {σ S ε : Type}

/-- Whatever iterator the stream is made of (fused or not, failing or not), whatever its user calls and however the
calls depend on earlier answers: no call panics or has undefined behaviour, in debug and release builds, and every call is
answered from the item at a position which only `expect_symbol`, `next` and `take` advance, by one. -/
theorem answered_in_order (sp : Spans S) (debug : Bool) (it : Iter σ (LItem S)) (s0 : σ) (user : User S) (n : Nat) :
    ∃ s, (serveAll sp debug it user (.new s0) n : Outcome ε _) = .ok ((answers sp (output it s0) user n).1, s) := by
  obtain ⟨s, h, _⟩ := serveAll_reads (ε := ε) sp debug it s0 user n
  exact ⟨s, h⟩

/-- The iterator is asked for at most one item more than were read. -/
theorem reads_one_ahead (sp : Spans S) (debug : Bool) (it : Iter σ (LItem S)) (s0 : σ) (user : User S) (n : Nat)
    {as : List (Answer S)} {s : SymbolStream σ S}
    (h : (serveAll sp debug it user (.new s0) n : Outcome ε _) = .ok (as, s)) :
    let k := (answers sp (output it s0) user n).2.position
    s.iter.iter = after it s0 k ∨ s.iter.iter = after it s0 (k + 1) := by
  obtain ⟨s', h1, h2, _⟩ := serveAll_reads (ε := ε) sp debug it s0 user n
  rw [h1] at h
  cases congrArg (fun x => x.2) (Outcome.ok.inj h)
  rcases h2 with h2 | h2
  · exact .inl h2.2
  · exact .inr h2.2

/-- The iterator `tokenize_from_stream` returns gives the symbols of the list `Located.tokenize`, in order, and then `None`
for ever. -/
theorem tokens_in_order (sp : Spans S) (tx : Text) (t : LTokens S) (n : Nat) :
    output (tokenizer sp tx) (.empty, t) n = (Located.tokenize sp tx .empty t)[n]? :=
  tokenizer_output sp tx _ n

/-- So the list of symbols in `Verif.Model.Located`, on which C65 to C67 are based, answers every user as the real
stream over the real iterator does. -/
theorem as_list (sp : Spans S) (debug : Bool) (tx : Text) (t : LTokens S) (user : User S) (n : Nat) :
    ∃ s, (serveAll sp debug (tokenizer sp tx) user (.new (.empty, t)) n : Outcome ε _) =
      .ok ((listServeAll sp ⟨Located.tokenize sp tx .empty t, none⟩ user n).1, s) := by
  obtain ⟨s, h⟩ := answered_in_order (ε := ε) sp debug (tokenizer sp tx) (.empty, t) user n
  refine ⟨s, ?_⟩
  rw [h, listServeAll_answers]
  rw [show output (tokenizer sp tx) (.empty, t) = fun k => (Located.tokenize sp tx .empty t)[k]? from
    funext (tokenizer_output sp tx _)]

/-! ### A case -/

namespace Sample

/-- `a =>` with spans 1, 2, 3. -/
def tokens : LTokens Nat := .ident "a" 1 (.punct '=' true 2 (.punct '>' false 3 .nil))

def spans : Spans Nat := ⟨0, fun _ _ => none⟩

/-- Peeks without taking, takes, then expects one symbol and another one. -/
def user : User Nat := fun as =>
  match as.length with
  | 0 => .peek fun _ => false
  | 1 => .peekExpectSymbol fun _ => true
  | _ => .expectSymbol

/-- What it sees: `a` twice, the arrow, and the end, reported at `a` (finding 15). -/
def seen : Answer Nat → List (String ⊕ Nat)
  | .expected (.ok x) => [.inl "expected", .inr x.span]
  | .expected (.error e) => [.inl e.message, .inr e.span]
  | .peeked (some (.ok x)) t => [.inl "peeked", .inr x.span] ++ t.toList.map fun y => .inr y.span
  | .peekExpected (.ok x) t => [.inl "peeked", .inr x.span] ++ t.toList.map fun y => .inr y.span
  | _ => []

example : (match (serveAll spans true (tokenizer spans GrammarSample.tx) user (.new (.empty, tokens)) 4 : Outcome Unit _) with
    | .ok (as, _) => as.map seen
    | _ => []) =
    [[.inl "peeked", .inr 1], [.inl "peeked", .inr 1, .inr 1], [.inl "expected", .inr 2],
      [.inl "Unexpected end of input", .inr 1]] := by
  decide +kernel

/-- An iterator that goes on after `None`: 0 gives nothing, and then there are symbols. -/
def unfused : Iter Nat (LItem Nat) := fun n =>
  (if n = 0 then none else some (.error ⟨.unexpectedToken, "no", n⟩), n + 1)

example : (match (serveAll spans true unfused user (.new 0) 3 : Outcome Unit _) with
    | .ok (as, _) => as.map seen
    | _ => []) = [[], [], [.inl "Unexpected end of input", .inr 0]] := by
  decide +kernel

/-- If the proxy is made without a symbol there, the behaviour is undefined in a release build and a panic in a debug
build: the assertion is not idle. -/
example : (match (proxyNew false unfused (.new 0) : Outcome Unit (LSymbol Nat × _)) with | .ub => true | _ => false) = true ∧
    (match (proxyNew true unfused (.new 0) : Outcome Unit (LSymbol Nat × _)) with | .panic => true | _ => false) = true :=
  ⟨rfl, rfl⟩

end Sample

end Verif.C69
