import Verif.Model.LRTable

/-!
# Model of `lr_table/src/parse_simulator.rs`
-/

namespace Verif

variable {ε T L : Type} [DecidableEq T] [DecidableEq L]

/-- parse_simulator.rs:13-16 `Parser`. -/
structure SimParser (T L : Type) where
  grammar : IndexedGrammar T L
  lrTable : LRTable
deriving DecidableEq, Repr

namespace SimParser

/-- parse_simulator.rs:19-23 `Parser::new`. -/
def new (fuel : Nat) (g : Grammar T L) : Outcome (LRTableError T L) (SimParser T L) := do
  let ig ← IndexedGrammar.build g
  let t ← LRTable.build fuel ig
  pure ⟨ig, t⟩

/-- Result of one iteration of the parse loop: go on with new stacks and input, or return. -/
inductive Step (T : Type) where
  | continue (states : List Nat) (nodes : List INode) (input : List T)
  | done (accepted : Bool)
deriving DecidableEq, Repr

/-- parse_simulator.rs:35-98, one iteration. Stacks are lists whose head is the top. -/
def step (p : SimParser T L) (states : List Nat) (nodes : List INode) (input : List T) :
    Outcome ε (Step T) :=
  match states with
  | [] => Outcome.panic -- :102 `debug_assert!(false)` after the loop
  | state :: _ =>
    let token : AugTok T := match input with
      | t :: _ => .token t
      | [] => .eos
    match p.grammar.vocab.augTokenToId token with
    | none => pure (.done false)
    | some tokenId => do
      match ← p.lrTable.getAction state tokenId with
      | none => pure (.done false)
      | some (.shift nextState) =>
        pure (.continue (nextState :: states) (.terminal tokenId :: nodes) input.tail)
      | some (.reduce rule) => do
        let grammarRule ← p.grammar.productionRule rule
        let rhs := grammarRule.excludingEpsilon
        Outcome.assert (rhs.length ≤ nodes.length)
        Outcome.assert ((rhs.zip (nodes.take rhs.length).reverse).all fun (a, b) => a == b)
        let states := states.drop rhs.length
        let nodes := nodes.drop rhs.length
        Outcome.assert (!states.isEmpty)
        let label := grammarRule.symbol
        let nodes := .production label :: nodes
        let top ← Outcome.unwrap states.head?
        match ← p.lrTable.getGoto top label with
        | some goto => pure (.continue (goto :: states) nodes input)
        | none => pure (.done false)
      | some .accept => pure (.done true)

/-- parse_simulator.rs:35-99, the loop. -/
def loop (p : SimParser T L) : Nat → List Nat → List INode → List T → Outcome ε Bool
  | 0, _, _, _ => Outcome.timeout
  | fuel + 1, states, nodes, input => do
    match ← p.step states nodes input with
    | .continue states nodes input => p.loop fuel states nodes input
    | .done b => pure b

/-- parse_simulator.rs:27-104 `parse_stream`. -/
def parseStream (fuel : Nat) (p : SimParser T L) (stream : List T) : Outcome ε Bool :=
  p.loop fuel [LRTable.rootState] [] stream

end SimParser
end Verif
