import Verif.Model.Closure

/-!
# Model of `lr_table/src/lr_table.rs`

`StateId` and `GotoAction` are `Nat`.
-/

namespace Verif

variable {T L : Type} [DecidableEq T] [DecidableEq L]

/-- lr_table.rs:41-46 `Action`. -/
inductive Action where
  | shift (nextState : Nat)
  | reduce (rule : Nat)
  | accept
deriving DecidableEq, Repr

/-- lr_table.rs:85-92 `LRTableEntryBuilder`. -/
structure EntryBuilder where
  actions : SparseMap AugTokId Action
  gotos : SparseMap Nat Nat
deriving Repr

namespace EntryBuilder

/-- lr_table.rs:95-100 `new`. -/
def new (ig : IndexedGrammar T L) : EntryBuilder :=
  ⟨SparseMap.new ig.vocab.size, SparseMap.new ig.labelsCount⟩

/-- lr_table.rs:197-218 `add_reduce_action`. -/
def addReduce (ig : IndexedGrammar T L) (b : EntryBuilder) (token : AugTokId) (rule : Nat) :
    Outcome (LRTableError T L) EntryBuilder := do
  match ← b.actions.tryInsert token (.reduce rule) with
  | .ok actions => pure { b with actions := actions }
  | .error existing => do
    let lookahead ← ig.vocab.idToToken token
    match existing with
    | .reduce other => Outcome.err (.reduceConflict rule other lookahead)
    | .shift _ => Outcome.err (.shiftReduceConflict rule lookahead)
    | .accept => Outcome.err (.reduceConflict rule IndexedGrammar.rootRule lookahead)

/-- lr_table.rs:137-139, the loop over the follow tokens. -/
def addReduces (ig : IndexedGrammar T L) (rule : Nat) : List AugTokId → EntryBuilder →
    Outcome (LRTableError T L) EntryBuilder
  | [], b => pure b
  | t :: ts, b => do
    let b ← addReduce ig b t rule
    addReduces ig rule ts b

/-- lr_table.rs:116-141, the positions at the end of their rules. `add_accept(..).expect(..)`
(:132-135, :228-230) panics if there already is an action on end of stream. -/
def addEnds (ig : IndexedGrammar T L) : List Position → EntryBuilder →
    Outcome (LRTableError T L) EntryBuilder
  | [], b => pure b
  | p :: ps, b => do
    Outcome.assert (← p.atEndOfRule ig)
    let b ←
      if p.rule = IndexedGrammar.rootRule then do
        Outcome.assert (p.followSet.iter.all fun t => t == .eos)
        match ← b.actions.tryInsert .eos .accept with
        | .ok actions => pure { b with actions := actions }
        | .error _ => Outcome.panic
      else addReduces ig p.rule p.followSet.iter b
    addEnds ig ps b

/-- lr_table.rs:146-150: no position is at the end of its rule. -/
def noneAtEnd (ig : IndexedGrammar T L) : List Position → Outcome (LRTableError T L) Bool
  | [] => pure true
  | p :: ps => do
    let b ← p.atEndOfRule ig
    if b then pure false else noneAtEnd ig ps

/-- lr_table.rs:168-179: `add_shift_action(..).map_err(..)?`. -/
def addShift (ig : IndexedGrammar T L) (b : EntryBuilder) (terminal : AugTokId) (id : Nat) :
    Outcome (LRTableError T L) EntryBuilder := do
  match ← b.actions.tryInsert terminal (.shift id) with
  | .ok actions => pure { b with actions := actions }
  | .error existing => do
    let lookahead ← ig.vocab.idToToken terminal
    match existing with
    | .reduce other => Outcome.err (.shiftReduceConflict other lookahead)
    | .shift _ => Outcome.err (.shiftConflict lookahead)
    | .accept => Outcome.err (.shiftReduceConflict IndexedGrammar.rootRule lookahead)

/-- lr_table.rs:160-165: `add_goto_action(..).expect(..)`. -/
def addGoto (b : EntryBuilder) (label : Nat) (id : Nat) :
    Outcome (LRTableError T L) EntryBuilder := do
  match ← b.gotos.tryInsert label id with
  | .ok gotos => pure { b with gotos := gotos }
  | .error _ => Outcome.panic

/-- lr_table.rs:104-185 `try_build_from_partitions`. -/
def tryBuild (ig : IndexedGrammar T L) : List (Category × List Position) → KernelTable →
    EntryBuilder → Outcome (LRTableError T L) (EntryBuilder × KernelTable)
  | [], kt, b => pure (b, kt)
  | (none, positions) :: rest, kt, b => do
    let b ← addEnds ig positions b
    tryBuild ig rest kt b
  | (some node, positions) :: rest, kt, b => do
    Outcome.assert (← noneAtEnd ig positions)
    let positions ← Position.advanceAll ig positions
    let kernel := Kernel.new positions
    let (kt, id) := kt.getOrInsert kernel
    let b ←
      match node with
      | .production label => addGoto b label id
      | .terminal terminal => addShift ig b terminal id
    tryBuild ig rest kt b

end EntryBuilder

/-- Evaluates `get` for each key of a list. -/
def SparseMap.getAll {ε K V : Type} [Label K] (m : SparseMap K V) :
    List K → Outcome ε (List (Option V))
  | [] => pure []
  | k :: ks => do
    let v ← m.get k
    let vs ← m.getAll ks
    pure (v :: vs)

/-- lr_table.rs:253-260 `LRTable`. -/
structure LRTable where
  actionTable : List (Option Action)
  gotoTable : List (Option Nat)
  numStates : Nat
deriving DecidableEq, Repr

namespace LRTable

/-- lr_table.rs:283-299 (`map_while` over state ids) together with the fold of `build` (:306-323):
state `stateId` is read from the kernel table, its row is built and appended (`into_vecs`, :234-250);
the first error stops the construction; the loop ends when there is no kernel with this id. -/
def buildLoop (ig : IndexedGrammar T L) (firstMap : FirstTable) :
    Nat → Nat → KernelTable → LRTable → Outcome (LRTableError T L) (LRTable × KernelTable)
  | 0, _, _, _ => Outcome.timeout
  | fuel + 1, stateId, kt, table =>
    match kt.getState stateId with
    | none => pure (table, kt)
    | some kernel => do
      let partitions ← Partition.partitionClosure kernel ig firstMap
      let (entry, kt) ← EntryBuilder.tryBuild ig partitions kt (EntryBuilder.new ig)
      let actions ← entry.actions.getAll ig.vocab.forEachId
      let gotos ← entry.gotos.getAll ig.allLabels
      buildLoop ig firstMap fuel (stateId + 1) kt
        ⟨table.actionTable ++ actions, table.gotoTable ++ gotos, table.numStates + 1⟩

/-- lr_table.rs:275-278: a top-level position for each given rule. -/
def topLevel {ε : Type} (vocabSize : Nat) : List Nat → Outcome ε (List Position)
  | [] => pure []
  | r :: rs => do
    let p ← Position.newTopLevel r vocabSize
    let ps ← topLevel vocabSize rs
    pure (p :: ps)

/-- lr_table.rs:273-281: the initial kernel table. -/
def initialTable (ig : IndexedGrammar T L) : Outcome (LRTableError T L) KernelTable := do
  let ids ← ig.ruleIdsForLabel IndexedGrammar.rootLabel
  let ps ← topLevel ig.vocab.size ids
  let (kt, id) := KernelTable.new.getOrInsert (Kernel.new ps)
  Outcome.assert (id == 0)
  pure kt

/-- lr_table.rs:302-324 `build`, also returning the final kernel table (which the code drops). The number
of states is not known in advance, so the fuel is a parameter. -/
def buildWithKernels (fuel : Nat) (ig : IndexedGrammar T L) :
    Outcome (LRTableError T L) (LRTable × KernelTable) := do
  let firstMap ← FirstTable.build ig
  let kt ← initialTable ig
  buildLoop ig firstMap fuel 0 kt ⟨[], [], 0⟩

/-- lr_table.rs:302-324 `build`. -/
def build (fuel : Nat) (ig : IndexedGrammar T L) : Outcome (LRTableError T L) LRTable := do
  let (table, _) ← buildWithKernels fuel ig
  pure table

section Access
variable {ε : Type}

/-- lr_table.rs:326-328 `root_state`. -/
def rootState : Nat := 0

/-- lr_table.rs:340-344 `vocab_size`: `is_multiple_of` asserted; dividing by zero panics. -/
def vocabSize (t : LRTable) : Outcome ε Nat := do
  Outcome.assert (t.numStates != 0 && t.actionTable.length % t.numStates == 0)
  pure (t.actionTable.length / t.numStates)

/-- lr_table.rs:346-350 `num_production_labels`. -/
def numLabels (t : LRTable) : Outcome ε Nat := do
  Outcome.assert (t.numStates != 0 && t.gotoTable.length % t.numStates == 0)
  pure (t.gotoTable.length / t.numStates)

/-- lr_table.rs:330-333 `get_action`. -/
def getAction (t : LRTable) (state : Nat) (token : AugTokId) : Outcome ε (Option Action) := do
  let n ← t.vocabSize
  Outcome.index t.actionTable (n * state + Label.id token)

/-- lr_table.rs:335-338 `get_goto`. -/
def getGoto (t : LRTable) (state : Nat) (label : Nat) : Outcome ε (Option Nat) := do
  let n ← t.numLabels
  Outcome.index t.gotoTable (n * state + label)

/-- lr_table.rs:364-366 `states`. -/
def states (t : LRTable) : List Nat := List.range t.numStates

/-- `&v[a..b]`. -/
def slice {α : Type} (l : List α) (a b : Nat) : Outcome ε (List α) :=
  if a ≤ b ∧ b ≤ l.length then pure ((l.take b).drop a) else Outcome.panic

/-- lr_table.rs:383-389: the `zip`/`filter_map` of `state_actions`. -/
def collectActions (v : Vocab T) : List (Option Action × AugTokId) →
    Outcome ε (List (AugTok T × Action))
  | [] => pure []
  | (none, _) :: rest => collectActions v rest
  | (some a, id) :: rest => do
    let t ← v.idToToken id
    let as ← collectActions v rest
    pure ((t, a) :: as)

/-- lr_table.rs:371-390 `state_actions`. -/
def stateActions (t : LRTable) (ig : IndexedGrammar T L) (state : Nat) :
    Outcome ε (List (AugTok T × Action)) := do
  let n ← t.vocabSize
  Outcome.assert (ig.vocab.size == n)
  let offset := state * ig.vocab.size
  let row ← slice t.actionTable offset (offset + ig.vocab.size)
  collectActions ig.vocab (row.zip ig.vocab.forEachId)

/-- lr_table.rs:395-412 `goto_actions`. -/
def gotoActions (t : LRTable) (ig : IndexedGrammar T L) (state : Nat) :
    Outcome ε (List (Nat × Nat)) := do
  let n ← t.numLabels
  Outcome.assert (n == ig.labelsCount)
  let offset := state * ig.labelsCount
  let row ← slice t.gotoTable offset (offset + ig.labelsCount)
  pure ((row.zip ig.allLabels).filterMap fun (a, l) => a.map fun a => (l, a))

end Access
end LRTable
end Verif
