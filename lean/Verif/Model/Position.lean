import Verif.Model.FirstMap

/-!
# Model of `lr_table/src/position.rs`, `kernel.rs` and `kernel_table.rs`
-/

namespace Verif

variable {ε T L : Type} [DecidableEq T] [DecidableEq L]

/-- position.rs:15-24 `maybe_first_production_label`. -/
def maybeFirstProductionLabel : List INode → Option Nat
  | [] => none
  | .production label :: _ => some label
  | .terminal _ :: _ => none

/-- position.rs:38-56, the loop of `follow_set_for_rule`; the flag is `true` if the loop ran to its end
(otherwise the function returned early). -/
def followSetLoop (firstMap : FirstTable) : List INode → VocabSet → Outcome ε (VocabSet × Bool)
  | [], tokenSet => pure (tokenSet, true)
  | .production label :: rest, tokenSet => do
    let firstSet ← firstMap.firstSet label
    let (tokenSet, _) := tokenSet.merge firstSet
    if !(← firstSet.has .epsilon) then pure (tokenSet, false)
    else do
      let tokenSet ← tokenSet.clear .epsilon
      followSetLoop firstMap rest tokenSet
  | .terminal .epsilon :: rest, tokenSet => followSetLoop firstMap rest tokenSet
  | .terminal token :: _, tokenSet => do
    let tokenSet ← tokenSet.insert token
    pure (tokenSet, false)

/-- position.rs:31-63 `follow_set_for_rule`. -/
def followSetForRule (rule : List INode) (ruleFollowSet : VocabSet) (firstMap : FirstTable)
    (vocabSize : Nat) : Outcome ε VocabSet := do
  let (tokenSet, passed) ← followSetLoop firstMap rule (VocabSet.new vocabSize)
  if passed then pure (tokenSet.merge ruleFollowSet).1 else pure tokenSet

/-- position.rs:65-70 `Position`. -/
structure Position where
  rule : Nat
  position : Nat
  followSet : VocabSet
deriving DecidableEq, Repr

namespace Position

/-- `&v[i..]`, which panics if `i > v.len()`. -/
def sliceFrom {α : Type} (l : List α) (i : Nat) : Outcome ε (List α) :=
  if i ≤ l.length then pure (l.drop i) else Outcome.panic

/-- position.rs:93-101 `next_node`. -/
def nextNode (ig : IndexedGrammar T L) (p : Position) : Outcome ε (Option INode) := do
  let production ← ig.productionRule p.rule
  let tail ← sliceFrom production.nodes p.position
  pure (tail.find? fun n => !n.isEpsilon)

/-- position.rs:87-89 `at_end_of_rule`. -/
def atEndOfRule (ig : IndexedGrammar T L) (p : Position) : Outcome ε Bool := do
  let n ← nextNode ig p
  pure n.isNone

/-- position.rs:105-108 `advance`. -/
def advance (ig : IndexedGrammar T L) (p : Position) : Outcome ε Position := do
  Outcome.assert (!(← atEndOfRule ig p))
  pure { p with position := p.position + 1 }

/-- position.rs:110-118 `advance_all`. -/
def advanceAll (ig : IndexedGrammar T L) : List Position → Outcome ε (List Position)
  | [] => pure []
  | p :: ps => do
    let p ← advance ig p
    let ps ← advanceAll ig ps
    pure (p :: ps)

/-- position.rs:144-148 `new_top_level`. -/
def newTopLevel (rule : Nat) (vocabSize : Nat) : Outcome ε Position := do
  let followSet ← (VocabSet.new vocabSize).insert .eos
  pure ⟨rule, 0, followSet⟩

/-- position.rs:153-169 `next_production_label`. -/
def nextProductionLabel (ig : IndexedGrammar T L) (firstMap : FirstTable) (p : Position) :
    Outcome ε (Option (Nat × VocabSet)) := do
  let production ← ig.productionRule p.rule
  let tail ← sliceFrom production.nodes p.position
  match maybeFirstProductionLabel tail with
  | none => pure none
  | some label => do
    let rest ← sliceFrom production.nodes (p.position + 1)
    let followSet ← followSetForRule rest p.followSet firstMap ig.vocab.size
    pure (some (label, followSet))

/-- position.rs:83-85 `position`: the sort key (compared lexicographically). -/
def key (p : Position) : Nat × Nat := (p.rule, p.position)

/-- Lexicographic `≤` on keys (derived `Ord` of `(ProductionRuleId, usize)`). -/
def keyLe (p q : Position) : Bool :=
  p.rule < q.rule || (p.rule == q.rule && p.position ≤ q.position)

end Position

/-- kernel.rs:10-16 `Kernel`: the sorted positions. -/
structure Kernel where
  positions : List Position
deriving DecidableEq, Repr

namespace Kernel

/-- Insertion into a sorted list, before the first element that is not smaller. -/
def insertSorted (p : Position) : List Position → List Position
  | [] => [p]
  | q :: qs => if Position.keyLe p q then p :: q :: qs else q :: insertSorted p qs

/-- `positions.sort_by_key(Position::position)`: a stable sort, modelled by insertion sort (from the
right, inserting before equal keys, hence stable). -/
def sortPositions : List Position → List Position
  | [] => []
  | p :: ps => insertSorted p (sortPositions ps)

/-- kernel.rs:19-22 `Kernel::new`. -/
def new (positions : List Position) : Kernel := ⟨sortPositions positions⟩

end Kernel

/-- kernel_table.rs:8-11 `KernelTable`; the hash map is an association list. -/
structure KernelTable where
  table : List (Kernel × Nat)
  states : List Kernel
deriving DecidableEq, Repr

namespace KernelTable

/-- kernel_table.rs:14-19 `new`. -/
def new : KernelTable := ⟨[], []⟩

/-- kernel_table.rs:21-23 `get_state`. -/
def getState (t : KernelTable) (id : Nat) : Option Kernel := t.states[id]?

/-- kernel_table.rs:25-38 `get_or_insert`. -/
def getOrInsert (t : KernelTable) (k : Kernel) : KernelTable × Nat :=
  let tableSize := t.table.length
  match t.table.lookup k with
  | some id => (t, id)
  | none => (⟨t.table ++ [(k, tableSize)], t.states ++ [k]⟩, tableSize)

end KernelTable
end Verif
