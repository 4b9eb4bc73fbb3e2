import Verif.Model.Position

/-!
# Model of `lr_table/src/closure.rs` and of `SparsePartitionMap` (`indexed_grammar.rs`)
-/

namespace Verif

variable {ε T L : Type} [DecidableEq T] [DecidableEq L]

/-- The map `production_follow_sets` of closure.rs. -/
abbrev FollowMap := SparseMap Nat VocabSet

namespace Closure

/-- closure.rs:33-42, the loop over the kernel. The stack `productions_to_explore` is a list whose head is
the top. -/
def kernelLoop (ig : IndexedGrammar T L) (firstMap : FirstTable) :
    List Position → FollowMap → List Nat → Outcome ε (FollowMap × List Nat)
  | [], map, stack => pure (map, stack)
  | p :: ps, map, stack => do
    match ← p.nextProductionLabel ig firstMap with
    | none => kernelLoop ig firstMap ps map stack
    | some (label, followSet) => do
      let (map, inserted) ← map.modifyOrInsert label (VocabSet.new ig.vocab.size)
        fun s => (s.merge followSet).1
      kernelLoop ig firstMap ps map (if inserted then label :: stack else stack)

/-- closure.rs:46-53, the rules of one label: new leading labels are inserted and pushed. -/
def exploreRules (vocabSize : Nat) : List IRule → FollowMap → List Nat →
    Outcome ε (FollowMap × List Nat)
  | [], map, stack => pure (map, stack)
  | r :: rest, map, stack =>
    match maybeFirstProductionLabel r.nodes with
    | none => exploreRules vocabSize rest map stack
    | some subLabel => do
      let (map, inserted) ← map.modifyOrInsert subLabel (VocabSet.new vocabSize) id
      exploreRules vocabSize rest map (if inserted then subLabel :: stack else stack)

/-- closure.rs:45-54, `while let Some(label) = productions_to_explore.pop()`. -/
def exploreLoop (ig : IndexedGrammar T L) : Nat → FollowMap → List Nat → Outcome ε FollowMap
  | 0, _, _ => Outcome.timeout
  | _ + 1, map, [] => pure map
  | fuel + 1, map, label :: stack => do
    let rules ← ig.rulesForLabel label
    let (map, stack) ← exploreRules ig.vocab.size rules map stack
    exploreLoop ig fuel map stack

/-- Writes a value through `get_mut(&label).unwrap()` (closure.rs:83-86): merges `set` into the entry of
`label` and returns the flag of `merge`. -/
def mergeAt (map : FollowMap) (label : Nat) (set : VocabSet) : Outcome ε (FollowMap × Bool) := do
  match ← map.maybeIndex label with
  | none => Outcome.panic
  | some index =>
    let e ← Outcome.index map.map index
    let (s, modified) := e.2.merge set
    pure ({ map with map := map.map.set index (e.1, s) }, modified)

/-- closure.rs:70-88, the rules of one label in the fixpoint loop. -/
def propagateRules (firstMap : FirstTable) (vocabSize : Nat) (label : Nat) :
    List IRule → FollowMap → Bool → Outcome ε (FollowMap × Bool)
  | [], map, changed => pure (map, changed)
  | r :: rest, map, changed =>
    match maybeFirstProductionLabel r.nodes with
    | none => propagateRules firstMap vocabSize label rest map changed
    | some subLabel => do
      let followSet ← Outcome.unwrap (← map.get label)
      let tail ← Position.sliceFrom r.nodes 1
      let subFollowSet ← followSetForRule tail followSet firstMap vocabSize
      let (map, modified) ← mergeAt map subLabel subFollowSet
      propagateRules firstMap vocabSize label rest map (modified || changed)

/-- closure.rs:65-89, one round over all labels. -/
def propagateLabels (ig : IndexedGrammar T L) (firstMap : FirstTable) :
    List Nat → FollowMap → Bool → Outcome ε (FollowMap × Bool)
  | [], map, changed => pure (map, changed)
  | label :: rest, map, changed => do
    let rules ← ig.rulesForLabel label
    let (map, changed) ← propagateRules firstMap ig.vocab.size label rules map changed
    propagateLabels ig firstMap rest map changed

/-- closure.rs:62-94, the fixpoint loop. -/
def propagateLoop (ig : IndexedGrammar T L) (firstMap : FirstTable) (labels : List Nat) :
    Nat → FollowMap → Outcome ε FollowMap
  | 0, _ => Outcome.timeout
  | fuel + 1, map => do
    let (map, changed) ← propagateLabels ig firstMap labels map false
    if changed then propagateLoop ig firstMap labels fuel map else pure map

/-- closure.rs:16-97 `closure_follow_sets`. The fuels suffice (`Verif.Proof.Closure`): each label is pushed
at most once, each repeated round adds a (label, token) pair. -/
def followSets (kernel : Kernel) (ig : IndexedGrammar T L) (firstMap : FirstTable) :
    Outcome ε FollowMap := do
  let (map, stack) ← kernelLoop ig firstMap kernel.positions (SparseMap.new ig.labelsCount) []
  let map ← exploreLoop ig (ig.labelsCount + 1) map stack
  let labels := map.iter.map (·.1)
  propagateLoop ig firstMap labels (ig.labelsCount * ig.vocab.size + 1) map

end Closure

/-- indexed_grammar.rs:94 `NextTokenCategory`. -/
abbrev Category := Option INode

namespace Category

/-- indexed_grammar.rs:109-115 `static_id`. -/
def toId (vocabSize : Nat) : Category → Nat
  | some (.production label) => vocabSize + 1 + label
  | some (.terminal t) => Label.id t + 1
  | none => 0

/-- indexed_grammar.rs:117-129 `static_from_id`. -/
def ofId (vocabSize : Nat) (id : Nat) : Category :=
  if id = 0 then none
  else if id ≤ vocabSize then some (.terminal (AugTok.ofId (id - 1)))
  else some (.production (id - (vocabSize + 1)))

end Category

/-- indexed_grammar.rs:96-99 `SparsePartitionMap<Vec<Position>>`: a sparse map keyed by category ids. -/
abbrev PartitionMap := SparseMap Nat (List Position)

namespace Partition

/-- closure.rs:110-119: the positions contributed by the labels of the closure. -/
def closurePositions (ig : IndexedGrammar T L) :
    List (Nat × VocabSet) → Outcome ε (List Position)
  | [] => pure []
  | (label, followSet) :: rest => do
    let ids ← ig.ruleIdsForLabel label
    let ps ← closurePositions ig rest
    pure (ids.map (fun id => ⟨id, 0, followSet⟩) ++ ps)

/-- closure.rs:121-129, the fold grouping positions by next node. -/
def group (ig : IndexedGrammar T L) : List Position → PartitionMap → Outcome ε PartitionMap
  | [], map => pure map
  | p :: ps, map => do
    let category ← p.nextNode ig
    let (map, _) ← map.modifyOrInsert (Category.toId ig.vocab.size category) []
      fun l => l ++ [p]
    group ig ps map

/-- closure.rs:107-120: all positions of the closure, kernel first. -/
def closureItems (kernel : Kernel) (ig : IndexedGrammar T L) (firstMap : FirstTable) :
    Outcome ε (List Position) := do
  let followSets ← Closure.followSets kernel ig firstMap
  let ps ← closurePositions ig followSets.iter
  pure (kernel.positions ++ ps)

/-- closure.rs:102-130 `partition_closure_by_next_node` followed by `into_iter`
(indexed_grammar.rs:158-164). -/
def partitionClosure (kernel : Kernel) (ig : IndexedGrammar T L) (firstMap : FirstTable) :
    Outcome ε (List (Category × List Position)) := do
  let items ← closureItems kernel ig firstMap
  let map ← group ig items (SparseMap.new (ig.labelsCount + ig.vocab.size + 1))
  pure (map.iter.map fun (id, ps) => (Category.ofId ig.vocab.size id, ps))

end Partition
end Verif
