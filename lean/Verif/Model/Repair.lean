import Verif.Model.Simulator

/-!
# A change of `lr_table/src/first_map.rs`

Nothing in this file is in the repository. It models the code as it would be after the following change of
first_map.rs:47-49, which makes the addition of an epsilon count as a change:

```
let first_set = map.at_mut(label);
if !first_set.has(&AugmentedVocabToken::Epsilon) {
  first_set.insert(AugmentedVocabToken::Epsilon);
  changed = true;
}
```

All the rest is the code of the repository, i.e. the definitions of the model are the ones used elsewhere. The
purpose is to tell which of the properties fail on account of the three lines alone.
-/

namespace Verif

namespace FirstTable
variable {ε T L : Type} [DecidableEq T] [DecidableEq L]

/-- first_map.rs:47-49, changed. -/
def addEpsilonRepaired (label : Nat) (map : FirstTable) (changed : Bool) : Outcome ε (FirstTable × Bool) := do
  let s ← Outcome.index map label
  if !(← s.has .epsilon) then
    let s ← s.insert .epsilon
    pure (map.set label s, true)
  else
    pure (map, changed)

/-- first_map.rs:23-50 (`propagateRules`) with the change. -/
def propagateRulesRepaired (label : Nat) : List IRule → FirstTable → Bool → Outcome ε (FirstTable × Bool)
  | [], map, changed => pure (map, changed)
  | r :: rest, map, changed => do
    let (map, changed, passed) ← propagateNodes label r.nodes map changed
    let (map, changed) ← if passed then addEpsilonRepaired label map changed else pure (map, changed)
    propagateRulesRepaired label rest map changed

/-- first_map.rs:22-51 (`propagateLabels`) with the change. -/
def propagateLabelsRepaired (ig : IndexedGrammar T L) : List Nat → FirstTable → Bool →
    Outcome ε (FirstTable × Bool)
  | [], map, changed => pure (map, changed)
  | label :: rest, map, changed => do
    let rules ← ig.rulesForLabel label
    let (map, changed) ← propagateRulesRepaired label rules map changed
    propagateLabelsRepaired ig rest map changed

/-- first_map.rs:58 (`buildLoop`) with the change. -/
def buildLoopRepaired (ig : IndexedGrammar T L) : Nat → FirstTable → Outcome ε FirstTable
  | 0, _ => Outcome.timeout
  | fuel + 1, map => do
    let (map, changed) ← propagateLabelsRepaired ig ig.allLabels map false
    if changed then buildLoopRepaired ig fuel map else pure map

/-- first_map.rs:56-61 (`build`) with the change; the fuel suffices (`C88.first_exact`). -/
def buildRepaired (ig : IndexedGrammar T L) : Outcome ε FirstTable :=
  buildLoopRepaired ig (ig.labelsCount * ig.vocab.size + 1) (init ig)

end FirstTable

variable {T L : Type} [DecidableEq T] [DecidableEq L]

/-- lr_table.rs:302-324 (`LRTable.build`) on top of the changed FIRST table. -/
def LRTable.buildRepaired (fuel : Nat) (ig : IndexedGrammar T L) : Outcome (LRTableError T L) LRTable := do
  let firstMap ← FirstTable.buildRepaired ig
  let kt ← initialTable ig
  let (table, _) ← buildLoop ig firstMap fuel 0 kt ⟨[], [], 0⟩
  pure table

/-- parse_simulator.rs:19-23 (`SimParser.new`) on top of the changed FIRST table. -/
def SimParser.newRepaired (fuel : Nat) (g : Grammar T L) : Outcome (LRTableError T L) (SimParser T L) := do
  let ig ← IndexedGrammar.build g
  let t ← LRTable.buildRepaired fuel ig
  pure ⟨ig, t⟩

end Verif
