import Verif.Model.IndexedGrammar

/-!
# Model of `lr_table/src/first_map.rs`
-/

namespace Verif

/-- first_map.rs:9-11 `FirstTable`: `FixedSizeMap<ProductionLabel, VocabSet>` (fixed_map.rs:76-107) is the
list of its values, indexed by label. -/
abbrev FirstTable := List VocabSet

namespace FirstTable
variable {ε T L : Type} [DecidableEq T] [DecidableEq L]

/-- first_map.rs:63-65 `first_set`. -/
def firstSet (map : FirstTable) (label : Nat) : Outcome ε VocabSet := Outcome.index map label

/-- first_map.rs:24-45, the loop over the nodes of one rule of `label`. The last component is `false` if
the loop left with `continue 'productions_loop`. -/
def propagateNodes (label : Nat) : List INode → FirstTable → Bool →
    Outcome ε (FirstTable × Bool × Bool)
  | [], map, changed => pure (map, changed, true)
  | .production nodeLabel :: rest, map, changed => do
    let nodeFirstSet ← Outcome.index map nodeLabel
    let hasEpsilon ← nodeFirstSet.has .epsilon
    let nodeFirstSet ← nodeFirstSet.clear .epsilon
    let dst ← Outcome.index map label
    let (dst, modified) := dst.merge nodeFirstSet
    let map := map.set label dst
    let changed := modified || changed
    if !hasEpsilon then pure (map, changed, false)
    else propagateNodes label rest map changed
  | .terminal .epsilon :: rest, map, changed => propagateNodes label rest map changed
  | .terminal terminal :: _, map, changed => do
    let firstSet ← Outcome.index map label
    if !(← firstSet.has terminal) then
      let firstSet ← firstSet.insert terminal
      pure (map.set label firstSet, true, false)
    else
      pure (map, changed, false)

/-- first_map.rs:47-49: if all nodes were passed, add epsilon. Note that `changed` is not updated. -/
def addEpsilon (label : Nat) (map : FirstTable) : Outcome ε FirstTable := do
  let s ← Outcome.index map label
  let s ← s.insert .epsilon
  pure (map.set label s)

/-- first_map.rs:23-50, the rules of one label. -/
def propagateRules (label : Nat) : List IRule → FirstTable → Bool → Outcome ε (FirstTable × Bool)
  | [], map, changed => pure (map, changed)
  | r :: rest, map, changed => do
    let (map, changed, passed) ← propagateNodes label r.nodes map changed
    let map ← if passed then addEpsilon label map else pure map
    propagateRules label rest map changed

/-- first_map.rs:22-51, the labels. -/
def propagateLabels (ig : IndexedGrammar T L) : List Nat → FirstTable → Bool →
    Outcome ε (FirstTable × Bool)
  | [], map, changed => pure (map, changed)
  | label :: rest, map, changed => do
    let rules ← ig.rulesForLabel label
    let (map, changed) ← propagateRules label rules map changed
    propagateLabels ig rest map changed

/-- first_map.rs:16-54 `propagate_map`. -/
def propagate (ig : IndexedGrammar T L) (map : FirstTable) : Outcome ε (FirstTable × Bool) :=
  propagateLabels ig ig.allLabels map false

/-- first_map.rs:58 `while Self::propagate_map(&mut map, grammar) {}`. -/
def buildLoop (ig : IndexedGrammar T L) : Nat → FirstTable → Outcome ε FirstTable
  | 0, _ => Outcome.timeout
  | fuel + 1, map => do
    let (map, changed) ← propagate ig map
    if changed then buildLoop ig fuel map else pure map

/-- first_map.rs:57: the initial map. -/
def init (ig : IndexedGrammar T L) : FirstTable :=
  List.replicate ig.labelsCount (VocabSet.new ig.vocab.size)

/-- first_map.rs:56-61 `build_from_grammar`. Every round that is followed by another one adds a
(label, token) pair, so the fuel suffices (`Verif.Proof.FirstMap`). -/
def build (ig : IndexedGrammar T L) : Outcome ε FirstTable :=
  buildLoop ig (ig.labelsCount * ig.vocab.size + 1) (init ig)

end FirstTable
end Verif
