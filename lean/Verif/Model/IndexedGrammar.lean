import Verif.Model.Error

/-!
# Model of `lr_table/src/indexed_grammar.rs`

`ProductionLabel`, `ProductionRuleId` and `ProductionRuleIndex` are `Nat`.
-/

namespace Verif

/-- indexed_grammar.rs:53 `IndexedProductionNode`. -/
abbrev INode := Node Nat Nat

/-- indexed_grammar.rs:55-59 `IndexedProductionRule`. -/
structure IRule where
  rule : Rule Nat Nat
  originalIndex : Nat
deriving DecidableEq, Repr

namespace IRule
/-- indexed_grammar.rs:73-75. -/
abbrev symbol (r : IRule) : Nat := r.rule.symbol
/-- indexed_grammar.rs:77-79. -/
abbrev nodes (r : IRule) : List INode := r.rule.rule
/-- indexed_grammar.rs:85-89. -/
abbrev excludingEpsilon (r : IRule) : List INode := r.rule.excludingEpsilon
end IRule

/-- indexed_grammar.rs:167-174 `RuleMetadata`. -/
structure RuleMetadata (L : Type) where
  startIndex : Nat
  endIndex : Nat
  originalLabel : L
deriving DecidableEq, Repr

/-- indexed_grammar.rs:176-180 `IndexedGrammar`. -/
structure IndexedGrammar (T L : Type) where
  rules : List IRule
  ruleMetadata : List (RuleMetadata L)
  vocab : Vocab T
deriving DecidableEq, Repr

/-- indexed_grammar.rs:195-198 `LabelGroup`. -/
structure LabelGroup (T L : Type) where
  origLabel : L
  rules : List (Rule T L × Nat)
deriving DecidableEq, Repr

namespace IndexedGrammar
variable {T L : Type} [DecidableEq T] [DecidableEq L]

section Accessors
variable {ε : Type}

/-- indexed_grammar.rs:376-378 `labels_count`. -/
def labelsCount (ig : IndexedGrammar T L) : Nat := ig.ruleMetadata.length

/-- indexed_grammar.rs:363-365 and :367-369 `root_production_label`, `root_production_rule`. -/
def rootLabel : Nat := 0
@[inherit_doc rootLabel] def rootRule : Nat := 0

/-- indexed_grammar.rs:371-373 `all_production_labels`. -/
def allLabels (ig : IndexedGrammar T L) : List Nat := List.range ig.labelsCount

/-- indexed_grammar.rs:403-405 `production_rule`. -/
def productionRule (ig : IndexedGrammar T L) (id : Nat) : Outcome ε IRule :=
  Outcome.index ig.rules id

/-- indexed_grammar.rs:409-415 `production_rule_ids_for_label`. -/
def ruleIdsForLabel (ig : IndexedGrammar T L) (label : Nat) : Outcome ε (List Nat) := do
  let m ← Outcome.index ig.ruleMetadata label
  pure (List.range' m.startIndex (m.endIndex - m.startIndex))

/-- `production_rule` for a list of ids. -/
def productionRules (ig : IndexedGrammar T L) : List Nat → Outcome ε (List IRule)
  | [] => pure []
  | id :: ids => do
    let r ← ig.productionRule id
    let rs ← ig.productionRules ids
    pure (r :: rs)

/-- indexed_grammar.rs:419-426 `production_rules_for_label`. The Rust iterator is lazy; the model looks
all rules up at once (they are in range, see `Verif.Proof.IndexedGrammar`). -/
def rulesForLabel (ig : IndexedGrammar T L) (label : Nat) : Outcome ε (List IRule) := do
  let ids ← ig.ruleIdsForLabel label
  ig.productionRules ids

/-- indexed_grammar.rs:430-432 `orig_production_label`. -/
def origLabel (ig : IndexedGrammar T L) (label : Nat) : Outcome ε L := do
  let m ← Outcome.index ig.ruleMetadata label
  pure m.originalLabel

end Accessors

/-- indexed_grammar.rs:214-222: does the rule mention the label? -/
def references (label : L) (nodes : List (Node T L)) : Bool :=
  nodes.any fun
    | .production l => l == label
    | .terminal _ => false

/-- State of the grouping loop: `label_map` and `label_groups`. -/
structure Groups (T L : Type) where
  labelMap : List (L × Nat)
  groups : List (LabelGroup T L)
deriving DecidableEq, Repr

/-- indexed_grammar.rs:226-243, one iteration of the grouping loop after the root checks. -/
def addProduction (st : Groups T L) (production : Rule T L) (originalIndex : Nat) :
    Outcome (LRTableError T L) (Groups T L) :=
  let mapLen := st.labelMap.length
  match st.labelMap.lookup production.symbol with
  | none => do
    -- `label_map.len() != map_len`: a new entry with label `map_len` was inserted
    Outcome.assert (mapLen == st.groups.length)
    pure ⟨st.labelMap ++ [(production.symbol, mapLen)],
      st.groups ++ [⟨production.symbol, [(production, originalIndex)]⟩]⟩
  | some label => do
    let group ← Outcome.index st.groups label
    pure { st with groups :=
      st.groups.set label { group with rules := group.rules ++ [(production, originalIndex)] } }

/-- indexed_grammar.rs:209-244, the grouping loop over the productions after the first;
`originalIndex` is the `enumerate` counter. -/
def groupLoop (root : L) : Nat → List (Rule T L) → Groups T L →
    Outcome (LRTableError T L) (Groups T L)
  | _, [], st => pure st
  | originalIndex, production :: rest, st =>
    if production.symbol = root then Outcome.err .rootProductionRepeated
    else if references root production.rule then Outcome.err .rootProductionReferenced
    else do
      let st ← addProduction st production originalIndex
      groupLoop root (originalIndex + 1) rest st

/-- indexed_grammar.rs:259-274, the nodes of one rule; stops at the first unrecognised label. -/
def indexNodes (labelMap : List (L × Nat)) : List (Node T L) → Vocab T →
    Outcome (LRTableError T L) (List INode × Vocab T)
  | [], v => pure ([], v)
  | .production l :: rest, v =>
    match labelMap.lookup l with
    | none => Outcome.err (.unrecognizedLabel l)
    | some label => do
      let (ns, v) ← indexNodes labelMap rest v
      pure (.production label :: ns, v)
  | .terminal t :: rest, v => do
    let (v, id) := v.getIdOrInsert t
    let (ns, v) ← indexNodes labelMap rest v
    pure (.terminal id :: ns, v)

/-- indexed_grammar.rs:253-278, the rules of one group. -/
def indexGroup (labelMap : List (L × Nat)) (label : Nat) : List (Rule T L × Nat) → Vocab T →
    Outcome (LRTableError T L) (List IRule × Vocab T)
  | [], v => pure ([], v)
  | (production, originalIndex) :: rest, v => do
    let (ns, v) ← indexNodes labelMap production.rule v
    let (rs, v) ← indexGroup labelMap label rest v
    pure (⟨⟨label, ns⟩, originalIndex⟩ :: rs, v)

/-- indexed_grammar.rs:246-281, all groups, concatenated; `label` is the `enumerate` counter. -/
def indexGroups (labelMap : List (L × Nat)) : Nat → List (LabelGroup T L) → Vocab T →
    Outcome (LRTableError T L) (List IRule × Vocab T)
  | _, [], v => pure ([], v)
  | label, g :: rest, v => do
    let (rs, v) ← indexGroup labelMap label g.rules v
    let (rs', v) ← indexGroups labelMap (label + 1) rest v
    pure (rs ++ rs', v)

/-- indexed_grammar.rs:283-296, the `scan` computing `rule_metadata`. -/
def metadata : Nat → List (LabelGroup T L) → List (RuleMetadata L)
  | _, [] => []
  | total, g :: rest =>
    ⟨total, total + g.rules.length, g.origLabel⟩ :: metadata (total + g.rules.length) rest

/-- indexed_grammar.rs:332-339, the nodes of one rule: new labels are marked and pushed. The `Vec` used
as a stack is a list whose head is the top. -/
def exploreNodes {ε : Type} : List INode → BitSet → List Nat → Outcome ε (BitSet × List Nat)
  | [], set, stack => pure (set, stack)
  | .production label :: rest, set, stack => do
    if !(← set.has label) then
      let set ← set.set label
      exploreNodes rest set (label :: stack)
    else
      exploreNodes rest set stack
  | .terminal _ :: rest, set, stack => exploreNodes rest set stack

/-- indexed_grammar.rs:331-340, the rules of one label. -/
def exploreRules {ε : Type} : List IRule → BitSet → List Nat → Outcome ε (BitSet × List Nat)
  | [], set, stack => pure (set, stack)
  | r :: rest, set, stack => do
    let (set, stack) ← exploreNodes r.nodes set stack
    exploreRules rest set stack

/-- indexed_grammar.rs:329-341, the `while let Some(label) = labels_to_explore.pop()` loop. -/
def exploreLoop {ε : Type} (ig : IndexedGrammar T L) :
    Nat → BitSet → List Nat → Outcome ε BitSet
  | 0, _, _ => Outcome.timeout
  | _ + 1, set, [] => pure set
  | fuel + 1, set, label :: stack => do
    Outcome.assert (← set.has label)
    let rules ← ig.rulesForLabel label
    let (set, stack) ← exploreRules rules set stack
    exploreLoop ig fuel set stack

/-- indexed_grammar.rs:346-349: the labels that were not reached (in the order of `label_map`, which in
Rust is the arbitrary order of a hash map; it only affects the error message). -/
def disconnected {ε : Type} (set : BitSet) : List (L × Nat) → Outcome ε (List L)
  | [] => pure []
  | (l, label) :: rest => do
    let b ← set.has label
    let ls ← disconnected set rest
    pure (if b then ls else l :: ls)

/-- indexed_grammar.rs:324-355 `verify_connected`. The fuel is enough for every run (each label is
pushed at most once), see `Verif.Proof.IndexedGrammar`. -/
def verifyConnected (ig : IndexedGrammar T L) (labelMap : List (L × Nat)) :
    Outcome (LRTableError T L) Unit := do
  let ruleSet ← (BitSet.new ig.labelsCount).set rootLabel
  let ruleSet ← exploreLoop ig (ig.labelsCount + 1) ruleSet [rootLabel]
  if ← ruleSet.full then
    pure ()
  else do
    let ls ← disconnected ruleSet labelMap
    Outcome.err (.notConnected ls)

/-- indexed_grammar.rs:183-309 `build_from_grammar` (and :318-320 `build`, which drops the map). -/
def buildFromGrammar (g : Grammar T L) :
    Outcome (LRTableError T L) (IndexedGrammar T L × List (L × Nat)) :=
  match g.productions with
  | [] => Outcome.err .emptyGrammar
  | root :: rest => do
    let st ← groupLoop root.symbol 1 rest ⟨[(root.symbol, rootLabel)], [⟨root.symbol, [(root, 0)]⟩]⟩
    let (rules, vocab) ← indexGroups st.labelMap 0 st.groups Vocab.new
    let ig : IndexedGrammar T L := ⟨rules, metadata 0 st.groups, vocab⟩
    ig.verifyConnected st.labelMap
    pure (ig, st.labelMap)

/-- indexed_grammar.rs:318-320 `build`. -/
def build (g : Grammar T L) : Outcome (LRTableError T L) (IndexedGrammar T L) := do
  let (ig, _) ← buildFromGrammar g
  pure ig

end IndexedGrammar
end Verif
