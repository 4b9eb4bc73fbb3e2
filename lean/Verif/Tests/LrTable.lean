import Verif.Model.GrammarText
import Verif.Model.Simulator
import Verif.Model.StateMap

/-!
# The unit tests of `lr_table`, run on the model

These examples are not proofs of properties: they are the assertions that the developers wrote in the
`tests` modules of `/repo/lr_table/src`, transcribed and evaluated on the model. They check that the model
gives the results that the code is known to give.
-/

set_option autoImplicit false

namespace Verif.Tests
open GrammarText

/-- `unwrap` in a test; a failed test is `none`. -/
def get {ε α : Type} : Outcome ε α → Option α
  | .ok a => some a
  | _ => none

/-- `Grammar::from_grammar_str(..).unwrap()` then `IndexedGrammar::build_with_label_map(..).unwrap()`. -/
def indexed (text : String) : Option (IndexedGrammar Nat String × List (String × Nat)) := do
  let g ← get (fromGrammarStr text)
  get (IndexedGrammar.buildFromGrammar g)

/-- The byte of a character, as in `b'a'`. -/
def byte (c : Char) : AugTok Nat := .token c.toNat

/-- `VocabSet::from_iter(tokens, indexed.vocab())` (vocabulary.rs:219-232). -/
def setOf (v : Vocab Nat) (tokens : List (AugTok Nat)) : Option VocabSet :=
  tokens.foldlM (fun s t => do
    let id ← v.augTokenToId t
    get (ε := Unit) (s.insert id)) (VocabSet.new v.size)

/-! ## bit_set.rs -/

/-- `for i in 0..SIZE { expect_false!(bits.full()); bits.set(f(i)); } expect_true!(bits.full());` -/
def fill (size : Nat) (f : Nat → Nat) : Option Bool := do
  let (b, ok) ← (List.range size).foldlM (fun (b, ok) i => do
    let full ← get (ε := Unit) (BitSet.full b)
    let b ← get (ε := Unit) (b.set (f i))
    pure (b, ok && !full)) (BitSet.new size, true)
  let full ← get (ε := Unit) (BitSet.full b)
  pure (ok && full)

-- bit_set.rs `test_full_odd_size_*`
example : fill 147 (fun i => i) = some true := by decide +kernel
example : fill 147 (fun i => 147 - i - 1) = some true := by decide +kernel
example : fill 147 (fun i => (i + 17) % 147) = some true := by decide +kernel
-- bit_set.rs `test_full_even_size_*`
example : fill 128 (fun i => i) = some true := by decide +kernel
example : fill 128 (fun i => 128 - i - 1) = some true := by decide +kernel
example : fill 128 (fun i => (i + 17) % 128) = some true := by decide +kernel

/-! ## fixed_map.rs -/

/-- `for (k, v) in entries { expect_eq!(*sparse.get_mut_or_insert_with(&k, || v), v) }`, then `iter`. -/
def sparse (entries : List (Nat × Nat)) : Option (List (Nat × Nat)) := do
  let m ← entries.foldlM (fun (m : SparseMap Nat Nat) (e : Nat × Nat) => do
    let (m, _) ← get (ε := Unit) (m.modifyOrInsert e.1 e.2 id)
    if get (ε := Unit) (m.get e.1) = some (some e.2) then some m else none) (SparseMap.new 10)
  pure m.iter

-- fixed_map.rs `test_sparse_*`
example : sparse [] = some [] := by decide +kernel
example : sparse [(5, 1000)] = some [(5, 1000)] := by decide +kernel
example : sparse ((List.range 10).map fun i => (i, 1000 + i)) =
    some ((List.range 10).map fun i => (i, 1000 + i)) := by decide +kernel

/-! ## vocabulary.rs -/

/-- Inserts the tokens in turn; the identifiers that were returned and the vocabulary. -/
def vocabOf (tokens : List (AugTok Nat)) : List AugTokId × Vocab Nat :=
  tokens.foldl (fun (ids, v) t => let (v, id) := v.getIdOrInsert t; (ids ++ [id], v)) ([], Vocab.new)

/-- The assertions made on a vocabulary in every test. -/
def vocabOk (tokens : List (AugTok Nat)) (size : Nat) (ids : List AugTokId) : Bool :=
  let (ids', v) := vocabOf tokens
  ids' == ids && v.size == size &&
  v.augTokenToId .epsilon == some .epsilon && v.augTokenToId .eos == some .eos &&
  get (ε := Unit) (v.idToToken .epsilon) == some .epsilon && get (ε := Unit) (v.idToToken .eos) == some .eos &&
  (tokens.zip ids).all (fun (t, id) =>
    v.augTokenToId t == some id && get (ε := Unit) (v.idToToken id) == some t) &&
  (v.forEachId.map Label.id == List.range size) &&
  (v.forEachId.map Label.id).map AugTok.ofId == v.forEachId

-- vocabulary.rs `test_empty_vocab`, `test_single_token_vocab`, `test_three_token_vocab`,
-- `test_label_id_roundtrip`, `test_insert_id_twice`, `test_insert_epsilon_and_eof`
example : vocabOk [] 2 [] = true := by decide +kernel
example : vocabOk [byte 'a'] 3 [.token 0] = true := by decide +kernel
example : vocabOk [byte 'a', byte 'b', byte 'c'] 5 [.token 0, .token 1, .token 2] = true := by decide +kernel
example : vocabOk [byte 'a', byte 'b', byte 'c', byte 'd', byte 'e'] 7
    [.token 0, .token 1, .token 2, .token 3, .token 4] = true := by decide +kernel
example : vocabOk [byte 'a', byte 'b', byte 'b', byte 'a'] 4
    [.token 0, .token 1, .token 1, .token 0] = true := by decide +kernel
example : vocabOk [.epsilon, .eos, byte 'a'] 3 [.epsilon, .eos, .token 0] = true := by decide +kernel

/-! ## grammar.rs -/

-- grammar.rs `test_parse_from_str`
example : get (fromGrammarStr "A -> B
         B -> c") =
    some ⟨[⟨"A", [.production "B"]⟩, ⟨"B", [.terminal (.token 99)]⟩]⟩ := by decide +kernel

/-! ## indexed_grammar.rs -/

/-- The rules of a label, by its name, and the name that the grammar keeps for it. -/
def rulesOf (text label : String) : Option (Nat × String × List IRule) := do
  let (ig, labels) ← indexed text
  let l ← labels.lookup label
  let rules ← get (ε := Unit) (ig.rulesForLabel l)
  let orig ← get (ε := Unit) (ig.origLabel l)
  pure (ig.labelsCount, orig, rules)

/-- `IndexedGrammar::build(..).err()`. -/
def buildErr (text : String) : Option (LRTableError Nat String) := do
  let g ← get (fromGrammarStr text)
  match IndexedGrammar.build g with
  | .err e => some e
  | _ => none

-- indexed_grammar.rs `test_one_rule`
example : rulesOf "A -> a" "A" = some (1, "A", [⟨⟨0, [.terminal (.token 0)]⟩, 0⟩]) := by decide +kernel

-- indexed_grammar.rs `test_root_production_duplicated`
example : buildErr "A -> a
         A -> b" = some .rootProductionRepeated := by decide +kernel

-- indexed_grammar.rs `test_root_production_referenced`
example : buildErr "A -> B
         B -> C
         C -> A" = some .rootProductionReferenced := by decide +kernel

-- indexed_grammar.rs `test_grammar_not_connected`: the message names D and E
example : buildErr "A -> B
         B -> C
         C -> c
         D -> E
         D -> !
         E -> c D" = some (.notConnected ["D", "E"]) := by decide +kernel

-- indexed_grammar.rs `test_two_rules`
example : rulesOf "S -> A
         A -> a
         A -> b" "A" =
    some (2, "A", [⟨⟨1, [.terminal (.token 0)]⟩, 1⟩, ⟨⟨1, [.terminal (.token 1)]⟩, 2⟩]) := by decide +kernel

-- indexed_grammar.rs `test_vocab_set_single_token`
example : (indexed "A -> a").map (fun p => p.1.vocab.size) = some 3 := by decide +kernel

/-! ## first_map.rs -/

/-- `first_table.first_set(label)` is the given set. -/
def firstIs (text : String) (expected : List (String × List (AugTok Nat))) : Option Bool := do
  let (ig, labels) ← indexed text
  let table ← get (ε := Unit) (FirstTable.build ig)
  expected.foldlM (fun ok (label, tokens) => do
    let l ← labels.lookup label
    let s ← get (ε := Unit) (table.firstSet l)
    let e ← setOf ig.vocab tokens
    pure (ok && s == e)) true

-- first_map.rs `test_one_rule_grammar`
example : firstIs "A -> a" [("A", [byte 'a'])] = some true := by decide +kernel

-- first_map.rs `test_sequence_of_rules_grammar`
example : firstIs "A -> B
         B -> C
         C -> a" [("A", [byte 'a']), ("B", [byte 'a']), ("C", [byte 'a'])] = some true := by decide +kernel

-- first_map.rs `test_tree_of_rules_grammar`
example : firstIs "A -> B
         B -> C
         B -> D
         C -> a
         D -> b"
    [("A", [byte 'a', byte 'b']), ("B", [byte 'a', byte 'b']), ("C", [byte 'a']), ("D", [byte 'b'])] =
    some true := by decide +kernel

-- first_map.rs `test_skip_one_epsilon`
example : firstIs "A -> B a
         B -> !
         B -> b" [("A", [byte 'a', byte 'b']), ("B", [byte 'b', .epsilon])] = some true := by decide +kernel

-- first_map.rs `test_epsilon_propagate`
example : firstIs "A -> B
         B -> !
         B -> a" [("A", [byte 'a', .epsilon]), ("B", [byte 'a', .epsilon])] = some true := by decide +kernel

-- first_map.rs `test_recursive_rules`
example : firstIs "S -> A
         A -> a
         A -> B b
         B -> c
         B -> !
         B -> A"
    [("A", [byte 'a', byte 'b', byte 'c']), ("B", [byte 'a', byte 'b', byte 'c', .epsilon])] =
    some true := by decide +kernel

/-! ## closure.rs -/

/-- `closure_follow_sets` of the kernel with the one position `pos` of the first rule of `label`, followed by
the end of the input, gives the labels and sets that are expected (in some order). -/
def closureIs (text label : String) (pos : Nat) (expected : List (String × List (AugTok Nat))) :
    Option Bool := do
  let (ig, labels) ← indexed text
  let l ← labels.lookup label
  let ids ← get (ε := Unit) (ig.ruleIdsForLabel l)
  let rule ← ids.head?
  let follow ← setOf ig.vocab [.eos]
  let table ← get (ε := Unit) (FirstTable.build ig)
  let map ← get (ε := Unit) (Closure.followSets (Kernel.new [⟨rule, pos, follow⟩]) ig table)
  let expected ← expected.mapM (fun (label, tokens) => do
    let l ← labels.lookup label
    let s ← setOf ig.vocab tokens
    pure (l, s))
  pure (map.iter.length == expected.length && expected.all (map.iter.contains ·))

-- closure.rs `test_no_closure`
example : closureIs "S -> A
         A -> b" "A" 0 [] = some true := by decide +kernel

-- closure.rs `test_closure_at_end`, `test_closure_at_start`
example : closureIs "A -> B
         B -> a" "A" 1 [] = some true := by decide +kernel
example : closureIs "A -> B
         B -> a" "A" 0 [("B", [.eos])] = some true := by decide +kernel

-- closure.rs `test_nonzero_pos_closure`
example : closureIs "A -> a B
         B -> a" "A" 1 [("B", [.eos])] = some true := by decide +kernel

-- closure.rs `test_circular_closure`
example : closureIs "S -> A
         A -> a B
         B -> A" "A" 1 [("A", [.eos]), ("B", [.eos])] = some true := by decide +kernel

-- closure.rs `test_long_closure`
example : closureIs "A -> a B
         B -> C
         C -> D
         D -> a" "A" 1 [("B", [.eos]), ("C", [.eos]), ("D", [.eos])] = some true := by decide +kernel

-- closure.rs `test_closure_multiple_rules`
example : closureIs "A -> B
         B -> a
         B -> b" "A" 0 [("B", [.eos])] = some true := by decide +kernel

-- closure.rs `test_closure_skip_all_rules`
example : closureIs "A -> B C D
         B -> b
         B -> !
         C -> c
         C -> !
         D -> d
         D -> !" "A" 0 [("B", [byte 'c', byte 'd', .eos])] = some true := by decide +kernel

-- closure.rs `test_closure_follow_set_before_terminal`
example : closureIs "A -> B c
         B -> a" "A" 0 [("B", [byte 'c'])] = some true := by decide +kernel

-- closure.rs `test_closure_follow_set_before_production_label`
example : closureIs "A -> B C d
         B -> b
         C -> c" "A" 0 [("B", [byte 'c'])] = some true := by decide +kernel

-- closure.rs `test_closure_follow_set_before_production_label_with_epsilon`
example : closureIs "A -> B C d
         B -> b
         C -> c
         C -> !" "A" 0 [("B", [byte 'c', byte 'd'])] = some true := by decide +kernel

-- closure.rs `test_closure_follow_set_epsilon_until_end`
example : closureIs "A -> B C D
         B -> b
         C -> c
         C -> !
         D -> d
         D -> !" "A" 0 [("B", [byte 'c', byte 'd', .eos])] = some true := by decide +kernel

-- closure.rs `test_closure_follow_set_sum_product_grammar`
example : closureIs "A -> S
         S -> S p V
         S -> P
         P -> P x V
         P -> V
         V -> a
         V -> b
         V -> c" "A" 0
    [("S", [byte 'p', .eos]), ("P", [byte 'p', byte 'x', .eos]), ("V", [byte 'p', byte 'x', .eos])] =
    some true := by decide +kernel

/-- What `test_closure_partition_*` expect: for each next node, the rule (of a label, counted from 0) and the
position in it. -/
inductive Next where
  | stop
  | label (name : String)
  | token (c : Char)

/-- `partition_closure_by_next_node` of the kernel with the one position `pos` of the first rule of `label`,
followed by the end of the input, gives the groups that are expected (in some order). -/
def partitionIs (text label : String) (pos : Nat) (expected : List (Next × String × Nat × Nat)) :
    Option Bool := do
  let (ig, labels) ← indexed text
  let ruleOf (name : String) (n : Nat) : Option Nat := do
    let l ← labels.lookup name
    let ids ← get (ε := Unit) (ig.ruleIdsForLabel l)
    ids[n]?
  let rule ← ruleOf label 0
  let follow ← setOf ig.vocab [.eos]
  let table ← get (ε := Unit) (FirstTable.build ig)
  let groups ← get (ε := Unit) (Partition.partitionClosure (Kernel.new [⟨rule, pos, follow⟩]) ig table)
  let found := groups.map fun (c, ps) => (c, ps.map Position.key)
  let expected ← expected.mapM (fun (next, name, n, pos) => do
    let rule ← ruleOf name n
    match next with
    | .stop => pure ((none : Category), [(rule, pos)])
    | .label name => do
      let l ← labels.lookup name
      pure (some (.production l), [(rule, pos)])
    | .token c => do
      let id ← ig.vocab.tokenToId c.toNat
      pure (some (.terminal (.token id)), [(rule, pos)]))
  pure (found.length == expected.length && expected.all (found.contains ·))

-- closure.rs `test_closure_partition_simple`
example : partitionIs "A -> B
         B -> a C
         C -> b
         C -> c" "B" 1
    [(.label "C", "B", 0, 1), (.token 'b', "C", 0, 0), (.token 'c', "C", 1, 0)] = some true := by decide +kernel

-- closure.rs `test_closure_partition_end_of_rule`
example : partitionIs "A -> B
         B -> a" "B" 1 [(.stop, "B", 0, 1)] = some true := by decide +kernel

-- closure.rs `test_closure_partition_skip_all_rules`
example : partitionIs "A -> B C D
         B -> b
         B -> !
         C -> c
         C -> !
         D -> d
         D -> !" "A" 0
    [(.stop, "B", 1, 0), (.label "B", "A", 0, 0), (.token 'b', "B", 0, 0)] = some true := by decide +kernel

/-! ## lr_state_map.rs -/

/-- The types of the states of the table of a grammar. -/
def stateTypes (text : String) : Option (List (StateType Nat)) := do
  let (ig, _) ← indexed text
  let table ← get (LRTable.build 100 ig)
  let map ← get (StateMap.build .id ig table)
  table.states.mapM fun s => get (ε := Unit) (map.stateType s)

-- lr_state_map.rs `test_trivial`, `test_single_rule`, `test_two_rules`
example : ((stateTypes "A -> a").bind (·[0]?)) = some .root := by decide +kernel
example : ((stateTypes "A -> a b").map (·.take 2)) = some [.root, .terminal (byte 'a')] := by decide +kernel
example : ((stateTypes "A -> B
         B -> a").map (·.take 2)) = some [.root, .reduce 1] := by decide +kernel

/-! ## parse_simulator.rs -/

/-- The parser of the grammar accepts all texts of the first list and none of the second. -/
def simulates (text : String) (yes no : List String) : Option Bool := do
  let g ← get (fromGrammarStr text)
  let p ← get (SimParser.new 100 g)
  let parse (s : String) : Option Bool := get (ε := Unit) (p.parseStream 200 (s.toList.map Char.toNat))
  let a ← yes.mapM parse
  let b ← no.mapM parse
  pure (a.all (· == true) && b.all (· == false))

-- parse_simulator.rs `test_trivial`
example : simulates "S -> a" ["a"] ["", "aa", "b", "ba"] = some true := by decide +kernel

-- parse_simulator.rs `test_nested_trivial`
example : simulates "S -> A
         A -> a" ["a"] ["", "aa", "b", "ba"] = some true := by decide +kernel

-- parse_simulator.rs `test_a_or_b`
example : simulates "S -> A
         A -> a
         A -> b" ["a", "b"] ["", "aa", "ba"] = some true := by decide +kernel

-- parse_simulator.rs `test_even`
example : simulates "S -> A
         A -> A a a
         A -> !" ["", "aa", "aaaa"] ["a", "aaa", "aaaaa"] = some true := by decide +kernel

-- parse_simulator.rs `test_equal_a_and_b`
example : simulates "S -> A
         A -> a A b
         A -> !" ["", "ab", "aabb", "aaabbb"] ["ba", "a", "b", "bab", "aba", "abab", "baba"] = some true := by
  decide +kernel

-- parse_simulator.rs `test_sum_product`
example : simulates "T -> S
         S -> S p P
         S -> P
         P -> P x V
         P -> V
         V -> a
         V -> b
         V -> c"
    ["a", "apb", "cxa", "apbxc", "apbpcpapbpc", "axbxcxaxbxc", "axbpcxaxbpc"]
    ["", "ap", "pb", "cx", "xa", "ab", "apbx", "xapb"] = some true := by decide +kernel

-- parse_simulator.rs `test_multiple_ways_to_resolve_same_rule`
example : simulates "S -> A
         A -> a C
         A -> B
         B -> C
         B -> x b
         C -> x c" ["axc", "xb", "xc"] ["", "axb", "a", "b", "c", "ax", "ab", "ac"] = some true := by
  decide +kernel

end Verif.Tests
