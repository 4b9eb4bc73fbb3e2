import Verif.Props.Table
import Verif.Proof.StateMap

/-!
# C16: the state map always resolves
-/

set_option linter.unusedSectionVars false
set_option autoImplicit false

namespace Verif
variable {T L : Type} [DecidableEq T] [DecidableEq L]

namespace C16

/-- The table goes from state `p` to state `s` when it shifts a token (`get_action`) or after reducing to a
label (`get_goto`). -/
inductive Goes (ig : IndexedGrammar T L) (t : LRTable) (p s : Nat) : StateType T → Prop
  | shift (id : AugTokId) (tok : AugTok T) : p < t.numStates → Label.id id < ig.vocab.size →
      (t.getAction p id : Outcome Unit _) = .ok (some (.shift s)) →
      (ig.vocab.idToToken id : Outcome Unit _) = .ok tok → Goes ig t p s (.terminal tok)
  | goto (l : Nat) : p < t.numStates → l < ig.labelsCount →
      (t.getGoto p l : Outcome Unit _) = .ok (some s) → Goes ig t p s (.reduce l)

theorem goes_iff {ig : IndexedGrammar T L} {t : LRTable} {p s : Nat} {ty : StateType T} :
    Goes ig t p s ty ↔ Edge ig t p ty s := by
  constructor
  · rintro (⟨id, tok, h1, h2, h3, h4⟩ | ⟨l, h1, h2, h3⟩)
    · exact .shift h1 ⟨h2, h3⟩ h4
    · exact .goto h1 ⟨h2, h3⟩
  · rintro (⟨h1, h2, h3⟩ | ⟨h1, h2⟩)
    · exact .shift _ _ h1 h2.1 h2.2 h3
    · exact .goto _ h1 h2.1 h2.2

/-- **C16.** For every table that can be built and every order in which the hash maps are iterated,
`build_from_lr_table` succeeds and covers all the states. The root state has type `root`, lists itself only
and is never entered. Every other state is entered from somewhere, all transitions into it carry the same
symbol, which is its type, and `back_edges` lists exactly the states with such a transition, once each. -/
theorem state_map_resolves (g : Grammar T L) (ig : IndexedGrammar T L) (t : LRTable) (fuel : Nat)
    (o : HashOrder) (hg : IndexedGrammar.build g = .ok ig) (ht : LRTable.build fuel ig = .ok t) :
    ∃ m, StateMap.build o ig t = .ok m ∧ m.stateMap.length = t.numStates ∧
      ∀ s < t.numStates, ∃ ty ps, (m.stateType s : Outcome Unit _) = .ok ty ∧
        (m.backEdges s : Outcome Unit _) = .ok ps ∧ ps.Nodup ∧
        (s = 0 → ty = .root ∧ ps = [0] ∧ ∀ p ty', ¬ Goes ig t p 0 ty') ∧
        (s ≠ 0 → ps ≠ [] ∧ (∀ p, p ∈ ps ↔ ∃ ty', Goes ig t p s ty') ∧
          ∀ p ty', Goes ig t p s ty' → ty' = ty) := by
  have henc := (IndexedGrammar.build_ok hg).1
  obtain ⟨kt, hkt⟩ := build_eq.mp ht
  obtain ⟨F, -, hres, hB⟩ := built_of_ok henc.wf hkt
  obtain ⟨m, e, hlen, hrow⟩ := hB.stateMap o henc.wf hres.wf
  refine ⟨m, e, hlen, fun s hs => ?_⟩
  obtain ⟨⟨ty, ps, h1, h2, h3, h4, h5⟩⟩ := hrow s hs
  refine ⟨ty, ps, h1 _, h2 _, h3, fun h0 => ⟨(h4 h0).1, (h4 h0).2, fun p ty' hx => ?_⟩, fun h0 => ?_⟩
  · exact absurd (hB.edge_lt (goes_iff.mp hx)).2.1 (by omega)
  · simp only [goes_iff]
    exact h5 h0

/-- The types do not depend on the order; the lists of predecessors are rearranged only. -/
theorem state_map_order_irrelevant (g : Grammar T L) (ig : IndexedGrammar T L) (t : LRTable) (fuel : Nat)
    (o o' : HashOrder) (hg : IndexedGrammar.build g = .ok ig) (ht : LRTable.build fuel ig = .ok t)
    (m m' : StateMap T) (hm : StateMap.build o ig t = .ok m) (hm' : StateMap.build o' ig t = .ok m')
    (s : Nat) (hs : s < t.numStates) :
    (m.stateType s : Outcome Unit _) = m'.stateType s ∧
    ∃ ps ps', (m.backEdges s : Outcome Unit _) = .ok ps ∧ (m'.backEdges s : Outcome Unit _) = .ok ps' ∧
      ps.Perm ps' := by
  obtain ⟨x, e, -, h⟩ := state_map_resolves g ig t fuel o hg ht
  rw [hm] at e; cases e
  obtain ⟨x', e, -, h'⟩ := state_map_resolves g ig t fuel o' hg ht
  rw [hm'] at e; cases e
  obtain ⟨ty, ps, h1, h2, h3, h4, h5⟩ := h s hs
  obtain ⟨ty', ps', h1', h2', h3', h4', h5'⟩ := h' s hs
  rw [h1, h1']
  by_cases h0 : s = 0
  · obtain ⟨rfl, rfl, -⟩ := h4 h0
    obtain ⟨rfl, rfl, -⟩ := h4' h0
    exact ⟨rfl, _, _, h2, h2', .refl _⟩
  · obtain ⟨hne, hm, hu⟩ := h5 h0
    obtain ⟨-, hm', hu'⟩ := h5' h0
    obtain ⟨p, hp⟩ := List.exists_mem_of_ne_nil _ hne
    obtain ⟨ty'', hg'⟩ := (hm p).mp hp
    refine ⟨by rw [← hu _ _ hg', ← hu' _ _ hg'], _, _, h2, h2', ?_⟩
    rw [List.perm_ext_iff_of_nodup h3 h3']
    intro p
    rw [hm, hm']

/-- The map of the sample grammar: state types and predecessors (state 2 is entered from
states 0 and 2). -/
theorem sampleLR_map : ((do
    let ig ← IndexedGrammar.build sampleLR
    let t ← LRTable.build 20 ig
    let m ← StateMap.build .id ig t
    pure (m.stateMap.map fun i => (i.returnType, i.prevStates))) :
      Outcome (LRTableError Nat Nat) _) = .ok
    [(.root, [0]), (.reduce 1, [0]), (.terminal (.token 7), [0, 2]), (.reduce 2, [1]),
      (.terminal (.token 9), [1]), (.reduce 1, [2]), (.terminal (.token 8), [4])] := by decide +kernel

end C16
end Verif
