import Verif.Proof.StateMap
import Verif.Proof.Simulator

/-!
# States, their predecessors and the items valid in them
-/

set_option linter.unusedSectionVars false
set_option autoImplicit false

namespace Verif
open Spec EntryBuilder Partition

section
variable {T L : Type} [DecidableEq T] [DecidableEq L] {ig : IndexedGrammar T L} {F : FirstTable}
  {kt : KernelTable} {table : LRTable}

/-- What is known about a table built from a grammar with epsilon alone in rules and without end marker. The
root may be recursive. -/
structure Fit (ig : IndexedGrammar T L) (F : FirstTable) (kt : KernelTable) (table : LRTable) : Prop where
  wf : ig.WF
  res : F.Result ig
  eps : EpsLast ig
  noEos : NoEos ig.cfg
  vocab : ig.vocab.WF
  built : Built ig F kt table

theorem Good.fit (h : Good ig F kt table) : Fit ig F kt table :=
  ⟨h.wf, h.res, h.eps, h.noEos, h.vocab, h.built⟩

namespace Fit
variable (h : Fit ig F kt table)
include h

theorem entries {γ : List INode} {s : Nat} (hs : At ig F kt γ s) : Entries ig F kt table γ s :=
  h.built.entries h.wf h.res.wf h.eps hs

theorem noConflict : NoConflict ig.cfg F.NodesFirst := h.built.noConflict h.wf h.res.wf h.eps

theorem at_of_valid {γ : List INode} {i d : Nat} (hv : Valid ig.cfg γ i d) : ∃ s, At ig F kt γ s :=
  h.built.at_of_valid h.wf h.res.wf h.eps hv

theorem at_zero {γ : List INode} (hs : At ig F kt γ 0) : γ = [] := by
  obtain ⟨k, hk, e⟩ := hs
  rw [h.built.init] at e
  cases e
  generalize hr : rootKernel ig = k at hk
  cases hk with
  | nil => rfl
  | snoc h1 h2 h3 h4 => exact absurd hr.symm (nextOf_ne_root h3 h4)

/-- The valid items depend on the state only. -/
theorem valid_transfer {γ γ' : List INode} {s : Nat} (h1 : At ig F kt γ s) (h2 : At ig F kt γ' s)
    {i d : Nat} (hv : Valid ig.cfg γ i d) : Valid ig.cfg γ' i d := by
  obtain ⟨k, hk, e⟩ := h1
  obtain ⟨k', hk', e'⟩ := h2
  rw [e] at e'
  cases e'
  obtain ⟨items, hi⟩ := itemsOf_total h.wf h.res.wf hk.reach
  obtain ⟨p, hp, rfl, rfl⟩ := (hk.closureOf h.wf h.res.wf h.eps hi).all _ _ hv
  exact (hk'.closureOf h.wf h.res.wf h.eps hi).valid p hp

/-- An edge prolongs what has been read. -/
theorem at_edge {γ : List INode} {s s' : Nat} {ty : StateType T} (hs : At ig F kt γ s)
    (he : Edge ig table s ty s') : ∃ n, Names ig ty n ∧ At ig F kt (γ ++ [n]) s' := by
  obtain ⟨k, items, n, e1, e2, e3, ⟨p, e4, e5⟩, e6⟩ := h.built.edge he
  obtain ⟨k', hk, e⟩ := hs
  rw [e1] at e
  cases e
  exact ⟨n, e3, _, .snoc hk e2 e4 e5, e6⟩

/-- Neighbours on the stack are connected by an edge. -/
theorem edge_of_at {γ : List INode} {s s' : Nat} {X : INode} (h1 : At ig F kt γ s)
    (h2 : At ig F kt (γ ++ [X]) s') : ∃ ty, Names ig ty X ∧ Edge ig table s ty s' := by
  obtain ⟨k', hk', e'⟩ := h2
  obtain ⟨k, items, p, hk, hi, hp, hc, rfl⟩ := hk'.snoc_inv
  obtain ⟨k1, hk1, e1⟩ := h1
  cases hk.det hk1
  have hlt : s < table.numStates := by rw [h.built.all]; exact (List.getElem?_eq_some_iff.mp e1).1
  obtain ⟨k', items', hrow⟩ := h.built.row s hlt
  rw [hrow.kernel] at e1
  cases e1
  have := hrow.itemsOf
  unfold ItemsOf at this hi
  rw [hi] at this
  cases this
  have hok := ((hk.reach.items h.wf h.res.wf hi).ok p hp)
  have hin := hok.cat_inRange h.wf
  rw [hc] at hin
  cases X with
  | terminal id =>
    have hid : Label.id id < ig.vocab.size := hin
    obtain ⟨o, e1, e2⟩ := h.built.getAction_eq (ε := Unit) hlt hid
    have := (hrow.shift id s' hid).mpr ⟨⟨p, hp, hc⟩, e'⟩
    rw [e1] at this
    cases this
    obtain ⟨tok, ht⟩ := Vocab.idToToken_total hid
    exact ⟨_, .terminal (ht _), .shift hlt ⟨hid, e2⟩ (ht _)⟩
  | production l =>
    have hid : l < ig.labelsCount := hin
    obtain ⟨o, e1, e2⟩ := h.built.getGoto_eq (ε := Unit) hlt hid
    have := (hrow.goto l s' hid).mpr ⟨⟨p, hp, hc⟩, e'⟩
    rw [e1] at this
    cases this
    exact ⟨_, .production, .goto hlt ⟨hid, e2⟩⟩

/-- States in which `d` symbols of rule `i` have been read. -/
def _root_.Verif.Inside (ig : IndexedGrammar T L) (F : FirstTable) (kt : KernelTable) (i d s : Nat) : Prop :=
  ∃ γ, At ig F kt γ s ∧ Valid ig.cfg γ i d

omit h in
theorem _root_.Verif.Inside.valid (h : Fit ig F kt table) {i d s : Nat} (hi : Inside ig F kt i d s)
    {γ : List INode} (hs : At ig F kt γ s) : Valid ig.cfg γ i d := by
  obtain ⟨γ', h1, h2⟩ := hi
  exact h.valid_transfer h1 hs h2

/-- The symbol read last is the one before the dot. -/
theorem names_of_inside {i d s : Nat} {r : Rule Nat Nat} {ty : StateType T} {p : Nat}
    (hr : ig.cfg[i]? = some r) (hi : Inside ig F kt i (d + 1) s) (he : Edge ig table p ty s) :
    ∃ X, (rhs r)[d]? = some X ∧ Names ig ty X ∧ Inside ig F kt i d p := by
  have hp := (h.built.edge_lt he).1
  obtain ⟨γ, hγ⟩ := h.built.exists_at hp
  obtain ⟨n, hn, hat⟩ := h.at_edge hγ he
  have hv := hi.valid h hat
  obtain ⟨r', β, h1, h2, h3⟩ := hv.move_inv
  rw [hr] at h2
  cases h2
  refine ⟨n, ?_, hn, γ, hγ, h1⟩
  have := List.getElem?_drop (xs := rhs r) (i := d) (j := 0)
  rw [h3] at this
  simpa using this.symm

theorem inside_ne_zero {i d s : Nat} (hi : Inside ig F kt i (d + 1) s) : s ≠ 0 := by
  rintro rfl
  obtain ⟨γ, h1, h2⟩ := hi
  rw [h.at_zero h1] at h2
  generalize hg : ([] : List INode) = γ' at h2
  generalize hd : d + 1 = d' at h2
  cases h2 with
  | root => cases hd
  | close _ _ _ _ => cases hd
  | move _ _ _ => simp at hg

theorem inside_lt {i d s : Nat} (hi : Inside ig F kt i d s) : s < table.numStates := by
  obtain ⟨γ, h1, -⟩ := hi
  exact (h.entries h1).lt

/-- Where a rule begins there is a goto for its label. -/
theorem goto_of_inside {ε : Type} {i s : Nat} {r : Rule Nat Nat} (hr : ig.cfg[i]? = some r) (hi0 : i ≠ 0)
    (hi : Inside ig F kt i 0 s) :
    ∃ s', (table.getGoto s r.symbol : Outcome ε _) = .ok (some s') ∧
      ∀ γ, At ig F kt γ s → At ig F kt (γ ++ [.production r.symbol]) s' := by
  obtain ⟨q, hq, rfl⟩ := cfg_get.mp hr
  have hl : q.rule.symbol < ig.labelsCount := h.wf.symbol q (List.mem_of_getElem? hq)
  have key : ∀ γ, At ig F kt γ s → ∃ s', (table.getGoto s q.rule.symbol : Outcome ε _) = .ok (some s') ∧
      At ig F kt (γ ++ [.production q.rule.symbol]) s' := by
    intro γ hγ
    obtain ⟨j, d, r', β, h6, h7, h8⟩ := (hi.valid h hγ).goto hr hi0
    obtain ⟨s2, hat2⟩ := h.at_of_valid (.move h6 h7 h8)
    exact ⟨s2, ((h.entries hγ).goto ε _ s2 hl).mpr ⟨⟨j, d, r', β, h6, h7, h8⟩, hat2⟩, hat2⟩
  obtain ⟨γ, hγ, -⟩ := id hi
  obtain ⟨s', e, -⟩ := key γ hγ
  refine ⟨s', e, fun γ' hγ' => ?_⟩
  obtain ⟨s2, e2, h2⟩ := key γ' hγ'
  rw [e] at e2
  cases e2
  exact h2

end Fit
end
end Verif
