import Verif.Proof.Pops

/-!
# Variables bound by the generated code are the children of the rule
-/

set_option linter.unusedSectionVars false
set_option autoImplicit false

namespace Verif
open Spec

section
variable {P V E σ : Type} [DecidableEq P] {ig : IndexedGrammar Sym String}

theorem argsR_append {l1 l2 : List (Nat × INode)} {v1 v2 : List (Val P V)}
    (h : v1.length = (l1.filter fun p => !p.2.isEpsilon).length) :
    argsR ig (l1 ++ l2) (v1 ++ v2) = argsR ig l1 v1 ++ argsR ig l2 v2 := by
  induction l1 generalizing v1 with
  | nil =>
    rw [List.filter_nil, List.length_nil, List.length_eq_zero_iff] at h
    subst h
    simp [argsR]
  | cons p l1 ih =>
    obtain ⟨k, n⟩ := p
    cases hn : n.isEpsilon with
    | true =>
      rw [List.filter_cons_of_neg (by simp [hn])] at h
      have e : ∀ (l : List (Nat × INode)) (vs : List (Val P V)),
          argsR ig ((k, n) :: l) vs = argsR ig l vs := by
        intro l vs; rw [argsR.eq_def]; simp only [hn, if_true]
      rw [List.cons_append, e, e, ih h]
    | false =>
      rw [List.filter_cons_of_pos (by simp [hn])] at h
      cases v1 with
      | nil => simp at h
      | cons v v1 =>
        simp only [List.cons_append, argsR, hn, Bool.false_eq_true, if_false]
        rw [ih (by simpa using h)]

/-- The nodes of a rule with their positions from `k` on. -/
def numbered (k : Nat) (nodes : List INode) : List (Nat × INode) :=
  (nodes.zipIdx k).map fun (n, i) => (i, n)

theorem numbered_cons (k : Nat) (n : INode) (nodes : List INode) :
    numbered k (n :: nodes) = (k, n) :: numbered (k + 1) nodes := by
  simp [numbered]

theorem indexedNodesRev_eq (nodes : List INode) : indexedNodesRev nodes = (numbered 0 nodes).reverse := rfl

theorem numbered_snd (k : Nat) (nodes : List INode) : (numbered k nodes).map Prod.snd = nodes := by
  induction nodes generalizing k with
  | nil => rfl
  | cons n nodes ih => rw [numbered_cons, List.map_cons, ih]

theorem strip_length (nodes : List INode) (k : Nat) :
    (strip nodes).length = ((numbered k nodes).filter fun p => !p.2.isEpsilon).length := by
  induction nodes generalizing k with
  | nil => rfl
  | cons n nodes ih =>
    rw [numbered_cons]
    cases hn : n.isEpsilon with
    | true =>
      rw [List.filter_cons_of_neg (by simp [hn]), ← ih]
      rw [isEpsilon_iff] at hn
      subst hn
      rfl
    | false =>
      rw [List.filter_cons_of_pos (by simp [hn]), List.length_cons, ← ih]
      have : strip (n :: nodes) = strip [n] ++ strip nodes := strip_append [n] nodes
      rw [this, strip_single hn]
      simp

theorem symbolsRev_indexed (nodes : List INode) : symbolsRev (indexedNodesRev nodes) = strip nodes := by
  unfold symbolsRev
  rw [indexedNodesRev_eq, List.map_reverse, List.reverse_reverse, numbered_snd]

theorem seenI_eq {n : ANode} {m : INode} (h : EncNode ig.labels ig.vocab.idMap n.toLrNode m) (v : Val P V) :
    seenI ig m v = seen n v := by
  cases n with
  | production l =>
    cases m with
    | terminal t => exact h.elim
    | production j => rfl
  | symbol s =>
    cases m with
    | production j => exact h.elim
    | terminal t =>
      cases t with
      | token k =>
        have : ig.vocab.idMap[k]? = some s := h
        simp [seenI, this]
      | epsilon => exact h.elim
      | eos => exact h.elim
  | epsilon =>
    cases m with
    | production j => exact h.elim
    | terminal t =>
      cases t with
      | token k => exact h.elim
      | epsilon => rfl
      | eos => exact h.elim

theorem isEpsilon_enc {n : ANode} {m : INode} (h : EncNode ig.labels ig.vocab.idMap n.toLrNode m) :
    m.isEpsilon = n.isEpsilon := by
  cases n with
  | production l => cases m with
    | terminal t => exact h.elim
    | production j => rfl
  | symbol s =>
    cases m with
    | production j => exact h.elim
    | terminal t => cases t with
      | token k => rfl
      | epsilon => exact h.elim
      | eos => exact h.elim
  | epsilon =>
    cases m with
    | production j => exact h.elim
    | terminal t => cases t with
      | token k => exact h.elim
      | epsilon => rfl
      | eos => exact h.elim

theorem args_eps (k : Nat) (ns : List ANode) (vs : List (Val P V)) :
    args k (.epsilon :: ns) vs = args (k + 1) ns vs := by
  cases vs <;> rfl

theorem args_cons {n : ANode} (h : n.isEpsilon = false) (k : Nat) (ns : List ANode) (v : Val P V)
    (vs : List (Val P V)) : args k (n :: ns) (v :: vs) = (k, seen n v) :: args (k + 1) ns vs := by
  cases n with
  | production _ => rfl
  | symbol _ => rfl
  | epsilon => cases h

/-- The variables are the children, in reverse. -/
theorem argsR_eq {ns : List ANode} {nodes : List INode}
    (h : List.Forall₂ (EncNode ig.labels ig.vocab.idMap) (ns.map ANode.toLrNode) nodes) (k : Nat)
    {vs : List (Val P V)} (hl : vs.length = (strip nodes).length) :
    argsR ig (numbered k nodes).reverse vs.reverse = (args k ns vs).reverse := by
  induction ns generalizing nodes k vs with
  | nil =>
    cases h
    cases vs with
    | nil => rfl
    | cons v vs => cases hl
  | cons n ns ih =>
    cases h with
    | @cons _ m _ nodes h1 h2 =>
      rw [numbered_cons, List.reverse_cons]
      cases hn : n.isEpsilon with
      | true =>
        have hm := isEpsilon_enc h1
        rw [hn] at hm
        cases n with
        | production _ => cases hn
        | symbol _ => cases hn
        | epsilon =>
          rw [args_eps]
          have hm' := isEpsilon_iff.mp hm
          subst hm'
          rw [strip_eps] at hl
          have hlen : vs.reverse.length = ((numbered (k + 1) nodes).reverse.filter
              fun p => !p.2.isEpsilon).length := by
            rw [List.length_reverse, hl, strip_length nodes (k + 1), List.filter_reverse, List.length_reverse]
          have := argsR_append (ig := ig) (l2 := [(k, .terminal .epsilon)]) (v2 := []) hlen
          rw [List.append_nil] at this
          rw [this, ih h2 (k + 1) hl]
          simp [argsR, hm]
      | false =>
        have hm := isEpsilon_enc h1
        rw [hn] at hm
        have hs : strip (m :: nodes) = m :: strip nodes := by
          have : strip (m :: nodes) = strip [m] ++ strip nodes := strip_append [m] nodes
          rw [this, strip_single hm]; rfl
        rw [hs] at hl
        cases vs with
        | nil => cases hl
        | cons v vs =>
          have hl' : vs.length = (strip nodes).length := by simpa using hl
          rw [args_cons hn, List.reverse_cons, List.reverse_cons]
          have hlen : vs.reverse.length = ((numbered (k + 1) nodes).reverse.filter
              fun p => !p.2.isEpsilon).length := by
            rw [List.length_reverse, hl', strip_length nodes (k + 1), List.filter_reverse, List.length_reverse]
          rw [argsR_append hlen, ih h2 (k + 1) hl']
          simp [argsR, hm, seenI_eq h1]

theorem args_keys {k : Nat} {ns : List ANode} {vs : List (Val P V)} :
    ((args k ns vs).map Prod.fst).Nodup ∧ ∀ p ∈ args k ns vs, k ≤ p.1 := by
  induction ns generalizing k vs with
  | nil => cases vs <;> simp [args]
  | cons n ns ih =>
    cases hn : n.isEpsilon with
    | true =>
      cases n with
      | production _ => cases hn
      | symbol _ => cases hn
      | epsilon =>
        rw [args_eps]
        obtain ⟨h1, h2⟩ := ih (k := k + 1) (vs := vs)
        exact ⟨h1, fun p hp => by have := h2 p hp; omega⟩
    | false =>
      cases vs with
      | nil =>
        cases n with
        | epsilon => cases hn
        | production _ => exact ⟨List.nodup_nil, fun p hp => by cases hp⟩
        | symbol _ => exact ⟨List.nodup_nil, fun p hp => by cases hp⟩
      | cons v vs =>
        rw [args_cons hn]
        obtain ⟨h1, h2⟩ := ih (k := k + 1) (vs := vs)
        refine ⟨?_, ?_⟩
        · rw [List.map_cons, List.nodup_cons]
          refine ⟨fun hm => ?_, h1⟩
          rw [List.mem_map] at hm
          obtain ⟨p, hp, e⟩ := hm
          have := h2 p hp
          simp only at e
          omega
        · intro p hp
          rcases List.mem_cons.mp hp with rfl | hp
          · exact Nat.le_refl _
          · have := h2 p hp; omega

theorem lookup_iff_mem {α : Type} {l : List (Nat × α)} (h : (l.map Prod.fst).Nodup) {k : Nat} {v : α} :
    l.lookup k = some v ↔ (k, v) ∈ l := by
  induction l with
  | nil => simp
  | cons p l ih =>
    obtain ⟨k', v'⟩ := p
    rw [List.map_cons, List.nodup_cons] at h
    rw [List.lookup_cons, List.mem_cons, Prod.mk.injEq]
    by_cases hk : k = k'
    · subst hk
      simp only [beq_self_eq_true, true_and]
      constructor
      · intro e; cases e; exact .inl rfl
      · rintro (rfl | e)
        · rfl
        · exact absurd (List.mem_map.mpr ⟨_, e, rfl⟩) h.1
    · have : (k == k') = false := by simpa using hk
      simp only [this, hk, false_and, false_or]
      exact ih h.2

theorem lookup_reverse {α : Type} {l : List (Nat × α)} (h : (l.map Prod.fst).Nodup) (k : Nat) :
    l.reverse.lookup k = l.lookup k := by
  have h' : (l.reverse.map Prod.fst).Nodup := by
    rw [List.map_reverse]; exact List.nodup_reverse.mpr h
  cases hl : l.lookup k with
  | none =>
    cases hr : l.reverse.lookup k with
    | none => rfl
    | some v =>
      rw [lookup_iff_mem h', List.mem_reverse, ← lookup_iff_mem h, hl] at hr
      cases hr
  | some v => rwa [lookup_iff_mem h', List.mem_reverse, ← lookup_iff_mem h]

/-- The environment of a constructor. -/
theorem lookup_argsR {ns : List ANode} {nodes : List INode}
    (h : List.Forall₂ (EncNode ig.labels ig.vocab.idMap) (ns.map ANode.toLrNode) nodes)
    {vs : List (Val P V)} (hl : vs.length = (strip nodes).length) :
    (fun i => (argsR ig (indexedNodesRev nodes) vs.reverse).lookup i) = fun i => (args 0 ns vs).lookup i := by
  funext i
  rw [indexedNodesRev_eq, argsR_eq h 0 hl, lookup_reverse args_keys.1]

end
end Verif
