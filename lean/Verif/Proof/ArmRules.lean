import Verif.Proof.Generated
import Verif.Proof.Substitution

/-!
# The rules behind the match arms of generated parsers
-/

set_option linter.unusedSectionVars false
set_option autoImplicit false

namespace Verif
open Spec

variable {o : HashOrder} {lex : Lexer} {gi : GrammarInfo} {prog : Program}

/-- The nodes that are bound are the ones that are not epsilon. -/
theorem bindNodes_nodes {smap : StateMap Sym} {site : List Nat} : ∀ (l : List (Nat × INode)) (S : List Nat)
    (pops : List PopStep) (final : List Nat), bindNodes o lex smap site l S = .ok (pops, final) →
    pops.map PopStep.node = (l.filter fun p => !p.2.isEpsilon).map Prod.fst := by
  intro l
  induction l with
  | nil => intro S pops final h; cases h; rfl
  | cons p l ih =>
    obtain ⟨idx, node⟩ := p
    intro S pops final h
    unfold bindNodes at h
    cases hn : node.isEpsilon with
    | true =>
      rw [hn, if_pos rfl] at h
      rw [ih _ _ _ h]
      simp [hn]
    | false =>
      rw [hn, if_neg (by simp)] at h
      simp only [Outcome.bind_eq_ok] at h
      obtain ⟨rep, -, ty, -, variant, -, prev, -, ⟨pops', final'⟩, hrec, hfin⟩ := h
      cases hfin
      simp [hn, ih _ _ _ hrec]

/-- An arm was made for rule number `k`: it runs the constructor of this rule, and it binds exactly the
nodes of the rule that are not epsilon. -/
structure ArmOf (gi : GrammarInfo) (k : Nat) (ar : ARule) (pops : List PopStep) (ctor : Ctor) : Prop where
  rule : gi.productionRules[k]? = some ar
  ctor : buildConstructor gi k = .ok ctor
  bound : ∀ i, (∃ pop ∈ pops, pop.node = i) ↔ ∃ node, ar.rule[i]? = some node ∧ node ≠ .epsilon

theorem forall₂_nodes {ig : IndexedGrammar Sym String} {ns : List ANode} {ms : List INode}
    (h : List.Forall₂ (EncNode ig.labels ig.vocab.idMap) (ns.map ANode.toLrNode) ms) (i : Nat) :
    (∃ m, ms[i]? = some m ∧ m.isEpsilon = false) ↔ ∃ n, ns[i]? = some n ∧ n ≠ .epsilon := by
  induction ns generalizing ms i with
  | nil => cases h; simp
  | cons n ns ih =>
    cases h with
    | @cons _ m _ ms h1 h2 =>
      cases i with
      | zero =>
        have he := isEpsilon_enc h1
        have hn : n.isEpsilon = false ↔ n ≠ .epsilon := by cases n <;> simp [ANode.isEpsilon]
        simp only [List.getElem?_cons_zero, Option.some.injEq, exists_eq_left']
        rw [he, hn]
      | succ i =>
        simp only [List.getElem?_cons_succ]
        exact ih h2 i

theorem mem_numbered {nodes : List INode} {k i : Nat} {n : INode} :
    (i, n) ∈ numbered k nodes ↔ k ≤ i ∧ nodes[i - k]? = some n := by
  induction nodes generalizing k with
  | nil => simp [numbered]
  | cons m nodes ih =>
    rw [numbered_cons, List.mem_cons, ih]
    constructor
    · rintro (h | ⟨h1, h2⟩)
      · cases h
        simp
      · refine ⟨by omega, ?_⟩
        rw [show i - k = (i - (k + 1)) + 1 by omega]
        simpa using h2
    · rintro ⟨h1, h2⟩
      rcases Nat.eq_or_lt_of_le h1 with h | h
      · subst h
        simp only [Nat.sub_self, List.getElem?_cons_zero, Option.some.injEq] at h2
        exact .inl (by rw [h2])
      · right
        refine ⟨h, ?_⟩
        rw [show i - k = (i - (k + 1)) + 1 by omega] at h2
        simpa using h2

theorem bound_of_bind (he : gi.indexedGrammar.Encodes gi.grammar) {j : Nat} {r : IRule}
    (hr : gi.indexedGrammar.rules[j]? = some r) {smap : StateMap Sym} {site : List Nat} {S : List Nat}
    {pops : List PopStep} {final : List Nat}
    (hb : bindNodes o lex smap site (indexedNodesRev r.nodes) S = .ok (pops, final)) :
    ∃ ar, gi.productionRules[r.originalIndex]? = some ar ∧
      ∀ i, (∃ pop ∈ pops, pop.node = i) ↔ ∃ node, ar.rule[i]? = some node ∧ node ≠ .epsilon := by
  obtain ⟨p, hp, -, hn⟩ := he.rule r (List.mem_of_getElem? hr)
  unfold GrammarInfo.grammar at hp
  rw [List.getElem?_map] at hp
  cases ha : gi.productionRules[r.originalIndex]? with
  | none => rw [ha] at hp; cases hp
  | some ar =>
    rw [ha] at hp
    cases hp
    refine ⟨ar, rfl, fun i => ?_⟩
    rw [← forall₂_nodes hn i]
    have hmap := bindNodes_nodes _ _ _ _ hb
    have h1 : (∃ pop ∈ pops, pop.node = i) ↔ i ∈ pops.map PopStep.node := by simp
    rw [h1, hmap, List.mem_map]
    constructor
    · rintro ⟨⟨k, n⟩, hm, rfl⟩
      rw [List.mem_filter, indexedNodesRev_eq, List.mem_reverse, mem_numbered] at hm
      exact ⟨n, by simpa using hm.1.2, by simpa using hm.2⟩
    · rintro ⟨n, hn1, hn2⟩
      refine ⟨(i, n), ?_, rfl⟩
      rw [List.mem_filter, indexedNodesRev_eq, List.mem_reverse, mem_numbered]
      exact ⟨⟨Nat.zero_le _, by simpa using hn1⟩, by simp [hn2]⟩

/-- Every arm of a generated parser belongs to a rule. -/
theorem arms_of_rules (hg : IndexedGrammar.build gi.grammar = .ok gi.indexedGrammar)
    (hp : generateParser o lex gi = .ok prog) {code : StateCode} (hc : code ∈ prog.states) :
    (∀ arm ∈ code.reduces, ∃ k ar, ArmOf gi k ar arm.pops arm.ctor) ∧
      ∀ arm, code.accept = some arm → ∃ ar, ArmOf gi 0 ar arm.pops arm.ctor := by
  have he := (IndexedGrammar.build_ok hg).1
  simp only [generateParser, Outcome.bind_eq_ok] at hp
  obtain ⟨smap, -, lbl, -, ty, -, tys, -, codes, hcodes, hfin⟩ := hp
  cases hfin
  obtain ⟨s, -, hs⟩ := forall₂_mem_right' (generateStates_spec hcodes) hc
  simp only [generateState, Outcome.bind_eq_ok] at hs
  obtain ⟨a, -, ov, -, reduces, hred, accept, hacc, shifts, -, hfin⟩ := hs
  cases hfin
  constructor
  · intro arm harm
    obtain ⟨p, -, hfor⟩ := forall₂_mem_right' (reduceArms_spec hred) harm
    obtain ⟨rule, states, hr, hb, hgoto⟩ := hfor.rest
    obtain ⟨ar, har, hbound⟩ := bound_of_bind he hr hb
    simp only [applyGoto, Outcome.bind_eq_ok] at hgoto
    obtain ⟨m, -, ctor, hctor, hgoto⟩ := hgoto
    have : ctor = arm.ctor := by
      split at hgoto <;>
      · simp only [Outcome.pure_eq, Outcome.ok.injEq, Prod.mk.injEq] at hgoto
        exact hgoto.1
    subst this
    exact ⟨_, ar, har, hctor, hbound⟩
  · intro arm harm
    simp only at harm
    subst harm
    unfold acceptArm at hacc
    split at hacc
    · cases hacc
    · simp only [Outcome.bind_eq_ok] at hacc
      obtain ⟨m, -, rule, hrule, ⟨pops, states⟩, hb, u, -, ctor, hctor, hfin⟩ := hacc
      cases hfin
      have hr := Outcome.index_eq_ok.mp hrule
      obtain ⟨ar, har, hbound⟩ := bound_of_bind he hr hb
      obtain ⟨r0, h3, h4⟩ := he.root
      rw [show gi.indexedGrammar.rules[0]? = some rule from hr] at h3
      cases h3
      rw [h4] at har
      exact ⟨ar, har, hctor, hbound⟩

end Verif
