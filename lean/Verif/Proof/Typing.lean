import Verif.Proof.GenTotal
import Verif.Proof.ArmRules
import Verif.Spec.Typing

/-!
# Generated code is well typed
-/

set_option linter.unusedSectionVars false
set_option autoImplicit false

namespace Verif
open Spec CodeGen

theorem Outcome.unwrap_eq_ok {ε α : Type} {x : Option α} {a : α} :
    (Outcome.unwrap x : Outcome ε α) = .ok a ↔ x = some a := by
  cases x with
  | none => constructor <;> intro h <;> cases h
  | some b => simp [Outcome.unwrap_some]

section
variable {lex : Lexer} {o : HashOrder} {gi : GrammarInfo} {F : FirstTable} {kt : KernelTable} {prog : Program}

theorem stateDataTypes_spec {smap : StateMap Sym} {l : List Nat} {tys : List (Option TokenStream)}
    (h : stateDataTypes gi smap l = .ok tys) :
    List.Forall₂ (fun s ty => stateDataType gi smap s = .ok ty) l tys := by
  induction l generalizing tys with
  | nil => cases h; exact .nil
  | cons s l ih =>
    simp only [stateDataTypes, Outcome.bind_eq_ok] at h
    obtain ⟨ty, h1, tys', h2, h3⟩ := h
    cases h3
    exact .cons h1 (ih h2)

theorem gotoMap_perm {label : Nat} {states : List Nat} {m m' : List (Nat × List Nat)}
    (h : gotoMap gi label states m = .ok m') :
    (m'.flatMap Prod.snd).Perm (m.flatMap Prod.snd ++ states) := by
  induction states generalizing m with
  | nil => cases h; simp
  | cons s states ih =>
    simp only [gotoMap, Outcome.bind_eq_ok] at h
    obtain ⟨x, -, g, -, h⟩ := h
    refine (ih h).trans ?_
    refine ((push_flat (α := Nat)).append_right _).trans ?_
    simp

theorem gotoMap_nonempty {label : Nat} {states : List Nat} {m m' : List (Nat × List Nat)}
    (h : gotoMap gi label states m = .ok m') (hm : ∀ p ∈ m, p.2 ≠ []) : ∀ p ∈ m', p.2 ≠ [] := by
  induction states generalizing m with
  | nil => cases h; exact hm
  | cons s states ih =>
    simp only [gotoMap, Outcome.bind_eq_ok] at h
    obtain ⟨x, -, g, -, h⟩ := h
    exact ih h (pushEntry_nonempty hm)

/-- What is known of a state's type. -/
def Declared (gi : GrammarInfo) (smap : StateMap Sym) (types : List (Option TokenStream)) : Prop :=
  types.length = gi.lrTable.numStates ∧
  ∀ s < gi.lrTable.numStates, ∃ ty, types[s]? = some ty ∧ stateDataType gi smap s = .ok ty

theorem declared_of {smap : StateMap Sym} {types : List (Option TokenStream)}
    (h : stateDataTypes gi smap gi.lrTable.states = .ok types) : Declared gi smap types := by
  have hf := stateDataTypes_spec h
  refine ⟨by rw [← hf.length_eq]; simp [LRTable.states], fun s hs => ?_⟩
  have : gi.lrTable.states[s]? = some s := by simp [LRTable.states, hs]
  exact forall₂_getElem? hf this

theorem Declared.terminal {smap : StateMap Sym} {types : List (Option TokenStream)}
    (h : Declared gi smap types) {s : Nat} (hs : s < gi.lrTable.numStates) {tok : AugTok Sym}
    (ht : (smap.stateType s : Outcome MacroError _) = .ok (.terminal tok)) :
    types[s]? = some (tokenTy gi) := by
  obtain ⟨ty, h1, h2⟩ := h.2 s hs
  unfold stateDataType at h2
  rw [ht] at h2
  cases h2
  exact h1

theorem Declared.reduce {smap : StateMap Sym} {types : List (Option TokenStream)}
    (h : Declared gi smap types) {s : Nat} (hs : s < gi.lrTable.numStates) {l : Nat} {x : String}
    (ht : (smap.stateType s : Outcome MacroError _) = .ok (.reduce l))
    (hx : gi.indexedGrammar.labels[l]? = some x) :
    ∃ ty, types[s]? = some ty ∧ gi.labelTypes.lookup x = some ty := by
  obtain ⟨ty, h1, h2⟩ := h.2 s hs
  unfold stateDataType at h2
  rw [ht] at h2
  simp only [Outcome.ok_bind, Outcome.bind_eq_ok] at h2
  obtain ⟨y, h3, h4⟩ := h2
  simp only [IndexedGrammar.origLabel, Outcome.bind_eq_ok, Outcome.index_eq_ok] at h3
  obtain ⟨m, h5, h6⟩ := h3
  cases h6
  simp only [IndexedGrammar.labels, List.getElem?_map, h5, Option.map_some, Option.some.injEq] at hx
  subst hx
  exact ⟨ty, h1, Outcome.unwrap_eq_ok.mp h4⟩

theorem forall₂_node {ig : IndexedGrammar Sym String} {ns : List ANode} {ms : List INode}
    (h : List.Forall₂ (EncNode ig.labels ig.vocab.idMap) (ns.map ANode.toLrNode) ms) {i : Nat} {m : INode}
    (hm : ms[i]? = some m) :
    ∃ n, ns[i]? = some n ∧ EncNode ig.labels ig.vocab.idMap n.toLrNode m := by
  induction ns generalizing ms i with
  | nil => cases h; simp at hm
  | cons n ns ih =>
    cases h with
    | cons h1 h2 =>
      cases i with
      | zero => cases hm; exact ⟨n, rfl, h1⟩
      | succ i => exact ih h2 hm

/-- Types of states and of nodes agree. -/
theorem Declared.node {smap : StateMap Sym} {types : List (Option TokenStream)}
    (h : Declared gi smap types) {n : ANode} {m : INode}
    (he : EncNode gi.indexedGrammar.labels gi.indexedGrammar.vocab.idMap n.toLrNode m)
    (hm : m.isEpsilon = false) {sty : StateType Sym} (hN : Names gi.indexedGrammar sty m)
    {variant : Option String} (hv : extractVariant lex sty = .ok variant) {S : List Nat} (hne : S ≠ [])
    (hS : ∀ s ∈ S, s < gi.lrTable.numStates ∧ (smap.stateType s : Outcome MacroError _) = .ok sty) :
    ∃ τ, NodeTy gi n τ ∧ ∀ s ∈ S, ArmTy gi types s variant τ := by
  cases n with
  | epsilon => rw [isEpsilon_enc he] at hm; cases hm
  | production x =>
    cases m with
    | terminal t => exact he.elim
    | production l =>
      cases hN
      cases hv
      have hx : gi.indexedGrammar.labels[l]? = some x := he
      obtain ⟨s0, hs0⟩ := List.exists_mem_of_ne_nil _ hne
      obtain ⟨ty, h1, h2⟩ := h.reduce (hS s0 hs0).1 (hS s0 hs0).2 hx
      refine ⟨_, .label h2, fun s hs => ?_⟩
      obtain ⟨ty', h3, h4⟩ := h.reduce (hS s hs).1 (hS s hs).2 hx
      rw [h2] at h4
      cases h4
      exact .whole h3
  | symbol sym =>
    cases m with
    | production l => exact he.elim
    | terminal t =>
      cases t with
      | epsilon => exact he.elim
      | eos => exact he.elim
      | token k =>
        have hk : gi.indexedGrammar.vocab.idMap[k]? = some sym := he
        cases hN with
        | terminal ht =>
          obtain ⟨sym', h1, rfl⟩ := idToToken_token ht
          rw [hk] at h1
          cases h1
          obtain ⟨x, p⟩ := sym
          unfold extractVariant at hv
          simp only at hv
          cases p with
          | none =>
            cases hv
            exact ⟨_, .token, fun s hs => .whole (h.terminal (hS s hs).1 (hS s hs).2)⟩
          | wildcard =>
            simp only [Sym.isPattern, Sym.isWildcard, beq_self_eq_true, Bool.or_true, if_true, Sym.asIdent,
              Outcome.bind_eq_ok] at hv
            obtain ⟨y, ⟨_, -, h3⟩, h4⟩ := hv
            cases h3
            cases h4
            exact ⟨_, .data (by simp), fun s hs => .part (h.terminal (hS s hs).1 (hS s hs).2)⟩
          | pattern text =>
            simp only [Sym.isPattern, Bool.true_or, if_true, Sym.asIdent, Outcome.bind_eq_ok] at hv
            obtain ⟨y, ⟨_, -, h3⟩, h4⟩ := hv
            cases h3
            cases h4
            exact ⟨_, .data (by simp), fun s hs => .part (h.terminal (hS s hs).1 (hS s hs).2)⟩

namespace GenIn
variable (h : GenIn gi F kt)
include h

/-- The states with an arm have the type of the node. -/
theorem bindNodes_states {smap : StateMap Sym}
    (hrow : ∀ s < gi.lrTable.numStates, smap.Row gi.indexedGrammar gi.lrTable s) {site : List Nat}
    {i : Nat} {r : Rule Nat Nat} (hr : gi.indexedGrammar.cfg[i]? = some r) :
    ∀ (l : List (Nat × INode)) (S : List Nat) (pops : List PopStep) (final : List Nat),
      bindNodes o lex smap site l S = .ok (pops, final) → S ≠ [] → S.Nodup →
      (∃ β, rhs r = symbolsRev l ++ β) →
      (∀ s ∈ S, Inside gi.indexedGrammar F kt i (symbolsRev l).length s) →
      ∀ pop ∈ pops, pop.states ≠ [] ∧ pop.states.Nodup ∧ ∃ node sty, (pop.node, node) ∈ l ∧
        node.isEpsilon = false ∧ Names gi.indexedGrammar sty node ∧
        extractVariant lex sty = .ok pop.variant ∧
        ∀ s ∈ pop.states, s < gi.lrTable.numStates ∧ (smap.stateType s : Outcome MacroError _) = .ok sty := by
  intro l
  induction l with
  | nil => intro S pops final hb _ _ _ _ pop hpop; cases hb; cases hpop
  | cons p l ih =>
    obtain ⟨idx, node⟩ := p
    intro S pops final hb hne hnd hβ hS
    unfold bindNodes at hb
    cases hn : node.isEpsilon with
    | true =>
      rw [hn, if_pos rfl] at hb
      rw [symbolsRev_eps hn] at hβ hS
      intro pop hpop
      obtain ⟨h1, h2, nd, sty, h3, h4⟩ := ih S pops final hb hne hnd hβ hS pop hpop
      exact ⟨h1, h2, nd, sty, by simp [h3], h4⟩
    | false =>
      rw [hn, if_neg (by simp)] at hb
      simp only [Outcome.bind_eq_ok] at hb
      obtain ⟨rep, hrep, sty, hsty, variant, hvar, prev, hprev, ⟨pops', final'⟩, hrec, hfin⟩ := hb
      cases hfin
      have hord : ∀ x, x ∈ o.ord (site ++ [idx]) S ↔ x ∈ S := fun x => (o.perm _ _).mem_iff
      rw [symbolsRev_cons hn, List.length_append, List.length_singleton] at hS
      have hnode : (rhs r)[(symbolsRev l).length]? = some node := by
        obtain ⟨β, hβ⟩ := hβ
        rw [hβ, symbolsRev_cons hn]
        simp
      have hback : ∀ s ∈ S, s < gi.lrTable.numStates ∧
          ∃ ps, (∀ ε : Type, (smap.backEdges s : Outcome ε _) = .ok ps) ∧
          (∀ p, p ∈ ps ↔ ∃ t, Edge gi.indexedGrammar gi.lrTable p t s) ∧ ps ≠ [] ∧
          ∃ ty, (∀ ε : Type, (smap.stateType s : Outcome ε _) = .ok ty) ∧ Names gi.indexedGrammar ty node := by
        intro s hs
        have hin := hS s hs
        have hs0 := h.fit.inside_ne_zero hin
        have hlt := h.fit.inside_lt hin
        obtain ⟨⟨ty, ps, e1, e2, -, -, e3⟩⟩ := hrow s hlt
        obtain ⟨h1, h2, h3⟩ := e3 hs0
        obtain ⟨q, hq⟩ := List.exists_mem_of_ne_nil _ h1
        obtain ⟨t, ht⟩ := (h2 q).mp hq
        obtain ⟨X, hX, hN, -⟩ := h.fit.names_of_inside hr hin ht
        rw [hnode] at hX
        cases hX
        cases h3 q t ht
        exact ⟨hlt, ps, e2, h2, h1, _, e1, hN⟩
      have hrepS : rep ∈ S := by
        rw [Outcome.unwrap_eq_ok] at hrep
        exact (hord _).mp (List.mem_of_head? hrep)
      obtain ⟨-, psr, er, -, hpsr, styr, esr, hNr⟩ := hback rep hrepS
      rw [esr] at hsty
      cases hsty
      intro pop hpop
      rcases List.mem_cons.mp hpop with rfl | hpop
      · refine ⟨?_, (o.perm _ _).nodup_iff.mpr hnd, node, sty, List.mem_cons_self .., hn, hNr, hvar, ?_⟩
        · exact List.ne_nil_of_mem ((hord rep).mpr hrepS)
        · intro s hs
          obtain ⟨h1, -, -, -, -, ty, h2, h3⟩ := hback s ((hord s).mp hs)
          refine ⟨h1, ?_⟩
          rw [h2, h3.det hNr]
      · have hpn := unionBackEdges_nodup (acc := []) List.nodup_nil hprev
        have hpe : prev ≠ [] := by
          obtain ⟨q, hq⟩ := List.exists_mem_of_ne_nil _ hpsr
          exact List.ne_nil_of_mem
            ((unionBackEdges_mem hprev q).mpr (.inr ⟨rep, (hord rep).mpr hrepS, psr, er _, hq⟩))
        have hprevI : ∀ p ∈ prev, Inside gi.indexedGrammar F kt i (symbolsRev l).length p := by
          intro p hp
          rw [unionBackEdges_mem hprev] at hp
          rcases hp with hp | ⟨s, hs, ps, h1, h2⟩
          · cases hp
          · have hs' := (hord s).mp hs
            obtain ⟨-, ps', e1, e2, -⟩ := hback s hs'
            rw [e1] at h1
            cases h1
            obtain ⟨t, ht⟩ := (e2 p).mp h2
            obtain ⟨X, -, -, hi⟩ := h.fit.names_of_inside hr (hS s hs') ht
            exact hi
        obtain ⟨β, hβ⟩ := hβ
        obtain ⟨h1, h2, nd, sty', h3, h4⟩ := ih prev pops' _ hrec hpe hpn
          ⟨node :: β, by rw [hβ, symbolsRev_cons hn]; simp⟩ hprevI pop hpop
        exact ⟨h1, h2, nd, sty', by simp [h3], h4⟩

/-- The code of a rule up to its constructor. -/
theorem ruleTyped {smap : StateMap Sym}
    (hrow : ∀ s < gi.lrTable.numStates, smap.Row gi.indexedGrammar gi.lrTable s)
    {types : List (Option TokenStream)} (hd : Declared gi smap types) {site : List Nat}
    {i : Nat} {q : IRule} (hq : gi.indexedGrammar.rules[i]? = some q) {s : Nat}
    (hin : Inside gi.indexedGrammar F kt i (rhs q.rule).length s) {pops : List PopStep} {final : List Nat}
    (hb : bindNodes o lex smap site (indexedNodesRev q.nodes) [s] = .ok (pops, final)) {ctor : Ctor}
    (hc : buildConstructor gi q.originalIndex = .ok ctor) :
    ∃ r, RuleTyped gi types q.originalIndex r pops ctor ∧
      gi.indexedGrammar.labels[q.symbol]? = some r.name ∧
      final ≠ [] ∧ final.Nodup ∧ ∀ s ∈ final, Inside gi.indexedGrammar F kt i 0 s := by
  obtain ⟨p, hp, hlab, hnodes⟩ := h.enc.rule q (List.mem_of_getElem? hq)
  unfold GrammarInfo.grammar at hp
  rw [List.getElem?_map] at hp
  cases ha : gi.productionRules[q.originalIndex]? with
  | none => rw [ha] at hp; cases hp
  | some ar =>
    rw [ha] at hp
    cases hp
    have hrhs : rhs q.rule = symbolsRev (indexedNodesRev q.nodes) := by
      rw [symbolsRev_indexed]; rfl
    have hin' : ∀ s' ∈ [s], Inside gi.indexedGrammar F kt i (symbolsRev (indexedNodesRev q.nodes)).length s' := by
      intro s' hs'
      rw [List.mem_singleton] at hs'
      subst hs'
      rw [← hrhs]
      exact hin
    have hcfg := cfg_get.mpr ⟨q, hq, rfl⟩
    have hsat := h.bindNodes_sat (o := o) (lex := lex) hrow (site := site) hcfg (indexedNodesRev q.nodes) [s]
      (by simp) (by simp) ⟨[], by rw [hrhs, List.append_nil]⟩ hin'
    rw [hb] at hsat
    obtain ⟨ar', har', hbound⟩ := bound_of_bind h.enc hq hb
    rw [ha] at har'
    cases har'
    refine ⟨ar, ⟨ha, hc, hbound, ?_, ?_⟩, hlab, hsat⟩
    · rw [bindNodes_nodes _ _ _ _ hb, indexedNodesRev_eq]
      refine List.Pairwise.sublist (l₂ := ((numbered 0 q.nodes).reverse).map Prod.fst) ?_ ?_
      · exact (List.filter_sublist).map _
      · rw [List.map_reverse, List.pairwise_reverse]
        have : ∀ (k : Nat) (l : List INode), (∀ x ∈ (numbered k l).map Prod.fst, k ≤ x) ∧
            ((numbered k l).map Prod.fst).Pairwise (· < ·) := by
          intro k l
          induction l generalizing k with
          | nil => simp [numbered]
          | cons a l ih =>
            rw [numbered_cons, List.map_cons, List.pairwise_cons]
            obtain ⟨h1, h2⟩ := ih (k + 1)
            refine ⟨fun x hx => ?_, fun x hx => ?_, h2⟩
            · rcases List.mem_cons.mp hx with rfl | hx
              · exact Nat.le_refl _
              · have := h1 x hx; omega
            · have := h1 x hx; simp only; omega
        exact (this 0 q.nodes).2
    · intro pop hpop
      obtain ⟨h1, h2, node, sty, h3, h4, h5, h6, h7⟩ := h.bindNodes_states hrow hcfg _ _ _ _ hb
        (by simp) (by simp) ⟨[], by rw [hrhs, List.append_nil]⟩ hin' pop hpop
      rw [indexedNodesRev_eq, List.mem_reverse, mem_numbered] at h3
      obtain ⟨n, h8, h9⟩ := forall₂_node hnodes (by simpa using h3.2)
      obtain ⟨τ, h10, h11⟩ := hd.node h9 h4 h5 h6 h1 h7
      exact ⟨h1, h2, n, τ, h8, h10, h11⟩

/-- The end of a reduction. -/
theorem gotoTyped {smap : StateMap Sym}
    (hrow : ∀ s < gi.lrTable.numStates, smap.Row gi.indexedGrammar gi.lrTable s)
    {types : List (Option TokenStream)} (hd : Declared gi smap types) {site : List Nat} {k : Nat}
    {i : Nat} {q : IRule} (hq : gi.indexedGrammar.rules[i]? = some q) {S : List Nat} (hne : S ≠ [])
    (hnd : S.Nodup) (hS : ∀ s ∈ S, Inside gi.indexedGrammar F kt i 0 s) {ctor : Ctor} {goto : GotoCode}
    (hg : applyGoto o gi site k q.symbol S = .ok (ctor, goto)) {x : String}
    (hx : gi.indexedGrammar.labels[q.symbol]? = some x) :
    buildConstructor gi k = .ok ctor ∧
      ∃ ty, gi.labelTypes.lookup x = some ty ∧ GotoTyped types ty goto := by
  simp only [applyGoto, Outcome.bind_eq_ok] at hg
  obtain ⟨m, h1, c, h2, h3⟩ := hg
  have hmem : ∀ s, s ∈ o.ord (2 :: site) S ↔ s ∈ S := fun s => (o.perm _ _).mem_iff
  have hl : q.symbol < gi.indexedGrammar.labelsCount := h.fit.wf.symbol q (List.mem_of_getElem? hq)
  have hspec := gotoMap_spec h1
  have hperm : (m.flatMap Prod.snd).Perm (o.ord (2 :: site) S) := by simpa using gotoMap_perm h1
  have hnon := gotoMap_nonempty h1 (by simp)
  -- every arm leads to a state for the label
  have htarget : ∀ p ∈ m, (∃ ty, types[p.1]? = some ty ∧ gi.labelTypes.lookup x = some ty) ∧
      ∀ s ∈ p.2, s < types.length := by
    intro p hp
    have hall : ∀ s ∈ p.2, s ∈ S ∧ (gi.lrTable.getGoto s q.symbol : Outcome MacroError _) = .ok (some p.1) := by
      intro s hs
      rcases (hspec p.1 s).mp ⟨p.2, hp, hs⟩ with ⟨_, h4, -⟩ | ⟨h4, h5⟩
      · cases h4
      · exact ⟨(hmem s).mp h4, h5⟩
    refine ⟨?_, fun s hs => by rw [hd.1]; exact h.fit.inside_lt (hS s (hall s hs).1)⟩
    obtain ⟨s, hs⟩ := List.exists_mem_of_ne_nil _ (hnon p hp)
    obtain ⟨h4, h5⟩ := hall s hs
    have hslt := h.fit.inside_lt (hS s h4)
    have hE : Edge gi.indexedGrammar gi.lrTable s (.reduce q.symbol) p.1 := by
      refine .goto hslt ⟨hl, ?_⟩
      obtain ⟨v, e1, e2⟩ := h.fit.built.getGoto_eq (ε := Unit) hslt hl
      obtain ⟨v', e3, e4⟩ := h.fit.built.getGoto_eq (ε := MacroError) hslt hl
      rw [h5] at e4
      cases e4
      rw [e1] at e3
      cases e3
      exact e2
    obtain ⟨-, hp0, hp2⟩ := h.fit.built.edge_lt hE
    have hlt := hp2
    obtain ⟨⟨ty, ps, f1, f2, -, -, f3⟩⟩ := hrow p.1 hlt
    have := (f3 (by omega)).2.2 s _ hE
    subst this
    exact hd.reduce hlt (f1 _) hx
  split at h3
  · rename_i next vs
    cases h3
    obtain ⟨⟨ty, h4, h5⟩, -⟩ := htarget (next, vs) (by simp)
    exact ⟨h2, ty, h5, h4⟩
  · rename_i hsingle
    cases h3
    have hm0 : m ≠ [] := by
      rintro rfl
      simp only [List.flatMap_nil, List.nil_perm] at hperm
      obtain ⟨s, hs⟩ := List.exists_mem_of_ne_nil _ hne
      have := (hmem s).mpr hs
      rw [hperm] at this
      cases this
    obtain ⟨p0, hp0⟩ := List.exists_mem_of_ne_nil _ hm0
    obtain ⟨⟨ty, -, h5⟩, -⟩ := htarget p0 hp0
    have hpm := o.perm (3 :: site) m
    refine ⟨h2, ty, h5, ?_, ?_, ?_⟩
    · rw [hpm.length_eq]
      match m, hsingle, hm0 with
      | [(a, b)], hs, _ => exact absurd rfl (hs a b)
      | _ :: _ :: _, _, _ => simp
    · refine (List.Perm.nodup_iff ?_).mpr ((o.perm (2 :: site) S).nodup_iff.mpr hnd)
      exact (hpm.flatMap_right _).trans hperm
    · intro arm harm
      have harm' := hpm.mem_iff.mp harm
      obtain ⟨⟨ty', h6, h7⟩, h8⟩ := htarget arm harm'
      rw [h5] at h7
      cases h7
      exact ⟨hnon _ harm', h6, h8⟩

theorem shiftTyped {smap : StateMap Sym}
    (hrow : ∀ s < gi.lrTable.numStates, smap.Row gi.indexedGrammar gi.lrTable s)
    {types : List (Option TokenStream)} (hd : Declared gi smap types) {s : Nat}
    (hs : s < gi.lrTable.numStates) {a : LikeActions} {l : List (AugTok Sym × Action)} (hc : a.Collected l)
    (hl : ∀ tok act, (tok, act) ∈ l ↔ ∃ id, gi.lrTable.HasAction gi.indexedGrammar s id act ∧
        (gi.indexedGrammar.vocab.idToToken id : Outcome Unit _) = .ok tok)
    {arms : List ShiftArm} (harms : LikeActions.shiftArms lex gi a.shiftMap = .ok arms) {arm : ShiftArm}
    (harm : arm ∈ arms) : ShiftTyped gi types arm := by
  obtain ⟨⟨tok, next⟩, hp, hfor⟩ := forall₂_mem_right' (shiftArms_spec harms) harm
  obtain ⟨matcher, next', value⟩ := arm
  obtain ⟨hmt, hnx, sym, hsym, hval⟩ := hfor
  simp only at hmt hnx hsym hval
  subst hnx hsym
  obtain ⟨id, h1, h2⟩ := (hl _ _).mp ((hc.shift _ _).mp hp)
  have hE : Edge gi.indexedGrammar gi.lrTable s (.terminal (.token sym)) _ := .shift hs h1 h2
  obtain ⟨-, hp0, hp2⟩ := h.fit.built.edge_lt hE
  constructor
  · have hlt := hp2
    obtain ⟨⟨ty, ps, f1, f2, -, -, f3⟩⟩ := hrow _ hlt
    have := (f3 (by omega)).2.2 s _ hE
    subst this
    exact hd.terminal hlt (f1 _)
  · simp only [tokenMatcher, Outcome.bind_eq_ok] at hmt
    obtain ⟨pat, hpat, hfin⟩ := hmt
    have hm : matcher = .token pat := by cases hfin; rfl
    unfold tryBuildPattern at hpat
    unfold tryBuildRhs at hval
    split at hpat
    · rename_i hraw
      rw [hraw] at hval
      simp only [Outcome.bind_eq_ok] at hpat hval
      obtain ⟨x, h3, h4⟩ := hpat
      obtain ⟨y, h5, h6⟩ := hval
      rw [h3] at h5
      cases h5
      cases h4
      exact .inl ⟨x, hm, by cases h6; rfl⟩
    · rename_i henum
      rw [henum] at hval
      simp only [Outcome.bind_eq_ok] at hpat hval
      obtain ⟨x, h3, h4⟩ := hpat
      obtain ⟨y, h5, h6⟩ := hval
      rw [h3] at h5
      cases h5
      right
      cases hp : sym.paren with
      | none => rw [hp] at h4 h6; cases h4; exact .inl ⟨x, hm, by cases h6; rfl⟩
      | wildcard => rw [hp] at h4 h6; cases h4; exact .inr (.inl ⟨x, hm, by cases h6; rfl⟩)
      | pattern text => rw [hp] at h4 h6; cases h4; exact .inr (.inr ⟨x, text, hm, by cases h6; rfl⟩)

/-- **Generated code is well typed.** -/
theorem typed (hp : generateParser o lex gi = .ok prog)
    (hlab : ∀ r ∈ gi.productionRules, ∃ ty, gi.labelTypes.lookup r.name = some ty ∧
      (ty = none ↔ r.returnType = none)) : ProgramTyped gi prog := by
  obtain ⟨smap, hm, -, hrow⟩ := h.fit.built.stateMap o h.fit.wf h.fit.res.wf
  simp only [generateParser, hm, Outcome.mapErr, Outcome.ok_bind, Outcome.bind_eq_ok] at hp
  obtain ⟨lbl, hlbl, rty, hrty, tys, htys, codes, hcodes, hfin⟩ := hp
  cases hfin
  have hd := declared_of htys
  have hpos := h.fit.built.pos
  have hstates := generateStates_spec hcodes
  -- the actions of each state
  have hcode : ∀ code ∈ codes, ∃ s < gi.lrTable.numStates, generateState o lex gi smap s = .ok code := by
    intro code hc
    obtain ⟨s, h1, h2⟩ := forall₂_mem_right' hstates hc
    exact ⟨s, by simpa [LRTable.states] using h1, h2⟩
  have hall : ∀ code ∈ codes, (∀ arm ∈ code.shifts, ShiftTyped gi tys arm) ∧
      (∀ arm ∈ code.reduces, ∃ k r ty, RuleTyped gi tys k r arm.pops arm.ctor ∧
        gi.labelTypes.lookup r.name = some ty ∧ GotoTyped tys ty arm.goto) ∧
      ∀ arm, code.accept = some arm → ∃ r, RuleTyped gi tys 0 r arm.pops arm.ctor ∧
        gi.labelTypes.lookup r.name = some rty := by
    intro code hc
    obtain ⟨s, hs, hgen⟩ := hcode code hc
    obtain ⟨a, l, h1, h2, -, h3⟩ := h.likeActions hs
    simp only [generateState, h1, Outcome.ok_bind, Outcome.bind_eq_ok] at hgen
    obtain ⟨ov, -, reduces, hred, accept, hacc, shifts, hsh, hfin⟩ := hgen
    cases hfin
    refine ⟨fun arm harm => h.shiftTyped hrow hd hs h2 h3 hsh harm, ?_, ?_⟩
    · intro arm harm
      obtain ⟨⟨i, toks⟩, hp, hfor⟩ := forall₂_mem_right' (reduceArms_spec hred) harm
      obtain ⟨q, states, hq, hb, hgoto⟩ := hfor.rest
      have hp' : (i, toks) ∈ a.reduceMap := (o.perm _ _).mem_iff.mp hp
      obtain ⟨tok, ht⟩ := List.exists_mem_of_ne_nil _ (build_nonempty h1 _ hp')
      obtain ⟨id, h4, h5⟩ := (h3 tok _).mp ((h2.reduce tok i).mp ⟨toks, hp', ht⟩)
      obtain ⟨r, h6, -, h7⟩ := (h.tokens hs h4 h5).2.2.2 i rfl
      rw [cfg_get.mpr ⟨q, hq, rfl⟩] at h6
      cases h6
      have hctor : buildConstructor gi q.originalIndex = .ok arm.ctor := by
        have hg := hgoto
        simp only [applyGoto, Outcome.bind_eq_ok] at hg
        obtain ⟨m, -, c, hc', h8⟩ := hg
        have : c = arm.ctor := by
          split at h8 <;>
          · simp only [Outcome.pure_eq, Outcome.ok.injEq, Prod.mk.injEq] at h8
            exact h8.1
        rw [← this]; exact hc'
      obtain ⟨ar, h8, h9, h10, h11, h12⟩ := h.ruleTyped hrow hd hq h7 hb hctor
      obtain ⟨-, ty, h13, h14⟩ := h.gotoTyped hrow hd hq h10 h11 h12 hgoto h9
      exact ⟨_, ar, ty, h8, h13, h14⟩
    · intro arm harm
      simp only at harm
      subst harm
      cases ht : a.accept with
      | none => rw [ht] at hacc; cases hacc
      | some t =>
        have hm := (h2.accept t).mp ht
        obtain ⟨id, ⟨h4, h5⟩, -⟩ := (h3 t _).mp hm
        obtain ⟨γ, hγ⟩ := h.fit.built.exists_at hs
        rw [ht] at hacc
        simp only [acceptArm, Outcome.bind_eq_ok] at hacc
        obtain ⟨mt, -, q, hrule, ⟨pops, states⟩, hb, u, -, ctor, hctor, hfin⟩ := hacc
        cases hfin
        have hq := Outcome.index_eq_ok.mp hrule
        cases ((h.fit.entries hγ).accept Unit id h4).mp h5 with
        | accept h6 _ h7 =>
          have hcq : gi.indexedGrammar.cfg[0]? = some q.rule := cfg_get.mpr ⟨q, hq, rfl⟩
          rw [hcq] at h6
          cases h6
          obtain ⟨r0, h8, h9⟩ := h.enc.root
          have : r0 = q := by
            have hq' : gi.indexedGrammar.rules[0]? = some q := hq
            rw [h8] at hq'; cases hq'; rfl
          subst this
          obtain ⟨ar, h10, h11, -⟩ := h.ruleTyped hrow hd hq ⟨γ, hγ, h7⟩ hb (by rw [h9]; exact hctor)
          rw [h9] at h10
          refine ⟨ar, h10, ?_⟩
          have h0 : r0.symbol = 0 := (h.fit.wf.root 0 r0 h8).mpr rfl
          rw [h0] at h11
          simp only [IndexedGrammar.origLabel, Outcome.bind_eq_ok, Outcome.index_eq_ok] at hlbl
          obtain ⟨m, h12, h13⟩ := hlbl
          cases h13
          have h12' : gi.indexedGrammar.ruleMetadata[0]? = some m := h12
          simp only [IndexedGrammar.labels, List.getElem?_map, h12', Option.map_some, Option.some.injEq] at h11
          rw [← h11]
          exact Outcome.unwrap_eq_ok.mp hrty
  refine ⟨?_, ?_, ?_, hlab, fun c hc => (hall c hc).1, fun c hc => (hall c hc).2.1, fun c hc => (hall c hc).2.2⟩
  · simp only
    rw [hd.1, ← hstates.length_eq]
    simp [LRTable.states]
  · obtain ⟨⟨ty, ps, f1, -, -, f2, -⟩⟩ := hrow 0 hpos
    obtain ⟨ty', h1, h2⟩ := hd.2 0 hpos
    have := (f2 rfl).1
    subst this
    unfold stateDataType at h2
    rw [f1] at h2
    cases h2
    exact h1
  · obtain ⟨r0, h8, h9⟩ := h.enc.root
    obtain ⟨p, hp, hl, -⟩ := h.enc.rule r0 (List.mem_of_getElem? h8)
    rw [h9] at hp
    unfold GrammarInfo.grammar at hp
    rw [List.getElem?_map] at hp
    cases ha : gi.productionRules[0]? with
    | none => rw [ha] at hp; cases hp
    | some ar =>
      rw [ha] at hp
      cases hp
      refine ⟨ar, rfl, ?_⟩
      rw [(h.fit.wf.root 0 r0 h8).mpr rfl] at hl
      simp only [IndexedGrammar.origLabel, Outcome.bind_eq_ok, Outcome.index_eq_ok] at hlbl
      obtain ⟨m, h12, h13⟩ := hlbl
      cases h13
      have h12' : gi.indexedGrammar.ruleMetadata[0]? = some m := h12
      simp only [IndexedGrammar.labels, List.getElem?_map, h12', Option.map_some, Option.some.injEq] at hl
      have e : ar.toLr.symbol = ar.name := rfl
      rw [← e, ← hl]
      exact Outcome.unwrap_eq_ok.mp hrty

end GenIn
end
end Verif
