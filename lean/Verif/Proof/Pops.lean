import Verif.Proof.Paths
import Verif.Proof.Eval

/-!
# The generated code that takes the nodes of a rule off the stack
-/

set_option linter.unusedSectionVars false
set_option autoImplicit false

namespace Verif
open Spec

/-! ### Sets of states -/

theorem mem_setInsert {x y : Nat} {s : List Nat} : y ∈ setInsert x s ↔ y = x ∨ y ∈ s := by
  unfold setInsert
  split
  · constructor
    · exact .inr
    · rintro (rfl | h)
      · assumption
      · exact h
  · rw [List.mem_append, List.mem_singleton]; exact Or.comm

theorem setInsert_nodup {x : Nat} {s : List Nat} (h : s.Nodup) : (setInsert x s).Nodup := by
  unfold setInsert
  split
  · exact h
  · rename_i hx
    rw [List.nodup_append]
    exact ⟨h, List.nodup_singleton _, fun a ha b hb => by
      rw [List.mem_singleton] at hb; subst hb; rintro rfl; exact hx ha⟩

theorem mem_foldl_setInsert {ps : List Nat} {y : Nat} {s : List Nat} :
    y ∈ ps.foldl (fun acc x => setInsert x acc) s ↔ y ∈ ps ∨ y ∈ s := by
  induction ps generalizing s with
  | nil => simp
  | cons p ps ih =>
    rw [List.foldl_cons, ih, mem_setInsert, List.mem_cons]
    constructor
    · rintro (h | h | h)
      · exact .inl (.inr h)
      · exact .inl (.inl h)
      · exact .inr h
    · rintro ((h | h) | h)
      · exact .inr (.inl h)
      · exact .inl h
      · exact .inr (.inr h)

theorem foldl_setInsert_nodup {ps : List Nat} {s : List Nat} (h : s.Nodup) :
    (ps.foldl (fun acc x => setInsert x acc) s).Nodup := by
  induction ps generalizing s with
  | nil => exact h
  | cons p ps ih => exact ih (setInsert_nodup h)

theorem unionBackEdges_mem {smap : StateMap Sym} {S acc prev : List Nat}
    (h : unionBackEdges smap S acc = .ok prev) (p : Nat) :
    p ∈ prev ↔ p ∈ acc ∨ ∃ s ∈ S, ∃ ps, (smap.backEdges s : Outcome MacroError _) = .ok ps ∧ p ∈ ps := by
  induction S generalizing acc with
  | nil => cases h; simp
  | cons s S ih =>
    unfold unionBackEdges at h
    rw [Outcome.bind_eq_ok] at h
    obtain ⟨ps, h1, h2⟩ := h
    rw [ih h2, mem_foldl_setInsert]
    constructor
    · rintro ((h | h) | ⟨s', hs', h⟩)
      · exact .inr ⟨s, by simp, ps, h1, h⟩
      · exact .inl h
      · exact .inr ⟨s', by simp [hs'], h⟩
    · rintro (h | ⟨s', hs', ps', h3, h4⟩)
      · exact .inl (.inr h)
      · rcases List.mem_cons.mp hs' with rfl | hs'
        · rw [h1] at h3; cases h3; exact .inl (.inl h4)
        · exact .inr ⟨s', hs', ps', h3, h4⟩

/-! ### Values on the stack -/

section
variable {P V E σ : Type} [DecidableEq P] {F : FirstTable} {kt : KernelTable} {table : LRTable}
  {ig : IndexedGrammar Sym String} {sem : Sem P V E σ} {tt : TerminalType}

/-- Tokens of the input and ids of terminals. -/
def genMatch (ig : IndexedGrammar Sym String) (sem : Sem P V E σ) (tt : TerminalType) :
    Token P → Nat → Prop :=
  idMatch ig (Matches sem tt)

/-- Values of terminals are tokens that match. -/
def ValOk (ig : IndexedGrammar Sym String) (sem : Sem P V E σ) (tt : TerminalType) (X : INode)
    (v : Val P V) : Prop :=
  ∀ k, X = .terminal (.token k) → ∃ a, v = .tok a ∧ genMatch ig sem tt a k

/-- The stack of a generated parser belongs to the symbols `γ` and holds the values `vs` (bottom first, without
the root's). -/
inductive GStk (ig : IndexedGrammar Sym String) (F : FirstTable) (kt : KernelTable) (sem : Sem P V E σ)
    (tt : TerminalType) : List (Nat × Val P V) → List INode → List (Val P V) → Prop
  | nil : GStk ig F kt sem tt [(0, .unit)] [] []
  | snoc {ss : List (Nat × Val P V)} {γ : List INode} {vs : List (Val P V)} {s : Nat} {X : INode}
      {v : Val P V} :
      GStk ig F kt sem tt ss γ vs → At ig F kt (γ ++ [X]) s → ValOk ig sem tt X v →
      GStk ig F kt sem tt ((s, v) :: ss) (γ ++ [X]) (vs ++ [v])

theorem GStk.top (h : Fit ig F kt table) {ss : List (Nat × Val P V)} {γ : List INode} {vs : List (Val P V)}
    (hs : GStk ig F kt sem tt ss γ vs) : ∃ s v ss', ss = (s, v) :: ss' ∧ At ig F kt γ s := by
  cases hs with
  | nil => exact ⟨0, _, [], rfl, h.built.at_nil⟩
  | snoc _ h _ => exact ⟨_, _, _, rfl, h⟩

theorem GStk.length {ss : List (Nat × Val P V)} {γ : List INode} {vs : List (Val P V)}
    (hs : GStk ig F kt sem tt ss γ vs) : ss.length = γ.length + 1 ∧ vs.length = γ.length := by
  induction hs with
  | nil => exact ⟨rfl, rfl⟩
  | snoc _ _ _ ih => simp [ih]

theorem GStk.pop {ss : List (Nat × Val P V)} {γ : List INode} {X : INode} {us : List (Val P V)}
    (hs : GStk ig F kt sem tt ss (γ ++ [X]) us) :
    ∃ s v ss' vs, ss = (s, v) :: ss' ∧ us = vs ++ [v] ∧ GStk ig F kt sem tt ss' γ vs ∧
      At ig F kt (γ ++ [X]) s ∧ ValOk ig sem tt X v := by
  generalize hg : γ ++ [X] = γ' at hs
  cases hs with
  | nil => simp at hg
  | @snoc ss γ1 vs s Y v h1 h2 h3 =>
    obtain ⟨rfl, e⟩ := List.append_inj' hg rfl
    cases e
    exact ⟨s, v, ss, vs, rfl, rfl, h1, h2, h3⟩

theorem GStk.nil_inv {ss : List (Nat × Val P V)} {us : List (Val P V)}
    (hs : GStk ig F kt sem tt ss [] us) : ss = [(0, .unit)] ∧ us = [] := by
  generalize hg : ([] : List INode) = γ at hs
  cases hs with
  | nil => exact ⟨rfl, rfl⟩
  | snoc _ _ _ => simp at hg

/-- What a constructor sees of the value of a node. -/
def seenI (ig : IndexedGrammar Sym String) (n : INode) (v : Val P V) : Val P V :=
  match n with
  | .terminal (.token k) =>
    match ig.vocab.idMap[k]? with
    | some s => seen (.symbol s) v
    | none => v
  | _ => v

/-- The variables bound by the generated code, from the values on the stack (both from the top). -/
def argsR (ig : IndexedGrammar Sym String) : List (Nat × INode) → List (Val P V) → List (Nat × Val P V)
  | [], _ => []
  | (k, n) :: rest, vs =>
    if n.isEpsilon then argsR ig rest vs
    else match vs with
      | v :: vs => (k, seenI ig n v) :: argsR ig rest vs
      | [] => []

theorem extract_seen {lex : Lexer} {s : Sym} {variant : Option String} {a : Token P}
    (he : extractVariant lex (.terminal (.token s)) = .ok variant) (hm : Matches sem tt a s) :
    extractData variant (.tok a : Val P V) = .ok (seen (.symbol s) (.tok a)) := by
  unfold extractVariant Sym.asIdent at he
  cases hm with
  | lit => cases he; rfl
  | unit => cases he; rfl
  | any =>
    simp only [Sym.isPattern, Sym.isWildcard, Bool.false_or, beq_self_eq_true, if_true, bind_assoc,
      Outcome.bind_eq_ok] at he
    obtain ⟨u, -, y, h1, he⟩ := he
    cases h1
    cases he
    simp [extractData, seen]
  | data =>
    simp only [Sym.isPattern, Bool.true_or, if_true, bind_assoc,
      Outcome.bind_eq_ok] at he
    obtain ⟨u, -, y, h1, he⟩ := he
    cases h1
    cases he
    simp [extractData, seen]

/-- The symbols of a list of nodes, given last node first. -/
def symbolsRev (l : List (Nat × INode)) : List INode := strip (l.map Prod.snd).reverse

theorem symbolsRev_eps {l : List (Nat × INode)} {k : Nat} {n : INode} (h : n.isEpsilon = true) :
    symbolsRev ((k, n) :: l) = symbolsRev l := by
  rw [isEpsilon_iff] at h
  subst h
  simp [symbolsRev, strip_append]

theorem strip_single {n : INode} (h : n.isEpsilon = false) : strip [n] = [n] := by
  apply strip_eq_self
  intro hm
  rw [List.mem_singleton] at hm
  subst hm
  simp [Node.isEpsilon] at h

theorem symbolsRev_cons {l : List (Nat × INode)} {k : Nat} {n : INode} (h : n.isEpsilon = false) :
    symbolsRev ((k, n) :: l) = symbolsRev l ++ [n] := by
  simp [symbolsRev, strip_append, strip_single h]

theorem nil_of_sym {l : List INode} {i : Nat} {X : INode} (h : l[i]? = some X) : i < l.length :=
  (List.getElem?_eq_some_iff.mp h).1

/-- **Popping.** The states listed for each node contain the one that is on the stack, the data is of the
listed variant, and what is left is one of the states computed for it. -/
theorem bindNodes_run (h : Fit ig F kt table) {smap : StateMap Sym}
    (hrow : ∀ s < table.numStates, smap.Row ig table s) {o : HashOrder} {lex : Lexer} {site : List Nat}
    {i : Nat} {r : Rule Nat Nat} (hr : ig.cfg[i]? = some r) :
    ∀ (l : List (Nat × INode)) (S : List Nat) (pops : List PopStep) (final : List Nat),
      bindNodes o lex smap site l S = .ok (pops, final) →
      (∃ β, rhs r = symbolsRev l ++ β) →
      (∀ s ∈ S, Inside ig F kt i (symbolsRev l).length s) →
      (∀ s ∈ final, Inside ig F kt i 0 s) ∧
      (pops.map PopStep.node = (l.filter fun p => !p.2.isEpsilon).map Prod.fst) ∧
      (∀ (γ : List INode) (s : Nat), At ig F kt (γ ++ symbolsRev l) s → s ∈ S →
        ∃ s', At ig F kt γ s' ∧ s' ∈ final) ∧
      ∀ {F' : Type} (γ : List INode) (us : List (Val P V)) (st : PState P V F') (s : Nat) (v : Val P V)
        (rest : List (Nat × Val P V)),
        GStk ig F kt sem tt st.stack (γ ++ symbolsRev l) us → st.stack = (s, v) :: rest → s ∈ S →
        ∃ us' vs s' v' rest', us = us' ++ vs ∧ vs.length = (symbolsRev l).length ∧
          GStk ig F kt sem tt ((s', v') :: rest') γ us' ∧ s' ∈ final ∧
          runPops pops st = .ok (argsR ig l vs.reverse, { st with stack := (s', v') :: rest' }) := by
  intro l
  induction l with
  | nil =>
    intro S pops final hb _ hS
    cases hb
    refine ⟨hS, rfl, fun γ s hat hs => ⟨s, by simpa [symbolsRev, strip] using hat, hs⟩, ?_⟩
    intro F' γ us st s v rest hg hst hs
    have e : symbolsRev [] = [] := rfl
    rw [e, List.append_nil] at hg
    refine ⟨us, [], s, v, rest, by simp, rfl, hst ▸ hg, hs, ?_⟩
    unfold runPops argsR
    obtain ⟨n, p, stk⟩ := st
    simp only at hst
    subst hst
    rfl
  | cons p l ih =>
    obtain ⟨idx, node⟩ := p
    intro S pops final hb hβ hS
    unfold bindNodes at hb
    cases hn : node.isEpsilon with
    | true =>
      rw [hn, if_pos rfl] at hb
      rw [symbolsRev_eps hn] at hβ hS
      obtain ⟨h1, h2, hat, h3⟩ := ih S pops final hb hβ hS
      refine ⟨h1, by rw [h2]; simp [hn], by simpa only [symbolsRev_eps hn] using hat, ?_⟩
      intro F' γ us st s v rest hg hst hs
      rw [symbolsRev_eps hn] at hg ⊢
      have e : ∀ vs : List (Val P V), argsR ig ((idx, node) :: l) vs = argsR ig l vs := by
        intro vs; rw [argsR.eq_def]; simp only [hn, if_true]
      simp only [e]
      exact h3 γ us st s v rest hg hst hs
    | false =>
      rw [hn, if_neg (by simp)] at hb
      simp only [Outcome.bind_eq_ok] at hb
      obtain ⟨rep, hrep, ty, hty, variant, hvar, prev, hprev, ⟨pops', final'⟩, hrec, hfin⟩ := hb
      cases hfin
      have hord : ∀ x, x ∈ o.ord (site ++ [idx]) S ↔ x ∈ S := fun x => (o.perm _ _).mem_iff
      have hrepS : rep ∈ S := by
        unfold Outcome.unwrap at hrep
        cases hh : (o.ord (site ++ [idx]) S).head? with
        | none => rw [hh] at hrep; cases hrep
        | some x =>
          rw [hh] at hrep
          cases hrep
          exact (hord _).mp (List.mem_of_head? hh)
      rw [symbolsRev_cons hn, List.length_append, List.length_singleton] at hS
      have hnode : (rhs r)[(symbolsRev l).length]? = some node := by
        obtain ⟨β, hβ⟩ := hβ
        rw [hβ, symbolsRev_cons hn]
        simp
      -- what is known about each state of the set
      have hback : ∀ s ∈ S, ∃ ps, (∀ ε : Type, (smap.backEdges s : Outcome ε _) = .ok ps) ∧
          (∀ p, p ∈ ps ↔ ∃ t, Edge ig table p t s) ∧ ps ≠ [] ∧
          ∃ ty, (∀ ε : Type, (smap.stateType s : Outcome ε _) = .ok ty) ∧ Names ig ty node := by
        intro s hs
        have hin := hS s hs
        have hs0 := h.inside_ne_zero hin
        obtain ⟨⟨ty, ps, e1, e2, -, -, e3⟩⟩ := hrow s (h.inside_lt hin)
        obtain ⟨h1, h2, h3⟩ := e3 hs0
        obtain ⟨q, hq⟩ := List.exists_mem_of_ne_nil _ h1
        obtain ⟨t, ht⟩ := (h2 q).mp hq
        obtain ⟨X, hX, hN, -⟩ := h.names_of_inside hr hin ht
        rw [hnode] at hX
        cases hX
        cases h3 q t ht
        exact ⟨ps, e2, h2, h1, _, e1, hN⟩
      have hprevI : ∀ p ∈ prev, Inside ig F kt i (symbolsRev l).length p := by
        intro p hp
        rw [unionBackEdges_mem hprev] at hp
        rcases hp with hp | ⟨s, hs, ps, h1, h2⟩
        · cases hp
        · have hs' := (hord s).mp hs
          obtain ⟨ps', e1, e2, -⟩ := hback s hs'
          rw [e1] at h1
          cases h1
          obtain ⟨t, ht⟩ := (e2 p).mp h2
          obtain ⟨X, -, -, hi⟩ := h.names_of_inside hr (hS s hs') ht
          exact hi
      obtain ⟨g1, g2, g4, g3⟩ := ih prev pops' _ hrec
        (by
          obtain ⟨β, hβ⟩ := hβ
          exact ⟨node :: β, by rw [hβ, symbolsRev_cons hn]; simp⟩) hprevI
      refine ⟨g1, by simp [g2, hn], ?_, ?_⟩
      · intro γ s hat hs
        rw [symbolsRev_cons hn, ← List.append_assoc] at hat
        obtain ⟨-, -, hv, -, -⟩ := ((hS s hs).valid h hat).move_inv
        obtain ⟨s1, hat1⟩ := h.at_of_valid hv
        obtain ⟨t, -, hE⟩ := h.edge_of_at hat1 hat
        refine g4 γ s1 hat1 ?_
        rw [unionBackEdges_mem hprev]
        obtain ⟨ps, e1, e2, -⟩ := hback s hs
        exact .inr ⟨s, (hord s).mpr hs, ps, e1 _, (e2 s1).mpr ⟨t, hE⟩⟩
      intro F' γ us st s v rest hg hst hs
      rw [symbolsRev_cons hn, ← List.append_assoc] at hg
      obtain ⟨s0, v0, ss', vs0, e1, rfl, hg', hat, hv⟩ := hg.pop
      rw [hst] at e1
      cases e1
      obtain ⟨s1, v1, ss1, rfl, hat1⟩ := hg'.top h
      obtain ⟨t, hN, hE⟩ := h.edge_of_at hat1 hat
      have hs1 : s1 ∈ prev := by
        rw [unionBackEdges_mem hprev]
        obtain ⟨ps, e1, e2, -⟩ := hback s hs
        exact .inr ⟨s, (hord s).mpr hs, ps, e1 _, (e2 s1).mpr ⟨t, hE⟩⟩
      obtain ⟨us', vs, s', v', rest', rfl, hl, hgs, hfin, hrun⟩ :=
        g3 γ vs0 { st with stack := (s1, v1) :: ss1 } s1 v1 ss1 hg' rfl hs1
      refine ⟨us', vs ++ [v], s', v', rest', by simp, by simp [symbolsRev_cons hn, hl], hgs, hfin, ?_⟩
      have hdata : extractData variant v = .ok (seenI ig node v) := by
        obtain ⟨-, -, -, -, ty', e4, hN'⟩ := hback rep hrepS
        rw [e4] at hty
        cases hty
        cases hN' with
        | production => cases hvar; rfl
        | @terminal id tok hid =>
          cases id with
          | epsilon => simp [Node.isEpsilon] at hn
          | eos => cases hid; cases hvar; rfl
          | token k =>
            obtain ⟨a, rfl, sy, hsy, hM⟩ := hv k rfl
            have : tok = .token sy := by
              simp only [Vocab.idToToken, Outcome.bind_eq_ok, Outcome.index_eq_ok] at hid
              obtain ⟨y, h1, h2⟩ := hid
              rw [hsy] at h1
              cases h1
              cases h2
              rfl
            subst this
            rw [extract_seen hvar hM]
            simp [seenI, hsy]
      unfold runPops PState.popState
      simp only [hst, List.head?_cons, Outcome.unwrapUnchecked_some, Outcome.ok_bind, List.tail_cons,
        Outcome.pure_eq]
      rw [if_pos ((hord s).mpr hs)]
      simp only [hdata, Outcome.ok_bind, hrun, List.reverse_append, List.reverse_cons, List.reverse_nil,
        List.nil_append, List.cons_append]
      simp [argsR, hn]

end
end Verif
