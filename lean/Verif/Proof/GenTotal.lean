import Verif.Proof.GenFacts
import Verif.Proof.Substitution

/-!
# Outcomes of the code generator
-/

set_option linter.unusedSectionVars false
set_option autoImplicit false

namespace Verif
open Spec

namespace CodeGen

/-- The rules whose constructors become part of the generated code: the root rule and the rules that the table
reduces by. -/
def Used (gi : GrammarInfo) (k : Nat) : Prop :=
  k = 0 ∨ ∃ s < gi.lrTable.numStates, ∃ id i r, gi.lrTable.HasAction gi.indexedGrammar s id (.reduce i) ∧
    gi.indexedGrammar.rules[i]? = some r ∧ r.originalIndex = k

/-- Errors of the code generator: a terminal that is no literal although tokens are not an enum, or a bad
constructor. -/
def Fails (lex : Lexer) (gi : GrammarInfo) (e : MacroError) : Prop :=
  (gi.terminalType.isEnum = false ∧ ∃ s, gi.Terminal s ∧ s.asLiteral lex = .err e) ∨
    ∃ k < gi.productionRules.length, Used gi k ∧ buildConstructor gi k = .err e

/-- A terminal whose name is used as an identifier but is none. -/
def NotIdent (lex : Lexer) (gi : GrammarInfo) : Prop :=
  ∃ s, gi.Terminal s ∧ lex.isIdent s.name = false ∧ (gi.terminalType.isEnum = true ∨ s.paren ≠ .none)

/-- Panics of the code generator. -/
def Stops (lex : Lexer) (gi : GrammarInfo) : Prop := NotIdent lex gi ∨ ¬ RootNotRecursive gi.grammar

end CodeGen
open CodeGen

/-- What the code generator works on. -/
structure GenIn (gi : GrammarInfo) (F : FirstTable) (kt : KernelTable) : Prop where
  enc : gi.indexedGrammar.Encodes gi.grammar
  fit : Fit gi.indexedGrammar F kt gi.lrTable
  used : ∀ t ∈ gi.indexedGrammar.vocab.idMap, gi.Terminal t
  types : ∀ l < gi.indexedGrammar.labelsCount, ∃ x,
    (gi.indexedGrammar.origLabel l : Outcome MacroError _) = .ok x ∧
      ∃ ty, (gi.labelType x : Outcome MacroError _) = .ok ty

section
variable {lex : Lexer} {o : HashOrder} {gi : GrammarInfo} {F : FirstTable} {kt : KernelTable}

theorem asIdent_sat {s : Sym} (hs : gi.Terminal s) (hu : gi.terminalType.isEnum = true ∨ s.paren ≠ .none) :
    (s.asIdent lex).Sat (fun _ => True) (Fails lex gi) (Stops lex gi) := by
  unfold Sym.asIdent
  cases h : lex.isIdent s.name with
  | true => trivial
  | false => exact .inl ⟨s, hs, h, hu⟩

theorem asLiteral_sat {s : Sym} (hs : gi.Terminal s) (hu : gi.terminalType.isEnum = false) :
    (s.asLiteral lex).Sat (fun _ => True) (Fails lex gi) (Stops lex gi) := by
  cases h : s.asLiteral lex with
  | ok _ => trivial
  | err e => exact .inl ⟨hu, s, hs, h⟩
  | _ =>
    unfold Sym.asLiteral at h
    split at h
    · cases h
    · split at h <;> cases h

theorem tryBuildPattern_sat {s : Sym} (hs : gi.Terminal s) :
    (tryBuildPattern lex gi.terminalType s).Sat (fun _ => True) (Fails lex gi) (Stops lex gi) := by
  unfold tryBuildPattern
  split
  · rename_i h
    exact (asLiteral_sat hs (by rw [h]; rfl)).bind fun _ _ _ => trivial
  · rename_i h
    refine (asIdent_sat hs (.inl (by rw [h]; rfl))).bind fun _ _ _ => ?_
    split <;> trivial

theorem tryBuildRhs_sat {s : Sym} (hs : gi.Terminal s) :
    (tryBuildRhs lex gi.terminalType s).Sat (fun _ => True) (Fails lex gi) (Stops lex gi) := by
  unfold tryBuildRhs
  split
  · rename_i h
    exact (asLiteral_sat hs (by rw [h]; rfl)).bind fun _ _ _ => trivial
  · rename_i h
    refine (asIdent_sat hs (.inl (by rw [h]; rfl))).bind fun _ _ _ => ?_
    split <;> trivial

/-- Tokens for which matchers can be generated. -/
def Matchable (gi : GrammarInfo) (tok : AugTok Sym) : Prop := tok = .eos ∨ ∃ s, tok = .token s ∧ gi.Terminal s

theorem tokenMatcher_sat {tok : AugTok Sym} (h : Matchable gi tok) :
    (tokenMatcher lex gi.terminalType tok).Sat (fun _ => True) (Fails lex gi) (Stops lex gi) := by
  rcases h with rfl | ⟨s, rfl, hs⟩
  · trivial
  · exact (tryBuildPattern_sat hs).bind fun _ _ _ => trivial

theorem tokenMatchers_sat {toks : List (AugTok Sym)} (h : ∀ tok ∈ toks, Matchable gi tok) :
    (tokenMatchers lex gi.terminalType toks).Sat (fun _ => True) (Fails lex gi) (Stops lex gi) := by
  induction toks with
  | nil => trivial
  | cons tok toks ih =>
    refine (tokenMatcher_sat (h tok (by simp))).bind fun _ _ _ => ?_
    exact (ih fun t ht => h t (by simp [ht])).bind fun _ _ _ => trivial

theorem buildConstructor_sat {k : Nat} (hk : k < gi.productionRules.length) (hu : Used gi k) :
    (buildConstructor gi k).Sat (fun _ => True) (Fails lex gi) (Stops lex gi) := by
  cases h : buildConstructor gi k with
  | ok _ => trivial
  | err e => exact .inr ⟨k, hk, hu, h⟩
  | _ =>
    unfold buildConstructor GrammarInfo.productionRule at h
    rw [Outcome.index_eq_ok.mpr (List.getElem?_eq_getElem hk)] at h
    simp only [Outcome.ok_bind] at h
    split at h
    · rename_i d body hb
      unfold rewriteProvided at h
      split at h
      · cases h
      · rcases SubstMap.substituteVars_safe gi.productionRules[k].rule body with ⟨out, h'⟩ | ⟨e, h'⟩ <;>
        · rw [h'] at h; cases h
    · split at h
      · split at h <;> cases h
      · cases h

/-- Only the end of the stream is accepted on. -/
theorem collect_sat {l : List (AugTok Sym × Action)} (hacc : ∀ tok, (tok, .accept) ∈ l → tok = .eos)
    (hnd : (l.map Prod.fst).Nodup) (a : LikeActions)
    (ha : a.accept.isSome = true → ∀ tok, (tok, .accept) ∉ l) {E : MacroError → Prop} {X : Prop} :
    (LikeActions.collect l a).Sat (fun _ => True) E X := by
  induction l generalizing a with
  | nil => trivial
  | cons p l ih =>
    obtain ⟨tok, act⟩ := p
    rw [List.map_cons, List.nodup_cons] at hnd
    have hacc' : ∀ tok, (tok, .accept) ∈ l → tok = .eos := fun t ht => hacc t (by simp [ht])
    cases act with
    | shift n =>
      exact ih hacc' hnd.2 _ fun h t ht => ha h t (by simp [ht])
    | reduce n =>
      exact ih hacc' hnd.2 _ fun h t ht => ha h t (by simp [ht])
    | accept =>
      unfold LikeActions.collect
      cases hs : a.accept with
      | some x => exact absurd (List.mem_cons_self ..) (ha (by rw [hs]; rfl) tok)
      | none =>
        simp only [Option.isNone_none, Outcome.assert_true, Outcome.ok_bind]
        refine ih hacc' hnd.2 _ fun _ t ht => hnd.1 ?_
        have h1 := hacc t (by simp [ht])
        have h2 := hacc tok (by simp)
        rw [h2, ← h1]
        exact List.mem_map.mpr ⟨_, ht, rfl⟩

theorem pushEntry_nonempty {α : Type} {k : Nat} {v : α} {m : List (Nat × List α)} (h : ∀ p ∈ m, p.2 ≠ []) :
    ∀ p ∈ pushEntry k v m, p.2 ≠ [] := by
  induction m with
  | nil => intro p hp; simp [pushEntry] at hp; simp [hp]
  | cons q m ih =>
    obtain ⟨k', vs⟩ := q
    unfold pushEntry
    have h' : ∀ p ∈ m, p.2 ≠ [] := fun p hp => h p (by simp [hp])
    split
    · intro p hp
      rcases List.mem_cons.mp hp with rfl | hp
      · simp
      · exact h' p hp
    · intro p hp
      rcases List.mem_cons.mp hp with rfl | hp
      · exact h _ (List.mem_cons_self ..)
      · exact ih h' p hp

theorem build_nonempty {s : Nat} {a : LikeActions} (h : LikeActions.build gi s = .ok a) :
    ∀ p ∈ a.reduceMap, p.2 ≠ [] := by
  unfold LikeActions.build at h
  rw [Outcome.bind_eq_ok] at h
  obtain ⟨l, -, h⟩ := h
  have key : ∀ (l : List (AugTok Sym × Action)) (b : LikeActions), LikeActions.collect l b = .ok a →
      (∀ p ∈ b.reduceMap, p.2 ≠ []) → ∀ p ∈ a.reduceMap, p.2 ≠ [] := by
    intro l
    induction l with
    | nil => intro b hb hp; cases hb; exact hp
    | cons p l ih =>
      obtain ⟨tok, act⟩ := p
      intro b hb hp
      cases act with
      | shift n => exact ih _ hb hp
      | reduce n => exact ih _ hb (pushEntry_nonempty hp)
      | accept =>
        unfold LikeActions.collect at hb
        rw [Outcome.bind_eq_ok] at hb
        obtain ⟨_, -, hb⟩ := hb
        exact ih _ hb hp
  exact key l _ h (by simp)

theorem unionBackEdges_ok {smap : StateMap Sym} {S : List Nat} (acc : List Nat)
    (h : ∀ s ∈ S, ∃ ps, (smap.backEdges s : Outcome MacroError _) = .ok ps) :
    ∃ prev, unionBackEdges smap S acc = .ok prev := by
  induction S generalizing acc with
  | nil => exact ⟨acc, rfl⟩
  | cons s S ih =>
    obtain ⟨ps, hp⟩ := h s (by simp)
    unfold unionBackEdges
    rw [hp]
    exact ih _ fun s hs => h s (by simp [hs])

theorem unionBackEdges_nodup {smap : StateMap Sym} {S acc prev : List Nat} (ha : acc.Nodup)
    (h : unionBackEdges smap S acc = .ok prev) : prev.Nodup := by
  induction S generalizing acc with
  | nil => cases h; exact ha
  | cons s S ih =>
    unfold unionBackEdges at h
    rw [Outcome.bind_eq_ok] at h
    obtain ⟨ps, -, h⟩ := h
    exact ih (foldl_setInsert_nodup ha) h

namespace GenIn
variable (h : GenIn gi F kt)
include h

theorem tokens {s : Nat} (hs : s < gi.lrTable.numStates) {tok : AugTok Sym} {act : Action} {id : AugTokId}
    (ha : gi.lrTable.HasAction gi.indexedGrammar s id act)
    (ht : (gi.indexedGrammar.vocab.idToToken id : Outcome Unit _) = .ok tok) :
    Matchable gi tok ∧ (act = .accept → tok = .eos) ∧ (∀ n, act = .shift n → tok ≠ .eos) ∧
      ∀ i, act = .reduce i → ∃ r, gi.indexedGrammar.cfg[i]? = some r ∧ i ≠ 0 ∧
        Inside gi.indexedGrammar F kt i (rhs r).length s := by
  obtain ⟨γ, hγ⟩ := h.fit.built.exists_at hs
  have hE := h.fit.entries hγ
  obtain ⟨hid, hg⟩ := ha
  have hnode : ∀ {i d : Nat} {r : Rule Nat Nat} {β : List INode} {x : AugTokId},
      gi.indexedGrammar.cfg[i]? = some r → (rhs r).drop d = .terminal x :: β → x ≠ .epsilon ∧ x ≠ .eos := by
    intro i d r β x hr hd
    have hm : .terminal x ∈ rhs r := List.mem_of_mem_drop (by rw [hd]; simp)
    constructor
    · rintro rfl
      unfold rhs at hm
      rw [List.mem_filter] at hm
      cases hm.2
    · rintro rfl
      refine h.fit.noEos r (List.mem_of_getElem? hr) ?_
      unfold rhs at hm
      exact (List.mem_filter.mp hm).1
  have hlook : ∀ {γ : List INode} {i d : Nat} {t : AugTokId},
      ValidLook gi.indexedGrammar.cfg F.NodesFirst γ i d t → t ≠ .epsilon := by
    intro γ i d t hv
    induction hv with
    | root => simp
    | closeFirst _ _ _ _ hne _ => exact hne
    | closePass _ _ _ _ _ ih => exact ih
    | move _ _ _ ih => exact ih
  have hmatch : id ≠ .epsilon → Matchable gi tok := by
    intro hne
    cases id with
    | epsilon => exact absurd rfl hne
    | eos => cases ht; exact .inl rfl
    | token k =>
      obtain ⟨s, h1, rfl⟩ := idToToken_token ht
      exact .inr ⟨s, rfl, h.used s (List.mem_of_getElem? h1)⟩
  cases act with
  | accept =>
    have hd := (hE.accept Unit id hid).mp hg
    cases hd with
    | accept h1 h2 h3 =>
      subst h2
      exact ⟨hmatch (by simp), fun _ => (by cases ht; rfl), fun n e => (by cases e), fun i e => (by cases e)⟩
  | reduce i =>
    have hd := (hE.reduce Unit id i hid).mp hg
    cases hd with
    | reduce h1 h2 h3 =>
      refine ⟨hmatch (hlook h3), fun e => (by cases e), fun n e => (by cases e), fun j e => ?_⟩
      cases e
      exact ⟨_, h1, h2, γ, hγ, h3.valid⟩
  | shift n =>
    have hd := ((hE.shift Unit id n hid).mp hg).1
    cases hd with
    | shift h1 h2 h3 =>
      obtain ⟨h4, h5⟩ := hnode h2 h3
      refine ⟨hmatch h4, fun e => (by cases e), fun n e => ?_, fun j e => (by cases e)⟩
      cases id with
      | epsilon => exact absurd rfl h4
      | eos => exact absurd rfl h5
      | token k =>
        obtain ⟨s, -, rfl⟩ := idToToken_token ht
        simp

/-- Actions of a state. -/
theorem likeActions {s : Nat} (hs : s < gi.lrTable.numStates) :
    ∃ a l, LikeActions.build gi s = .ok a ∧ a.Collected l ∧
      (gi.lrTable.stateActions gi.indexedGrammar s : Outcome MacroError _) = .ok l ∧
      ∀ tok act, (tok, act) ∈ l ↔ ∃ id, gi.lrTable.HasAction gi.indexedGrammar s id act ∧
        (gi.indexedGrammar.vocab.idToToken id : Outcome Unit _) = .ok tok := by
  obtain ⟨l, h1, h2, h3⟩ := h.fit.built.stateActions_eq (ε := MacroError) hs
  have := collect_sat (E := fun _ => False) (X := False) (l := l) (fun tok ht => by
    obtain ⟨id, h4, h5⟩ := (h2 tok .accept).mp ht
    exact (h.tokens hs h4 h5).2.1 rfl) (h3 h.fit.vocab) ⟨[], [], none⟩ (by simp)
  cases hc : LikeActions.collect l ⟨[], [], none⟩ with
  | ok a =>
    have hb : LikeActions.build gi s = .ok a := by
      unfold LikeActions.build
      rw [h1]
      exact hc
    obtain ⟨l', h4, h5⟩ := LikeActions.build_spec hb
    rw [h1] at h4
    cases h4
    exact ⟨a, l, hb, h5, h1, h2⟩
  | _ => rw [hc] at this; exact this.elim

theorem bindNodes_sat {smap : StateMap Sym}
    (hrow : ∀ s < gi.lrTable.numStates, smap.Row gi.indexedGrammar gi.lrTable s) {site : List Nat}
    {i : Nat} {r : Rule Nat Nat} (hr : gi.indexedGrammar.cfg[i]? = some r) :
    ∀ (l : List (Nat × INode)) (S : List Nat), S ≠ [] → S.Nodup →
      (∃ β, rhs r = symbolsRev l ++ β) →
      (∀ s ∈ S, Inside gi.indexedGrammar F kt i (symbolsRev l).length s) →
      (bindNodes o lex smap site l S).Sat
        (fun p => p.2 ≠ [] ∧ p.2.Nodup ∧ ∀ s ∈ p.2, Inside gi.indexedGrammar F kt i 0 s)
        (Fails lex gi) (Stops lex gi) := by
  intro l
  induction l with
  | nil => intro S hne hnd _ hS; exact ⟨hne, hnd, hS⟩
  | cons p l ih =>
    obtain ⟨idx, node⟩ := p
    intro S hne hnd hβ hS
    unfold bindNodes
    cases hn : node.isEpsilon with
    | true =>
      rw [if_pos rfl]
      rw [symbolsRev_eps hn] at hβ hS
      exact ih S hne hnd hβ hS
    | false =>
      rw [if_neg (by simp)]
      have hord : ∀ x, x ∈ o.ord (site ++ [idx]) S ↔ x ∈ S := fun x => (o.perm _ _).mem_iff
      rw [symbolsRev_cons hn, List.length_append, List.length_singleton] at hS
      have hnode : (rhs r)[(symbolsRev l).length]? = some node := by
        obtain ⟨β, hβ⟩ := hβ
        rw [hβ, symbolsRev_cons hn]
        simp
      have hback : ∀ s ∈ S, ∃ ps, (∀ ε : Type, (smap.backEdges s : Outcome ε _) = .ok ps) ∧
          (∀ p, p ∈ ps ↔ ∃ t, Edge gi.indexedGrammar gi.lrTable p t s) ∧ ps ≠ [] ∧
          ∃ ty, (∀ ε : Type, (smap.stateType s : Outcome ε _) = .ok ty) ∧ Names gi.indexedGrammar ty node := by
        intro s hs
        have hin := hS s hs
        have hs0 := h.fit.inside_ne_zero hin
        obtain ⟨⟨ty, ps, e1, e2, -, -, e3⟩⟩ := hrow s (h.fit.inside_lt hin)
        obtain ⟨h1, h2, h3⟩ := e3 hs0
        obtain ⟨q, hq⟩ := List.exists_mem_of_ne_nil _ h1
        obtain ⟨t, ht⟩ := (h2 q).mp hq
        obtain ⟨X, hX, hN, -⟩ := h.fit.names_of_inside hr hin ht
        rw [hnode] at hX
        cases hX
        cases h3 q t ht
        exact ⟨ps, e2, h2, h1, _, e1, hN⟩
      obtain ⟨rep, hrep⟩ : ∃ rep, (o.ord (site ++ [idx]) S).head? = some rep := by
        cases hh : o.ord (site ++ [idx]) S with
        | nil =>
          obtain ⟨x, hx⟩ := List.exists_mem_of_ne_nil _ hne
          have := (hord x).mpr hx
          rw [hh] at this
          cases this
        | cons a _ => exact ⟨a, rfl⟩
      have hrepS : rep ∈ S := (hord _).mp (List.mem_of_head? hrep)
      obtain ⟨-, -, -, -, ty, e4, hN⟩ := hback rep hrepS
      obtain ⟨prev, hprev⟩ := unionBackEdges_ok (smap := smap) (S := o.ord (site ++ [idx]) S) [] fun s hs => by
        obtain ⟨ps, e1, -⟩ := hback s ((hord s).mp hs)
        exact ⟨ps, e1 _⟩
      have hpn := unionBackEdges_nodup (acc := []) List.nodup_nil hprev
      have hpe : prev ≠ [] := by
        obtain ⟨ps, e1, -, e3, -⟩ := hback rep hrepS
        obtain ⟨q, hq⟩ := List.exists_mem_of_ne_nil _ e3
        exact List.ne_nil_of_mem
          ((unionBackEdges_mem hprev q).mpr (.inr ⟨rep, (hord rep).mpr hrepS, ps, e1 _, hq⟩))
      have hprevI : ∀ p ∈ prev, Inside gi.indexedGrammar F kt i (symbolsRev l).length p := by
        intro p hp
        rw [unionBackEdges_mem hprev] at hp
        rcases hp with hp | ⟨s, hs, ps, h1, h2⟩
        · cases hp
        · have hs' := (hord s).mp hs
          obtain ⟨ps', e1, e2, -⟩ := hback s hs'
          rw [e1] at h1
          cases h1
          obtain ⟨t, ht⟩ := (e2 p).mp h2
          obtain ⟨X, -, -, hi⟩ := h.fit.names_of_inside hr (hS s hs') ht
          exact hi
      simp only [hrep, Outcome.unwrap_some, Outcome.ok_bind, e4]
      refine Outcome.Sat.bind (P := fun _ => True) ?_ fun variant _ _ => ?_
      · cases hN with
        | production => trivial
        | @terminal id tok hid =>
          cases id with
          | epsilon => simp [Node.isEpsilon] at hn
          | eos => cases hid; trivial
          | token k =>
            obtain ⟨s, h1, rfl⟩ := idToToken_token hid
            unfold extractVariant
            simp only
            split
            · rename_i hp
              refine (asIdent_sat (h.used s (List.mem_of_getElem? h1)) (.inr ?_)).bind fun _ _ _ => trivial
              intro he
              simp [Sym.isPattern, Sym.isWildcard, he] at hp
            · trivial
      · simp only [hprev, Outcome.ok_bind]
        refine (ih prev hpe hpn ?_ hprevI).bind fun p _ hp => hp
        obtain ⟨β, hβ⟩ := hβ
        exact ⟨node :: β, by rw [hβ, symbolsRev_cons hn]; simp⟩

theorem gotoMap_ok {i : Nat} {r : Rule Nat Nat} (hr : gi.indexedGrammar.cfg[i]? = some r) (hi : i ≠ 0)
    {S : List Nat} (hS : ∀ s ∈ S, Inside gi.indexedGrammar F kt i 0 s) (m : List (Nat × List Nat)) :
    ∃ m', gotoMap gi r.symbol S m = .ok m' := by
  induction S generalizing m with
  | nil => exact ⟨m, rfl⟩
  | cons s S ih =>
    obtain ⟨s', e, -⟩ := h.fit.goto_of_inside (ε := MacroError) hr hi (hS s (by simp))
    unfold gotoMap
    rw [e]
    simp only [Outcome.ok_bind, Outcome.unwrap_some]
    exact ih (fun s hs => hS s (by simp [hs])) _

theorem original_lt {i : Nat} {r : IRule} (hr : gi.indexedGrammar.rules[i]? = some r) :
    r.originalIndex < gi.productionRules.length := by
  obtain ⟨p, hp, -⟩ := h.enc.rule r (List.mem_of_getElem? hr)
  have := (List.getElem?_eq_some_iff.mp hp).1
  simpa [GrammarInfo.grammar] using this

theorem applyGoto_sat {site : List Nat} {i : Nat} {r : IRule} (hr : gi.indexedGrammar.rules[i]? = some r)
    (hi : i ≠ 0) (hu : Used gi r.originalIndex) {S : List Nat}
    (hS : ∀ s ∈ S, Inside gi.indexedGrammar F kt i 0 s) :
    (applyGoto o gi site r.originalIndex r.symbol S).Sat (fun _ => True) (Fails lex gi) (Stops lex gi) := by
  unfold applyGoto
  obtain ⟨m, hm⟩ := h.gotoMap_ok (cfg_get.mpr ⟨r, hr, rfl⟩) hi (S := o.ord (2 :: site) S)
    (fun s hs => hS s ((o.perm _ _).mem_iff.mp hs)) []
  have hm' : gotoMap gi r.symbol (o.ord (2 :: site) S) [] = .ok m := hm
  rw [hm']
  simp only [Outcome.ok_bind]
  refine (buildConstructor_sat (h.original_lt hr) hu).bind fun c _ _ => ?_
  split <;> trivial

theorem reduceArms_sat {smap : StateMap Sym}
    (hrow : ∀ s < gi.lrTable.numStates, smap.Row gi.indexedGrammar gi.lrTable s) {s : Nat}
    {l : List (Nat × List (AugTok Sym))}
    (hl : ∀ p ∈ l, (∀ tok ∈ p.2, Matchable gi tok) ∧ ∃ r, gi.indexedGrammar.cfg[p.1]? = some r ∧ p.1 ≠ 0 ∧
      Inside gi.indexedGrammar F kt p.1 (rhs r).length s)
    (hu : ∀ p ∈ l, ∀ r, gi.indexedGrammar.rules[p.1]? = some r → Used gi r.originalIndex) :
    (reduceArms o lex gi smap s l).Sat (fun _ => True) (Fails lex gi) (Stops lex gi) := by
  induction l with
  | nil => trivial
  | cons p l ih =>
    obtain ⟨i, toks⟩ := p
    obtain ⟨h1, r, h2, h3, h4⟩ := hl _ (List.mem_cons_self ..)
    simp only at h1 h2 h3 h4
    obtain ⟨q, hq, rfl⟩ := cfg_get.mp h2
    unfold reduceArms
    refine (tokenMatchers_sat h1).bind fun ms _ _ => ?_
    have hrule : (gi.indexedGrammar.productionRule i : Outcome MacroError _) = .ok q :=
      Outcome.index_eq_ok.mpr hq
    rw [hrule]
    simp only [Outcome.ok_bind]
    have hrhs : rhs q.rule = symbolsRev (indexedNodesRev q.nodes) := by
      rw [symbolsRev_indexed]; rfl
    refine (h.bindNodes_sat hrow h2 (indexedNodesRev q.nodes) [s] (by simp) (by simp)
      ⟨[], by rw [hrhs, List.append_nil]⟩ ?_).bind fun pf _ hpf => ?_
    · intro s' hs'
      rw [List.mem_singleton] at hs'
      subst hs'
      rw [← hrhs]
      exact h4
    · refine (h.applyGoto_sat hq h3 (hu _ (List.mem_cons_self ..) q hq) hpf.2.2).bind fun _ _ _ => ?_
      exact (ih (fun p hp => hl p (by simp [hp])) fun p hp => hu p (by simp [hp])).bind fun _ _ _ => trivial

/-- Without a root rule that mentions the root, the root rule begins only at the beginning. -/
theorem root_begin (hroot : RootNotRecursive gi.grammar) {s : Nat}
    (hi : Inside gi.indexedGrammar F kt 0 0 s) : s = 0 := by
  obtain ⟨γ, hat, hv⟩ := hi
  have hfree := h.enc.rootFree hroot
  have key : ∀ {γ : List INode} {j d : Nat}, Valid gi.indexedGrammar.cfg γ j d → j = 0 → d = 0 → γ = [] := by
    intro γ j d hv
    cases hv with
    | root => exact fun _ _ => rfl
    | @close _ i d' _ r r' β h1 h2 h3 h4 =>
      rintro rfl -
      exfalso
      obtain ⟨q, hq, rfl⟩ := cfg_get.mp h2
      obtain ⟨q', hq', rfl⟩ := cfg_get.mp h4
      have h0 : q'.symbol = 0 := (h.fit.wf.root 0 q' hq').mpr rfl
      have hm : .production q'.symbol ∈ rhs q.rule := List.mem_of_mem_drop (by rw [h3]; exact List.mem_cons_self ..)
      rw [h0] at hm
      refine hfree q (List.mem_of_getElem? hq) ?_
      unfold rhs at hm
      exact (List.mem_filter.mp hm).1
    | move _ _ _ => rintro - hd; cases hd
  have hγ := key hv rfl rfl
  subst hγ
  obtain ⟨k, h1, h2⟩ := hat
  obtain ⟨k', h3, h4⟩ := h.fit.built.at_nil
  rw [h1.det h3] at h2
  exact getElem?_inj_of_nodup h.fit.built.wf.nodup h2 h4

theorem acceptArm_sat {smap : StateMap Sym}
    (hrow : ∀ s < gi.lrTable.numStates, smap.Row gi.indexedGrammar gi.lrTable s) {s : Nat}
    {tok : Option (AugTok Sym)}
    (ht : ∀ t, tok = some t → t = .eos ∧ ∃ r, gi.indexedGrammar.cfg[0]? = some r ∧
      Inside gi.indexedGrammar F kt 0 (rhs r).length s) :
    (acceptArm o lex gi smap s tok).Sat (fun _ => True) (Fails lex gi) (Stops lex gi) := by
  cases tok with
  | none => trivial
  | some t =>
    obtain ⟨rfl, r, hr, hin⟩ := ht t rfl
    obtain ⟨q, hq, rfl⟩ := cfg_get.mp hr
    unfold acceptArm
    refine (tokenMatcher_sat (.inl rfl)).bind fun ms _ _ => ?_
    have hrule : (gi.indexedGrammar.productionRule IndexedGrammar.rootRule : Outcome MacroError _) = .ok q :=
      Outcome.index_eq_ok.mpr hq
    rw [hrule]
    simp only [Outcome.ok_bind]
    have hrhs : rhs q.rule = symbolsRev (indexedNodesRev q.nodes) := by
      rw [symbolsRev_indexed]; rfl
    refine (h.bindNodes_sat hrow hr (indexedNodesRev q.nodes) [s] (by simp) (by simp)
      ⟨[], by rw [hrhs, List.append_nil]⟩ ?_).bind fun pf _ hpf => ?_
    · intro s' hs'
      rw [List.mem_singleton] at hs'
      subst hs'
      rw [← hrhs]
      exact hin
    · obtain ⟨pops, states⟩ := pf
      simp only at hpf ⊢
      refine Outcome.Sat.bind (P := fun _ => True) ?_ fun _ _ _ => ?_
      · by_cases hroot : RootNotRecursive gi.grammar
        · have : states = [0] := by
            obtain ⟨h1, h2, h3⟩ := hpf
            match states, h1, h2, h3 with
            | [a], _, _, h3 => rw [h.root_begin hroot (h3 a (by simp))]
            | a :: b :: l, _, h2, h3 =>
              have ha := h.root_begin hroot (h3 a (by simp))
              have hb := h.root_begin hroot (h3 b (by simp))
              subst ha; subst hb
              simp at h2
          subst this
          rw [List.perm_singleton.mp (o.perm [6, s] [0])]
          trivial
        · cases (o.ord [6, s] states == [LRTable.rootState]) with
          | true => trivial
          | false => exact .inr hroot
      · refine (buildConstructor_sat (k := 0) ?_ (.inl rfl)).bind fun _ _ _ => trivial
        obtain ⟨r0, h1, h2⟩ := h.enc.root
        have := h.original_lt h1
        rwa [h2] at this

theorem shiftArms_sat {l : List (AugTok Sym × Nat)}
    (hl : ∀ p ∈ l, Matchable gi p.1 ∧ p.1 ≠ .eos) :
    (LikeActions.shiftArms lex gi l).Sat (fun _ => True) (Fails lex gi) (Stops lex gi) := by
  induction l with
  | nil => trivial
  | cons p l ih =>
    obtain ⟨tok, next⟩ := p
    obtain ⟨h1, h2⟩ := hl _ (List.mem_cons_self ..)
    simp only at h1 h2
    unfold LikeActions.shiftArms
    refine (tokenMatcher_sat h1).bind fun ms _ _ => ?_
    rcases h1 with rfl | ⟨s, rfl, hs⟩
    · exact absurd rfl h2
    · refine Outcome.Sat.bind (P := fun x => x = s) (by rfl) fun x _ hx => ?_
      subst hx
      refine (tryBuildRhs_sat hs).bind fun _ _ _ => ?_
      exact (ih fun p hp => hl p (by simp [hp])).bind fun _ _ _ => trivial

theorem generateState_sat {smap : StateMap Sym}
    (hrow : ∀ s < gi.lrTable.numStates, smap.Row gi.indexedGrammar gi.lrTable s) {s : Nat}
    (hs : s < gi.lrTable.numStates) :
    (generateState o lex gi smap s).Sat (fun _ => True) (Fails lex gi) (Stops lex gi) := by
  obtain ⟨a, l, h1, h2, -, h3⟩ := h.likeActions hs
  have htok : ∀ tok act, (tok, act) ∈ l →
      Matchable gi tok ∧ (act = .accept → tok = .eos) ∧ (∀ n, act = .shift n → tok ≠ .eos) ∧
        ∀ i, act = .reduce i → ∃ r, gi.indexedGrammar.cfg[i]? = some r ∧ i ≠ 0 ∧
          Inside gi.indexedGrammar F kt i (rhs r).length s := fun tok act hm => by
    obtain ⟨id, h4, h5⟩ := (h3 tok act).mp hm
    exact h.tokens hs h4 h5
  unfold generateState
  rw [h1]
  simp only [Outcome.ok_bind]
  refine Outcome.Sat.bind (P := fun _ => True) ?_ fun ov _ _ => ?_
  · unfold LikeActions.overlapCheck
    split
    · trivial
    · refine tokenMatchers_sat fun tok ht => ?_
      have := (LikeActions.allLookahead_perm o s a).mem_iff.mp (List.mem_filter.mp ht).1
      obtain ⟨⟨t, act⟩, h4, rfl⟩ := List.mem_map.mp (h2.perm.mem_iff.mp this)
      exact (htok t act h4).1
  refine Outcome.Sat.bind (P := fun _ => True) (h.reduceArms_sat hrow ?_ ?_) fun reduces _ _ => ?_
  · rintro ⟨i, toks⟩ hp
    have hp' : (i, toks) ∈ a.reduceMap := (o.perm _ _).mem_iff.mp hp
    have hall : ∀ tok ∈ toks, (tok, .reduce i) ∈ l := fun tok ht => (h2.reduce tok i).mp ⟨toks, hp', ht⟩
    refine ⟨fun tok ht => (htok tok _ (hall tok ht)).1, ?_⟩
    have hne : toks ≠ [] := build_nonempty h1 _ hp'
    obtain ⟨tok, ht⟩ := List.exists_mem_of_ne_nil _ hne
    exact (htok tok _ (hall tok ht)).2.2.2 i rfl
  · rintro ⟨i, toks⟩ hp r hr
    have hp' : (i, toks) ∈ a.reduceMap := (o.perm _ _).mem_iff.mp hp
    obtain ⟨tok, ht⟩ := List.exists_mem_of_ne_nil _ (build_nonempty h1 _ hp')
    obtain ⟨id, h4, -⟩ := (h3 tok _).mp ((h2.reduce tok i).mp ⟨toks, hp', ht⟩)
    exact .inr ⟨s, hs, id, i, r, h4, hr, rfl⟩
  refine Outcome.Sat.bind (P := fun _ => True) (h.acceptArm_sat hrow ?_) fun accept _ _ => ?_
  · intro t ht
    have hm := (h2.accept t).mp ht
    refine ⟨(htok t _ hm).2.1 rfl, ?_⟩
    obtain ⟨id, ⟨h4, h5⟩, -⟩ := (h3 t _).mp hm
    obtain ⟨γ, hγ⟩ := h.fit.built.exists_at hs
    cases ((h.fit.entries hγ).accept Unit id h4).mp h5 with
    | accept h6 _ h7 => exact ⟨_, h6, γ, hγ, h7⟩
  refine Outcome.Sat.bind (P := fun _ => True) (h.shiftArms_sat ?_) fun shifts _ _ => trivial
  rintro ⟨tok, n⟩ hp
  have hm := (h2.shift tok n).mp hp
  exact ⟨(htok tok _ hm).1, (htok tok _ hm).2.2.1 n rfl⟩

theorem generateStates_sat {smap : StateMap Sym}
    (hrow : ∀ s < gi.lrTable.numStates, smap.Row gi.indexedGrammar gi.lrTable s) {l : List Nat}
    (hl : ∀ s ∈ l, s < gi.lrTable.numStates) :
    (generateStates o lex gi smap l).Sat (fun _ => True) (Fails lex gi) (Stops lex gi) := by
  induction l with
  | nil => trivial
  | cons s l ih =>
    refine (h.generateState_sat hrow (hl s (by simp))).bind fun _ _ _ => ?_
    exact (ih fun s hs => hl s (by simp [hs])).bind fun _ _ _ => trivial

theorem stateDataTypes_ok {smap : StateMap Sym}
    (hrow : ∀ s < gi.lrTable.numStates, smap.Row gi.indexedGrammar gi.lrTable s) {l : List Nat}
    (hl : ∀ s ∈ l, s < gi.lrTable.numStates) :
    ∃ tys, stateDataTypes gi smap l = .ok tys := by
  induction l with
  | nil => exact ⟨[], rfl⟩
  | cons s l ih =>
    obtain ⟨tys, h1⟩ := ih fun s hs => hl s (by simp [hs])
    have hs := hl s (by simp)
    obtain ⟨⟨ty, ps, e1, -, -, e2, e3⟩⟩ := hrow s hs
    have : ∃ x, stateDataType gi smap s = .ok x := by
      unfold stateDataType
      rw [e1]
      simp only [Outcome.ok_bind]
      cases ty with
      | root => exact ⟨_, rfl⟩
      | terminal _ => exact ⟨_, rfl⟩
      | reduce lab =>
        have hs0 : s ≠ 0 := by
          intro h0
          cases (e2 h0).1
        obtain ⟨h2, h3, h4⟩ := e3 hs0
        obtain ⟨q, hq⟩ := List.exists_mem_of_ne_nil _ h2
        obtain ⟨t, ht⟩ := (h3 q).mp hq
        have := h4 q t ht
        subst this
        cases ht with
        | goto _ hg =>
          obtain ⟨x, h5, ty, h6⟩ := h.types lab hg.1
          exact ⟨ty, by simp only [h5, Outcome.ok_bind, h6]⟩
    obtain ⟨x, hx⟩ := this
    exact ⟨x :: tys, by simp only [stateDataTypes, hx, Outcome.ok_bind, h1, Outcome.pure_eq]⟩

/-- **The outcomes of the code generator.** -/
theorem generateParser_sat :
    (generateParser o lex gi).Sat (fun _ => True) (Fails lex gi) (Stops lex gi) := by
  obtain ⟨m, hm, -, hrow⟩ := h.fit.built.stateMap o h.fit.wf h.fit.res.wf
  have hlt : ∀ s ∈ gi.lrTable.states, s < gi.lrTable.numStates := by
    intro s hs
    simpa [LRTable.states] using hs
  obtain ⟨tys, ht⟩ := h.stateDataTypes_ok hrow hlt
  have h0 : 0 < gi.indexedGrammar.labelsCount := by
    obtain ⟨r0, h1, -⟩ := h.enc.root
    have h2 := h.fit.wf.symbol r0 (List.mem_of_getElem? h1)
    omega
  obtain ⟨x, h1, ty, h2⟩ := h.types 0 h0
  unfold generateParser
  have h1' : (gi.indexedGrammar.origLabel IndexedGrammar.rootLabel : Outcome MacroError _) = .ok x := h1
  simp only [hm, Outcome.mapErr, Outcome.ok_bind, h1', h2, ht]
  exact (h.generateStates_sat hrow hlt).bind fun _ _ _ => trivial

end GenIn

/-! ### What a generated parser says about its grammar -/

/-- Every rule of a reachable label can be begun. -/
theorem Spec.Reachable.valid {ig : IndexedGrammar Sym String} (hw : ig.WF) {l : Nat}
    (h : Reachable ig.cfg 0 l) : ∀ (j : Nat) (r : Rule Nat Nat), ig.cfg[j]? = some r → r.symbol = l →
      ∃ γ, Valid ig.cfg γ j 0 := by
  induction h with
  | root =>
    intro j r hr hs
    obtain ⟨q, hq, rfl⟩ := cfg_get.mp hr
    have : j = 0 := (hw.root j q hq).mp hs
    subst this
    exact ⟨[], .root⟩
  | @step q l hq hm hp ih =>
    intro j r hr hs
    obtain ⟨i, hi⟩ := List.mem_iff_getElem?.mp hm
    obtain ⟨γ, hγ⟩ := ih i q hi rfl
    have hp' : .production l ∈ rhs q := by
      unfold rhs
      rw [List.mem_filter]
      exact ⟨hp, rfl⟩
    obtain ⟨α, β, hαβ⟩ := List.append_of_mem hp'
    have := hγ.extend hi (α := α) (β := .production l :: β) (by simpa using hαβ)
    rw [Nat.zero_add] at this
    subst hs
    exact ⟨γ ++ α, .close this hi (β := β) (by rw [hαβ]; simp) hr⟩

/-- Terminals that can be part of generated code. -/
def Writable (lex : Lexer) (gi : GrammarInfo) (s : Sym) : Prop :=
  match gi.terminalType with
  | .raw _ => s.paren = .none ∧ lex.isLiteral s.name = true
  | .enum _ => lex.isIdent s.name = true

theorem writable_of_matcher {s : Sym} {m : Matcher} (h : tokenMatcher lex gi.terminalType (.token s) = .ok m) :
    Writable lex gi s := by
  unfold Writable
  simp only [tokenMatcher, Outcome.bind_eq_ok] at h
  obtain ⟨p, h, -⟩ := h
  unfold tryBuildPattern at h
  split at h
  · rename_i ty e
    rw [e]
    rw [Outcome.bind_eq_ok] at h
    obtain ⟨x, h, -⟩ := h
    unfold Sym.asLiteral at h
    split at h
    · cases h
    · rename_i hp
      split at h
      · rename_i hl
        exact ⟨by simpa using hp, hl⟩
      · cases h
  · rename_i ty e
    rw [e]
    rw [Outcome.bind_eq_ok] at h
    obtain ⟨x, h, -⟩ := h
    unfold Sym.asIdent at h
    rw [Outcome.bind_eq_ok] at h
    obtain ⟨_, h, -⟩ := h
    exact Outcome.assert_eq_ok.mp h

namespace GenCode
variable {prog : Program} (h : GenCode o lex gi prog F kt)
include h

theorem code_of_state {s : Nat} (hs : s < gi.lrTable.numStates) :
    ∃ smap code, generateState o lex gi smap s = .ok code := by
  obtain ⟨γ, hγ⟩ := h.fit.built.exists_at hs
  obtain ⟨smap, code, -, -, h1⟩ := h.code hγ
  exact ⟨smap, code, h1⟩

/-- Every terminal of the grammar is shifted somewhere. -/
theorem terminal_shifted
    (hreach : ∀ l, l < gi.indexedGrammar.labelsCount → Reachable gi.indexedGrammar.cfg 0 l)
    {t : Sym} (ht : gi.Terminal t) : ∃ s < gi.lrTable.numStates, ∃ k n,
      gi.lrTable.HasAction gi.indexedGrammar s (.token k) (.shift n) ∧
      gi.indexedGrammar.vocab.idMap[k]? = some t := by
  obtain ⟨ar, har, hmem⟩ := ht
  obtain ⟨n, hn⟩ := List.mem_iff_getElem?.mp har
  have hlt : n < gi.grammar.productions.length := by
    simpa [GrammarInfo.grammar] using (List.getElem?_eq_some_iff.mp hn).1
  have : n ∈ gi.indexedGrammar.rules.map (·.originalIndex) := h.enc.perm.mem_iff.mpr (by simpa using hlt)
  obtain ⟨q, hq, rfl⟩ := List.mem_map.mp this
  obtain ⟨p, hp, -, hnodes⟩ := h.enc.rule q hq
  have hpe : p = ar.toLr := by
    simp only [GrammarInfo.grammar, List.getElem?_map, hn, Option.map_some, Option.some.injEq] at hp
    exact hp.symm
  subst hpe
  obtain ⟨x, hx, hR⟩ := forall₂_mem_left hnodes (a := .terminal (.token t)) (by
    simp only [ARule.toLr, List.mem_map]
    exact ⟨_, hmem, rfl⟩)
  cases x with
  | production _ => exact hR.elim
  | terminal x =>
    cases x with
    | epsilon => exact hR.elim
    | eos => exact hR.elim
    | token k =>
      have hk : gi.indexedGrammar.vocab.idMap[k]? = some t := hR
      obtain ⟨i, hi⟩ := List.mem_iff_getElem?.mp hq
      have hr : gi.indexedGrammar.cfg[i]? = some q.rule := cfg_get.mpr ⟨q, hi, rfl⟩
      obtain ⟨γ, hγ⟩ := (hreach q.symbol (h.fit.wf.symbol q hq)).valid h.fit.wf i q.rule hr rfl
      have hx' : .terminal (.token k) ∈ rhs q.rule := by
        unfold rhs
        rw [List.mem_filter]
        exact ⟨hx, rfl⟩
      obtain ⟨α, β, hαβ⟩ := List.append_of_mem hx'
      have hv := hγ.extend hr (α := α) (β := .terminal (.token k) :: β) (by simpa using hαβ)
      rw [Nat.zero_add] at hv
      have hd : (rhs q.rule).drop α.length = .terminal (.token k) :: β := by rw [hαβ]; simp
      obtain ⟨s, hs⟩ := h.fit.at_of_valid hv
      obtain ⟨s', hs'⟩ := h.fit.at_of_valid (.move hv hr hd)
      have hE := h.fit.entries hs
      have hid : Label.id (.token k : AugTokId) < gi.indexedGrammar.vocab.size := by
        have := (List.getElem?_eq_some_iff.mp hk).1
        simp only [Label.id, Vocab.size]
        omega
      exact ⟨s, hE.lt, k, s', ⟨hid, (hE.shift Unit _ s' hid).mpr ⟨.shift hv hr hd, hs'⟩⟩, hk⟩

/-- All terminals can be part of generated code. -/
theorem writable
    (hreach : ∀ l, l < gi.indexedGrammar.labelsCount → Reachable gi.indexedGrammar.cfg 0 l)
    {t : Sym} (ht : gi.Terminal t) : Writable lex gi t := by
  obtain ⟨s, hs, k, n, ha, hk⟩ := h.terminal_shifted hreach ht
  obtain ⟨γ, hγ⟩ := h.fit.built.exists_at hs
  obtain ⟨smap, code, -, -, hgen⟩ := h.code hγ
  unfold generateState at hgen
  simp only [Outcome.bind_eq_ok] at hgen
  obtain ⟨acts, hacts, ov, hov, reduces, hreduces, accept, haccept, shifts, hshifts, -⟩ := hgen
  obtain ⟨l, hl, -, hact⟩ := h.action_tokens hγ hacts
  have htok : (gi.indexedGrammar.vocab.idToToken (.token k) : Outcome Unit _) = .ok (.token t) := by
    simp [Vocab.idToToken, Outcome.index_eq_ok.mpr hk]
  have hm := (hl.shift (.token t) n).mpr ((hact _ _).mpr ⟨_, ha, htok⟩)
  obtain ⟨arm, -, hf⟩ := forall₂_mem_left (shiftArms_spec hshifts) hm
  exact writable_of_matcher hf.matcher

/-- The constructors that are used are correct. -/
theorem constructors {k : Nat} (hu : Used gi k) : ∃ c, buildConstructor gi k = .ok c := by
  rcases hu with rfl | ⟨s, hs, id, i, r, ha, hr, rfl⟩
  · obtain ⟨q, hq, h0⟩ := h.enc.root
    have hr : gi.indexedGrammar.cfg[0]? = some q.rule := cfg_get.mpr ⟨q, hq, rfl⟩
    have hv : Valid gi.indexedGrammar.cfg (rhs q.rule) 0 (rhs q.rule).length := by
      have := (Valid.root (P := gi.indexedGrammar.cfg)).extend hr (α := rhs q.rule) (β := []) (by simp)
      simpa using this
    obtain ⟨s, hs⟩ := h.fit.at_of_valid hv
    obtain ⟨smap, code, -, -, hgen⟩ := h.code hs
    unfold generateState at hgen
    simp only [Outcome.bind_eq_ok] at hgen
    obtain ⟨acts, hacts, ov, hov, reduces, hreduces, accept, haccept, -⟩ := hgen
    obtain ⟨l, hl, -, hact⟩ := h.action_tokens hs hacts
    have hin : (AugTok.eos, Action.accept) ∈ l := by
      refine (hact _ _).mpr ⟨.eos, ⟨?_, ?_⟩, rfl⟩
      · simp [Label.id, Vocab.size]
      · exact ((h.fit.entries hs).accept Unit .eos (by simp [Label.id, Vocab.size])).mpr (.accept hr rfl hv)
    have hsome := (hl.accept _).mpr hin
    rw [hsome] at haccept
    simp only [acceptArm, Outcome.bind_eq_ok] at haccept
    obtain ⟨-, -, -, -, -, -, -, -, ctor, hctor, -⟩ := haccept
    exact ⟨ctor, hctor⟩
  · obtain ⟨γ, hγ⟩ := h.fit.built.exists_at hs
    obtain ⟨smap, code, -, -, hgen⟩ := h.code hγ
    unfold generateState at hgen
    simp only [Outcome.bind_eq_ok] at hgen
    obtain ⟨acts, hacts, ov, hov, reduces, hreduces, -⟩ := hgen
    obtain ⟨l, hl, -, hact⟩ := h.action_tokens hγ hacts
    obtain ⟨tok, htok⟩ := Vocab.idToToken_total ha.1
    obtain ⟨toks, h1, h2⟩ := (hl.reduce tok i).mpr ((hact _ _).mpr ⟨id, ha, htok _⟩)
    have h1' : (i, toks) ∈ acts.reduces o s := (o.perm _ _).mem_iff.mpr h1
    obtain ⟨arm, -, hf⟩ := forall₂_mem_left (reduceArms_spec hreduces) h1'
    obtain ⟨rule, states, h3, -, h4⟩ := hf.rest
    rw [hr] at h3
    cases h3
    unfold applyGoto at h4
    rw [Outcome.bind_eq_ok] at h4
    obtain ⟨_, -, h4⟩ := h4
    rw [Outcome.bind_eq_ok] at h4
    obtain ⟨c, h4, -⟩ := h4
    exact ⟨c, h4⟩

/-- The root rule of the user's grammar does not mention the root. -/
theorem rootNotRecursive : RootNotRecursive gi.grammar := by
  intro root rest hg hm
  obtain ⟨q, hq, h0⟩ := h.enc.root
  obtain ⟨p, hp, hl, hn⟩ := h.enc.rule q (List.mem_of_getElem? hq)
  rw [h0, hg] at hp
  cases hp
  obtain ⟨x, hx, hR⟩ := forall₂_mem_left hn hm
  cases x with
  | terminal _ => exact hR.elim
  | production l =>
    have hl' : gi.indexedGrammar.labels[l]? = some root.symbol := hR
    have := getElem?_inj_of_nodup h.enc.labels_nodup hl hl'
    subst this
    refine h.root_free (cfg_get.mpr ⟨q, hq, rfl⟩) ?_
    unfold rhs
    rw [List.mem_filter]
    exact ⟨hx, rfl⟩

end GenCode
end
end Verif
