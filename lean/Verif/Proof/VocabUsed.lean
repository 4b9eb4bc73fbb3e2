import Verif.Proof.IndexedGrammar3
import Verif.Model.CodeGen

/-!
# Every token of the vocabulary occurs in a rule of the grammar
-/

set_option linter.unusedSectionVars false
set_option autoImplicit false

namespace Verif
namespace IndexedGrammar

variable {T L : Type} [DecidableEq T] [DecidableEq L]

theorem indexNodes_used {lm : List (L × Nat)} : ∀ {nodes : List (Node T L)} {v v' : Vocab T}
    {ns : List INode}, indexNodes lm nodes v = .ok (ns, v') →
    ∀ t ∈ v'.idMap, t ∈ v.idMap ∨ .terminal (.token t) ∈ nodes := by
  intro nodes
  induction nodes with
  | nil =>
    intro v v' ns h t ht
    simp only [indexNodes, Outcome.pure_eq, Outcome.ok.injEq, Prod.mk.injEq] at h
    obtain ⟨-, rfl⟩ := h
    exact .inl ht
  | cons n rest ih =>
    intro v v' ns h t ht
    cases n with
    | production l =>
      simp only [indexNodes] at h
      split at h
      · exact absurd h (by simp)
      · obtain ⟨⟨ns1, v1⟩, e1, e2⟩ := Outcome.bind_eq_ok.mp h
        simp only [Outcome.pure_eq, Outcome.ok.injEq, Prod.mk.injEq] at e2
        obtain ⟨-, rfl⟩ := e2
        rcases ih e1 t ht with h' | h'
        · exact .inl h'
        · exact .inr (List.mem_cons_of_mem _ h')
    | terminal x =>
      simp only [indexNodes] at h
      obtain ⟨⟨ns1, v1⟩, e1, e2⟩ := Outcome.bind_eq_ok.mp h
      simp only [Outcome.pure_eq, Outcome.ok.injEq, Prod.mk.injEq] at e2
      obtain ⟨-, rfl⟩ := e2
      rcases ih e1 t ht with h' | h'
      · cases x with
        | token s =>
          simp only [Vocab.getIdOrInsert] at h'
          split at h'
          · exact .inl h'
          · simp only [List.mem_append, List.mem_singleton] at h'
            rcases h' with h' | rfl
            · exact .inl h'
            · exact .inr (List.mem_cons_self ..)
        | epsilon => exact .inl h'
        | eos => exact .inl h'
      · exact .inr (List.mem_cons_of_mem _ h')

theorem indexGroup_used {lm : List (L × Nat)} {label : Nat} :
    ∀ {rules : List (Rule T L × Nat)} {v v' : Vocab T} {rs : List IRule},
    indexGroup lm label rules v = .ok (rs, v') →
    ∀ t ∈ v'.idMap, t ∈ v.idMap ∨ ∃ p ∈ rules, .terminal (.token t) ∈ p.1.rule := by
  intro rules
  induction rules with
  | nil =>
    intro v v' rs h t ht
    simp only [indexGroup, Outcome.pure_eq, Outcome.ok.injEq, Prod.mk.injEq] at h
    obtain ⟨-, rfl⟩ := h
    exact .inl ht
  | cons p rest ih =>
    intro v v' rs h t ht
    obtain ⟨p, i⟩ := p
    simp only [indexGroup] at h
    obtain ⟨⟨ns1, v1⟩, e1, e2⟩ := Outcome.bind_eq_ok.mp h
    obtain ⟨⟨rs2, v2⟩, e3, e4⟩ := Outcome.bind_eq_ok.mp e2
    simp only [Outcome.pure_eq, Outcome.ok.injEq, Prod.mk.injEq] at e4
    obtain ⟨-, rfl⟩ := e4
    rcases ih e3 t ht with h' | ⟨q, hq, h'⟩
    · rcases indexNodes_used e1 t h' with h'' | h''
      · exact .inl h''
      · exact .inr ⟨(p, i), List.mem_cons_self .., h''⟩
    · exact .inr ⟨q, List.mem_cons_of_mem _ hq, h'⟩

theorem indexGroups_used {lm : List (L × Nat)} :
    ∀ {groups : List (LabelGroup T L)} {label : Nat} {v v' : Vocab T} {rs : List IRule},
    indexGroups lm label groups v = .ok (rs, v') →
    ∀ t ∈ v'.idMap, t ∈ v.idMap ∨ ∃ gr ∈ groups, ∃ p ∈ gr.rules, .terminal (.token t) ∈ p.1.rule := by
  intro groups
  induction groups with
  | nil =>
    intro label v v' rs h t ht
    simp only [indexGroups, Outcome.pure_eq, Outcome.ok.injEq, Prod.mk.injEq] at h
    obtain ⟨-, rfl⟩ := h
    exact .inl ht
  | cons g rest ih =>
    intro label v v' rs h t ht
    simp only [indexGroups] at h
    obtain ⟨⟨ns1, v1⟩, e1, e2⟩ := Outcome.bind_eq_ok.mp h
    obtain ⟨⟨rs2, v2⟩, e3, e4⟩ := Outcome.bind_eq_ok.mp e2
    simp only [Outcome.pure_eq, Outcome.ok.injEq, Prod.mk.injEq] at e4
    obtain ⟨-, rfl⟩ := e4
    rcases ih e3 t ht with h' | ⟨q, hq, h'⟩
    · rcases indexGroup_used e1 t h' with h'' | h''
      · exact .inl h''
      · exact .inr ⟨g, List.mem_cons_self .., h''⟩
    · exact .inr ⟨q, List.mem_cons_of_mem _ hq, h'⟩

/-- Every token of the vocabulary of an indexed grammar occurs in a rule of the grammar. -/
theorem build_used {g : Grammar T L} {ig : IndexedGrammar T L} (h : build g = .ok ig) :
    ∀ t ∈ ig.vocab.idMap, ∃ r ∈ g.productions, .terminal (.token t) ∈ r.rule := by
  obtain ⟨ps⟩ := g
  cases ps with
  | nil => simp [build, buildFromGrammar] at h
  | cons root rest =>
    have hinv0 : Groups.Inv (T := T) ⟨[(root.symbol, rootLabel)], [⟨root.symbol, [(root, 0)]⟩]⟩
        [(root, 0)] := .init root
    obtain ⟨p, h2, h'⟩ := Outcome.bind_eq_ok.mp
      (show (buildFromGrammar ⟨root :: rest⟩ >>= fun p => pure p.1) = .ok ig from h)
    obtain ⟨ig', lm⟩ := p
    simp only [Outcome.pure_eq, Outcome.ok.injEq] at h'
    subst h'
    simp only [buildFromGrammar] at h2
    obtain ⟨st, e1, h2⟩ := Outcome.bind_eq_ok.mp h2
    obtain ⟨⟨rs, v⟩, e2, h2⟩ := Outcome.bind_eq_ok.mp h2
    obtain ⟨_, -, h2⟩ := Outcome.bind_eq_ok.mp h2
    simp only [Outcome.pure_eq, Outcome.ok.injEq, Prod.mk.injEq] at h2
    obtain ⟨rfl, -⟩ := h2
    rcases groupLoop_spec root.symbol rest 1 hinv0 with
      ⟨st', e, hinv, -⟩ | ⟨_, _, _, _, _, ⟨-, e⟩ | ⟨-, -, e⟩⟩
    · rw [e1] at e
      cases e
      have hinv' : st.Inv ((root :: rest).zipIdx) := by simpa using hinv
      intro t ht
      rcases indexGroups_used e2 t ht with h' | ⟨gr, hgr, p, hp, hm⟩
      · simp [Vocab.new] at h'
      · rw [hinv'.rules gr hgr, List.mem_filter] at hp
        exact ⟨p.1, List.fst_mem_of_mem_zipIdx hp.1, hm⟩
    · rw [e1] at e; exact absurd e (by simp)
    · rw [e1] at e; exact absurd e (by simp)

end IndexedGrammar
end Verif
