import Mathlib.Data.List.Forall2
import Mathlib.Data.List.Perm.Basic
import Verif.Spec.Reproduce
import Verif.Proof.GenTotal

/-!
# The generated code up to order
-/

set_option linter.unusedSectionVars false
set_option autoImplicit false

namespace Verif
open Spec CodeGen

/-- If the first succeeds, so does the second, with a related result. -/
def Carries {ε α β : Type} (R : α → β → Prop) (x : Outcome ε α) (y : Outcome ε β) : Prop :=
  ∀ a, x = .ok a → ∃ b, y = .ok b ∧ R a b

namespace Carries
variable {ε α β γ δ : Type}

theorem bind {R : α → β → Prop} {Q : γ → δ → Prop} {x : Outcome ε α} {y : Outcome ε β} {f : α → Outcome ε γ}
    {g : β → Outcome ε δ} (h : Carries R x y) (hf : ∀ a b, R a b → Carries Q (f a) (g b)) :
    Carries Q (x >>= f) (y >>= g) := by
  intro c hc
  rw [Outcome.bind_eq_ok] at hc
  obtain ⟨a, h1, h2⟩ := hc
  obtain ⟨b, h3, h4⟩ := h a h1
  obtain ⟨d, h5, h6⟩ := hf a b h4 c h2
  exact ⟨d, by rw [h3, Outcome.ok_bind, h5], h6⟩

theorem pure {R : α → β → Prop} {a : α} {b : β} (h : R a b) :
    Carries R (Pure.pure a : Outcome ε α) (Pure.pure b : Outcome ε β) := by
  intro x hx
  cases hx
  exact ⟨b, rfl, h⟩

theorem refl (x : Outcome ε α) : Carries Eq x x := fun a h => ⟨a, h, rfl⟩

theorem trans {R : α → β → Prop} {Q : β → γ → Prop} {x : Outcome ε α} {y : Outcome ε β} {z : Outcome ε γ}
    (h : Carries R x y) (h' : Carries Q y z) : Carries (fun a c => ∃ b, R a b ∧ Q b c) x z := by
  intro a ha
  obtain ⟨b, h1, h2⟩ := h a ha
  obtain ⟨c, h3, h4⟩ := h' b h1
  exact ⟨c, h3, b, h2, h4⟩

theorem mono {R R' : α → β → Prop} {x : Outcome ε α} {y : Outcome ε β} (h : Carries R x y)
    (hr : ∀ a b, R a b → R' a b) : Carries R' x y := by
  intro a ha
  obtain ⟨b, h1, h2⟩ := h a ha
  exact ⟨b, h1, hr _ _ h2⟩

theorem and_left {R : α → β → Prop} {P : α → Prop} {x : Outcome ε α} {y : Outcome ε β} (h : Carries R x y)
    (hP : ∀ a, x = .ok a → P a) : Carries (fun a b => R a b ∧ P a) x y := by
  intro a ha
  obtain ⟨b, h1, h2⟩ := h a ha
  exact ⟨b, h1, h2, hP a ha⟩

end Carries

section
variable {α : Type} {R : α → α → Prop}

theorem Spec.SameElems.of_perm {l l' l'' : List α} (h : l.Perm l') (h' : List.Forall₂ R l' l'') : SameElems R l l'' :=
  ⟨l', h, h'⟩

theorem Spec.SameElems.refl (hR : ∀ a, R a a) (l : List α) : SameElems R l l :=
  ⟨l, .refl _, List.forall₂_same.mpr fun a _ => hR a⟩

/-- A permutation can be done after replacing. -/
theorem forall₂_perm {l m m' : List α} (h : List.Forall₂ R l m) (hp : m.Perm m') : ∃ l', l.Perm l' ∧ List.Forall₂ R l' m' := by
  induction hp generalizing l with
  | nil => exact ⟨l, .refl _, h⟩
  | cons x _ ih =>
    cases h with
    | cons h1 h2 =>
      obtain ⟨l', h3, h4⟩ := ih h2
      exact ⟨_ :: l', h3.cons _, .cons h1 h4⟩
  | swap x y l =>
    cases h with
    | cons h1 h2 =>
      cases h2 with
      | cons h2 h3 => exact ⟨_, .swap _ _ _, .cons h2 (.cons h1 h3)⟩
  | trans _ _ ih ih' =>
    obtain ⟨l1, h1, h2⟩ := ih h
    obtain ⟨l2, h3, h4⟩ := ih' h2
    exact ⟨l2, h1.trans h3, h4⟩

theorem Spec.SameElems.perm_right {l l' l'' : List α} (h : SameElems R l l') (hp : l'.Perm l'') : SameElems R l l'' := by
  obtain ⟨m, h1, h2⟩ := h
  obtain ⟨m', h3, h4⟩ := forall₂_perm h2 hp
  exact ⟨m', h1.trans h3, h4⟩

theorem Spec.SameElems.perm_left {l l' l'' : List α} (hp : l.Perm l') (h : SameElems R l' l'') : SameElems R l l'' := by
  obtain ⟨m, h1, h2⟩ := h
  exact ⟨m, hp.trans h1, h2⟩

theorem Spec.SameElems.trans (hR : ∀ a b c, R a b → R b c → R a c) {l l' l'' : List α} (h : SameElems R l l')
    (h' : SameElems R l' l'') : SameElems R l l'' := by
  obtain ⟨m, h1, h2⟩ := h
  obtain ⟨m', h3, h4⟩ := h'
  obtain ⟨n, h5, h6⟩ := forall₂_perm h2 h3
  refine ⟨n, h1.trans h5, ?_⟩
  clear h1 h2 h3 h5
  induction h6 generalizing l'' with
  | nil => exact h4
  | cons h7 _ ih =>
    cases h4 with
    | cons h8 h9 => exact .cons (hR _ _ _ h7 h8) (ih h9)

theorem Spec.SameElems.cons {a b : α} {l l' : List α} (hab : R a b) (h : SameElems R l l') :
    SameElems R (a :: l) (b :: l') := by
  obtain ⟨m, h1, h2⟩ := h
  exact ⟨a :: m, h1.cons _, .cons hab h2⟩

theorem Spec.SameElems.length_eq {l l' : List α} (h : SameElems R l l') : l.length = l'.length := by
  obtain ⟨m, h1, h2⟩ := h
  rw [h1.length_eq, h2.length_eq]

end

theorem Spec.SameGotoArm.trans {a b c : Nat × List Nat} (h : SameGotoArm a b) (h' : SameGotoArm b c) : SameGotoArm a c :=
  ⟨h.next.trans h'.next, h.states.trans h'.states⟩

theorem Spec.SameGotoArm.refl (a : Nat × List Nat) : SameGotoArm a a := ⟨rfl, .refl _⟩

/-! ### Grouping by the next state -/

theorem pushEntry_keys {α : Type} {k : Nat} {v : α} (m : List (Nat × List α)) :
    ∀ x, x ∈ (pushEntry k v m).map Prod.fst ↔ x = k ∨ x ∈ m.map Prod.fst := by
  induction m with
  | nil => intro x; simp [pushEntry]
  | cons p m ih =>
    intro x
    obtain ⟨k', vs⟩ := p
    unfold pushEntry
    split
    · rename_i e
      subst e
      simp
    · rw [List.map_cons, List.mem_cons, ih, List.map_cons, List.mem_cons]
      tauto

theorem pushEntry_nodup {α : Type} {k : Nat} {v : α} {m : List (Nat × List α)} (h : (m.map Prod.fst).Nodup) :
    ((pushEntry k v m).map Prod.fst).Nodup := by
  induction m with
  | nil => simp [pushEntry]
  | cons p m ih =>
    obtain ⟨k', vs⟩ := p
    unfold pushEntry
    rw [List.map_cons, List.nodup_cons] at h
    split
    · rename_i e
      subst e
      rw [List.map_cons, List.nodup_cons]
      exact h
    · rename_i e
      rw [List.map_cons, List.nodup_cons]
      refine ⟨?_, ih h.2⟩
      simp only [pushEntry_keys]
      rintro (rfl | hx)
      · exact e rfl
      · exact h.1 hx

/-- Adding to an entry of a map in another order. -/
theorem pushEntry_perm {k v : Nat} {m m' : List (Nat × List Nat)} (hp : m.Perm m') (h : (m.map Prod.fst).Nodup) :
    (pushEntry k v m).Perm (pushEntry k v m') := by
  induction hp with
  | nil => exact .refl _
  | cons p hp ih =>
    obtain ⟨k', vs⟩ := p
    unfold pushEntry
    rw [List.map_cons, List.nodup_cons] at h
    split
    · exact hp.cons _
    · exact (ih h.2).cons _
  | swap p q l =>
    obtain ⟨k1, v1⟩ := p
    obtain ⟨k2, v2⟩ := q
    simp only [List.map_cons, List.nodup_cons, List.mem_cons, not_or] at h
    by_cases h1 : k1 = k
    · by_cases h2 : k2 = k
      · exact absurd (h2.trans h1.symm) h.1.1
      · simp only [pushEntry, h1, h2, if_true, if_false]
        exact .swap _ _ _
    · by_cases h2 : k2 = k
      · simp only [pushEntry, h1, h2, if_true, if_false]
        exact .swap _ _ _
      · simp only [pushEntry, h1, h2, if_false]
        exact .swap _ _ _
  | trans hp _ ih ih' =>
    exact (ih h).trans (ih' ((hp.map _).nodup_iff.mp h))

theorem pushEntry_forall₂ {k v : Nat} {m m' : List (Nat × List Nat)} (h : List.Forall₂ SameGotoArm m m') :
    List.Forall₂ SameGotoArm (pushEntry k v m) (pushEntry k v m') := by
  induction h with
  | nil => exact .cons (.refl _) .nil
  | @cons p q l l' h1 h2 ih =>
    obtain ⟨k1, v1⟩ := p
    obtain ⟨k2, v2⟩ := q
    obtain ⟨e, hv⟩ := h1
    simp only at e hv
    subst e
    unfold pushEntry
    split
    · exact .cons ⟨rfl, hv.append_right _⟩ h2
    · exact .cons ⟨rfl, hv⟩ ih

theorem pushEntry_same {k v : Nat} {m m' : List (Nat × List Nat)} (h : SameElems SameGotoArm m m')
    (hn : (m.map Prod.fst).Nodup) : SameElems SameGotoArm (pushEntry k v m) (pushEntry k v m') := by
  obtain ⟨l, h1, h2⟩ := h
  exact ⟨_, pushEntry_perm h1 hn, pushEntry_forall₂ h2⟩

theorem pushEntry_comm {k v k' v' : Nat} (m : List (Nat × List Nat)) :
    SameElems SameGotoArm (pushEntry k v (pushEntry k' v' m)) (pushEntry k' v' (pushEntry k v m)) := by
  induction m with
  | nil =>
    by_cases h : k = k'
    · subst h
      simp only [pushEntry, if_true]
      exact ⟨_, .refl _, .cons ⟨rfl, .swap _ _ _⟩ .nil⟩
    · simp only [pushEntry, h, Ne.symm h, if_false]
      exact .of_perm (.swap _ _ _) (List.forall₂_same.mpr fun a _ => .refl a)
  | cons p m ih =>
    obtain ⟨k1, vs⟩ := p
    by_cases h1 : k1 = k
    · by_cases h2 : k1 = k'
      · subst h1
        subst h2
        simp only [pushEntry, if_true]
        refine .of_perm (.refl _) (.cons ⟨rfl, ?_⟩ (List.forall₂_same.mpr fun a _ => .refl a))
        simp only [List.append_assoc]
        exact (List.Perm.refl vs).append (.swap _ _ _)
      · subst h1
        simp only [pushEntry, h2, if_true, if_false]
        exact .refl SameGotoArm.refl _
    · by_cases h2 : k1 = k'
      · subst h2
        simp only [pushEntry, h1, if_true, if_false]
        exact .refl SameGotoArm.refl _
      · simp only [pushEntry, h1, h2, if_false]
        exact .cons (.refl _) ih

section
variable {P V E F' σ : Type} [DecidableEq P] {sem : Sem P V E σ} {lex : Lexer} {o o' : HashOrder}
  {gi : GrammarInfo} {prog : Program} {F : FirstTable} {kt : KernelTable}

/-- The relation between maps from next states to states. -/
def SameMap (m m' : List (Nat × List Nat)) : Prop :=
  SameElems SameGotoArm m m' ∧ (m.map Prod.fst).Nodup ∧ (m'.map Prod.fst).Nodup

theorem SameMap.trans {m m' m'' : List (Nat × List Nat)} (h : SameMap m m') (h' : SameMap m' m'') : SameMap m m'' :=
  ⟨SameElems.trans (R := SameGotoArm) (fun _ _ _ h h' => h.trans h') h.1 h'.1, h.2.1, h'.2.2⟩

theorem SameMap.push {k v : Nat} {m m' : List (Nat × List Nat)} (h : SameMap m m') :
    SameMap (pushEntry k v m) (pushEntry k v m') :=
  ⟨pushEntry_same h.1 h.2.1, pushEntry_nodup h.2.1, pushEntry_nodup h.2.2⟩

theorem gotoMap_same {label : Nat} {S S' : List Nat} (hp : S.Perm S') : ∀ {m m' : List (Nat × List Nat)},
    SameMap m m' → Carries SameMap (gotoMap gi label S m) (gotoMap gi label S' m') := by
  induction hp with
  | nil => exact fun h => .pure h
  | cons s _ ih =>
    intro m m' h
    unfold gotoMap
    refine (Carries.refl _).bind ?_
    rintro g _ rfl
    refine (Carries.refl _).bind ?_
    rintro n _ rfl
    exact ih h.push
  | swap s t l =>
    have key : ∀ {m m' : List (Nat × List Nat)}, SameMap m m' →
        Carries SameMap (gotoMap gi label l m) (gotoMap gi label l m') := by
      induction l with
      | nil => exact fun h => .pure h
      | cons s _ ih =>
        intro m m' h
        unfold gotoMap
        refine (Carries.refl _).bind ?_
        rintro g _ rfl
        refine (Carries.refl _).bind ?_
        rintro n _ rfl
        exact ih h.push
    intro m m' h x hx
    simp only [gotoMap, Outcome.bind_eq_ok] at hx ⊢
    obtain ⟨g1, h1, n1, h2, g2, h3, n2, h4, h5⟩ := hx
    have hs : SameMap (pushEntry n2 s (pushEntry n1 t m)) (pushEntry n1 t (pushEntry n2 s m')) :=
      h.push.push.trans ⟨pushEntry_comm _, pushEntry_nodup (pushEntry_nodup h.2.2),
        pushEntry_nodup (pushEntry_nodup h.2.2)⟩
    obtain ⟨y, h6, h7⟩ := key hs x h5
    exact ⟨y, ⟨g2, h3, n2, h4, g1, h1, n1, h2, h6⟩, h7⟩
  | trans _ _ ih ih' =>
    intro m m' h
    refine ((ih h).trans (ih' (m := m') (m' := m') ⟨.refl SameGotoArm.refl _, h.2.2, h.2.2⟩)).mono ?_
    rintro a b ⟨c, h1, h2⟩
    exact h1.trans h2

theorem applyGoto_same {site : List Nat} {rule label : Nat} {S S' : List Nat} (hp : S.Perm S') :
    Carries (fun a b => a.1 = b.1 ∧ SameGoto a.2 b.2) (applyGoto o gi site rule label S)
      (applyGoto o' gi site rule label S') := by
  unfold applyGoto
  refine (gotoMap_same (((o.perm _ _).trans hp).trans (o'.perm _ _).symm)
    (m := []) (m' := []) ⟨⟨[], .refl _, .nil⟩, by simp, by simp⟩).bind ?_
  intro m m' hm
  refine (Carries.refl _).bind ?_
  rintro c _ rfl
  have hl := hm.1.length_eq
  split
  · rename_i next ss
    match m', hl, hm with
    | [(next', ss')], _, hm =>
      obtain ⟨l, h1, h2⟩ := hm.1
      rw [List.perm_singleton.mp h1.symm] at h2
      cases h2 with
      | cons h3 _ =>
        have := h3.next
        simp only at this
        subst this
        exact .pure ⟨rfl, .direct _⟩
  · rename_i hne
    have hne' : ∀ next ss, m' ≠ [(next, ss)] := by
      rintro next ss rfl
      match m, hl, hne with
      | [(a, b)], _, hne => exact hne a b rfl
    split
    · rename_i next ss
      exact absurd rfl (hne' next ss)
    · exact .pure ⟨rfl, .select ((hm.1.perm_left (o.perm _ _)).perm_right (o'.perm _ _).symm)⟩

/-! ### Matchers -/

theorem tokenMatchers_perm {tt : TerminalType} {l l' : List (AugTok Sym)} (hp : l.Perm l') :
    Carries List.Perm (tokenMatchers lex tt l) (tokenMatchers lex tt l') := by
  induction hp with
  | nil => exact .pure (.refl _)
  | cons t _ ih =>
    unfold tokenMatchers
    refine (Carries.refl _).bind ?_
    rintro m _ rfl
    exact ih.bind fun a b h => .pure (h.cons _)
  | swap s t l =>
    intro x hx
    simp only [tokenMatchers, Outcome.bind_eq_ok] at hx ⊢
    obtain ⟨m1, h1, ms, ⟨m2, h2, ms2, h3, h4⟩, h5⟩ := hx
    cases h4
    cases h5
    exact ⟨_, ⟨m2, h2, _, ⟨m1, h1, ms2, h3, rfl⟩, rfl⟩, .swap _ _ _⟩
  | trans _ _ ih ih' =>
    refine (ih.trans ih').mono ?_
    rintro a b ⟨c, h1, h2⟩
    exact h1.trans h2

/-! ### The parts of a parser -/

/-- State maps that say the same. -/
structure SameStateMap (gi : GrammarInfo) (m m' : StateMap Sym) : Prop where
  left : ∀ s < gi.lrTable.numStates, m.Row gi.indexedGrammar gi.lrTable s
  right : ∀ s < gi.lrTable.numStates, m'.Row gi.indexedGrammar gi.lrTable s

namespace SameStateMap
variable {m m' : StateMap Sym} (h : SameStateMap gi m m')
include h

theorem at' {s : Nat} (hs : s < gi.lrTable.numStates) : ∃ ty ps ps',
    (∀ ε : Type, (m.stateType s : Outcome ε _) = .ok ty) ∧ (∀ ε : Type, (m'.stateType s : Outcome ε _) = .ok ty) ∧
    (∀ ε : Type, (m.backEdges s : Outcome ε _) = .ok ps) ∧ (∀ ε : Type, (m'.backEdges s : Outcome ε _) = .ok ps') ∧
    ps.Perm ps' ∧ (s ≠ 0 → ps ≠ [] ∧ (∀ p, p ∈ ps ↔ ∃ t, Edge gi.indexedGrammar gi.lrTable p t s) ∧
      ∀ p t, Edge gi.indexedGrammar gi.lrTable p t s → t = ty) := by
  obtain ⟨⟨ty, ps, h1, h2, h3, h4, h5⟩⟩ := h.left s hs
  obtain ⟨⟨ty', ps', h1', h2', h3', h4', h5'⟩⟩ := h.right s hs
  by_cases h0 : s = 0
  · obtain ⟨rfl, rfl⟩ := h4 h0
    obtain ⟨rfl, rfl⟩ := h4' h0
    exact ⟨_, _, _, h1, h1', h2, h2', .refl _, h5⟩
  · obtain ⟨hne, hm, hu⟩ := h5 h0
    obtain ⟨-, hm', hu'⟩ := h5' h0
    obtain ⟨p, hp⟩ := List.exists_mem_of_ne_nil _ hne
    obtain ⟨t, ht⟩ := (hm p).mp hp
    have e : ty' = ty := by rw [← hu _ _ ht, ← hu' _ _ ht]
    subst e
    refine ⟨_, _, _, h1, h1', h2, h2', ?_, h5⟩
    rw [List.perm_ext_iff_of_nodup h3 h3']
    intro p
    rw [hm, hm']

theorem union {S S' : List Nat} (hp : S.Perm S') (hS : ∀ s ∈ S, s < gi.lrTable.numStates) :
    ∃ prev prev', unionBackEdges m S [] = .ok prev ∧ unionBackEdges m' S' [] = .ok prev' ∧ prev.Perm prev' ∧
      ∀ p, p ∈ prev ↔ ∃ s ∈ S, ∃ ps, (m.backEdges s : Outcome MacroError _) = .ok ps ∧ p ∈ ps := by
  obtain ⟨prev, h1⟩ := unionBackEdges_ok (smap := m) (S := S) [] fun s hs => by
    obtain ⟨ty, ps, ps', -, -, e, -⟩ := h.at' (hS s hs)
    exact ⟨ps, e _⟩
  obtain ⟨prev', h2⟩ := unionBackEdges_ok (smap := m') (S := S') [] fun s hs => by
    obtain ⟨ty, ps, ps', -, -, -, e, -⟩ := h.at' (hS s (hp.mem_iff.mpr hs))
    exact ⟨ps', e _⟩
  refine ⟨prev, prev', h1, h2, ?_, ?_⟩
  · rw [List.perm_ext_iff_of_nodup (unionBackEdges_nodup .nil h1) (unionBackEdges_nodup .nil h2)]
    intro p
    rw [unionBackEdges_mem h1, unionBackEdges_mem h2]
    have key : ∀ s ∈ S, (∃ ps, (m.backEdges s : Outcome MacroError _) = .ok ps ∧ p ∈ ps) ↔
        ∃ ps, (m'.backEdges s : Outcome MacroError _) = .ok ps ∧ p ∈ ps := by
      intro s hs
      obtain ⟨ty, ps, ps', -, -, e, e', hpp, -⟩ := h.at' (hS s hs)
      rw [e, e']
      constructor
      · rintro ⟨_, hx, hm⟩
        cases hx
        exact ⟨_, rfl, hpp.mem_iff.mp hm⟩
      · rintro ⟨_, hx, hm⟩
        cases hx
        exact ⟨_, rfl, hpp.mem_iff.mpr hm⟩
    simp only [List.not_mem_nil, false_or]
    constructor
    · rintro ⟨s, hs, hx⟩
      exact ⟨s, hp.mem_iff.mp hs, (key s hs).mp hx⟩
    · rintro ⟨s, hs, hx⟩
      have hs' := hp.mem_iff.mpr hs
      exact ⟨s, hs', (key s hs').mpr hx⟩
  · intro p
    rw [unionBackEdges_mem h1]
    simp

/-- Popping the nodes of a rule. -/
theorem bindNodes (hfit : Fit gi.indexedGrammar F kt gi.lrTable) {site : List Nat} {i : Nat} {r : Rule Nat Nat}
    (hr : gi.indexedGrammar.cfg[i]? = some r) :
    ∀ (l : List (Nat × INode)) (S S' : List Nat), S.Perm S' → (∃ β, rhs r = symbolsRev l ++ β) →
      (∀ s ∈ S, Inside gi.indexedGrammar F kt i (symbolsRev l).length s) →
      Carries (fun a b => List.Forall₂ SamePop a.1 b.1 ∧ a.2.Perm b.2) (bindNodes o lex m site l S)
        (bindNodes o' lex m' site l S') := by
  intro l
  induction l with
  | nil => intro S S' hp _ _; exact .pure ⟨.nil, hp⟩
  | cons p l ih =>
    obtain ⟨idx, node⟩ := p
    intro S S' hp hβ hS
    unfold Verif.bindNodes
    cases hn : node.isEpsilon with
    | true =>
      rw [if_pos rfl, if_pos rfl]
      rw [symbolsRev_eps hn] at hβ hS
      exact ih S S' hp hβ hS
    | false =>
      rw [if_neg (by simp), if_neg (by simp)]
      rw [symbolsRev_cons hn, List.length_append, List.length_singleton] at hS
      have hlt : ∀ s ∈ S, s < gi.lrTable.numStates := fun s hs => hfit.inside_lt (hS s hs)
      have hnode : (rhs r)[(symbolsRev l).length]? = some node := by
        obtain ⟨β, hβ⟩ := hβ
        rw [hβ, symbolsRev_cons hn]
        simp
      -- the type of any of the states
      have hty : ∀ s ∈ S, ∃ ty, (∀ ε : Type, (m.stateType s : Outcome ε _) = .ok ty) ∧
          (∀ ε : Type, (m'.stateType s : Outcome ε _) = .ok ty) ∧ Names gi.indexedGrammar ty node ∧
          ∀ ps, (m.backEdges s : Outcome MacroError _) = .ok ps → ∀ p ∈ ps,
            Inside gi.indexedGrammar F kt i (symbolsRev l).length p := by
        intro s hs
        have hin := hS s hs
        obtain ⟨ty, ps, ps', e1, e1', e2, -, -, e3⟩ := h.at' (hlt s hs)
        obtain ⟨h1, h2, h3⟩ := e3 (hfit.inside_ne_zero hin)
        obtain ⟨q, hq⟩ := List.exists_mem_of_ne_nil _ h1
        obtain ⟨t, ht⟩ := (h2 q).mp hq
        obtain ⟨X, hX, hN, -⟩ := hfit.names_of_inside hr hin ht
        rw [hnode] at hX
        cases hX
        cases h3 q t ht
        refine ⟨_, e1, e1', hN, ?_⟩
        intro ps1 hps p hp
        rw [e2] at hps
        cases hps
        obtain ⟨t, ht⟩ := (h2 p).mp hp
        obtain ⟨X, -, -, hi⟩ := hfit.names_of_inside hr hin ht
        exact hi
      have hpo : (o.ord (site ++ [idx]) S).Perm (o'.ord (site ++ [idx]) S') :=
        ((o.perm _ _).trans hp).trans (o'.perm _ _).symm
      have hmem : ∀ s, s ∈ o.ord (site ++ [idx]) S ↔ s ∈ S := fun s => (o.perm _ _).mem_iff
      have hmem' : ∀ s, s ∈ o'.ord (site ++ [idx]) S' ↔ s ∈ S := fun s => by rw [← hpo.mem_iff, hmem]
      obtain ⟨prev, prev', h1, h2, h3, h4⟩ := h.union hpo fun s hs => hlt s ((hmem s).mp hs)
      intro x hx
      simp only [Outcome.bind_eq_ok] at hx
      obtain ⟨rep, hrep, ty, hty1, v, hv, prev1, hprev, ⟨pops, final⟩, hrest, hx⟩ := hx
      cases hx
      rw [h1] at hprev
      cases hprev
      have hrep' : ∃ rep', (o'.ord (site ++ [idx]) S').head? = some rep' := by
        cases hh : o'.ord (site ++ [idx]) S' with
        | cons a _ => exact ⟨a, rfl⟩
        | nil =>
          rw [hh] at hpo
          rw [List.perm_nil.mp hpo] at hrep
          cases hrep
      obtain ⟨rep', hrep'⟩ := hrep'
      have hrepm : (o.ord (site ++ [idx]) S).head? = some rep := by
        cases hh : (o.ord (site ++ [idx]) S).head? with
        | none => rw [hh] at hrep; cases hrep
        | some a => rw [hh] at hrep; cases hrep; rfl
      obtain ⟨t1, e1, -, n1, -⟩ := hty rep ((hmem _).mp (List.mem_of_head? hrepm))
      obtain ⟨t2, -, e2, n2, -⟩ := hty rep' ((hmem' _).mp (List.mem_of_head? hrep'))
      rw [e1] at hty1
      cases hty1
      cases n1.det n2
      obtain ⟨⟨pops', final'⟩, h5, h6, h7⟩ := ih prev prev' h3 (by
          obtain ⟨β, hβ⟩ := hβ
          exact ⟨node :: β, by rw [hβ, symbolsRev_cons hn]; simp⟩) (by
          intro p hp
          obtain ⟨s, hs, ps, e, hm⟩ := (h4 p).mp hp
          obtain ⟨_, -, -, -, hi⟩ := hty s ((hmem s).mp hs)
          exact hi ps e p hm) _ hrest
      refine ⟨(⟨idx, v, o'.ord (site ++ [idx]) S'⟩ :: pops', final'), ?_, .cons ⟨rfl, rfl, hpo⟩ h6, h7⟩
      simp only [hrep', Outcome.unwrap_some, Outcome.ok_bind, e2, hv, h2, h5]
      rfl

/-- The arms that reduce, in the same order. -/
theorem reduceArms (hfit : Fit gi.indexedGrammar F kt gi.lrTable) {s : Nat} {l : List (Nat × List (AugTok Sym))}
    (hl : ∀ p ∈ l, ∃ r, gi.indexedGrammar.cfg[p.1]? = some r ∧ Inside gi.indexedGrammar F kt p.1 (rhs r).length s) :
    Carries (List.Forall₂ SameReduce) (reduceArms o lex gi m s l) (reduceArms o' lex gi m' s l) := by
  induction l with
  | nil => exact .pure .nil
  | cons p l ih =>
    obtain ⟨i, toks⟩ := p
    obtain ⟨r, hr, hin⟩ := hl _ (List.mem_cons_self ..)
    simp only at hr hin
    obtain ⟨q, hq, rfl⟩ := cfg_get.mp hr
    unfold Verif.reduceArms
    refine (Carries.refl _).bind ?_
    rintro ms _ rfl
    have hrule : (gi.indexedGrammar.productionRule i : Outcome MacroError _) = .ok q := Outcome.index_eq_ok.mpr hq
    rw [hrule]
    simp only [Outcome.ok_bind]
    have hrhs : rhs q.rule = symbolsRev (indexedNodesRev q.nodes) := by
      rw [symbolsRev_indexed]; rfl
    refine (h.bindNodes hfit hr (indexedNodesRev q.nodes) [s] [s] (.refl _) ⟨[], by rw [hrhs, List.append_nil]⟩ ?_).bind ?_
    · intro s' hs'
      rw [List.mem_singleton] at hs'
      subst hs'
      rw [← hrhs]
      exact hin
    · rintro ⟨pops, S⟩ ⟨pops', S'⟩ ⟨h1, h2⟩
      refine (applyGoto_same h2).bind ?_
      rintro ⟨c, g⟩ ⟨c', g'⟩ ⟨h3, h4⟩
      exact (ih fun p hp => hl p (by simp [hp])).bind fun a b hab => .pure (.cons ⟨rfl, h1, h3, h4⟩ hab)

theorem acceptArm (hfit : Fit gi.indexedGrammar F kt gi.lrTable) {s : Nat} {tok : Option (AugTok Sym)}
    (hl : ∀ t, tok = some t → ∃ r, gi.indexedGrammar.cfg[0]? = some r ∧ Inside gi.indexedGrammar F kt 0 (rhs r).length s) :
    Carries (Option.Rel SameAccept) (acceptArm o lex gi m s tok) (acceptArm o' lex gi m' s tok) := by
  cases tok with
  | none => exact .pure .none
  | some t =>
    obtain ⟨r, hr, hin⟩ := hl t rfl
    obtain ⟨q, hq, rfl⟩ := cfg_get.mp hr
    unfold Verif.acceptArm
    refine (Carries.refl _).bind ?_
    rintro ms _ rfl
    have hrule : (gi.indexedGrammar.productionRule IndexedGrammar.rootRule : Outcome MacroError _) = .ok q :=
      Outcome.index_eq_ok.mpr hq
    rw [hrule]
    simp only [Outcome.ok_bind]
    have hrhs : rhs q.rule = symbolsRev (indexedNodesRev q.nodes) := by
      rw [symbolsRev_indexed]; rfl
    refine (h.bindNodes hfit hr (indexedNodesRev q.nodes) [s] [s] (.refl _) ⟨[], by rw [hrhs, List.append_nil]⟩ ?_).bind ?_
    · intro s' hs'
      rw [List.mem_singleton] at hs'
      subst hs'
      rw [← hrhs]
      exact hin
    · rintro ⟨pops, S⟩ ⟨pops', S'⟩ ⟨h1, h2⟩
      simp only at h1 h2 ⊢
      have hp : (o.ord [6, s] S).Perm (o'.ord [6, s] S') := ((o.perm _ _).trans h2).trans (o'.perm _ _).symm
      have he : (o.ord [6, s] S == [LRTable.rootState]) = (o'.ord [6, s] S' == [LRTable.rootState]) := by
        rw [Bool.eq_iff_iff, beq_iff_eq, beq_iff_eq]
        constructor
        · intro e
          rw [e] at hp
          exact List.perm_singleton.mp hp.symm
        · intro e
          rw [e] at hp
          exact List.perm_singleton.mp hp
      rw [he]
      refine (Carries.refl _).bind ?_
      rintro u _ rfl
      refine (Carries.refl _).bind ?_
      rintro c _ rfl
      exact .pure (.some ⟨rfl, h1, rfl⟩)

end SameStateMap

/-- The arms that reduce, in another order. -/
theorem reduceArms_perm {m : StateMap Sym} {s : Nat} {l l' : List (Nat × List (AugTok Sym))} (hp : l.Perm l') :
    Carries List.Perm (reduceArms o lex gi m s l) (reduceArms o lex gi m s l') := by
  induction hp with
  | nil => exact .pure (.refl _)
  | cons p _ ih =>
    obtain ⟨i, toks⟩ := p
    unfold reduceArms
    refine (Carries.refl _).bind ?_
    rintro ms _ rfl
    refine (Carries.refl _).bind ?_
    rintro r _ rfl
    refine (Carries.refl _).bind ?_
    rintro ⟨pops, S⟩ _ rfl
    refine (Carries.refl _).bind ?_
    rintro ⟨c, g⟩ _ rfl
    exact ih.bind fun a b h => .pure (h.cons _)
  | swap p q l =>
    obtain ⟨i, toks⟩ := p
    obtain ⟨j, toks'⟩ := q
    intro x hx
    simp only [reduceArms, Outcome.bind_eq_ok] at hx ⊢
    obtain ⟨m1, h1, r1, h2, ⟨p1, S1⟩, h3, ⟨c1, g1⟩, h4, arms, ⟨m2, h5, r2, h6, ⟨p2, S2⟩, h7, ⟨c2, g2⟩, h8, arms', h9, h10⟩, h11⟩ := hx
    cases h10
    cases h11
    exact ⟨_, ⟨m2, h5, r2, h6, (p2, S2), h7, (c2, g2), h8, _, ⟨m1, h1, r1, h2, (p1, S1), h3, (c1, g1), h4, arms', h9, rfl⟩, rfl⟩,
      .swap _ _ _⟩
  | trans _ _ ih ih' =>
    refine (ih.trans ih').mono ?_
    rintro a b ⟨c, h1, h2⟩
    exact h1.trans h2

namespace GenIn
variable (h : GenIn gi F kt)
include h

theorem generateState_same {m m' : StateMap Sym} (hm : SameStateMap gi m m') {s : Nat} (hs : s < gi.lrTable.numStates) :
    Carries SameState (generateState o lex gi m s) (generateState o' lex gi m' s) := by
  obtain ⟨a, l, h1, h2, -, h3⟩ := h.likeActions hs
  unfold generateState
  rw [h1]
  simp only [Outcome.ok_bind]
  have hov : Carries List.Perm (a.overlapCheck o lex gi s) (a.overlapCheck o' lex gi s) := by
    unfold LikeActions.overlapCheck
    split
    · exact .pure (.refl _)
    · refine tokenMatchers_perm (List.Perm.filter _ ?_)
      exact (LikeActions.allLookahead_perm o s a).trans (LikeActions.allLookahead_perm o' s a).symm
  refine hov.bind fun ov ov' hov => ?_
  have hin : ∀ p ∈ a.reduceMap, ∃ r, gi.indexedGrammar.cfg[p.1]? = some r ∧
      Inside gi.indexedGrammar F kt p.1 (rhs r).length s := by
    rintro ⟨i, toks⟩ hp
    obtain ⟨tok, ht⟩ := List.exists_mem_of_ne_nil _ (build_nonempty h1 _ hp)
    obtain ⟨id, h4, h5⟩ := (h3 tok _).mp ((h2.reduce tok i).mp ⟨toks, hp, ht⟩)
    obtain ⟨r, h6, -, h7⟩ := (h.tokens hs h4 h5).2.2.2 i rfl
    exact ⟨r, h6, h7⟩
  have hred : Carries (SameElems SameReduce) (reduceArms o lex gi m s (a.reduces o s))
      (reduceArms o' lex gi m' s (a.reduces o' s)) := by
    refine ((reduceArms_perm (l' := a.reduces o' s) ((o.perm _ _).trans (o'.perm _ _).symm)).trans
      (hm.reduceArms h.fit (o' := o') fun p hp => hin p ((o'.perm _ _).mem_iff.mp hp))).mono ?_
    rintro x y ⟨z, h4, h5⟩
    exact ⟨z, h4, h5⟩
  refine hred.bind fun rs rs' hrs => ?_
  refine (hm.acceptArm h.fit ?_).bind fun ac ac' hac => ?_
  · intro t ht
    obtain ⟨id, ⟨h4, h5⟩, -⟩ := (h3 t _).mp ((h2.accept t).mp ht)
    obtain ⟨γ, hγ⟩ := h.fit.built.exists_at hs
    cases ((h.fit.entries hγ).accept Unit id h4).mp h5 with
    | accept h6 _ h7 => exact ⟨_, h6, γ, hγ, h7⟩
  refine (Carries.refl _).bind ?_
  rintro sh _ rfl
  exact .pure ⟨hov, rfl, hrs, hac⟩

theorem generateStates_same {m m' : StateMap Sym} (hm : SameStateMap gi m m') {l : List Nat}
    (hl : ∀ s ∈ l, s < gi.lrTable.numStates) :
    Carries (List.Forall₂ SameState) (generateStates o lex gi m l) (generateStates o' lex gi m' l) := by
  induction l with
  | nil => exact .pure .nil
  | cons s l ih =>
    unfold generateStates
    refine (h.generateState_same hm (hl s (by simp))).bind fun a b hab => ?_
    exact (ih fun s hs => hl s (by simp [hs])).bind fun _ _ hc => .pure (.cons hab hc)

theorem stateDataTypes_same {m m' : StateMap Sym} (hm : SameStateMap gi m m') {l : List Nat}
    (hl : ∀ s ∈ l, s < gi.lrTable.numStates) : stateDataTypes gi m l = stateDataTypes gi m' l := by
  induction l with
  | nil => rfl
  | cons s l ih =>
    obtain ⟨ty, ps, ps', e1, e2, -⟩ := hm.at' (hl s (by simp))
    unfold stateDataTypes stateDataType
    rw [e1, e2, ih fun s hs => hl s (by simp [hs])]

/-- **Code generation up to order.** -/
theorem generateParser_same : Carries SameProgram (generateParser o lex gi) (generateParser o' lex gi) := by
  obtain ⟨m, hm, -, hrow⟩ := h.fit.built.stateMap o h.fit.wf h.fit.res.wf
  obtain ⟨m', hm', -, hrow'⟩ := h.fit.built.stateMap o' h.fit.wf h.fit.res.wf
  have hs : SameStateMap gi m m' := ⟨hrow, hrow'⟩
  have hlt : ∀ s ∈ gi.lrTable.states, s < gi.lrTable.numStates := by
    intro s hs
    simpa [LRTable.states] using hs
  unfold generateParser
  simp only [hm, hm', Outcome.mapErr, Outcome.ok_bind]
  refine (Carries.refl _).bind ?_
  rintro lab _ rfl
  refine (Carries.refl _).bind ?_
  rintro ty _ rfl
  rw [h.stateDataTypes_same hs hlt]
  refine (Carries.refl _).bind ?_
  rintro tys _ rfl
  exact (h.generateStates_same hs hlt).bind fun _ _ hc => .pure ⟨rfl, hc, rfl⟩

end GenIn
end
end Verif
