import Verif.Props.Table
import Verif.Props.GrammarIndex

/-!
# C13 in terms of the user's grammar
-/

set_option linter.unusedSectionVars false
set_option autoImplicit false

namespace Verif
open Spec IndexedGrammar.Encodes
variable {T L : Type} [DecidableEq T] [DecidableEq L] {g : Grammar T L} {ig : IndexedGrammar T L}
  {F : FirstTable}

namespace C13

/-- **C13.** `LRTable::new` fails with an error exactly when two items of the user's grammar that are valid
after some sequence of symbols demand different actions on the same lookahead. FIRST sets as recorded by the
code. -/
theorem conflict_error_iff_user (hg : IndexedGrammar.build g = .ok ig) (he : EpsilonLast g)
    (hr : RootNotRecursive g) :
    ∃ N, ∀ fuel ≥ N, ((∃ e, LRTable.build fuel ig = .err e) ↔
        ¬ NoConflict g.productions (seqFirst (Recorded g))) ∧
      ((∃ t, LRTable.build fuel ig = .ok t) ↔ NoConflict g.productions (seqFirst (Recorded g))) := by
  obtain ⟨⟨F, hF⟩, -⟩ := C08.build_terminates g ig hg
  have h := conflict_error_iff g ig F hg he hr hF
  rwa [seqFirst_eq, noConflict_iff (IndexedGrammar.build_ok hg).1 (sameFirst_recorded hg hF)] at h

/-- **C13, partial: true LR(1) conflicts**, in terms of the user's grammar. -/
theorem conflict_error_iff_lr1_user_partial (hg : IndexedGrammar.build g = .ok ig) (he : EpsilonLast g)
    (hr : RootNotRecursive g) (hc : C07.ActionsComplete g) :
    ∃ N, ∀ fuel ≥ N, ((∃ e, LRTable.build fuel ig = .err e) ↔
        ¬ NoConflict g.productions (InFirst g.productions)) ∧
      ((∃ t, LRTable.build fuel ig = .ok t) ↔ NoConflict g.productions (InFirst g.productions)) := by
  have h := conflict_error_iff_lr1_partial g ig hg he hr hc
  rwa [noConflict_iff (IndexedGrammar.build_ok hg).1 (sameFirst_true hg)] at h

/-- The sample meets the hypotheses. -/
example : ∃ ig, IndexedGrammar.build sampleLR = .ok ig ∧ EpsilonLast sampleLR ∧ RootNotRecursive sampleLR ∧
    ∃ t, LRTable.build 20 ig = .ok t := by
  have h := sampleLR_builds
  obtain ⟨ig, h1, h⟩ := Outcome.bind_eq_ok.mp h
  obtain ⟨t, h2, h⟩ := Outcome.bind_eq_ok.mp h
  exact ⟨ig, h1, sampleLR_wellFormed.epsilonLast, sampleLR_rootNotRecursive, t, h2⟩

end C13

/-! ### C45: the numbers in messages -/

namespace C45

/-- **C45, partial.** The numbers of the rules in a conflict message become positions of rules in the user's
grammar through the renumbering of `IndexedGrammar` (`original_index`): these rules are in conflict, on the
lookahead of the message. -/
theorem conflict_rules_partial {fuel : Nat} {e : LRTableError T L} (hg : IndexedGrammar.build g = .ok ig)
    (he : EpsilonLast g) (hb : LRTable.build fuel ig = .err e) :
    ∃ γ tok, ((∃ i j, i < g.productions.length ∧ j < g.productions.length ∧ i ≠ j ∧ e = .reduceConflict i j tok ∧
          Demands g.productions (seqFirst (Recorded g)) γ tok (endAct (ig.orig i)) ∧
          Demands g.productions (seqFirst (Recorded g)) γ tok (endAct (ig.orig j))) ∨
        (∃ i, i < g.productions.length ∧ e = .shiftReduceConflict i tok ∧
          Demands g.productions (seqFirst (Recorded g)) γ tok .shift ∧
          Demands g.productions (seqFirst (Recorded g)) γ tok (endAct (ig.orig i)))) := by
  obtain ⟨⟨F, hF⟩, -⟩ := C08.build_terminates g ig hg
  have henc := (IndexedGrammar.build_ok hg).1
  have hS := sameFirst_recorded hg hF
  obtain ⟨γ', t', tok, htok, h⟩ := C13.conflict_error_names g ig F fuel e hg he hF hb
  rw [seqFirst_eq] at h
  rw [idToToken_iff] at htok
  have key : ∀ {γ1 : List (Node T L)} {a : Act}, EncNodes ig γ1 γ' → Demands ig.cfg F.NodesFirst γ' t' a →
      Demands g.productions (seqFirst (Recorded g)) γ1 tok (origAct ig a) := by
    intro γ1 a h1 h2
    obtain ⟨γ2, t2, h3, h4, h5⟩ := demands_dec henc hS h2
    cases encNodes_inj h1 h3
    cases EncTok.inj' htok h4
    exact h5
  have hend : ∀ {i : Nat}, Demands ig.cfg F.NodesFirst γ' t' (endAct i) →
      origAct ig (endAct i) = endAct (ig.orig i) := by
    intro i h
    unfold endAct at *
    split
    · rename_i h0
      subst h0
      rw [orig_zero henc]
      rfl
    · rename_i h0
      rw [if_neg h0] at h
      obtain ⟨r, hr⟩ := h.rule
      rw [if_neg]
      · rfl
      · intro h1
        obtain ⟨q0, hq0, -⟩ := henc.root
        exact h0 (orig_injective henc hr (cfg_get.mpr ⟨q0, hq0, rfl⟩) (by rw [h1, orig_zero henc]))
  have hrange : ∀ {i : Nat}, Demands ig.cfg F.NodesFirst γ' t' (endAct i) → i < g.productions.length := by
    intro i h
    have hlen : ig.cfg.length = g.productions.length := by
      have := (C11.productions_occur_once hg).length_eq
      simpa [IndexedGrammar.cfg] using this
    rw [← hlen]
    unfold endAct at h
    split at h
    · rename_i h0
      subst h0
      obtain ⟨q0, hq0, -⟩ := henc.root
      exact (List.getElem?_eq_some_iff.mp (cfg_get.mpr ⟨q0, hq0, rfl⟩)).1
    · obtain ⟨r, hr⟩ := h.rule
      exact (List.getElem?_eq_some_iff.mp hr).1
  rcases h with ⟨i, j, hne, rfl, h1, h2⟩ | ⟨i, rfl, h1, h2⟩
  · obtain ⟨γ, -, hγ, -, -⟩ := demands_dec henc hS h1
    refine ⟨γ, tok, .inl ⟨i, j, hrange h1, hrange h2, hne, rfl, ?_, ?_⟩⟩
    · rw [← hend h1]; exact key hγ h1
    · rw [← hend h2]; exact key hγ h2
  · obtain ⟨γ, -, hγ, -, -⟩ := demands_dec henc hS h1
    refine ⟨γ, tok, .inr ⟨i, hrange h2, rfl, key hγ h1, ?_⟩⟩
    rw [← hend h2]; exact key hγ h2

/-- **C45, partial: grouped grammars.** If the productions of each label stand next to each other, the numbers in
a conflict message are positions in the user's grammar, of rules that are in conflict on the lookahead of the
message. -/
theorem conflict_rules_grouped_partial {fuel : Nat} {e : LRTableError T L} (hg : IndexedGrammar.build g = .ok ig)
    (he : EpsilonLast g) (hgr : Grouped g) (hb : LRTable.build fuel ig = .err e) :
    ∃ γ tok, ((∃ i j, i ≠ j ∧ e = .reduceConflict i j tok ∧
          Demands g.productions (seqFirst (Recorded g)) γ tok (endAct i) ∧
          Demands g.productions (seqFirst (Recorded g)) γ tok (endAct j)) ∨
        (∃ i, e = .shiftReduceConflict i tok ∧
          Demands g.productions (seqFirst (Recorded g)) γ tok .shift ∧
          Demands g.productions (seqFirst (Recorded g)) γ tok (endAct i))) := by
  have hlen : ig.rules.length = g.productions.length := by
    have := (C11.productions_occur_once hg).length_eq
    simpa using this
  have horig : ∀ i, i < g.productions.length → ig.orig i = i := by
    intro i hi
    have hr := List.getElem?_eq_getElem (hlen ▸ hi : i < ig.rules.length)
    generalize ig.rules[i] = r at hr
    rw [orig_eq hr]
    exact C11.grouped_not_renumbered hg hgr i r (by rw [IndexedGrammar.productionRule, Outcome.index_eq_ok]; exact hr)
  obtain ⟨γ, tok, h⟩ := conflict_rules_partial hg he hb
  refine ⟨γ, tok, h.imp ?_ ?_⟩
  · rintro ⟨i, j, hi, hj, h1, h2, h3, h4⟩
    rw [horig i hi] at h3
    rw [horig j hj] at h4
    exact ⟨i, j, h1, h2, h3, h4⟩
  · rintro ⟨i, hi, h1, h2, h3⟩
    rw [horig i hi] at h3
    exact ⟨i, h1, h2, h3⟩

/-- `S -> A B; A -> a; A -> A A; B -> b` is grouped and has a conflict in rule 2. -/
example : let g : Grammar Nat Nat := ⟨[⟨0, [.production 1, .production 2]⟩, ⟨1, [.terminal (.token 7)]⟩,
      ⟨1, [.production 1, .production 1]⟩, ⟨2, [.terminal (.token 8)]⟩]⟩
    EpsilonLast g ∧ Grouped g ∧ ∃ ig, IndexedGrammar.build g = .ok ig ∧
      LRTable.build 20 ig = .err (.shiftReduceConflict 2 (.token 7)) := by
  intro g
  have hb : (do
      let ig ← IndexedGrammar.build g
      match (LRTable.build 20 ig : Outcome (LRTableError Nat Nat) _) with
      | .err e => pure e
      | _ => Outcome.panic) = .ok (.shiftReduceConflict 2 (.token 7)) := by decide +kernel
  obtain ⟨ig, hi, hb⟩ := Outcome.bind_eq_ok.mp hb
  refine ⟨by unfold EpsilonLast; decide, ?_, ig, hi, ?_⟩
  · intro i j k p q r hij hjk hp hq hr
    have hk : k < 4 := (List.getElem?_eq_some_iff.mp hr).1
    obtain ⟨rfl, rfl, rfl⟩ | ⟨rfl, rfl, rfl⟩ | ⟨rfl, rfl, rfl⟩ | ⟨rfl, rfl, rfl⟩ :
        (i = 0 ∧ j = 1 ∧ k = 2) ∨ (i = 0 ∧ j = 1 ∧ k = 3) ∨ (i = 0 ∧ j = 2 ∧ k = 3) ∨ (i = 1 ∧ j = 2 ∧ k = 3) := by
      omega
    all_goals cases hp; cases hq; cases hr; decide
  · split at hb
    · rename_i e he
      cases hb
      exact he
    · cases hb

/-- `S -> A B; A -> a; B -> b; A -> A A`. -/
def renumbered : Grammar Nat Nat :=
  ⟨[⟨0, [.production 1, .production 2]⟩, ⟨1, [.terminal (.token 7)]⟩, ⟨2, [.terminal (.token 8)]⟩,
    ⟨1, [.production 1, .production 1]⟩]⟩

/-- **C45 is false in general.** The message for the grammar above names rule 2, which is `B -> b`. But this
rule is in no conflict: the conflict is between shifting `a` and reducing by `A -> A A`, rule 3. -/
theorem conflict_rules_refuted :
    EpsilonLast renumbered ∧ RootNotRecursive renumbered ∧ ∃ ig, IndexedGrammar.build renumbered = .ok ig ∧
      LRTable.build 20 ig = .err (.shiftReduceConflict 2 (.token 7)) ∧
      (renumbered.productions[2]? = some ⟨2, [.terminal (.token 8)]⟩) ∧
      ¬ ∃ γ tok, Demands renumbered.productions (seqFirst (Recorded renumbered)) γ tok .shift ∧
        Demands renumbered.productions (seqFirst (Recorded renumbered)) γ tok (.reduce 2) := by
  have hb : (do
      let ig ← IndexedGrammar.build renumbered
      match (LRTable.build 20 ig : Outcome (LRTableError Nat Nat) _) with
      | .err e => pure e
      | _ => Outcome.panic) = .ok (.shiftReduceConflict 2 (.token 7)) := by decide +kernel
  obtain ⟨ig, hi, hb⟩ := Outcome.bind_eq_ok.mp hb
  refine ⟨by unfold EpsilonLast; decide, ?_, ig, hi, ?_, rfl, ?_⟩
  · rintro root rest h
    cases h
    decide
  · split at hb
    · rename_i e he
      cases hb
      exact he
    · cases hb
  · rintro ⟨γ, tok, h1, h2⟩
    have place : ∀ i r d β, renumbered.productions[i]? = some r → (rhs r).drop d = .terminal (.token 8) :: β →
        i = 2 ∧ d = 0 := by
      intro i r d β hr hd
      have hi : i < 4 := (List.getElem?_eq_some_iff.mp hr).1
      have hd' : d < (rhs r).length := by
        have : 0 < ((rhs r).drop d).length := by rw [hd]; simp
        simpa using this
      rcases i with _ | _ | _ | _ | i
      · cases hr
        simp only [rhs, List.filter] at hd' hd
        rcases d with _ | _ | d <;> simp at hd hd'
      · cases hr
        simp only [rhs, List.filter] at hd' hd
        rcases d with _ | d <;> simp at hd hd'
      · cases hr
        simp only [rhs, List.filter] at hd' hd
        rcases d with _ | d
        · exact ⟨rfl, rfl⟩
        · simp at hd'
      · cases hr
        simp only [rhs, List.filter] at hd' hd
        rcases d with _ | _ | d <;> simp at hd hd'
      · omega
    have last : ∀ {γ i d}, Valid renumbered.productions γ i d → γ.getLast? = some (.terminal (.token 8)) →
        i = 2 ∧ d = 1 := by
      intro γ i d h
      induction h with
      | root => intro h; cases h
      | close _ hr hd _ ih =>
        intro h
        obtain ⟨rfl, rfl⟩ := ih h
        cases hr
        cases hd
      | @move γ i d r X β _ hr hd _ =>
        intro h
        simp only [List.getLast?_append, List.getLast?_singleton, Option.some_or, Option.some.injEq] at h
        subst h
        obtain ⟨rfl, rfl⟩ := place _ _ _ _ hr hd
        exact ⟨rfl, rfl⟩
    have done : γ.getLast? = some (.terminal (.token 8)) := by
      cases h2 with
      | reduce hr _ hv =>
        cases hr
        have key : ∀ {γ i d}, Valid renumbered.productions γ i d → i = 2 → d = 1 →
            γ.getLast? = some (.terminal (.token 8)) := by
          intro γ i d h e1 e2
          cases h with
          | root => cases e2
          | close => cases e2
          | move _ hr hd =>
            subst e1
            cases hr
            obtain rfl : _ = 0 := Nat.succ.inj e2
            cases hd
            simp
        exact key hv.valid rfl rfl
    cases h1 with
    | shift hv hr hd =>
      obtain ⟨rfl, rfl⟩ := last hv done
      cases hr
      cases hd

end C45

end Verif
