import Verif.Props.First
import Verif.Proof.Rename

/-!
# Actions that are missing because FIRST sets are incomplete
-/

set_option linter.unusedSectionVars false
set_option autoImplicit false

namespace Verif
open Spec IndexedGrammar.Encodes
variable {T L : Type} [DecidableEq T] [DecidableEq L] {g : Grammar T L} {ig : IndexedGrammar T L}
  {F : FirstTable}

theorem First.single {P : List (Rule T L)} {l : L} {t : AugTok T} :
    First P [.production l] t ↔ ∃ r ∈ P, r.symbol = l ∧ First P r.rule t := by
  constructor
  · intro h
    cases h with
    | skip hr h1 h2 => cases h2; exact ⟨_, hr, rfl, h1⟩
    | take hr h1 _ => exact ⟨_, hr, rfl, h1⟩
  · rintro ⟨r, hr, rfl, h⟩
    by_cases ht : t = .epsilon
    · subst ht; exact .skip hr h .nil
    · exact .take hr h ht

theorem seqFirst_eq (F : FirstTable) : Spec.seqFirst F.In = F.NodesFirst := by
  funext α t; exact propext (nodesFirst_eq F α t).symm

/-- FIRST of a sequence, from FIRST of the labels. -/
theorem seqFirst_iff {P : List (Rule T L)} {f : L → AugTok T → Prop}
    (hf : ∀ l t, f l t ↔ First P [.production l] t) {α : List (Node T L)} {t : AugTok T} :
    seqFirst f α t ↔ First P α t := by
  constructor
  · intro h
    induction α with
    | nil => cases h; exact .nil
    | cons n α ih =>
      match n with
      | .terminal .epsilon => exact .eps (ih h)
      | .terminal (.token k) => cases h; exact .term (by simp)
      | .terminal .eos => cases h; exact .term (by simp)
      | .production l =>
        rcases h with ⟨h1, h2⟩ | ⟨h1, h2⟩
        · obtain ⟨r, hr, rfl, h3⟩ := First.single.mp ((hf l t).mp h2)
          exact .take hr h3 h1
        · obtain ⟨r, hr, rfl, h3⟩ := First.single.mp ((hf l .epsilon).mp h1)
          exact .skip hr h3 (ih h2)
  · intro h
    induction h with
    | nil => rfl
    | eps _ ih => exact ih
    | @term t α ht =>
      cases t with
      | epsilon => exact absurd rfl ht
      | token k => rfl
      | eos => rfl
    | skip hr h1 _ _ ih => exact .inr ⟨(hf _ _).mpr (First.single.mpr ⟨_, hr, rfl, h1⟩), ih⟩
    | take hr h1 ht _ => exact .inl ⟨ht, (hf _ _).mpr (First.single.mpr ⟨_, hr, rfl, h1⟩)⟩

/-- Complete FIRST sets are the true ones. -/
theorem seqFirst_recorded {g : Grammar T L} (hc : C07.FirstComplete g) :
    seqFirst (Recorded g) = InFirst g.productions := by
  funext α t
  refine propext ((seqFirst_iff fun l t => ?_).trans first_iff)
  rw [first_iff]
  exact ⟨C06.first_sound g l t, hc l t⟩

/-- FIRST sets as recorded, for the user's grammar and for the indexed one. -/
theorem sameFirst_recorded (hg : IndexedGrammar.build g = .ok ig)
    (hF : (FirstTable.build ig : Outcome (LRTableError T L) _) = .ok F) :
    SameFirst ig (seqFirst (Recorded g)) F.NodesFirst := by
  have henc := (IndexedGrammar.build_ok hg).1
  rw [← seqFirst_eq]
  have hiff : ∀ β β' t t', EncNodes ig β β' → EncTok ig.vocab.idMap t t' →
      (seqFirst (Recorded g) β t ↔ seqFirst F.In β' t') := by
    intro β β' t t' hβ ht
    have heps : t = .epsilon ↔ t' = .epsilon := by
      cases t <;> cases t' <;> simp_all [EncTok]
    have heos : t = .eos ↔ t' = .eos := by
      cases t <;> cases t' <;> simp_all [EncTok]
    induction hβ with
    | nil => exact heps
    | @cons n k β β' hn _ ih =>
      match n, k with
      | .terminal .epsilon, .terminal .epsilon => exact ih
      | .terminal .eos, .terminal .eos => exact heos
      | .terminal (.token u), .terminal (.token v) =>
        show t = .token u ↔ t' = .token v
        constructor
        · rintro rfl
          exact EncTok.inj henc.vocab.nodup ht hn
        · rintro rfl
          exact EncTok.inj' ht hn
      | .production l, .production i =>
        show (t ≠ .epsilon ∧ Recorded g l t) ∨ (Recorded g l .epsilon ∧ _) ↔
          (t' ≠ .epsilon ∧ F.In i t') ∨ (F.In i .epsilon ∧ _)
        exact or_congr (and_congr (not_congr heps) (recorded_iff hg hF hn ht))
          (and_congr (recorded_iff (t := .epsilon) (k := .epsilon) hg hF hn trivial) ih)
      | .terminal .epsilon, .terminal .eos => exact hn.elim
      | .terminal .epsilon, .terminal (.token _) => exact hn.elim
      | .terminal .eos, .terminal .epsilon => exact hn.elim
      | .terminal .eos, .terminal (.token _) => exact hn.elim
      | .terminal (.token _), .terminal .epsilon => exact hn.elim
      | .terminal (.token _), .terminal .eos => exact hn.elim
      | .terminal _, .production _ => exact hn.elim
      | .production _, .terminal _ => exact hn.elim
  refine ⟨hiff, ?_, ?_⟩
  · intro β β' t hβ ht
    induction hβ with
    | nil => cases ht; exact ⟨.epsilon, trivial⟩
    | @cons n k β β' hn _ ih =>
      match n, k with
      | .terminal .epsilon, _ => exact ih ht
      | .terminal .eos, _ => cases ht; exact ⟨.eos, trivial⟩
      | .terminal (.token u), .terminal k => cases ht; exact ⟨k, hn⟩
      | .production l, _ =>
        rcases ht with ⟨-, ig', F', i', k', s, h1, h2, h3, h4, h5, h6⟩ | ⟨-, ht⟩
        · rw [hg] at h1
          cases h1
          exact ⟨k', idToToken_iff.mp h4⟩
        · exact ih ht
  · intro β β' t' hβ ht
    obtain ⟨F1, hF1, hres⟩ := FirstTable.build_spec (ε := LRTableError T L) henc.wf
    rw [hF] at hF1
    cases hF1
    induction hβ with
    | nil => cases ht; exact ⟨.epsilon, trivial⟩
    | @cons n k β β' hn _ ih =>
      match n, k with
      | _, .terminal .epsilon => exact ih ht
      | _, .terminal .eos => cases ht; exact ⟨.eos, trivial⟩
      | .terminal t, .terminal (.token u) => cases ht; exact ⟨t, hn⟩
      | _, .production l =>
        rcases ht with ⟨-, ht⟩ | ⟨-, ht⟩
        · have hlt := (hres.wf.in_lt ht).2
          cases t' with
          | epsilon => exact ⟨.epsilon, trivial⟩
          | eos => exact ⟨.eos, trivial⟩
          | token v =>
            have : v < ig.vocab.idMap.length := by
              simp only [Label.id, Vocab.size] at hlt
              omega
            exact ⟨.token _, List.getElem?_eq_getElem this⟩
        · exact ih ht

/-- True FIRST sets, for the user's grammar and for the indexed one. -/
theorem sameFirst_true (hg : IndexedGrammar.build g = .ok ig) :
    SameFirst ig (InFirst g.productions) (InFirst ig.cfg) := by
  have henc := (IndexedGrammar.build_ok hg).1
  have e1 : InFirst g.productions = First g.productions := by
    funext α t; exact propext first_iff.symm
  have e2 : InFirst ig.cfg = First ig.cfg := by
    funext α t; exact propext Verif.first_iff.symm
  rw [e2]
  refine ⟨?_, ?_, ?_⟩
  · intro β β' t t' hβ ht
    rw [← Verif.first_iff, henc.first_iff hβ ht]
  · intro β β' t hβ ht
    rw [← Verif.first_iff] at ht
    refine henc.first_tok ht ?_
    rintro n hn u rfl
    obtain ⟨m, -, he⟩ := forall₂_mem_left hβ hn
    cases m with
    | production l => exact he.elim
    | terminal k => exact ⟨k, he⟩
  · intro β β' t' hβ ht
    refine henc.first_tok' ht ?_
    rintro n hn i rfl
    obtain ⟨m, -, he⟩ := forall₂_mem_right hβ hn
    cases m with
    | production l => exact he.elim
    | terminal k => exact ⟨k, he⟩

namespace C07

/-- What is recorded of a sequence is true. -/
theorem seqFirst_sound {α : List (Node T L)} {t : AugTok T} (h : seqFirst (Recorded g) α t) :
    InFirst g.productions α t := by
  rw [← Verif.first_iff]
  induction α with
  | nil => cases h; exact .nil
  | cons n α ih =>
    match n, h with
    | .terminal .epsilon, h => exact .eps (ih h)
    | .terminal (.token _), h => cases h; exact .term (by simp)
    | .terminal .eos, h => cases h; exact .term (by simp)
    | .production l, .inl ⟨h1, h2⟩ =>
      obtain ⟨r, hr, rfl, h3⟩ := First.single.mp (Verif.first_iff.mpr (C06.first_sound g l t h2))
      exact .take hr h3 h1
    | .production l, .inr ⟨h1, h2⟩ =>
      obtain ⟨r, hr, rfl, h3⟩ := First.single.mp (Verif.first_iff.mpr (C06.first_sound g l _ h1))
      exact .skip hr h3 (ih h2)

/-- The FIRST sets are complete wherever the table construction looks at them: for what follows a label in a rule. -/
def FollowComplete (g : Grammar T L) : Prop :=
  ∀ r ∈ g.productions, ∀ (d : Nat) (l : L) (β : List (Node T L)), (rhs r).drop d = .production l :: β →
    ∀ t, InFirst g.productions β t → seqFirst (Recorded g) β t

/-- No action is missing: whatever the valid items demand with the true FIRST sets is also demanded with the recorded
ones. -/
def ActionsComplete (g : Grammar T L) : Prop :=
  ∀ γ t a, Demands g.productions (InFirst g.productions) γ t a → Demands g.productions (seqFirst (Recorded g)) γ t a

theorem FirstComplete.follow (hc : FirstComplete g) : FollowComplete g := by
  intro r _ d l β _ t h
  rwa [seqFirst_recorded hc]

theorem FollowComplete.actions (hc : FollowComplete g) : ActionsComplete g :=
  fun _ _ _ h => h.mono hc

theorem FirstComplete.actions (hc : FirstComplete g) : ActionsComplete g := hc.follow.actions

/-- There are never actions too many. -/
theorem demands_sound {γ : List (Node T L)} {t : AugTok T} {a : Act}
    (h : Demands g.productions (seqFirst (Recorded g)) γ t a) : Demands g.productions (InFirst g.productions) γ t a :=
  h.mono fun _ _ _ _ _ _ _ h => seqFirst_sound h

theorem ActionsComplete.eq (hc : ActionsComplete g) :
    Demands g.productions (seqFirst (Recorded g)) = Demands g.productions (InFirst g.productions) := by
  funext γ t a
  exact propext ⟨demands_sound, hc γ t a⟩

theorem ActionsComplete.noConflict (hc : ActionsComplete g) :
    NoConflict g.productions (seqFirst (Recorded g)) ↔ NoConflict g.productions (InFirst g.productions) := by
  unfold NoConflict
  rw [hc.eq]

/-- The same for the indexed grammar. -/
theorem ActionsComplete.covers (hc : ActionsComplete g) (hg : IndexedGrammar.build g = .ok ig)
    (hF : (FirstTable.build ig : Outcome (LRTableError T L) _) = .ok F) : Covers ig.cfg F.NodesFirst := by
  have henc := (IndexedGrammar.build_ok hg).1
  intro γ' t' a' h
  obtain ⟨γ, t, h1, h2, h3⟩ := demands_dec henc (sameFirst_true hg) h
  obtain ⟨γ1, t1, a1, k1, k2, k3, k4⟩ := demands_enc henc (sameFirst_recorded hg hF) (hc _ _ _ h3)
  cases encNodes_inj' henc h1 k1
  cases EncTok.inj henc.vocab.nodup h2 k2
  have : a1 = a' := by
    cases a1 <;> cases a' <;> simp only [origAct, Act.reduce.injEq, reduceCtorEq] at k3 ⊢
    obtain ⟨r, hr⟩ := h.rule
    obtain ⟨r', hr'⟩ := k4.rule
    exact orig_injective henc hr' hr k3
  rw [← this]
  exact k4

end C07
end Verif
