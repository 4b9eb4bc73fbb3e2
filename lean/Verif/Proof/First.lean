import Verif.Spec.First

/-!
# FIRST: inductive characterisation
-/

namespace Verif

variable {T L : Type} {P : List (Rule T L)}

/-- Inductive form of `Spec.InFirst`. -/
inductive First (P : List (Rule T L)) : List (Node T L) → AugTok T → Prop
  | nil : First P [] .epsilon
  | eps {α t} : First P α t → First P (.terminal .epsilon :: α) t
  | term {t α} : t ≠ .epsilon → First P (.terminal t :: α) t
  | skip {r α t} : r ∈ P → First P r.rule .epsilon → First P α t →
      First P (.production r.symbol :: α) t
  | take {r α t} : r ∈ P → First P r.rule t → t ≠ .epsilon →
      First P (.production r.symbol :: α) t

namespace First

theorem append {α β : List (Node T L)} {t : AugTok T} :
    First P (α ++ β) t ↔ (First P α t ∧ t ≠ .epsilon) ∨ (First P α .epsilon ∧ First P β t) := by
  induction α with
  | nil =>
    simp only [List.nil_append]
    constructor
    · exact fun h => .inr ⟨.nil, h⟩
    · rintro (⟨h, hne⟩ | ⟨-, h⟩)
      · cases h; exact absurd rfl hne
      · exact h
  | cons n α ih =>
    simp only [List.cons_append]
    constructor
    · intro h
      cases h with
      | eps h =>
        rcases ih.mp h with ⟨h1, h2⟩ | ⟨h1, h2⟩
        · exact .inl ⟨.eps h1, h2⟩
        · exact .inr ⟨.eps h1, h2⟩
      | term hne => exact .inl ⟨.term hne, hne⟩
      | skip hr he h =>
        rcases ih.mp h with ⟨h1, h2⟩ | ⟨h1, h2⟩
        · exact .inl ⟨.skip hr he h1, h2⟩
        · exact .inr ⟨.skip hr he h1, h2⟩
      | take hr h hne => exact .inl ⟨.take hr h hne, hne⟩
    · rintro (⟨h, hne⟩ | ⟨h, h2⟩)
      · cases h with
        | eps h => exact .eps (ih.mpr (.inl ⟨h, hne⟩))
        | term hne => exact .term hne
        | skip hr he h => exact .skip hr he (ih.mpr (.inl ⟨h, hne⟩))
        | take hr h hne => exact .take hr h hne
      · cases h with
        | eps h => exact .eps (ih.mpr (.inr ⟨h, h2⟩))
        | term hne => exact absurd rfl hne
        | skip hr he h => exact .skip hr he (ih.mpr (.inr ⟨h, h2⟩))
        | take hr h hne => exact absurd rfl hne

theorem of_allEpsilon {α : List (Node T L)} (h : Spec.AllEpsilon α) : First P α .epsilon := by
  induction α with
  | nil => exact .nil
  | cons n α ih =>
    have := h n List.mem_cons_self
    subst this
    exact .eps (ih fun m hm => h m (List.mem_cons_of_mem _ hm))

theorem of_rewrite {α β : List (Node T L)} {t : AugTok T} (h : Spec.Rewrite P α β)
    (hf : First P β t) : First P α t := by
  obtain ⟨x, y, r, hr⟩ := h
  rw [List.append_assoc, append] at hf
  rw [append]
  rcases hf with ⟨h1, h2⟩ | ⟨h1, h2⟩
  · exact .inl ⟨h1, h2⟩
  · refine .inr ⟨h1, ?_⟩
    rcases append.mp h2 with ⟨h3, h4⟩ | ⟨h3, h4⟩
    · exact .take hr h3 h4
    · exact .skip hr h3 h4

theorem of_rewrites {α β : List (Node T L)} {t : AugTok T} (h : Spec.Rewrites P α β)
    (hf : First P β t) : First P α t := by
  induction h with
  | refl => exact hf
  | step hs _ ih => exact of_rewrite hs (ih hf)

/-- A node that is epsilon or a label satisfying `f`. -/
def vanishes (f : L → Bool) : Node T L → Bool
  | .terminal .epsilon => true
  | .terminal _ => false
  | .production l => f l

/-- If `f` contains the symbol of every rule whose nodes all vanish, it contains all nullable labels. -/
theorem nullable_sub (f : L → Bool)
    (hf : (P.all fun r => !(r.rule.all (vanishes f)) || f r.symbol) = true)
    {α : List (Node T L)} {t : AugTok T} (h : First P α t) (ht : t = .epsilon) :
    α.all (vanishes f) = true := by
  induction h with
  | nil => rfl
  | eps _ ih => simpa [vanishes] using ih ht
  | term hne => exact absurd ht hne
  | @skip r α t hr _ _ ih1 ih2 =>
    have h1 := List.all_eq_true.mp hf r hr
    rw [ih1 rfl] at h1
    simp only [List.all_cons, vanishes, ih2 ht, Bool.and_true]
    simpa using h1
  | take _ _ hne => exact absurd ht hne

end First

theorem Spec.Rewrites.trans {α β γ : List (Node T L)} (h1 : Rewrites P α β) (h2 : Rewrites P β γ) :
    Rewrites P α γ := by
  induction h1 with
  | refl => exact h2
  | step hs _ ih => exact .step hs (ih h2)

theorem Spec.Rewrites.context {α β : List (Node T L)} (x y : List (Node T L)) (h : Rewrites P α β) :
    Rewrites P (x ++ α ++ y) (x ++ β ++ y) := by
  induction h with
  | refl => exact .refl _
  | step hs _ ih =>
    refine .step ?_ ih
    obtain ⟨u, v, r, hr⟩ := hs
    have := Rewrite.mk (x ++ u) (v ++ y) r hr
    simpa using this

theorem Spec.Rewrites.cons {α β : List (Node T L)} (n : Node T L) (h : Rewrites P α β) :
    Rewrites P (n :: α) (n :: β) := by
  simpa using h.context [n] []

theorem First.spec {α : List (Node T L)} {t : AugTok T} (h : First P α t) : Spec.InFirst P α t := by
  induction h with
  | nil => exact .inl ⟨rfl, [], .refl _, by simp [Spec.AllEpsilon]⟩
  | @eps α t _ ih =>
    rcases ih with ⟨rfl, β, hb, he⟩ | ⟨hne, β, hb, e, rest, rfl, he⟩
    · refine .inl ⟨rfl, _, hb.cons _, ?_⟩
      intro n hn
      rcases List.mem_cons.mp hn with rfl | hn
      · rfl
      · exact he n hn
    · refine .inr ⟨hne, _, hb.cons _, _ :: e, rest, rfl, ?_⟩
      intro n hn
      rcases List.mem_cons.mp hn with rfl | hn
      · rfl
      · exact he n hn
  | @term t α hne => exact .inr ⟨hne, _, .refl _, [], α, rfl, by simp [Spec.AllEpsilon]⟩
  | @skip r α t hr _ _ ih1 ih2 =>
    obtain ⟨β1, hb1, he1⟩ : ∃ β, Spec.Rewrites P r.rule β ∧ Spec.AllEpsilon β := by
      rcases ih1 with ⟨-, h⟩ | ⟨hne, -⟩
      · exact h
      · exact absurd rfl hne
    have hstep : ∀ β2, Spec.Rewrites P α β2 →
        Spec.Rewrites P (.production r.symbol :: α) (β1 ++ β2) := by
      intro β2 hb2
      refine .step (by simpa using Spec.Rewrite.mk [] α r hr) ?_
      have h1 := hb1.context [] α
      have h2 := hb2.context β1 []
      simp only [List.nil_append, List.append_nil] at h1 h2
      exact h1.trans h2
    rcases ih2 with ⟨rfl, β, hb, he⟩ | ⟨hne, β, hb, e, rest, rfl, he⟩
    · refine .inl ⟨rfl, _, hstep β hb, ?_⟩
      intro n hn
      rcases List.mem_append.mp hn with hn | hn
      · exact he1 n hn
      · exact he n hn
    · refine .inr ⟨hne, _, hstep _ hb, β1 ++ e, rest, by simp, ?_⟩
      intro n hn
      rcases List.mem_append.mp hn with hn | hn
      · exact he1 n hn
      · exact he n hn
  | @take r α t hr _ hne ih =>
    rcases ih with ⟨rfl, -⟩ | ⟨-, β, hb, e, rest, rfl, he⟩
    · exact absurd rfl hne
    · refine .inr ⟨hne, (e ++ .terminal t :: rest) ++ α, ?_, e, rest ++ α, by simp, he⟩
      refine .step (by simpa using Spec.Rewrite.mk [] α r hr) ?_
      have h1 := hb.context [] α
      simpa using h1

theorem first_iff {α : List (Node T L)} {t : AugTok T} : First P α t ↔ Spec.InFirst P α t := by
  constructor
  · exact First.spec
  · rintro (⟨rfl, β, hb, he⟩ | ⟨hne, β, hb, e, rest, rfl, he⟩)
    · exact First.of_rewrites hb (First.of_allEpsilon he)
    · refine First.of_rewrites hb ?_
      rw [First.append]
      exact .inr ⟨First.of_allEpsilon he, .term hne⟩

end Verif
