import Verif.Spec.Extend
import Verif.Spec.LR
import Verif.Spec.First
import Verif.Proof.Trees

/-!
# More rules
-/

set_option linter.unusedSectionVars false
set_option autoImplicit false

namespace Verif
open Spec

namespace Spec.Extends

theorem mem {α : Type} {ρ : Nat → Nat} {rs rs' : List α} (h : Extends ρ rs rs') {r : α} (hr : r ∈ rs) : r ∈ rs' := by
  obtain ⟨i, hi⟩ := List.mem_iff_getElem?.mp hr
  exact List.mem_of_getElem? (h.get _ _ hi)

theorem map {α β : Type} {ρ : Nat → Nat} {rs rs' : List α} (h : Extends ρ rs rs') (f : α → β) :
    Extends ρ (rs.map f) (rs'.map f) where
  root := h.root
  inj := h.inj
  get i r hr := by
    rw [List.getElem?_map, Option.map_eq_some_iff] at hr ⊢
    obtain ⟨a, ha, e⟩ := hr
    exact ⟨a, h.get _ _ ha, e⟩

section
variable {T L A : Type} {ρ : Nat → Nat} {P P' : List (Rule T L)} (h : Extends ρ P P')
include h

theorem rewrites {α β : List (Node T L)} (hr : Rewrites P α β) : Rewrites P' α β := by
  induction hr with
  | refl => exact .refl _
  | step h1 _ ih =>
    cases h1 with
    | mk x y r hr => exact .step (.mk x y r (h.mem hr)) ih

theorem inFirst {α : List (Node T L)} {t : AugTok T} (hf : InFirst P α t) : InFirst P' α t := by
  rcases hf with ⟨h1, β, h2, h3⟩ | ⟨h1, β, h2, h3⟩
  · exact .inl ⟨h1, β, h.rewrites h2, h3⟩
  · exact .inr ⟨h1, β, h.rewrites h2, h3⟩

theorem derives {α : List (Node T L)} {w : List T} (hd : Derives P α w) : Derives P' α w := by
  induction hd with
  | nil => exact .nil
  | tok _ ih => exact .tok ih
  | eps _ ih => exact .eps ih
  | prod hr _ _ ih1 ih2 => exact .prod (h.mem hr) ih1 ih2

theorem reachable {root l : L} (hr : Reachable P root l) : Reachable P' root l := by
  induction hr with
  | root => exact .root
  | step _ hr hl ih => exact .step ih (h.mem hr) hl

theorem parsesM {m : A → T → Prop} {f : Forest A} {α : List (Node T L)} {w : List A} (hp : ParsesM P m f α w) :
    ParsesM P' m (f.mapRules ρ) α w := by
  induction hp with
  | nil => exact .nil
  | tok hm _ ih => exact .tok hm ih
  | eps _ ih => exact .eps ih
  | prod hr _ _ ih1 ih2 => exact .prod (h.get _ _ hr) ih1 ih2

theorem valid {γ : List (Node T L)} {i d : Nat} (hv : Valid P γ i d) : Valid P' γ (ρ i) d := by
  induction hv with
  | root => rw [h.root]; exact .root
  | close _ h2 h3 h4 ih => exact .close ih (h.get _ _ h2) h3 (h.get _ _ h4)
  | move _ h2 h3 ih => exact .move ih (h.get _ _ h2) h3

variable {first first' : List (Node T L) → AugTok T → Prop} (hf : ∀ α t, first α t → first' α t)
include hf

theorem validLook {γ : List (Node T L)} {i d : Nat} {t : AugTok T} (hv : ValidLook P first γ i d t) :
    ValidLook P' first' γ (ρ i) d t := by
  induction hv with
  | root => rw [h.root]; exact .root
  | closeFirst h1 h2 h3 h4 h5 h6 => exact .closeFirst (h.valid h1) (h.get _ _ h2) h3 (h.get _ _ h4) h5 (hf _ _ h6)
  | closePass _ h2 h3 h4 h5 ih => exact .closePass ih (h.get _ _ h2) h3 (h.get _ _ h4) (hf _ _ h5)
  | move _ h2 h3 ih => exact .move ih (h.get _ _ h2) h3

/-- An action with the new number of its rule. -/
def _root_.Verif.Spec.Act.map (ρ : Nat → Nat) : Act → Act
  | .shift => .shift
  | .reduce i => .reduce (ρ i)
  | .accept => .accept

theorem demands {γ : List (Node T L)} {t : AugTok T} {a : Act} (hd : Demands P first γ t a) :
    Demands P' first' γ t (a.map ρ) := by
  cases hd with
  | shift h1 h2 h3 => exact .shift (h.valid h1) (h.get _ _ h2) h3
  | reduce h1 h2 h3 =>
    refine .reduce (h.get _ _ h1) (fun e => h2 ?_) (h.validLook hf h3)
    exact h.inj _ _ (e.trans h.root.symm)
  | accept h1 h2 h3 =>
    refine .accept (by simpa only [h.root] using h.get _ _ h1) h2 ?_
    simpa only [h.root] using h.valid h3

theorem noConflict (hn : NoConflict P' first') : NoConflict P first := by
  intro γ t a b ha hb
  have := hn γ t _ _ (h.demands hf ha) (h.demands hf hb)
  cases a <;> cases b <;> simp [Act.map] at this ⊢
  exact h.inj _ _ this

end
end Spec.Extends
end Verif
