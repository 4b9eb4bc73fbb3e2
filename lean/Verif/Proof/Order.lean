import Verif.Proof.Extend
import Mathlib.Logic.Equiv.Basic

/-!
# Rules in another order
-/

set_option linter.unusedSectionVars false
set_option autoImplicit false

namespace Verif
open Spec

/-- The permutation that keeps 0 and moves the others like `π`. -/
def shiftPerm (π : Equiv.Perm Nat) : Equiv.Perm Nat where
  toFun | 0 => 0 | i + 1 => π i + 1
  invFun | 0 => 0 | i + 1 => π.symm i + 1
  left_inv i := by cases i <;> simp
  right_inv i := by cases i <;> simp

/-- Lists with the same entries in another order, by positions. -/
theorem exists_positions {α : Type} {l l' : List α} (h : l.Perm l') : ∃ π : Equiv.Perm Nat, ∀ i, l'[π i]? = l[i]? := by
  induction h with
  | nil => exact ⟨.refl _, fun _ => rfl⟩
  | cons a _ ih =>
    obtain ⟨π, h⟩ := ih
    refine ⟨shiftPerm π, fun i => ?_⟩
    cases i with
    | zero => rfl
    | succ i => simpa [shiftPerm] using h i
  | swap a b l =>
    refine ⟨Equiv.swap 0 1, fun i => ?_⟩
    match i with
    | 0 => simp
    | 1 => simp
    | i + 2 =>
      rw [Equiv.swap_apply_of_ne_of_ne (by omega) (by omega)]
      simp
  | trans _ _ ih1 ih2 =>
    obtain ⟨π, h⟩ := ih1
    obtain ⟨ρ, h'⟩ := ih2
    exact ⟨π.trans ρ, fun i => (h' _).trans (h i)⟩

section
variable {T L A : Type}

/-- The same rules, the rule at `i` now at `π i`; the root rule stays in front. -/
structure Moved (π : Equiv.Perm Nat) (P P' : List (Rule T L)) : Prop where
  root : π 0 = 0
  get : ∀ i, P'[π i]? = P[i]?

theorem exists_moved {root : Rule T L} {rest rest' : List (Rule T L)} (h : rest.Perm rest') :
    ∃ π, Moved π (root :: rest) (root :: rest') := by
  obtain ⟨π, hπ⟩ := exists_positions h
  refine ⟨shiftPerm π, rfl, fun i => ?_⟩
  cases i with
  | zero => rfl
  | succ i => simpa [shiftPerm] using hπ i

namespace Moved
variable {π : Equiv.Perm Nat} {P P' : List (Rule T L)} (h : Moved π P P')
include h

theorem symm : Moved π.symm P' P where
  root := by rw [Equiv.symm_apply_eq, h.root]
  get i := by rw [← h.get, Equiv.apply_symm_apply]

theorem at' {i : Nat} {r : Rule T L} (hr : P[i]? = some r) : P'[π i]? = some r := by rw [h.get, hr]

theorem mem {r : Rule T L} (hr : r ∈ P) : r ∈ P' := by
  obtain ⟨i, hi⟩ := List.mem_iff_getElem?.mp hr
  exact List.mem_of_getElem? (h.at' hi)

theorem mem_iff {r : Rule T L} : r ∈ P ↔ r ∈ P' := ⟨h.mem, h.symm.mem⟩

theorem extends' : Extends π P P' where
  root := h.root
  inj _ _ e := π.injective e
  get _ _ := h.at'

theorem inFirst {α : List (Node T L)} {t : AugTok T} (hf : InFirst P α t) : InFirst P' α t := h.extends'.inFirst hf

theorem inFirst_iff {α : List (Node T L)} {t : AugTok T} : InFirst P α t ↔ InFirst P' α t :=
  ⟨h.inFirst, h.symm.inFirst⟩

theorem reachable {root l : L} (hr : Reachable P root l) : Reachable P' root l := h.extends'.reachable hr

theorem valid {γ : List (Node T L)} {i d : Nat} (hv : Valid P γ i d) : Valid P' γ (π i) d := h.extends'.valid hv

theorem parsesM {m : A → T → Prop} {f : Forest A} {α : List (Node T L)} {w : List A} (hp : ParsesM P m f α w) :
    ParsesM P' m (f.mapRules π) α w := h.extends'.parsesM hp

theorem derives {α : List (Node T L)} {w : List T} (hd : Derives P α w) : Derives P' α w := h.extends'.derives hd

variable {first first' : List (Node T L) → AugTok T → Prop} (hf : ∀ α t, first α t → first' α t)
include hf

theorem validLook {γ : List (Node T L)} {i d : Nat} {t : AugTok T} (hv : ValidLook P first γ i d t) :
    ValidLook P' first' γ (π i) d t := h.extends'.validLook hf hv

theorem demands {γ : List (Node T L)} {t : AugTok T} {a : Act} (hd : Demands P first γ t a) :
    Demands P' first' γ t (a.map π) := h.extends'.demands hf hd

theorem noConflict (hn : NoConflict P' first') : NoConflict P first := h.extends'.noConflict hf hn

end Moved

theorem act_map_symm (π : Equiv.Perm Nat) (a : Act) : (a.map π.symm).map π = a := by
  cases a <;> simp [Act.map]

theorem Moved.demands_iff {π : Equiv.Perm Nat} {P P' : List (Rule T L)} (h : Moved π P P')
    {first first' : List (Node T L) → AugTok T → Prop} (hf : ∀ α t, first α t ↔ first' α t) (γ : List (Node T L))
    (t : AugTok T) (a : Act) : Demands P first γ t a ↔ Demands P' first' γ t (a.map π) := by
  refine ⟨h.demands fun α t => (hf α t).mp, fun hd => ?_⟩
  have := h.symm.demands (fun α t => (hf α t).mpr) hd
  rwa [show (a.map π).map π.symm = a from by cases a <;> simp [Act.map]] at this

end
end Verif
