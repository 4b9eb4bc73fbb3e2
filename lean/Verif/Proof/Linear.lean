import Verif.Proof.Progress
import Mathlib.Data.Fintype.Card

/-!
# The canonical LR(1) parser: time

The number of steps is bounded by a linear function of the number of tokens. The coefficient depends on the
grammar only: neither on the tokens nor on how they are matched. Reductions between two shifts are paid for by
the symbols that they remove from the stack, up to a constant.
-/

set_option linter.unusedSectionVars false
set_option autoImplicit false

namespace Verif
open Spec

variable {P : List (Rule Nat Nat)} {F : FirstTable}

theorem _root_.Verif.Spec.Steps.height {A : Type} {m : A → Nat → Prop} {first : List INode → AugTokId → Prop}
    {c c' : Config Nat Nat A} {tr : List Nat} (h : Steps P first m c c' tr) :
    c'.stack.length + c'.input.length ≤ c.stack.length + c.input.length + tr.length := by
  induction h with
  | refl => simp
  | step h1 _ ih => cases h1 <;> simp at ih ⊢ <;> omega

/-- At most `n` reductions put `α` on the stack without reading input. -/
def VanishIn (P : List (Rule Nat Nat)) (F : FirstTable) (α : List INode) (n : Nat) : Prop :=
  ∀ (A : Type) (m : A → Nat → Prop) (γ : List INode) (ts : List (Tree A)) (z : List A) (i d : Nat)
    (r : Rule Nat Nat) (β : List INode) (x : AugTokId),
    Valid P γ i d → P[i]? = some r → (rhs r).drop d = strip α ++ β → Look m z x →
    MayFollow P F.NodesFirst γ i d β x →
    ∃ ts' tr, Steps P F.NodesFirst m ⟨γ, ts, z⟩ ⟨γ ++ strip α, ts', z⟩ tr ∧ tr.length ≤ n

/-- At most `n` reductions lead from the beginning of `α` to a shift of `t`. -/
def ShiftIn (P : List (Rule Nat Nat)) (F : FirstTable) (α : List INode) (t : AugTokId) (n : Nat) : Prop :=
  ∀ (A : Type) (m : A → Nat → Prop) (γ : List INode) (ts : List (Tree A)) (z : List A) (i d : Nat)
    (r : Rule Nat Nat) (β : List INode),
    Valid P γ i d → P[i]? = some r → (rhs r).drop d = strip α ++ β → Look m z t →
    ∃ c' tr, Steps P F.NodesFirst m ⟨γ, ts, z⟩ c' tr ∧ c'.input = z ∧
      Demands P F.NodesFirst c'.stack t .shift ∧ tr.length ≤ n

theorem vanish_in (hu : RootOk P) {α : List INode} {x0 : AugTokId} (hj : FirstTable.Just P F α x0)
    (h0 : x0 = .epsilon) : ∃ n, VanishIn P F α n := by
  induction hj with
  | nil => exact ⟨0, fun A m γ ts z i d r β x _ _ _ _ _ => ⟨ts, [], by simpa using .refl _, by simp⟩⟩
  | eps _ ih => exact ih h0
  | term h => exact absurd h0 h
  | take _ _ _ h => exact absurd h0 h
  | @skip r' α t hr' _ hj1 hj2 ih1 ih2 =>
    obtain ⟨n1, ih1⟩ := ih1 rfl
    obtain ⟨n2, ih2⟩ := ih2 h0
    refine ⟨n1 + 1 + n2, fun A m γ ts z i d r β x hv hr hd hl hfol => ?_⟩
    obtain ⟨j, hj'⟩ := List.mem_iff_getElem?.mp hr'
    have hd' : (rhs r).drop d = .production r'.symbol :: (strip α ++ β) := hd
    have hjn := hu.just_ne_zero hr hd' hj' hj1
    have hfα : F.NodesFirst (strip α) .epsilon := nodesFirst_strip.mpr (h0 ▸ hj2.nodesFirst)
    have hlook : ValidLook P F.NodesFirst γ j 0 x :=
      (mayFollow_append hfol hfα).close hl.ne_eps hv hr hd' hj'
    obtain ⟨ts1, tr1, hs1, hn1⟩ := ih1 A m γ ts z j 0 r' [] x (Valid.close hv hr hd' hj') hj'
      (by simp [rhs_def]) hl (.inr ⟨rfl, hlook⟩)
    rw [← rhs_def] at hs1
    have hs2 := Step.reduce (m := m) (ts := ts1) hj' hl (Demands.reduce (γ := γ ++ rhs r') hj' hjn
      (by simpa using hlook.extend (α := rhs r') (β := []) hj' (by simp)))
    obtain ⟨ts3, tr3, hs3, hn3⟩ := ih2 A m _ (reduceTrees j (rhs r').length ts1) z _ _ _ _ _ (.move hv hr hd') hr
      (drop_succ_of_drop hd') hl (hfol.extend (α := [_]) hr hd')
    refine ⟨ts3, tr1 ++ ((some j).toList ++ tr3), hs1.trans (.step hs2 ?_), ?_⟩
    · simpa using hs3
    · simp
      omega

theorem shift_in (hu : RootOk P) {α : List INode} {t : AugTokId} (hj : FirstTable.Just P F α t)
    (h0 : t ≠ .epsilon) : ∃ n, ShiftIn P F α t n := by
  induction hj with
  | nil => exact absurd rfl h0
  | eps _ ih => exact ih h0
  | @term t α h =>
    refine ⟨0, fun A m γ ts z i d r β hv hr hd hl => ⟨_, _, .refl _, rfl, ?_, by simp⟩⟩
    cases t with
    | epsilon => exact absurd rfl h
    | token k => exact .shift hv hr hd
    | eos => exact .shift hv hr hd
  | @take r' α t hr' _ hj h ih =>
    obtain ⟨n, ih⟩ := ih h
    refine ⟨n, fun A m γ ts z i d r β hv hr hd hl => ?_⟩
    obtain ⟨j, hj'⟩ := List.mem_iff_getElem?.mp hr'
    exact ih A m γ ts z j 0 r' [] (Valid.close hv hr hd hj') hj' (by simp [rhs_def]) hl
  | @skip r' α t hr' _ hj1 hj2 _ ih2 =>
    obtain ⟨n1, hv1⟩ := vanish_in hu hj1 rfl
    obtain ⟨n2, ih2⟩ := ih2 h0
    refine ⟨n1 + 1 + n2, fun A m γ ts z i d r β hv hr hd hl => ?_⟩
    obtain ⟨j, hj'⟩ := List.mem_iff_getElem?.mp hr'
    have hd' : (rhs r).drop d = .production r'.symbol :: (strip α ++ β) := hd
    have hjn := hu.just_ne_zero hr hd' hj' hj1
    have hlook : ValidLook P F.NodesFirst γ j 0 t :=
      .closeFirst hv hr hd' hj' h0
        (FirstTable.NodesFirst.append.mpr (.inl ⟨h0, nodesFirst_strip.mpr hj2.nodesFirst⟩))
    obtain ⟨ts1, tr1, hs1, hn1⟩ := hv1 A m γ ts z j 0 r' [] t (Valid.close hv hr hd' hj') hj'
      (by simp [rhs_def]) hl (.inr ⟨rfl, hlook⟩)
    rw [← rhs_def] at hs1
    have hs2 := Step.reduce (m := m) (ts := ts1) hj' hl (Demands.reduce (γ := γ ++ rhs r') hj' hjn
      (by simpa using hlook.extend (α := rhs r') (β := []) hj' (by simp)))
    obtain ⟨c', tr3, hs3, h3, h4, hn3⟩ := ih2 A m _ (reduceTrees j (rhs r').length ts1) z _ _ _ _ (.move hv hr hd') hr
      (drop_succ_of_drop hd') hl
    refine ⟨c', tr1 ++ ((some j).toList ++ tr3), hs1.trans (.step hs2 hs3), h3, h4, ?_⟩
    simp
    omega

/-! ### Bounds for all rules -/

theorem bound_list {α : Type} {Q : α → Nat → Prop} (hm : ∀ x n n', Q x n → n ≤ n' → Q x n') (l : List α)
    (h : ∀ x ∈ l, ∃ n, Q x n) : ∃ n, ∀ x ∈ l, Q x n := by
  induction l with
  | nil => exact ⟨0, by simp⟩
  | cons x l ih =>
    obtain ⟨n, hn⟩ := ih fun y hy => h y (List.mem_cons_of_mem _ hy)
    obtain ⟨k, hk⟩ := h x (List.mem_cons_self ..)
    refine ⟨max n k, fun y hy => ?_⟩
    rcases List.mem_cons.mp hy with rfl | hy
    · exact hm _ _ _ hk (Nat.le_max_right ..)
    · exact hm _ _ _ (hn y hy) (Nat.le_max_left ..)

/-- The parts of rules that remain to be read. -/
def suffixes (P : List (Rule Nat Nat)) : List (List INode) :=
  P.flatMap fun r => (List.range ((rhs r).length + 1)).map fun d => (rhs r).drop d

theorem mem_suffixes {i d : Nat} {r : Rule Nat Nat} (hr : P[i]? = some r) : (rhs r).drop d ∈ suffixes P := by
  refine List.mem_flatMap.mpr ⟨r, List.mem_of_getElem? hr, ?_⟩
  rcases Nat.lt_or_ge d ((rhs r).length + 1) with h | h
  · exact List.mem_map.mpr ⟨d, List.mem_range.mpr h, rfl⟩
  · refine List.mem_map.mpr ⟨(rhs r).length, List.mem_range.mpr (by omega), ?_⟩
    rw [List.drop_length, List.drop_eq_nil_iff.mpr (by omega)]

/-- The terminals of the grammar. -/
def terminalsOf (P : List (Rule Nat Nat)) : List AugTokId :=
  P.flatMap fun r => r.rule.filterMap fun n => match n with | .terminal t => some t | .production _ => none

theorem just_terminal {α : List INode} {t : AugTokId} (h : FirstTable.Just P F α t) (h0 : t ≠ .epsilon) :
    .terminal t ∈ α ∨ t ∈ terminalsOf P := by
  have hin : ∀ r ∈ P, .terminal t ∈ r.rule → t ∈ terminalsOf P := fun r hr h =>
    List.mem_flatMap.mpr ⟨r, hr, List.mem_filterMap.mpr ⟨_, h, rfl⟩⟩
  induction h with
  | nil => exact absurd rfl h0
  | eps _ ih => exact (ih h0 hin).imp_left (List.mem_cons_of_mem _)
  | term => exact .inl (List.mem_cons_self ..)
  | skip _ _ _ _ _ ih => exact (ih h0 hin).imp_left (List.mem_cons_of_mem _)
  | @take r _ _ hr _ _ _ ih => exact .inr ((ih h0 hin).elim (hin r hr) id)

/-- A bound for all that remains to be read of any rule. -/
theorem uniform (hu : RootOk P) (hJ : F.Justified P) : ∃ V,
    (∀ α ∈ suffixes P, F.NodesFirst α .epsilon → VanishIn P F α V) ∧
    ∀ α ∈ suffixes P, ∀ t, t ≠ .epsilon → F.NodesFirst α t → ShiftIn P F α t V := by
  have mono1 : ∀ α n n', VanishIn P F α n → n ≤ n' → VanishIn P F α n' := by
    intro α n n' h hn A m γ ts z i d r β x h1 h2 h3 h4 h5
    obtain ⟨ts', tr, h6, h7⟩ := h A m γ ts z i d r β x h1 h2 h3 h4 h5
    exact ⟨ts', tr, h6, by omega⟩
  have mono2 : ∀ α t n n', ShiftIn P F α t n → n ≤ n' → ShiftIn P F α t n' := by
    intro α t n n' h hn A m γ ts z i d r β h1 h2 h3 h4
    obtain ⟨c', tr, h5, h6, h7, h8⟩ := h A m γ ts z i d r β h1 h2 h3 h4
    exact ⟨c', tr, h5, h6, h7, by omega⟩
  obtain ⟨n1, h1⟩ := bound_list (Q := fun α n => F.NodesFirst α .epsilon → VanishIn P F α n)
    (fun α n n' h hn hf => mono1 α n n' (h hf) hn) (suffixes P) (by
      intro α _
      by_cases hf : F.NodesFirst α .epsilon
      · obtain ⟨n, h⟩ := vanish_in hu (hf.just hJ) rfl
        exact ⟨n, fun _ => h⟩
      · exact ⟨0, fun h => absurd h hf⟩)
  have h2 : ∀ α ∈ suffixes P, ∃ n, ∀ t ∈ terminalsOf P, t ≠ .epsilon → F.NodesFirst α t → ShiftIn P F α t n := by
    intro α _
    refine bound_list (Q := fun (t : AugTokId) n => t ≠ .epsilon → F.NodesFirst α t → ShiftIn P F α t n)
      (fun t n n' h hn h0 hf => mono2 α t n n' (h h0 hf) hn) _ ?_
    intro t _
    by_cases hf : t ≠ .epsilon ∧ F.NodesFirst α t
    · obtain ⟨n, h⟩ := shift_in hu (hf.2.just hJ) hf.1
      exact ⟨n, fun _ _ => h⟩
    · exact ⟨0, fun h h' => absurd ⟨h, h'⟩ hf⟩
  obtain ⟨n2, h2⟩ := bound_list (Q := fun α n => ∀ t ∈ terminalsOf P, t ≠ .epsilon → F.NodesFirst α t →
    ShiftIn P F α t n) (fun α n n' h hn t ht h0 hf => mono2 α t n n' (h t ht h0 hf) hn) (suffixes P) h2
  refine ⟨max n1 n2, fun α hα hf => mono1 _ _ _ (h1 α hα hf) (Nat.le_max_left ..), fun α hα t h0 hf =>
    mono2 _ _ _ _ (h2 α hα t ?_ h0 hf) (Nat.le_max_right ..)⟩
  rcases just_terminal (hf.just hJ) h0 with h | h
  · obtain ⟨r, hr, hα⟩ := List.mem_flatMap.mp hα
    obtain ⟨d, -, rfl⟩ := List.mem_map.mp hα
    exact List.mem_flatMap.mpr ⟨r, hr, List.mem_filterMap.mpr
      ⟨_, (List.mem_filter.mp (List.mem_of_mem_drop h)).1, rfl⟩⟩
  · exact h

/-! ### Short chains -/

/-- Elements reached from `B` along `E`, with the number of steps. -/
inductive Within (B : Nat → Prop) (E : Nat → Nat → Prop) : Nat → Nat → Prop
  | start {j : Nat} : B j → Within B E 0 j
  | step {k i j : Nat} : Within B E k i → E i j → Within B E (k + 1) j

/-- If there are at most `n` elements, fewer than `n` steps suffice. -/
theorem Within.short {B : Nat → Prop} {E : Nat → Nat → Prop} {n : Nat} (hn : ∀ k j, Within B E k j → j < n) {k j : Nat}
    (h : Within B E k j) : ∃ k' < n, Within B E k' j := by
  classical
  have hex : ∃ k, Within B E k j := ⟨k, h⟩
  have hmin : ∀ k < Nat.find hex, ¬ Within B E k j := fun k hk => Nat.find_min hex hk
  refine ⟨Nat.find hex, ?_, Nat.find_spec hex⟩
  have hw := Nat.find_spec hex
  generalize Nat.find hex = k0 at hmin hw
  -- every smaller number of steps is the least for some element
  have key : ∀ k0 j, Within B E k0 j → (∀ k < k0, ¬ Within B E k j) → ∀ k ≤ k0, ∃ i, Within B E k i ∧
      ∀ k' < k, ¬ Within B E k' i := by
    intro k0
    induction k0 with
    | zero =>
      intro j hw hmin k hk
      obtain rfl : k = 0 := by omega
      exact ⟨j, hw, hmin⟩
    | succ k0 ih =>
      intro j hw hmin k hk
      rcases Nat.lt_or_ge k (k0 + 1) with hlt | hge
      · cases hw with
        | @step _ i _ h1 h2 =>
          exact ih i h1 (fun k' hk' hw' => hmin (k' + 1) (by omega) (.step hw' h2)) k (by omega)
      · obtain rfl : k = k0 + 1 := by omega
        exact ⟨j, hw, hmin⟩
  have hf : ∀ x : Fin (k0 + 1), ∃ i : Fin n, Within B E x i ∧ ∀ k' < x.val, ¬ Within B E k' i := by
    intro x
    obtain ⟨i, h1, h2⟩ := key k0 j hw hmin x (by omega)
    exact ⟨⟨i, hn _ _ h1⟩, h1, h2⟩
  choose f hf using hf
  have hinj : Function.Injective f := by
    intro x y hxy
    rcases Nat.lt_trichotomy x.val y.val with h | h | h
    · exact absurd (hxy ▸ (hf x).1) ((hf y).2 _ h)
    · exact Fin.ext h
    · exact absurd (hxy ▸ (hf y).1) ((hf x).2 _ h)
  have := Fintype.card_le_of_injective f hinj
  simp only [Fintype.card_fin] at this
  omega

/-! ### The bound -/

/-- An item at its beginning with lookahead `t` that is not owed to another such item by `closePass`. -/
def ChainBase (P : List (Rule Nat Nat)) (F : FirstTable) (γ : List INode) (t : AugTokId) (j : Nat) : Prop :=
  (γ = [] ∧ j = 0 ∧ t = .eos) ∨
  (∃ i d r r' β, Valid P γ i d ∧ P[i]? = some r ∧ (rhs r).drop d = .production r'.symbol :: β ∧
    P[j]? = some r' ∧ t ≠ .epsilon ∧ F.NodesFirst β t) ∨
  ∃ i d r r' β, ValidLook P F.NodesFirst γ i (d + 1) t ∧ P[i]? = some r ∧
    (rhs r).drop (d + 1) = .production r'.symbol :: β ∧ P[j]? = some r' ∧ F.NodesFirst β .epsilon

/-- `closePass` between items at their beginnings. -/
def ChainStep (P : List (Rule Nat Nat)) (F : FirstTable) (i j : Nat) : Prop :=
  ∃ r r' β, P[i]? = some r ∧ rhs r = .production r'.symbol :: β ∧ P[j]? = some r' ∧ F.NodesFirst β .epsilon

theorem chain_sound {γ : List INode} {t : AugTokId} {k j : Nat}
    (h : Within (ChainBase P F γ t) (ChainStep P F) k j) : ValidLook P F.NodesFirst γ j 0 t := by
  induction h with
  | start h =>
    rcases h with ⟨rfl, rfl, rfl⟩ | ⟨i, d, r, r', β, h1, h2, h3, h4, h5, h6⟩ | ⟨i, d, r, r', β, h1, h2, h3, h4, h5⟩
    · exact .root
    · exact .closeFirst h1 h2 h3 h4 h5 h6
    · exact .closePass h1 h2 h3 h4 h5
  | step _ h ih =>
    obtain ⟨r, r', β, h1, h2, h3, h4⟩ := h
    exact .closePass ih h1 h2 h3 h4

theorem chain_of {γ : List INode} {t : AugTokId} {j d : Nat} (h : ValidLook P F.NodesFirst γ j d t) (hd : d = 0) :
    ∃ k, Within (ChainBase P F γ t) (ChainStep P F) k j := by
  induction h with
  | root => exact ⟨0, .start (.inl ⟨rfl, rfl, rfl⟩)⟩
  | closeFirst h1 h2 h3 h4 h5 h6 => exact ⟨0, .start (.inr (.inl ⟨_, _, _, _, _, h1, h2, h3, h4, h5, h6⟩))⟩
  | @closePass γ i d j r r' β t h1 h2 h3 h4 h5 ih =>
    cases d with
    | zero =>
      obtain ⟨k, hk⟩ := ih rfl
      exact ⟨k + 1, .step hk ⟨r, r', β, h2, h3, h4, h5⟩⟩
    | succ d => exact ⟨0, .start (.inr (.inr ⟨_, _, _, _, _, h1, h2, h3, h4, h5⟩))⟩
  | move => cases hd

/-- A run that ends with a shift or acceptance of the lookahead `t` and whose reductions are paid for by the stack
it starts with. -/
def Paid {A : Type} (P : List (Rule Nat Nat)) (F : FirstTable) (m : A → Nat → Prop) (t : AugTokId)
    (c : Config Nat Nat A) (K budget : Nat) : Prop :=
  ∃ c' tr, Steps P F.NodesFirst m c c' tr ∧ c'.input = c.input ∧
    (Demands P F.NodesFirst c'.stack t .shift ∨ Demands P F.NodesFirst c'.stack t .accept) ∧
    tr.length + K * c'.stack.length ≤ budget

theorem paid_look (hu : RootOk P) (hJ : F.Justified P) : ∃ K C, ∀ (A : Type) (m : A → Nat → Prop) (n : Nat)
    (γ : List INode), γ.length = n → ∀ (j : Nat) (t : AugTokId) (r : Rule Nat Nat) (ts : List (Tree A)) (z : List A),
      P[j]? = some r → ValidLook P F.NodesFirst γ j 0 t → Look m z t → NoDead P (γ ++ rhs r) →
      Paid P F m t ⟨γ ++ rhs r, ts, z⟩ K (K * n + C) := by
  obtain ⟨V, hV1, hV2⟩ := uniform hu hJ
  obtain ⟨R0, hR0⟩ : ∃ R0, ∀ r, P[0]? = some r → (rhs r).length ≤ R0 := by
    cases h : P[0]? with
    | none => exact ⟨0, by simp⟩
    | some r => exact ⟨(rhs r).length, by rintro _ ⟨⟩; exact Nat.le_refl _⟩
  refine ⟨(P.length + 1) * (1 + V), (P.length + 1) * (1 + V) * (R0 + V + 2) + V + 1, fun A m n => ?_⟩
  generalize hK : (P.length + 1) * (1 + V) = K
  induction n using Nat.strongRecOn with
  | ind n ih =>
    intro γ hγ j t r ts z hr hl hz hnd
    obtain ⟨k0, hk0⟩ := chain_of hl rfl
    obtain ⟨k, hk, hw⟩ := hk0.short (n := P.length) (by
      intro k j h
      have := chain_sound h
      rcases Nat.lt_or_ge j P.length with h' | h'
      · exact h'
      · exfalso
        rcases h with h | h
        · rename_i h
          rcases h with ⟨-, rfl, -⟩ | ⟨_, _, _, _, _, -, h2, -, h4, -, -⟩ | ⟨_, _, _, _, _, -, -, -, h4, -⟩
          · exact absurd (List.getElem?_eq_some_iff.mp hr).1 (by omega)
          · exact absurd (List.getElem?_eq_some_iff.mp h4).1 (by omega)
          · exact absurd (List.getElem?_eq_some_iff.mp h4).1 (by omega)
        · rename_i h
          obtain ⟨_, _, _, -, -, h3, -⟩ := h
          exact absurd (List.getElem?_eq_some_iff.mp h3).1 (by omega))
    -- along the chain
    have key : ∀ k j, Within (ChainBase P F γ t) (ChainStep P F) k j → ∀ r (ts : List (Tree A)), P[j]? = some r →
        NoDead P (γ ++ rhs r) → Paid P F m t ⟨γ ++ rhs r, ts, z⟩ K (k * (1 + V) + (1 + V) +
          K * n + (K * (R0 + V + 1) + V + 1)) := by
      intro k j hw
      -- a reduction of rule `j`, then the rest of rule `i` vanishes, then rule `i` has been read
      have pass : ∀ {i d j : Nat} {r r' : Rule Nat Nat} {β : List INode} {ts : List (Tree A)} {budget : Nat},
          ValidLook P F.NodesFirst γ i d t → P[i]? = some r → (rhs r).drop d = .production r'.symbol :: β →
          P[j]? = some r' → F.NodesFirst β .epsilon → NoDead P (γ ++ rhs r') →
          (∀ ts : List (Tree A), NoDead P (γ ++ (rhs r).drop d) →
            Paid P F m t ⟨γ ++ (rhs r).drop d, ts, z⟩ K budget) →
          Paid P F m t ⟨γ ++ rhs r', ts, z⟩ K (budget + (1 + V)) := by
        intro i d j r r' β ts budget h1 h2 h3 h4 h5 hn hrest
        have hjn := hu.read_ne_zero h2 h3 h4 hn
        have hlook : ValidLook P F.NodesFirst γ j 0 t := .closePass h1 h2 h3 h4 h5
        have hs2 := Step.reduce (m := m) (ts := ts) h4 hz (Demands.reduce (γ := γ ++ rhs r') h4 hjn
          (by simpa using hlook.extend (α := rhs r') (β := []) h4 (by simp)))
        have hst := strip_of_drop (drop_succ_of_drop h3)
        have hsuf : β ∈ suffixes P := by
          rw [← drop_succ_of_drop h3]
          exact mem_suffixes h2
        obtain ⟨ts', tr, h7, hlen⟩ := hV1 β hsuf h5 A m _ (reduceTrees j (rhs r').length ts) z _ _ _ [] _
          (.move h1.valid h2 h3) h2 (by rw [drop_succ_of_drop h3, hst, List.append_nil]) hz
          (.inr ⟨rfl, .move h1 h2 h3⟩)
        rw [hst] at h7
        have hnd' : NoDead P (γ ++ (rhs r).drop d) := by
          intro hd r0 h0 hm
          rw [h3] at hm
          rcases List.mem_append.mp hm with hm | hm
          · exact hn hd r0 h0 (List.mem_append_left _ hm)
          · rcases List.mem_cons.mp hm with e | hm
            · injection e with e
              exact hjn (hd.1 j r0 r' h0 h4 e.symm)
            · exact hd.just (h5.just hJ) rfl r0 h0 hm
        obtain ⟨c', tr', h8, h9, h10, h11⟩ := hrest ts' hnd'
        rw [h3] at h8
        refine ⟨c', (some j).toList ++ (tr ++ tr'), Steps.step hs2 (h7.trans (by simpa using h8)), h9, h10, ?_⟩
        simp only [Option.toList_some, List.length_append, List.length_singleton]
        omega
      induction hw with
      | @start j h =>
        intro r ts hr hnd
        rcases h with ⟨rfl, rfl, rfl⟩ | ⟨i, d, r1, r', β, h1, h2, h3, h4, h5, h6⟩ |
          ⟨i, d, r1, r', β, h1, h2, h3, h4, h5⟩
        · refine ⟨_, _, .refl _, rfl, .inr (.accept hr rfl ?_), ?_⟩
          · simpa using Valid.root.extend (P := P) (α := rhs r) (β := []) hr (by simp)
          · have := Nat.mul_le_mul_left K (hR0 r hr)
            have h5 : K * (R0 + V + 1) = K * R0 + K * (V + 1) := by rw [Nat.add_assoc, Nat.mul_add]
            simp only [List.nil_append, List.length_nil]
            omega
        · rw [hr] at h4
          cases h4
          have hjn := hu.read_ne_zero h2 h3 hr hnd
          have hlook : ValidLook P F.NodesFirst γ j 0 t := .closeFirst h1 h2 h3 hr h5 h6
          have hs2 := Step.reduce (m := m) (ts := ts) hr hz (Demands.reduce (γ := γ ++ rhs r) hr hjn
            (by simpa using hlook.extend (α := rhs r) (β := []) hr (by simp)))
          have hsuf : β ∈ suffixes P := by
            rw [← drop_succ_of_drop h3]
            exact mem_suffixes h2
          obtain ⟨c', tr, h7, h8, h9, h10⟩ := hV2 β hsuf t h5 h6 A m _ (reduceTrees j (rhs r).length ts) z _ _ _ []
            (.move h1 h2 h3) h2
            (by rw [drop_succ_of_drop h3, strip_of_drop (drop_succ_of_drop h3), List.append_nil]) hz
          refine ⟨c', _, Steps.step hs2 h7, h8, .inl h9, ?_⟩
          have hh := h7.height
          simp only [h8, List.length_append, List.length_singleton, hγ] at hh
          have h11 : K * c'.stack.length ≤ K * (n + (V + 1)) := Nat.mul_le_mul_left _ (by omega)
          rw [Nat.mul_add] at h11
          have h12 : K * (R0 + V + 1) = K * R0 + K * (V + 1) := by rw [Nat.add_assoc, Nat.mul_add]
          simp only [Option.toList_some, List.length_append, List.length_singleton]
          omega
        · rw [hr] at h4
          cases h4
          obtain ⟨γ0, hγ0, hl0⟩ := h1.split h2
          have hlt : γ0.length < n := by
            rw [← hγ, hγ0, List.length_append, List.length_take]
            have : d + 1 < (rhs r1).length := by
              have := congrArg List.length h3
              simp only [List.length_drop, List.length_cons] at this
              omega
            omega
          have heq : γ ++ (rhs r1).drop (d + 1) = γ0 ++ rhs r1 := by
            rw [hγ0, List.append_assoc, List.take_append_drop]
          have := pass (ts := ts) h1 h2 h3 hr h5 hnd (fun ts' hnd' => by
            rw [heq] at hnd' ⊢
            exact ih _ hlt γ0 rfl i t r1 ts' z h2 hl0 hz hnd')
          obtain ⟨c', tr, h6, h7, h8, h9⟩ := this
          refine ⟨c', tr, h6, h7, h8, Nat.le_trans h9 ?_⟩
          have h10 : K * (γ0.length + 1) ≤ K * n := Nat.mul_le_mul_left _ hlt
          rw [Nat.mul_succ] at h10
          have h5 : K * (R0 + V + 2) = K * (R0 + V + 1) + K := Nat.mul_succ ..
          omega
      | @step k i j hw h ihk =>
        intro r ts hr hnd
        obtain ⟨r1, r', β, h1, h2, h3, h4⟩ := h
        rw [hr] at h3
        cases h3
        have := pass (d := 0) (ts := ts) (chain_sound hw) h1 h2 hr h4 hnd (fun ts' hnd' => ihk r1 ts' h1 hnd')
        obtain ⟨c', tr, h6, h7, h8, h9⟩ := this
        refine ⟨c', tr, h6, h7, h8, Nat.le_trans h9 ?_⟩
        rw [Nat.succ_mul]
        omega
    obtain ⟨c', tr, h1, h2, h3, h4⟩ := key k j hw r ts hr hnd
    refine ⟨c', tr, h1, h2, h3, Nat.le_trans h4 ?_⟩
    have : k * (1 + V) + (1 + V) ≤ K := by
      rw [← hK]
      rw [← Nat.succ_mul]
      exact Nat.mul_le_mul_right _ (by omega)
    have h5 : K * (R0 + V + 2) = K * (R0 + V + 1) + K := Nat.mul_succ ..
    omega

/-- **Linear time**: the reductions of a run are at most `K` for each token. -/
theorem reaches_final_in (hu : RootOk P) (hJ : F.Justified P) (he : NoEos P) : ∃ K, ∀ (A : Type)
    (m : A → Nat → Prop) (w : List A), ∃ c' tr, Steps P F.NodesFirst m (.start w) c' tr ∧
      Final P F.NodesFirst m c' ∧ tr.length ≤ K * (w.length + 1) := by
  obtain ⟨K, C, hK⟩ := paid_look hu hJ
  refine ⟨K + C, fun A m w => ?_⟩
  have key : ∀ n, ∀ c : Config Nat Nat A, c.input.length = n → NoDead P c.stack →
      ∃ c' tr, Steps P F.NodesFirst m c c' tr ∧ Final P F.NodesFirst m c' ∧
        tr.length + K * c'.stack.length ≤ K * c.stack.length + (K + C) * (n + 1) := by
    intro n
    induction n using Nat.strongRecOn with
    | ind n ih =>
      intro c hc hd0
      have hshift : ∀ c' : Config Nat Nat A, ∀ x, c'.input = c.input → NoDead P c'.stack → Look m c.input x →
          Demands P F.NodesFirst c'.stack x .shift →
          ∃ c'' tr, Steps P F.NodesFirst m c' c'' tr ∧ Final P F.NodesFirst m c'' ∧
            tr.length + K * c''.stack.length ≤ K * c'.stack.length + K + (K + C) * n := by
        intro c' x hi hnd hl hd
        obtain ⟨γ, ts, z⟩ := c'
        simp only at hi hd
        rw [← hi] at hl
        cases hl with
        | eos => exact absurd rfl (shift_ne_eos he hd)
        | @tok a z t hm =>
          rw [← hi] at hc
          obtain ⟨c'', tr, h1, h2, h3⟩ := ih z.length (by rw [← hc]; simp)
            ⟨γ ++ [.terminal (.token t)], ts ++ [.leaf a], z⟩ rfl (hnd.step (.shift (ts := ts) hm hd))
          refine ⟨c'', _, .step (.shift hm hd) h1, h2, ?_⟩
          simp only [List.length_append, List.length_cons, Option.toList_none, List.nil_append,
            Nat.mul_succ] at h3 hc ⊢
          rw [← hc]
          exact h3
      by_cases hst : Stuck P F.NodesFirst m c
      · exact ⟨c, [], .refl c, .inr hst, by simp⟩
      · rw [stuck_iff] at hst
        obtain ⟨a, ha⟩ := Classical.not_forall_not.mp hst
        cases ha with
        | @mk x _ hl hd =>
          cases a with
          | shift =>
            obtain ⟨c'', tr, h1, h2, h3⟩ := hshift c x rfl hd0 hl hd
            refine ⟨c'', tr, h1, h2, ?_⟩
            rw [Nat.mul_succ]
            omega
          | accept => exact ⟨c, [], .refl c, .inl ⟨x, hl, hd⟩, by simp⟩
          | reduce i =>
            obtain ⟨γ, ts, z⟩ := c
            have hpaid : Paid P F m x ⟨γ, ts, z⟩ K (K * γ.length + C) := by
              cases hd with
              | @reduce _ r h1 h2 h3 =>
                obtain ⟨γ0, h4, h5⟩ := h3.split h1
                rw [List.take_length] at h4
                simp only at h4 hl hd0
                subst h4
                obtain ⟨c', tr, h6, h7, h8, h9⟩ := hK A m _ γ0 rfl i x r ts z h1 h5 hl hd0
                refine ⟨c', tr, h6, h7, h8, Nat.le_trans h9 ?_⟩
                rw [List.length_append, Nat.mul_add]
                omega
            obtain ⟨c', tr, h1, h2, h3, h4⟩ := hpaid
            rcases h3 with h3 | h3
            · obtain ⟨c'', tr', h5, h6, h7⟩ := hshift c' x h2 (hd0.steps h1) hl h3
              refine ⟨c'', _, h1.trans h5, h6, ?_⟩
              rw [Nat.mul_succ, List.length_append]
              simp only
              omega
            · refine ⟨c', tr, h1, .inl ⟨x, h2 ▸ hl, h3⟩, Nat.le_trans h4 ?_⟩
              rw [Nat.mul_succ]
              simp only
              omega
  obtain ⟨c', tr, h1, h2, h3⟩ := key _ (.start w) rfl .nil
  refine ⟨c', tr, h1, h2, ?_⟩
  simp only [Config.start, List.length_nil, Nat.mul_zero, Nat.zero_add] at h3
  omega

end Verif
