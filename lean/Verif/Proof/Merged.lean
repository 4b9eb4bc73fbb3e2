import Verif.Proof.LLCheck
import Verif.Spec.Merged

/-!
# From LR(0) to LR(1), and checks for samples
-/

set_option linter.unusedSectionVars false
set_option autoImplicit false

namespace Verif.Merged
open Spec

section
variable {T L : Type} {P : List (Rule T L)}

theorem DemandsBy.mono {look look' : List (Node T L) → Nat → AugTok T → Prop}
    (h : ∀ γ i r t, P[i]? = some r → Valid P γ i (rhs r).length → look γ i t → look' γ i t) {γ : List (Node T L)}
    {t : AugTok T} {a : Act} (hd : DemandsBy P look γ t a) : DemandsBy P look' γ t a := by
  cases hd with
  | shift h1 h2 h3 => exact .shift h1 h2 h3
  | reduce h1 h2 h3 h4 => exact .reduce h1 h2 h3 (h γ _ _ t h1 h3 h4)
  | accept h1 h2 h3 => exact .accept h1 h2 h3

theorem NoConflictBy.mono {look look' : List (Node T L) → Nat → AugTok T → Prop}
    (h : ∀ γ i r t, P[i]? = some r → Valid P γ i (rhs r).length → look γ i t → look' γ i t)
    (hn : NoConflictBy P look') : NoConflictBy P look :=
  fun γ t a b ha hb => hn γ t a b (DemandsBy.mono h ha) (DemandsBy.mono h hb)

theorem follow_ne {l : L} {t : AugTok T} (h : Follow P l t) : t ≠ .epsilon := by
  obtain ⟨_, _, _, -, -, ⟨rfl, -⟩ | ⟨h, -⟩⟩ := h
  · simp
  · exact h

theorem slr1_of_lr0 (h : LR0 P) : SLR1 P :=
  NoConflictBy.mono (fun _ _ _ _ _ _ ⟨_, _, hf⟩ => follow_ne hf) h

theorem lalr1_of_slr1 (h : SLR1 P) : LALR1 P :=
  NoConflictBy.mono (fun _ _ _ _ _ _ ⟨_, r, hr, _, hl⟩ => ⟨r, hr, LL.follow_of_validLook hl hr⟩) h

theorem noConflict_of_lalr1 (h : LALR1 P) : NoConflict P (InFirst P) := by
  have key : ∀ {γ : List (Node T L)} {t : AugTok T} {a : Act}, Demands P (InFirst P) γ t a →
      DemandsBy P (fun γ i t => ∃ γ' r, P[i]? = some r ∧ SameCore P γ γ' ∧ ValidLook P (InFirst P) γ' i (rhs r).length t)
        γ t a := by
    intro γ t a hd
    cases hd with
    | shift h1 h2 h3 => exact .shift h1 h2 h3
    | reduce h1 h2 h3 => exact .reduce h1 h2 h3.valid ⟨γ, _, h1, fun _ _ => Iff.rfl, h3⟩
    | accept h1 h2 h3 => exact .accept h1 h2 h3
  exact fun γ t a b ha hb => h γ t a b (key ha) (key hb)

end

/-! ### Checks -/

section
variable {T L : Type} [DecidableEq T] [DecidableEq L]

/-- An automaton: the items of each state, and where it goes. -/
structure Auto (T L : Type) where
  items : List (List (Nat × Nat))
  go : Nat → Node T L → Nat

variable (M : Auto T L) (P : List (Rule T L))

def Auto.state (s : Nat) : List (Nat × Nat) := M.items[s]?.getD []

/-- The items are closed under the steps of `Valid`. -/
def Auto.check : Bool :=
  (M.state 0).contains (0, 0) &&
  (List.range M.items.length).all fun s => (M.state s).all fun (i, d) =>
    match P[i]? with
    | none => true
    | some r => match (rhs r).drop d with
      | [] => true
      | X :: _ => (M.state (M.go s X)).contains (i, d + 1) &&
          (List.range P.length).all fun j =>
            match P[j]? with
            | none => true
            | some r' => X != .production r'.symbol || (M.state s).contains (j, 0)

/-- The state after `γ`. -/
def Auto.run (γ : List (Node T L)) : Nat := γ.foldl M.go 0

variable {M P}

theorem Auto.lt_of_mem {s : Nat} {q : Nat × Nat} (h : q ∈ M.state s) : s < M.items.length := by
  unfold Auto.state at h
  by_contra hs
  rw [List.getElem?_eq_none (by omega)] at h
  cases h

theorem Auto.mem_of_valid (h : M.check P = true) {γ : List (Node T L)} {i d : Nat} (hv : Valid P γ i d) :
    (i, d) ∈ M.state (M.run γ) := by
  simp only [Auto.check, Bool.and_eq_true, List.all_eq_true, List.contains_iff_mem] at h
  obtain ⟨h0, h⟩ := h
  induction hv with
  | root => exact h0
  | @close γ i d j r1 r2 β _ h1 h2 h3 ih =>
    have := h _ (List.mem_range.mpr (Auto.lt_of_mem ih)) _ ih
    simp only [h1, h2, Bool.and_eq_true, List.all_eq_true, List.contains_iff_mem] at this
    have := this.2 j (List.mem_range.mpr (List.getElem?_eq_some_iff.mp h3).1)
    simp only [h3, Bool.or_eq_true, bne_self_eq_false, Bool.false_eq_true, false_or, List.contains_iff_mem] at this
    exact this
  | @move γ i d r X β _ h1 h2 ih =>
    have := h _ (List.mem_range.mpr (Auto.lt_of_mem ih)) _ ih
    simp only [h1, h2, Bool.and_eq_true, List.all_eq_true, List.contains_iff_mem] at this
    simpa [Auto.run] using this.1

variable (M P)

/-- What the items of a state demand, for lookaheads `look` of rules, `none` for all. -/
def Auto.actions (look : Rule T L → Option (List (AugTok T))) (s : Nat) : List (Option (AugTok T) × Act) :=
  (M.state s).flatMap fun (i, d) =>
    match P[i]? with
    | none => []
    | some r => (match (rhs r).drop d with
      | .terminal t :: _ => [(some t, .shift)]
      | _ => []) ++
      (if d = (rhs r).length then
        (if i = 0 then [(some .eos, .accept)] else
          match look r with
          | none => [(none, .reduce i)]
          | some ts => ts.map fun t => (some t, .reduce i))
       else [])

def Auto.noConflict (look : Rule T L → Option (List (AugTok T))) : Bool :=
  (List.range M.items.length).all fun s => (M.actions P look s).all fun (t, a) => (M.actions P look s).all fun (t', b) =>
    a = b || (t.isSome && t'.isSome && t != t')

variable {M P}

theorem Auto.noConflictBy {lk : Rule T L → Option (List (AugTok T))} {look : List (Node T L) → Nat → AugTok T → Prop}
    (h : M.check P = true) (hn : M.noConflict P lk = true)
    (hl : ∀ γ i r t ts, P[i]? = some r → look γ i t → lk r = some ts → t ∈ ts) : NoConflictBy P look := by
  have key : ∀ {γ : List (Node T L)} {t : AugTok T} {a : Act}, DemandsBy P look γ t a →
      M.run γ < M.items.length ∧ ∃ t', (t', a) ∈ M.actions P lk (M.run γ) ∧ ∀ x, t' = some x → x = t := by
    intro γ t a hd
    cases hd with
    | @shift i d r β h1 h2 h3 =>
      have hm := Auto.mem_of_valid h h1
      refine ⟨Auto.lt_of_mem hm, some t, List.mem_flatMap.mpr ⟨_, hm, ?_⟩, fun x hx => (Option.some.inj hx).symm⟩
      simp [h2, h3]
    | @reduce i r h1 h2 h3 h4 =>
      have hm := Auto.mem_of_valid h h3
      refine ⟨Auto.lt_of_mem hm, ?_⟩
      cases hk : lk r with
      | none =>
        refine ⟨none, List.mem_flatMap.mpr ⟨_, hm, ?_⟩, fun x hx => by cases hx⟩
        simp [h1, h2, hk]
      | some ts =>
        have ht := hl γ i r t ts h1 h4 hk
        refine ⟨some t, List.mem_flatMap.mpr ⟨_, hm, ?_⟩, fun x hx => (Option.some.inj hx).symm⟩
        simp [h1, h2, hk, ht]
    | @accept r h1 h2 h3 =>
      have hm := Auto.mem_of_valid h h3
      refine ⟨Auto.lt_of_mem hm, some t, List.mem_flatMap.mpr ⟨_, hm, ?_⟩, fun x hx => (Option.some.inj hx).symm⟩
      simp [h1, h2]
  intro γ t a b ha hb
  obtain ⟨hs, t1, m1, e1⟩ := key ha
  obtain ⟨-, t2, m2, e2⟩ := key hb
  simp only [Auto.noConflict, List.all_eq_true] at hn
  have := hn _ (List.mem_range.mpr hs) _ m1 _ m2
  simp only [Bool.or_eq_true, decide_eq_true_eq, Bool.and_eq_true, bne_iff_ne] at this
  rcases this with h | ⟨⟨h1, h2⟩, h3⟩
  · exact h
  · obtain ⟨x, hx⟩ := Option.isSome_iff_exists.mp h1
    obtain ⟨y, hy⟩ := Option.isSome_iff_exists.mp h2
    rw [hx, hy, e1 x hx, e2 y hy] at h3
    exact absurd rfl h3

theorem lr0_of_check (h : M.check P = true) (hn : M.noConflict P (fun _ => none) = true) : LR0 P :=
  Auto.noConflictBy h hn fun _ _ _ _ _ _ _ h => by cases h

theorem slr1_of_check {null : L → Bool} {first follow : L → List (AugTok T)}
    (hc : LL.closedCheck null first follow P = true) (h : M.check P = true)
    (hn : M.noConflict P (fun r => some (follow r.symbol)) = true) : SLR1 P :=
  Auto.noConflictBy h hn fun _ _ _ _ _ h1 ⟨_, h2, h3⟩ h4 => by
    rw [h1] at h2
    cases h2
    cases h4
    exact (LL.check_closed hc).mem_of_follow h3

end
end Verif.Merged
