import Verif.Spec.Useful
import Verif.Proof.Prefix
import Verif.Proof.Trees
import Verif.Spec.Eval

/-!
# Every rule of a connected grammar whose rules derive something occurs in a parse tree
-/

set_option linter.unusedSectionVars false
set_option autoImplicit false

namespace Verif
open Spec

variable {T L A : Type} {P : List (Rule T L)} {m : A → T → Prop}

theorem uses_ofTrees_append {k : Nat} (ts ts' : List (Tree A)) :
    (Forest.ofTrees (ts ++ ts')).Uses k ↔ (Forest.ofTrees ts).Uses k ∨ (Forest.ofTrees ts').Uses k := by
  induction ts with
  | nil => simp [Forest.ofTrees, Forest.Uses]
  | cons t ts ih =>
    cases t with
    | leaf a => simpa [Forest.ofTrees, Forest.Uses] using ih
    | node i c => simp [Forest.ofTrees, Forest.Uses, ih, or_assoc]

theorem uses_mapRules {k : Nat} {ρ : Nat → Nat} (f : Forest A) : (f.mapRules ρ).Uses k ↔ ∃ i, f.Uses i ∧ ρ i = k := by
  induction f with
  | nil => simp [Forest.mapRules, Forest.Uses]
  | tok a f ih => simpa [Forest.mapRules, Forest.Uses] using ih
  | node i c f ih1 ih2 =>
    simp only [Forest.mapRules, Forest.Uses, ih1, ih2]
    constructor
    · rintro (h | ⟨j, h1, h2⟩ | ⟨j, h1, h2⟩)
      · exact ⟨i, .inl rfl, h⟩
      · exact ⟨j, .inr (.inl h1), h2⟩
      · exact ⟨j, .inr (.inr h1), h2⟩
    · rintro ⟨j, rfl | h1 | h1, h2⟩
      · exact .inl h2
      · exact .inr (.inl ⟨j, h1, h2⟩)
      · exact .inr (.inr ⟨j, h1, h2⟩)

/-- The rules in the trees of a forest occur in it, and no others. -/
theorem uses_iff_trees {k : Nat} (f : Forest A) :
    f.Uses k ↔ ∃ i c, Tree.node i c ∈ f.trees ∧ (i = k ∨ c.Uses k) := by
  induction f with
  | nil => simp [Forest.Uses, Forest.trees]
  | tok a f ih => simp [Forest.Uses, Forest.trees, ih]
  | node i c f _ ih =>
    simp only [Forest.Uses, Forest.trees, ih, List.mem_cons]
    constructor
    · rintro (h | h | ⟨j, d, h1, h2⟩)
      · exact ⟨i, c, .inl rfl, .inl h⟩
      · exact ⟨i, c, .inl rfl, .inr h⟩
      · exact ⟨j, d, .inr h1, h2⟩
    · rintro ⟨j, d, h1 | h1, h2⟩
      · cases h1
        exact h2.imp id .inl
      · exact .inr (.inr ⟨j, d, h1, h2⟩)

/-- A tree of a label that can be reached is part of a tree of the root. -/
theorem Spec.Reachable.extend {root l : L} (h : Reachable P root l) {k : Nat}
    (hp : ∀ r ∈ P, ∃ f w, ParsesM P m f r.rule w) :
    ∀ {f : Forest A} {w : List A}, ParsesM P m f [.production l] w → f.Uses k →
      ∃ f' w', ParsesM P m f' [.production root] w' ∧ f'.Uses k := by
  induction h with
  | root => exact fun h1 h2 => ⟨_, _, h1, h2⟩
  | @step r l _ hr hm ih =>
    intro f w h1 h2
    obtain ⟨α, β, hab⟩ := List.append_of_mem hm
    obtain ⟨f0, w0, h3⟩ := hp r hr
    rw [hab] at h3
    obtain ⟨ts, ts', u, v, -, -, -, h4, h5⟩ := h3.append_inv
    obtain ⟨ts1, ts2, u', v', -, -, -, -, h6⟩ := ParsesM.append_inv (α := [.production l]) (β := β) h5
    rw [← Forest.ofTrees_trees f] at h1 h2
    have h7 := h4.append (h1.append h6)
    rw [List.singleton_append, ← hab] at h7
    obtain ⟨i, hi⟩ := List.mem_iff_getElem?.mp hr
    refine ih (.prod hi h7 .nil) (.inr (.inl ?_))
    rw [uses_ofTrees_append, uses_ofTrees_append]
    exact .inr (.inl h2)

/-- Every rule of a label that can be reached occurs in a tree of the root. -/
theorem Spec.Reachable.rule_used {root : L} {k : Nat} {r : Rule T L} (hk : P[k]? = some r)
    (h : Reachable P root r.symbol) (hp : ∀ r ∈ P, ∃ f w, ParsesM P m f r.rule w) :
    ∃ f w, ParsesM P m f [.production root] w ∧ f.Uses k := by
  obtain ⟨f, w, h1⟩ := hp r (List.mem_of_getElem? hk)
  exact h.extend hp (.prod hk h1 .nil) (.inl rfl)

/-- The rules in the trees on the stack have been reduced. -/
theorem Spec.Steps.traced {first : List (Node T L) → AugTok T → Prop} {c c' : Config T L A} {tr : List Nat}
    (h : Steps P first m c c' tr) {k : Nat} (hu : (Forest.ofTrees c'.trees).Uses k) :
    (Forest.ofTrees c.trees).Uses k ∨ k ∈ tr := by
  induction h with
  | refl c => exact .inl hu
  | step h1 _ ih =>
    rcases ih hu with h2 | h2
    · cases h1 with
      | shift _ _ =>
        rw [uses_ofTrees_append] at h2
        exact .inl (h2.resolve_right (by simp [Forest.ofTrees, Forest.Uses]))
      | @reduce γ ts z x i r _ _ _ =>
        simp only [reduceTrees] at h2
        rw [uses_ofTrees_append] at h2
        have e : (Forest.ofTrees ts).Uses k ↔
            (Forest.ofTrees (ts.take (ts.length - (rhs r).length))).Uses k ∨
              (Forest.ofTrees (ts.drop (ts.length - (rhs r).length))).Uses k := by
          rw [← uses_ofTrees_append, List.take_append_drop]
        rcases h2 with h2 | h2
        · exact .inl (e.mpr (.inl h2))
        · rcases h2 with h2 | h2 | h2
          · exact .inr (by simp [h2])
          · exact .inl (e.mpr (.inr h2))
          · exact absurd h2 (by simp [Forest.ofTrees, Forest.Uses])
    · exact .inr (List.mem_append.mpr (.inr h2))

/-- Every reduction of a run is in the trees on the stack in the end. -/
theorem Spec.Steps.traced_mpr {first : List (Node T L) → AugTok T → Prop} {c c' : Config T L A} {tr : List Nat}
    (h : Steps P first m c c' tr) {k : Nat} (hu : (Forest.ofTrees c.trees).Uses k ∨ k ∈ tr) :
    (Forest.ofTrees c'.trees).Uses k := by
  induction h with
  | refl c => exact hu.resolve_right (by simp)
  | step h1 _ ih =>
    apply ih
    rcases hu with hu | hu
    · refine .inl ?_
      cases h1 with
      | shift _ _ => rw [uses_ofTrees_append]; exact .inl hu
      | @reduce γ ts z x i r _ _ _ =>
        simp only [reduceTrees]
        rw [uses_ofTrees_append]
        rw [← List.take_append_drop (ts.length - (rhs r).length) ts, uses_ofTrees_append] at hu
        exact hu.imp id fun h => .inr (.inl h)
    · rcases List.mem_append.mp hu with hu | hu
      · cases h1 with
        | shift _ _ => simp at hu
        | reduce _ _ _ =>
          simp only [Option.toList, List.mem_singleton] at hu
          subst hu
          refine .inl ?_
          simp only [reduceTrees]
          rw [uses_ofTrees_append]
          exact .inr (.inl rfl)
      · exact .inr hu

/-- Rules that occur in a tree are rules of the grammar. -/
theorem uses_rule {f : Forest A} {α : List (Node T L)} {w : List A} (h : ParsesM P m f α w) {k : Nat} (hu : f.Uses k) :
    ∃ r, P[k]? = some r := by
  induction h with
  | nil => exact hu.elim
  | tok _ _ ih => exact ih hu
  | eps _ ih => exact ih hu
  | prod hr _ _ ih1 ih2 =>
    rcases hu with rfl | hu | hu
    · exact ⟨_, hr⟩
    · exact ih1 hu
    · exact ih2 hu

theorem rule_parses {α : List (Node T L)} (hne : .terminal .eos ∉ α) (ht : ∀ t, .terminal (.token t) ∈ α → ∃ a, m a t)
    (hp : ∀ l, .production l ∈ α → ∃ f w, ParsesM P m f [.production l] w) : ∃ f w, ParsesM P m f α w := by
  induction α with
  | nil => exact ⟨_, _, .nil⟩
  | cons n α ih =>
    obtain ⟨f, w, h⟩ := ih (fun h => hne (.tail _ h)) (fun t h => ht t (.tail _ h)) (fun l h => hp l (.tail _ h))
    cases n with
    | production l =>
      obtain ⟨f', w', h'⟩ := hp l List.mem_cons_self
      obtain ⟨f'', h''⟩ := h'.cons_append h
      exact ⟨f'', _, h''⟩
    | terminal t =>
      cases t with
      | token t =>
        obtain ⟨a, ha⟩ := ht t List.mem_cons_self
        exact ⟨_, _, .tok ha h⟩
      | epsilon => exact ⟨_, _, .eps h⟩
      | eos => exact absurd List.mem_cons_self hne

section
variable {V E σ : Type} {tok : A → V} {apply : Nat → List V → σ → Except E V × σ}

/-- If what is done for a rule always fails then so does the evaluation of a forest in which it occurs. -/
theorem eval_fails {k : Nat} (hF : ∀ vs w, ∃ e w', apply k vs w = (.error e, w')) {f : Forest A} (hu : f.Uses k) (w : σ) :
    ∃ e w', eval tok apply f w = (.error e, w') := by
  induction f generalizing w with
  | nil => exact hu.elim
  | tok a f ih =>
    obtain ⟨e, w', h⟩ := ih hu w
    exact ⟨e, w', by simp only [eval, h, andThen]⟩
  | node i c f ih1 ih2 =>
    simp only [eval]
    rcases hc : eval tok apply c w with ⟨r1, w1⟩
    cases r1 with
    | error e => exact ⟨e, w1, rfl⟩
    | ok us =>
      simp only [andThen]
      rcases ha : apply i us w1 with ⟨r2, w2⟩
      cases r2 with
      | error e => exact ⟨e, w2, rfl⟩
      | ok v =>
        rcases hu with rfl | hu | hu
        · obtain ⟨e, w', h⟩ := hF us w1
          rw [ha] at h
          cases h
        · obtain ⟨e, w', h⟩ := ih1 hu w
          rw [hc] at h
          cases h
        · obtain ⟨e, w', h⟩ := ih2 hu w2
          exact ⟨e, w', by simp only [h]⟩

theorem eval_succeeds (hS : ∀ k vs w, ∃ v w', apply k vs w = (.ok v, w')) (f : Forest A) (w : σ) :
    ∃ vs w', eval tok apply f w = (.ok vs, w') := by
  induction f generalizing w with
  | nil => exact ⟨_, _, rfl⟩
  | tok a f ih =>
    obtain ⟨vs, w', h⟩ := ih w
    exact ⟨tok a :: vs, w', by simp only [eval, h, andThen]⟩
  | node i c f ih1 ih2 =>
    obtain ⟨us, w1, h1⟩ := ih1 w
    obtain ⟨v, w2, h2⟩ := hS i us w1
    obtain ⟨vs, w3, h3⟩ := ih2 w2
    exact ⟨v :: vs, w3, by simp only [eval, h1, h2, h3, andThen]⟩

end

/-- Which tokens a terminal stands for depends only on literals and patterns. -/
theorem matches_congr {Q V E σ : Type} {sem sem' : Sem Q V E σ} {ty : TerminalType} (h1 : sem'.litVal = sem.litVal)
    (h2 : sem'.pat = sem.pat) : Matches sem' ty = Matches sem ty := by
  funext a s
  refine propext ⟨fun h => ?_, fun h => ?_⟩
  · cases h with
    | lit => rw [h1]; exact .lit
    | unit => exact .unit
    | any => exact .any
    | data h => exact .data (by rw [← h2]; exact h)
  · cases h with
    | lit => rw [← h1]; exact .lit
    | unit => exact .unit
    | any => exact .any
    | data h => exact .data (by rw [h2]; exact h)

end Verif
