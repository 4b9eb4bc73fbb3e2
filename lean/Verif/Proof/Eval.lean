import Verif.Spec.Eval
import Verif.Proof.Trees

/-!
# Evaluation of forests
-/

set_option linter.unusedSectionVars false
set_option autoImplicit false

namespace Verif.Spec

variable {A V E σ : Type} {tok : A → V} {apply : Nat → List V → σ → Except E V × σ}

@[simp] theorem andThen_ok {α β : Type} (a : α) (w : σ) (f : α → σ → Except E β × σ) :
    andThen (.ok a, w) f = f a w := rfl
@[simp] theorem andThen_error {α β : Type} (e : E) (w : σ) (f : α → σ → Except E β × σ) :
    andThen (.error e, w) f = (.error e, w) := rfl

theorem andThen_assoc {α β γ : Type} (x : Except E α × σ) (f : α → σ → Except E β × σ)
    (g : β → σ → Except E γ × σ) :
    andThen (andThen x f) g = andThen x fun a w => andThen (f a w) g := by
  obtain ⟨x, w⟩ := x
  cases x <;> rfl

theorem andThen_eq_ok {α β : Type} {x : Except E α × σ} {f : α → σ → Except E β × σ} {b : β} {w : σ} :
    andThen x f = (.ok b, w) ↔ ∃ a w', x = (.ok a, w') ∧ f a w' = (.ok b, w) := by
  obtain ⟨x, w0⟩ := x
  cases x <;> simp

theorem eval_append (ts ts' : List (Tree A)) (w : σ) :
    eval tok apply (Forest.ofTrees (ts ++ ts')) w =
      andThen (eval tok apply (Forest.ofTrees ts) w) fun vs w =>
        andThen (eval tok apply (Forest.ofTrees ts') w) fun vs' w => (.ok (vs ++ vs'), w) := by
  induction ts generalizing w with
  | nil =>
    simp only [List.nil_append, Forest.ofTrees, eval, andThen_ok]
    rcases eval tok apply (Forest.ofTrees ts') w with ⟨x, w⟩
    cases x <;> rfl
  | cons t ts ih =>
    cases t with
    | leaf a =>
      simp only [List.cons_append, Forest.ofTrees, eval, ih, andThen_assoc, andThen_ok]
    | node i c =>
      simp only [List.cons_append, Forest.ofTrees, eval, ih, andThen_assoc, andThen_ok]

theorem eval_length {f : Forest A} {w w' : σ} {vs : List V} (h : eval tok apply f w = (.ok vs, w')) :
    vs.length = f.trees.length := by
  induction f generalizing w w' vs with
  | nil => simp only [eval] at h; cases h; rfl
  | tok a f ih =>
    simp only [eval, andThen_eq_ok] at h
    obtain ⟨vs', w1, h1, h2⟩ := h
    cases h2
    simp [Forest.trees, ih h1]
  | node i c f _ ih =>
    simp only [eval, andThen_eq_ok] at h
    obtain ⟨us, w1, h1, v, w2, h2, vs', w3, h3, h4⟩ := h
    cases h4
    simp [Forest.trees, ih h3]

/-- Shifting a token. -/
theorem eval_leaf {ts : List (Tree A)} {a : A} {w w' : σ} {vs : List V}
    (h : eval tok apply (Forest.ofTrees ts) w = (.ok vs, w')) :
    eval tok apply (Forest.ofTrees (ts ++ [.leaf a])) w = (.ok (vs ++ [tok a]), w') := by
  rw [eval_append, h]; rfl

/-- Reducing. -/
theorem eval_reduce {i k : Nat} {ts : List (Tree A)} {w w' : σ} {vs us : List V}
    (h : eval tok apply (Forest.ofTrees ts) w = (.ok (vs ++ us), w')) (hk : us.length = k) :
    eval tok apply (Forest.ofTrees (reduceTrees i k ts)) w =
      andThen (apply i us w') fun v w'' => (.ok (vs ++ [v]), w'') := by
  have hl := eval_length h
  rw [Forest.trees_ofTrees, List.length_append, hk] at hl
  have hs : ts = ts.take (ts.length - k) ++ ts.drop (ts.length - k) := (List.take_append_drop _ _).symm
  rw [hs, eval_append] at h
  rw [andThen_eq_ok] at h
  obtain ⟨vs1, w1, h1, h2⟩ := h
  rw [andThen_eq_ok] at h2
  obtain ⟨us1, w2, h2, h3⟩ := h2
  have hl1 := eval_length h1
  rw [Forest.trees_ofTrees, List.length_take] at hl1
  have e : vs1 ++ us1 = vs ++ us ∧ w2 = w' := by
    rw [Prod.mk.injEq, Except.ok.injEq] at h3
    exact h3
  obtain ⟨e, rfl⟩ := e
  obtain ⟨rfl, rfl⟩ := List.append_inj e (by omega)
  unfold reduceTrees
  rw [eval_append, h1, andThen_ok]
  simp only [Forest.ofTrees, eval, h2, andThen_ok, andThen_assoc]

/-- A failure is final. -/
theorem eval_error_append {ts ts' : List (Tree A)} {w w' : σ} {e : E}
    (h : eval tok apply (Forest.ofTrees ts) w = (.error e, w')) :
    eval tok apply (Forest.ofTrees (ts ++ ts')) w = (.error e, w') := by
  rw [eval_append, h]; rfl

theorem eval_mapRules (ρ : Nat → Nat) (f : Forest A) (w : σ) :
    eval tok apply (f.mapRules ρ) w = eval tok (fun i => apply (ρ i)) f w := by
  induction f generalizing w with
  | nil => rfl
  | tok a f ih => simp only [Forest.mapRules, eval, ih]
  | node i c f ih1 ih2 => simp only [Forest.mapRules, eval, ih1, ih2]

/-- A failure in the children of a reduced rule shows in the reduced forest. -/
theorem eval_error_reduce {i k : Nat} {ts : List (Tree A)} {w w' : σ} {e : E}
    (h : eval tok apply (Forest.ofTrees ts) w = (.error e, w')) :
    eval tok apply (Forest.ofTrees (reduceTrees i k ts)) w = (.error e, w') := by
  have hs : ts = ts.take (ts.length - k) ++ ts.drop (ts.length - k) := (List.take_append_drop _ _).symm
  rw [hs, eval_append] at h
  unfold reduceTrees
  rw [eval_append]
  rcases h1 : eval tok apply (Forest.ofTrees (ts.take (ts.length - k))) w with ⟨x, w1⟩
  rw [h1] at h
  cases x with
  | error e1 => exact h
  | ok vs =>
    rw [andThen_ok] at h ⊢
    simp only [Forest.ofTrees, eval]
    rcases h2 : eval tok apply (Forest.ofTrees (ts.drop (ts.length - k))) w1 with ⟨y, w2⟩
    rw [h2] at h
    cases y with
    | error e2 => exact h
    | ok us => cases h

/-- The parser's steps keep failures. -/
theorem Step.eval_error {T L : Type} {G : List (Rule T L)} {first : List (Node T L) → AugTok T → Prop}
    {m : A → T → Prop} {c c' : Config T L A} {o : Option Nat} (hs : Step G first m c c' o) {w w' : σ} {e : E}
    (h : eval tok apply (Forest.ofTrees c.trees) w = (.error e, w')) :
    eval tok apply (Forest.ofTrees c'.trees) w = (.error e, w') := by
  cases hs with
  | shift => exact eval_error_append h
  | reduce => exact eval_error_reduce h

theorem Steps.eval_error {T L : Type} {G : List (Rule T L)} {first : List (Node T L) → AugTok T → Prop}
    {m : A → T → Prop} {c c' : Config T L A} {tr : List Nat} (hs : Steps G first m c c' tr) {w w' : σ} {e : E}
    (h : eval tok apply (Forest.ofTrees c.trees) w = (.error e, w')) :
    eval tok apply (Forest.ofTrees c'.trees) w = (.error e, w') := by
  induction hs with
  | refl => exact h
  | step h1 _ ih => exact ih (h1.eval_error h)

end Verif.Spec
