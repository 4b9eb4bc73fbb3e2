import Verif.Spec.Feedback
import Verif.Proof.Eval

/-!
# Walking through forests
-/

set_option linter.unusedSectionVars false
set_option autoImplicit false

namespace Verif.Spec

section
variable {A V E S : Type} {read : A → S → Except E V × S} {apply : Nat → List V → S → Except E V × S}

theorem walk_append (ts ts' : List (Tree A)) (s : S) :
    walk read apply (Forest.ofTrees (ts ++ ts')) s =
      andThen (walk read apply (Forest.ofTrees ts) s) fun vs s =>
        andThen (walk read apply (Forest.ofTrees ts') s) fun vs' s => (.ok (vs ++ vs'), s) := by
  induction ts generalizing s with
  | nil =>
    simp only [List.nil_append, Forest.ofTrees, walk, andThen_ok]
    rcases walk read apply (Forest.ofTrees ts') s with ⟨x, s⟩
    cases x <;> rfl
  | cons t ts ih =>
    cases t with
    | leaf a =>
      simp only [List.cons_append, Forest.ofTrees, walk, ih, andThen_assoc, andThen_ok]
    | node i c =>
      simp only [List.cons_append, Forest.ofTrees, walk, ih, andThen_assoc, andThen_ok]

theorem walk_length {f : Forest A} {s s' : S} {vs : List V} (h : walk read apply f s = (.ok vs, s')) :
    vs.length = f.trees.length := by
  induction f generalizing s s' vs with
  | nil => simp only [walk] at h; cases h; rfl
  | tok a f ih =>
    simp only [walk, andThen_eq_ok] at h
    obtain ⟨v, w1, h1, vs', w2, h2, h3⟩ := h
    cases h3
    simp [Forest.trees, ih h2]
  | node i c f _ ih =>
    simp only [walk, andThen_eq_ok] at h
    obtain ⟨us, w1, h1, v, w2, h2, vs', w3, h3, h4⟩ := h
    cases h4
    simp [Forest.trees, ih h3]

/-- Shifting a token. -/
theorem walk_leaf {ts : List (Tree A)} {a : A} {s s' : S} {vs : List V}
    (h : walk read apply (Forest.ofTrees ts) s = (.ok vs, s')) :
    walk read apply (Forest.ofTrees (ts ++ [.leaf a])) s =
      andThen (read a s') fun v s'' => (.ok (vs ++ [v]), s'') := by
  rw [walk_append, h, andThen_ok]
  simp only [Forest.ofTrees, walk, andThen_ok, andThen_assoc]

/-- Reducing. -/
theorem walk_reduce {i k : Nat} {ts : List (Tree A)} {s s' : S} {vs us : List V}
    (h : walk read apply (Forest.ofTrees ts) s = (.ok (vs ++ us), s')) (hk : us.length = k) :
    walk read apply (Forest.ofTrees (reduceTrees i k ts)) s =
      andThen (apply i us s') fun v s'' => (.ok (vs ++ [v]), s'') := by
  have hl := walk_length h
  rw [Forest.trees_ofTrees, List.length_append, hk] at hl
  have hs : ts = ts.take (ts.length - k) ++ ts.drop (ts.length - k) := (List.take_append_drop _ _).symm
  rw [hs, walk_append] at h
  rw [andThen_eq_ok] at h
  obtain ⟨vs1, w1, h1, h2⟩ := h
  rw [andThen_eq_ok] at h2
  obtain ⟨us1, w2, h2, h3⟩ := h2
  have hl1 := walk_length h1
  rw [Forest.trees_ofTrees, List.length_take] at hl1
  have e : vs1 ++ us1 = vs ++ us ∧ w2 = s' := by
    rw [Prod.mk.injEq, Except.ok.injEq] at h3
    exact h3
  obtain ⟨e, rfl⟩ := e
  obtain ⟨rfl, rfl⟩ := List.append_inj e (by omega)
  unfold reduceTrees
  rw [walk_append, h1, andThen_ok]
  simp only [Forest.ofTrees, walk, h2, andThen_ok, andThen_assoc]

theorem walk_mapRules (ρ : Nat → Nat) (f : Forest A) (s : S) :
    walk read apply (f.mapRules ρ) s = walk read (fun i => apply (ρ i)) f s := by
  induction f generalizing s with
  | nil => rfl
  | tok a f ih => simp only [Forest.mapRules, walk, ih]
  | node i c f ih1 ih2 => simp only [Forest.mapRules, walk, ih1, ih2]

theorem walk_error_append {ts ts' : List (Tree A)} {s s' : S} {e : E}
    (h : walk read apply (Forest.ofTrees ts) s = (.error e, s')) :
    walk read apply (Forest.ofTrees (ts ++ ts')) s = (.error e, s') := by
  rw [walk_append, h]; rfl

theorem walk_error_reduce {i k : Nat} {ts : List (Tree A)} {s s' : S} {e : E}
    (h : walk read apply (Forest.ofTrees ts) s = (.error e, s')) :
    walk read apply (Forest.ofTrees (reduceTrees i k ts)) s = (.error e, s') := by
  have hs : ts = ts.take (ts.length - k) ++ ts.drop (ts.length - k) := (List.take_append_drop _ _).symm
  rw [hs, walk_append] at h
  unfold reduceTrees
  rw [walk_append]
  rcases h1 : walk read apply (Forest.ofTrees (ts.take (ts.length - k))) s with ⟨x, w1⟩
  rw [h1] at h
  cases x with
  | error e1 => exact h
  | ok vs =>
    rw [andThen_ok] at h ⊢
    simp only [Forest.ofTrees, walk]
    rcases h2 : walk read apply (Forest.ofTrees (ts.drop (ts.length - k))) w1 with ⟨y, w2⟩
    rw [h2] at h
    cases y with
    | error e2 => exact h
    | ok us => cases h

/-- The parser's steps keep failures. -/
theorem Step.walk_error {T L : Type} {G : List (Rule T L)} {first : List (Node T L) → AugTok T → Prop}
    {m : A → T → Prop} {c c' : Config T L A} {o : Option Nat} (hs : Step G first m c c' o) {s s' : S} {e : E}
    (h : walk read apply (Forest.ofTrees c.trees) s = (.error e, s')) :
    walk read apply (Forest.ofTrees c'.trees) s = (.error e, s') := by
  cases hs with
  | shift => exact walk_error_append h
  | reduce => exact walk_error_reduce h

/-- If nothing is read, a walk is an evaluation. -/
theorem walk_eval {tok : A → V} (f : Forest A) (s : S) :
    walk (fun a s => (.ok (tok a), s)) apply f s = eval tok apply f s := by
  induction f generalizing s with
  | nil => rfl
  | tok a f ih => simp only [walk, eval, ih, andThen_ok]
  | node i c f ih1 ih2 => simp only [walk, eval, ih1, ih2]

end

variable {P V E F σ : Type} [DecidableEq P] {src : Source P F σ}

@[simp] theorem useToken_same (a : Token P) (w : σ) :
    (useToken src a (some (.ok a), w) : Except (Option E) (Val P V) × (Option (Item P F) × σ)) =
      (.ok (.tok a), src w) := by
  simp only [useToken, if_pos]

theorem useToken_ok {a : Token P} {s s' : Option (Item P F) × σ} {v : Val P V}
    (h : (useToken src a s : Except (Option E) (Val P V) × _) = (.ok v, s')) :
    s.1 = some (.ok a) ∧ v = .tok a ∧ s' = src s.2 := by
  obtain ⟨x, w⟩ := s
  rcases x with _ | f | b
  · simp [useToken] at h
  · simp [useToken] at h
  · simp only [useToken] at h
    split at h
    · rename_i e; subst e; cases h; exact ⟨rfl, rfl, rfl⟩
    · cases h

variable {apply : Nat → List (Val P V) → σ → Except E (Val P V) × σ} {i : Nat} {us : List (Val P V)}

theorem useRule_ok {x : Option (Item P F)} {w w' : σ} {v : Val P V} (h : apply i us w = (.ok v, w')) :
    useRule (F := F) apply i us (x, w) = (.ok v, x, w') := by
  simp only [useRule, h]

theorem useRule_error {x : Option (Item P F)} {w w' : σ} {e : E} (h : apply i us w = (.error e, w')) :
    useRule (F := F) apply i us (x, w) = (.error (some e), x, w') := by
  simp only [useRule, h]

theorem useRule_fst (s : Option (Item P F) × σ) : (useRule apply i us s).2.1 = s.1 := by
  unfold useRule
  rcases apply i us s.2 with ⟨x | x, w⟩ <;> rfl

end Verif.Spec
