import Verif.Spec.Ownership
import Verif.Proof.Check

/-!
# What the checker accepts is not misused

Values have their types, variables that are ready hold good values, and so the second interpreter does what the first
one does.
-/

set_option linter.unusedSectionVars false
set_option linter.unusedTactic false
set_option linter.unreachableTactic false
set_option autoImplicit false

namespace Verif.Rust

section
variable {P V E F σ : Type}

/-- No reference is in a value. -/
def RVal.Flat (v : RVal P V E F) : Prop := v.shares = false ∧ v.excludes = false

/-- What is known of the values of a type. -/
def HasTy : CTy → RVal P V E F → Prop
  | .hole, _ => False
  | .usize, v => ∃ n, v = .nat n
  | .option t, v => v = .none ∨ ∃ x, v = .some x ∧ HasTy t x
  | .result t e, v => (∃ x, v = .ok x ∧ HasTy t x) ∨ ∃ x, v = .err x ∧ HasTy e x
  | .control t, v => v = .continue ∨ ∃ x, v = .accept x ∧ HasTy t x
  | .ref t, v => v = .stream ∨ ∃ x, v = .ref x ∧ HasTy t x
  | .refMut t, v => v.shares = false ∧ (t = .parserStream ∨ v.excludes = false)
  | _, v => v.Flat

theorem HasTy.shares {t : CTy} {v : RVal P V E F} (h : HasTy t v) (ht : t.shares = false) : v.shares = false := by
  induction t generalizing v with
  | hole => cases h
  | usize => obtain ⟨n, rfl⟩ := h; rfl
  | option t ih =>
    rcases h with rfl | ⟨x, rfl, h⟩
    · rfl
    · exact ih (v := x) h ht
  | result t e ih ih' =>
    simp only [CTy.shares, Bool.or_eq_false_iff] at ht
    rcases h with ⟨x, rfl, h⟩ | ⟨x, rfl, h⟩
    · exact ih (v := x) h ht.1
    · exact ih' (v := x) h ht.2
  | control t ih =>
    rcases h with rfl | ⟨x, rfl, h⟩
    · rfl
    · exact ih (v := x) h ht
  | ref t ih => cases ht
  | refMut t ih => exact h.1
  | _ => exact h.1

theorem HasTy.excludes {t : CTy} {v : RVal P V E F} (h : HasTy t v) (ht : t.excludes = false) : v.excludes = false := by
  induction t generalizing v with
  | hole => cases h
  | usize => obtain ⟨n, rfl⟩ := h; rfl
  | option t ih =>
    rcases h with rfl | ⟨x, rfl, h⟩
    · rfl
    · exact ih (v := x) h ht
  | result t e ih ih' =>
    simp only [CTy.excludes, Bool.or_eq_false_iff] at ht
    rcases h with ⟨x, rfl, h⟩ | ⟨x, rfl, h⟩
    · exact ih (v := x) h ht.1
    · exact ih' (v := x) h ht.2
  | control t ih =>
    rcases h with rfl | ⟨x, rfl, h⟩
    · rfl
    · exact ih (v := x) h ht
  | ref t ih =>
    rcases h with rfl | ⟨x, rfl, h⟩ <;> rfl
  | refMut t ih =>
    rcases h.2 with rfl | h
    · simp [CTy.excludes] at ht
    · exact h
  | _ => exact h.2

theorem HasTy.copies {t : CTy} {v : RVal P V E F} (h : HasTy t v) (ht : t.copy = true) : v.copies = true := by
  induction t generalizing v with
  | usize => obtain ⟨n, rfl⟩ := h; rfl
  | option t ih =>
    rcases h with rfl | ⟨x, rfl, h⟩
    · rfl
    · exact ih (v := x) h ht
  | result t e ih ih' =>
    simp only [CTy.copy, Bool.and_eq_true] at ht
    rcases h with ⟨x, rfl, h⟩ | ⟨x, rfl, h⟩
    · exact ih (v := x) h ht.1
    · exact ih' (v := x) h ht.2
  | ref t ih =>
    rcases h with rfl | ⟨x, rfl, h⟩ <;> rfl
  | _ => cases ht

/-- What is undetermined in a type has no values. -/
theorem HasTy.join {a b c : CTy} (h : a.join b = some c) {v : RVal P V E F} :
    (HasTy a v → HasTy c v) ∧ (HasTy b v → HasTy c v) := by
  fun_induction CTy.join a b generalizing c v with
  | case1 t =>
    cases h
    exact ⟨fun h => h.elim, id⟩
  | case2 t =>
    cases h
    exact ⟨id, fun h => h.elim⟩
  | case3 a b ih =>
    obtain ⟨d, hd, rfl⟩ := Option.map_eq_some_iff.mp h
    constructor
    · rintro (rfl | ⟨x, rfl, h⟩)
      · exact .inl rfl
      · exact .inr ⟨x, rfl, (ih hd).1 h⟩
    · rintro (rfl | ⟨x, rfl, h⟩)
      · exact .inl rfl
      · exact .inr ⟨x, rfl, (ih hd).2 h⟩
  | case4 a e b f ih1 ih2 =>
    simp only [bind, Option.bind_eq_some_iff] at h
    obtain ⟨t, ht, e', he, h⟩ := h
    cases h
    constructor
    · rintro (⟨x, rfl, h⟩ | ⟨x, rfl, h⟩)
      · exact .inl ⟨x, rfl, (ih1 ht).1 h⟩
      · exact .inr ⟨x, rfl, (ih2 he).1 h⟩
    · rintro (⟨x, rfl, h⟩ | ⟨x, rfl, h⟩)
      · exact .inl ⟨x, rfl, (ih1 ht).2 h⟩
      · exact .inr ⟨x, rfl, (ih2 he).2 h⟩
  | case5 a b ih =>
    obtain ⟨d, hd, rfl⟩ := Option.map_eq_some_iff.mp h
    constructor
    · rintro (rfl | ⟨x, rfl, h⟩)
      · exact .inl rfl
      · exact .inr ⟨x, rfl, (ih hd).1 h⟩
    · rintro (rfl | ⟨x, rfl, h⟩)
      · exact .inl rfl
      · exact .inr ⟨x, rfl, (ih hd).2 h⟩
  | case6 a b ih =>
    obtain ⟨d, hd, rfl⟩ := Option.map_eq_some_iff.mp h
    constructor
    · rintro (rfl | ⟨x, rfl, h⟩)
      · exact .inl rfl
      · exact .inr ⟨x, rfl, (ih hd).1 h⟩
    · rintro (rfl | ⟨x, rfl, h⟩)
      · exact .inl rfl
      · exact .inr ⟨x, rfl, (ih hd).2 h⟩
  | case7 a =>
    cases h
    exact ⟨id, id⟩
  | case8 => cases h

theorem HasTy.fits {a b : CTy} (h : a.fits b = true) {v : RVal P V E F} (hv : HasTy a v) : HasTy b v :=
  (HasTy.join (by simpa [CTy.fits] using h)).1 hv

/-- Types of user code. -/
def CTy.plain : CTy → Bool
  | .unit => true
  | .user _ => true
  | .path _ => true
  | .data _ => true
  | _ => false

theorem hasTy_plain {t : CTy} (h : t.plain = true) {v : RVal P V E F} : HasTy t v ↔ v.Flat := by
  cases t <;> first | exact Iff.rfl | cases h

/-- What user code is like is written with types of user code. -/
structure UserDecls.Plain (u : UserDecls) : Prop where
  body : ∀ k out env t, u.body k out env = some t → t.plain = true
  conv : ∀ k t t', u.conv k t = some t' → t'.plain = true

structure Decls.Plain (D : Decls) : Prop where
  error : D.error.plain = true
  value : D.value.plain = true
  variants : ∀ v t, D.variants.lookup v = some t → t.plain = true
  user : D.user.Plain

theorem RVal.good_of_flat {v : RVal P V E F} (h : v.Flat) (taken now : Time) : v.good taken now = true := by
  simp [RVal.good, h.1, h.2]

theorem RVal.good_mono {v w : RVal P V E F} {taken now : Time} (h : v.good taken now = true)
    (h1 : w.shares = true → v.shares = true) (h2 : w.excludes = true → v.excludes = true) : w.good taken now = true := by
  simp only [RVal.good, Bool.and_eq_true, Bool.or_eq_true, Bool.not_eq_true', decide_eq_true_eq] at h ⊢
  constructor
  · cases hw : w.shares with
    | false => exact .inl rfl
    | true => exact .inr (h.1.resolve_left (by simp [h1 hw]))
  · cases hw : w.excludes with
    | false => exact .inl rfl
    | true => exact .inr (h.2.resolve_left (by simp [h2 hw]))

/-! ### Outcomes -/

/-- The two interpreters end in the same way. -/
def Agree {α β : Type} (R : α → β → Prop) : Outcome Unit α → Outcome Misuse β → Prop
  | .ok x, .ok y => R x y
  | .panic, .panic => True
  | .ub, .ub => True
  | .timeout, .timeout => True
  | _, _ => False

theorem Agree.bind {α β α' β' : Type} {R : α → β → Prop} {R' : α' → β' → Prop} {x : Outcome Unit α} {y : Outcome Misuse β}
    {f : α → Outcome Unit α'} {g : β → Outcome Misuse β'} (h : Agree R x y) (hk : ∀ a b, R a b → Agree R' (f a) (g b)) :
    Agree R' (x >>= f) (y >>= g) := by
  cases x <;> cases y <;> first | exact h.elim | exact hk _ _ h | trivial

theorem Agree.mono {α β : Type} {R R' : α → β → Prop} {x : Outcome Unit α} {y : Outcome Misuse β} (h : Agree R x y)
    (hk : ∀ a b, R a b → R' a b) : Agree R' x y := by
  cases x <;> cases y <;> first | exact h.elim | exact hk _ _ h | trivial

theorem agree_unwrap {α : Type} (o : Option α) : Agree (fun a b => a = b ∧ o = some a) (Outcome.unwrap o) (Outcome.unwrap o) := by
  cases o
  · trivial
  · exact ⟨rfl, rfl⟩

theorem agree_lift {α : Type} {x : Outcome Unit α} (h : ∀ e, x ≠ .err e) : Agree (fun a b => a = b ∧ x = .ok a) x (lift x) := by
  cases x <;> first | exact absurd rfl (h _) | trivial

/-! ### Variables -/

/-- What is on the stack. -/
def StoreOk (s : Store P V E F σ) : Prop := ∀ st, s.state = some st → ∀ v ∈ st.stack, v.Flat

/-- A variable that is ready holds a good value of its type. -/
def Holds (now : Time) (s : Slot) (h : Option (Held P V E F)) (v : RVal P V E F) : Prop :=
  s.status = .ready → ∃ taken, h = some (v, taken) ∧ HasTy s.ty v ∧ v.good taken now = true

/-- The variables of the checker and of the two interpreters, with more variables outside that the checker does not
see. -/
def Linked (now : Time) (te : Owners P V E F) (ts : Scope P V E F) : Vars → Owners P V E F → Scope P V E F → Prop
  | [], vars, scope => vars = te ∧ scope = ts
  | (x, s) :: Γ, (y, h) :: vars, (z, v) :: scope => x = y ∧ x = z ∧ Holds now s h v ∧ Linked now te ts Γ vars scope
  | _, _, _ => False

section
variable {now : Time} {te vars : Owners P V E F} {ts scope : Scope P V E F} {Γ : Vars}

theorem Linked.lookup (h : Linked now te ts Γ vars scope) {x : String} {s : Slot} (hx : Γ.lookup x = some s) :
    ∃ h v, vars.lookup x = some h ∧ scope.lookup x = some v ∧ Holds now s h v := by
  fun_induction Linked now te ts Γ vars scope with
  | case1 => cases hx
  | case2 y s' Γ _ h' vars _ v scope ih =>
    obtain ⟨rfl, rfl, h1, h2⟩ := h
    simp only [List.lookup_cons] at hx ⊢
    cases hxy : x == y with
    | true =>
      simp only [hxy] at hx ⊢
      cases hx
      exact ⟨_, _, rfl, rfl, h1⟩
    | false =>
      simp only [hxy] at hx ⊢
      exact ih h2 hx
  | case3 => exact h.elim

/-- The status of variables changes, and time goes on. -/
theorem Linked.map {now' : Time} (h : Linked now te ts Γ vars scope) {f : String → Slot → Slot}
    (hf : ∀ x s h (v : RVal P V E F), Holds now s h v → Holds now' (f x s) h v) :
    Linked now' te ts (Γ.map fun p => (p.1, f p.1 p.2)) vars scope := by
  fun_induction Linked now te ts Γ vars scope with
  | case1 => exact h
  | case2 y s' Γ _ h' vars _ v scope ih =>
    obtain ⟨rfl, rfl, h1, h2⟩ := h
    exact ⟨rfl, rfl, hf _ _ _ _ h1, ih h2⟩
  | case3 => exact h.elim

/-- The parser's state is used. -/
theorem Linked.disturb (h : Linked now te ts Γ vars scope) (isMut : Bool) :
    Linked (now.tick isMut) te ts (Γ.disturb isMut) vars scope := by
  refine Linked.map (f := fun _ s => if s.status = .ready && (s.ty.excludes || (isMut && s.ty.shares)) then
    { s with status := .stale } else s) h fun x s h v hv hs => ?_
  split at hs
  · cases hs
  · rename_i hn
    simp only [if_neg hn]
    obtain ⟨taken, rfl, h1, h2⟩ := hv hs
    refine ⟨taken, rfl, h1, ?_⟩
    simp only [hs, decide_true, Bool.true_and, Bool.not_eq_true, Bool.or_eq_false_iff, Bool.and_eq_false_iff] at hn
    have hx := h1.excludes hn.1
    simp only [RVal.good, hx, Bool.not_false, Bool.true_or, Bool.and_true, Bool.or_eq_true, Bool.not_eq_true',
      decide_eq_true_eq] at h2 ⊢
    rcases hn.2 with rfl | hn
    · exact h2
    · exact .inl (h1.shares hn)

/-- The parser's state is changed, in whatever way. -/
theorem Linked.after (h : Linked now te ts Γ vars scope) (now' : Time) : Linked now' te ts (Γ.disturb true) vars scope := by
  refine Linked.map (f := fun _ s => if s.status = .ready && (s.ty.excludes || (true && s.ty.shares)) then
    { s with status := .stale } else s) h fun x s h v hv hs => ?_
  split at hs
  · cases hs
  · rename_i hn
    simp only [if_neg hn]
    obtain ⟨taken, rfl, h1, h2⟩ := hv hs
    refine ⟨taken, rfl, h1, ?_⟩
    simp only [hs, decide_true, Bool.true_and, Bool.not_eq_true, Bool.or_eq_false_iff] at hn
    exact RVal.good_of_flat ⟨h1.shares hn.2, h1.excludes hn.1⟩ _ _

/-- A variable is moved. -/
theorem Linked.mark_moved (h : Linked now te ts Γ vars scope) (x : String) : Linked now te ts (Γ.mark x .moved) vars scope := by
  fun_induction Linked now te ts Γ vars scope with
  | case1 => exact h
  | case2 y s' Γ _ h' vars _ v scope ih =>
    obtain ⟨rfl, rfl, h1, h2⟩ := h
    simp only [Vars.mark]
    split
    · exact ⟨rfl, rfl, fun h => (by cases h), h2⟩
    · exact ⟨rfl, rfl, h1, ih h2⟩
  | case3 => exact h.elim

theorem Linked.set_none (h : Linked now te ts Γ vars scope) {x : String} (hx : (Γ.lookup x).isSome = true) :
    Linked now te ts (Γ.mark x .moved) (vars.set x none) scope := by
  fun_induction Linked now te ts Γ vars scope with
  | case1 => cases hx
  | case2 y s' Γ _ h' vars _ v scope ih =>
    obtain ⟨rfl, rfl, h1, h2⟩ := h
    simp only [Vars.mark, Owners.set]
    split
    · exact ⟨rfl, rfl, fun h => (by cases h), h2⟩
    · rename_i hxy
      refine ⟨rfl, rfl, h1, ih h2 ?_⟩
      simpa [List.lookup_cons, beq_eq_false_iff_ne.mpr hxy] using hx
  | case3 => exact h.elim

/-- A variable gets its value back. -/
theorem Linked.set_some (h : Linked now te ts Γ vars scope) {x : String} {s : Slot} {v : RVal P V E F} {taken : Time}
    (hx : Γ.lookup x = some s) (hv : scope.lookup x = some v) (ht : HasTy s.ty v) (hg : v.good taken now = true) :
    Linked now te ts (Γ.mark x .ready) (vars.set x (some (v, taken))) scope := by
  fun_induction Linked now te ts Γ vars scope with
  | case1 => cases hx
  | case2 y s' Γ _ h' vars _ w scope ih =>
    obtain ⟨rfl, rfl, h1, h2⟩ := h
    simp only [Vars.mark, Owners.set]
    split
    · rename_i hxy
      subst hxy
      simp only [List.lookup_cons, beq_self_eq_true, Option.some.injEq] at hx hv
      subst hx hv
      exact ⟨rfl, rfl, fun _ => ⟨taken, rfl, ht, hg⟩, h2⟩
    · rename_i hxy
      simp only [List.lookup_cons, beq_eq_false_iff_ne.mpr hxy] at hx hv
      exact ⟨rfl, rfl, h1, ih h2 hx hv⟩
  | case3 => exact h.elim

theorem Linked.drop (h : Linked now te ts Γ vars scope) {n : Nat} (hn : n ≤ Γ.length) :
    Linked now te ts (Γ.drop n) (vars.drop n) (scope.drop n) := by
  induction n generalizing Γ vars scope with
  | zero => exact h
  | succ n ih =>
    match Γ, vars, scope, h with
    | (_, _) :: Γ, (_, _) :: vars, (_, _) :: scope, h => exact ih h.2.2.2 (by simpa using hn)

theorem Linked.append {l : List (String × CTy)} {Δ : Scope P V E F} {taken : Time} (h : Linked now te ts Γ vars scope)
    (hl : List.Forall₂ (fun p q => p.1 = q.1 ∧ HasTy p.2 q.2 ∧ q.2.good taken now = true) l Δ) :
    Linked now te ts (fresh l ++ Γ) (holding Δ taken ++ vars) (Δ ++ scope) := by
  induction hl with
  | nil => exact h
  | cons hp _ ih =>
    exact ⟨hp.1, hp.1, fun _ => ⟨taken, rfl, hp.2.1, hp.2.2⟩, ih⟩

/-- After one of two branches. -/
theorem Linked.merge_left {Δ Θ : Vars} (h : Linked now te ts Γ vars scope) (hm : Γ.merge Δ = some Θ) :
    Linked now te ts Θ vars scope ∧ Θ.length = Γ.length := by
  induction Γ generalizing Δ Θ vars scope with
  | nil =>
    cases Δ with
    | nil => cases hm; exact ⟨h, rfl⟩
    | cons => cases hm
  | cons p Γ ih =>
    obtain ⟨x, s⟩ := p
    cases Δ with
    | nil => cases hm
    | cons q Δ =>
      obtain ⟨y, t⟩ := q
      simp only [Vars.merge] at hm
      split at hm
      · obtain ⟨Ξ, hΞ, rfl⟩ := Option.map_eq_some_iff.mp hm
        match vars, scope, h with
        | (_, _) :: vars, (_, _) :: scope, ⟨rfl, rfl, h1, h2⟩ =>
          obtain ⟨h3, h4⟩ := ih h2 hΞ
          refine ⟨⟨rfl, rfl, fun hs => h1 ?_, h3⟩, by simp [h4]⟩
          revert hs
          cases s.status <;> cases t.status <;> simp [Status.worst]
      · cases hm

theorem Linked.merge_right {Δ Θ : Vars} (h : Linked now te ts Δ vars scope) (hm : Γ.merge Δ = some Θ) :
    Linked now te ts Θ vars scope ∧ Θ.length = Δ.length := by
  induction Γ generalizing Δ Θ vars scope with
  | nil =>
    cases Δ with
    | nil => cases hm; exact ⟨h, rfl⟩
    | cons => cases hm
  | cons p Γ ih =>
    obtain ⟨x, s⟩ := p
    cases Δ with
    | nil => cases hm
    | cons q Δ =>
      obtain ⟨y, t⟩ := q
      simp only [Vars.merge] at hm
      split at hm
      · rename_i hxy
        obtain ⟨rfl, hty, -⟩ := hxy
        obtain ⟨Ξ, hΞ, rfl⟩ := Option.map_eq_some_iff.mp hm
        match vars, scope, h with
        | (_, _) :: vars, (_, _) :: scope, ⟨rfl, rfl, h1, h2⟩ =>
          obtain ⟨h3, h4⟩ := ih h2 hΞ
          refine ⟨⟨rfl, rfl, fun hs => ?_, h3⟩, by simp [h4]⟩
          simp only [hty]
          refine h1 ?_
          revert hs
          cases s.status <;> cases t.status <;> simp [Status.worst]
      · cases hm

/-- All variables `__v..` are moved. -/
theorem Linked.takeBound (h : Linked now [] [] Γ vars scope) (hw : Γ.whole = true) :
    ∃ vars', vars.takeBound now = .ok vars' ∧ Linked now [] [] Γ.spend vars' scope := by
  induction Γ generalizing vars scope with
  | nil =>
    obtain ⟨rfl, rfl⟩ := h
    exact ⟨[], rfl, rfl, rfl⟩
  | cons p Γ ih =>
    obtain ⟨x, s⟩ := p
    match vars, scope, h with
    | (_, hd) :: vars, (_, v) :: scope, ⟨rfl, rfl, h1, h2⟩ =>
      simp only [Vars.whole, List.all_cons, Bool.and_eq_true, Bool.or_eq_true, Bool.not_eq_true', decide_eq_true_eq] at hw
      obtain ⟨vars', h3, h4⟩ := ih h2 hw.2
      simp only [Owners.takeBound]
      by_cases hb : Vars.isBound x = true
      · have hb' : Owners.bound x = true := hb
        obtain ⟨taken, rfl, h5, h6⟩ := h1 (hw.1.resolve_left (by simp [hb]))
        simp only [hb', if_true, h6, h3, Outcome.ok_bind, Outcome.pure_eq]
        refine ⟨_, rfl, ?_⟩
        simp only [Vars.spend, List.map_cons, hb, if_true]
        exact ⟨rfl, rfl, fun h => (by cases h), h4⟩
      · have hb' : Owners.bound x = false := by simpa [Vars.isBound, Owners.bound] using hb
        simp only [hb', Bool.false_eq_true, if_false, h3, Outcome.ok_bind, Outcome.pure_eq]
        refine ⟨_, rfl, ?_⟩
        simp only [Vars.spend, List.map_cons, hb]
        exact ⟨rfl, rfl, h1, h4⟩

theorem isBound_boundVariable (i : Nat) : Vars.isBound (boundVariable i) = true := by
  simp [Vars.isBound, boundVariable, String.toList_append]

theorem Linked.lookup_none (h : Linked now [] [] Γ vars scope) {x : String} (hx : Γ.lookup x = none) :
    vars.lookup x = none ∧ scope.lookup x = none := by
  induction Γ generalizing vars scope with
  | nil =>
    obtain ⟨rfl, rfl⟩ := h
    exact ⟨rfl, rfl⟩
  | cons p Γ ih =>
    obtain ⟨y, s⟩ := p
    match vars, scope, h with
    | (_, hd) :: vars, (_, v) :: scope, ⟨rfl, rfl, h1, h2⟩ =>
      simp only [List.lookup_cons] at hx ⊢
      cases hxy : x == y with
      | true => simp [hxy] at hx
      | false =>
        simp only [hxy] at hx ⊢
        exact ih h2 hx

theorem mem_of_lookup {α : Type} {l : List (String × α)} {x : String} {a : α} (h : l.lookup x = some a) : (x, a) ∈ l := by
  induction l with
  | nil => cases h
  | cons p l ih =>
    obtain ⟨y, b⟩ := p
    simp only [List.lookup_cons] at h
    cases hxy : x == y with
    | true =>
      simp only [hxy, Option.some.injEq] at h
      subst h
      rw [eq_of_beq hxy]
      exact List.mem_cons_self
    | false =>
      simp only [hxy] at h
      exact List.mem_cons_of_mem _ (ih h)

theorem Linked.env (h : Linked now [] [] Γ vars scope) (hw : Γ.whole = true) : vars.env = scope.env := by
  funext i
  unfold Owners.env Scope.env
  cases hx : Γ.lookup (boundVariable i) with
  | none =>
    obtain ⟨h1, h2⟩ := h.lookup_none hx
    rw [h1, h2]
  | some s =>
    obtain ⟨hd, v, h1, h2, h3⟩ := h.lookup hx
    rw [h1, h2]
    have hs : s.status = .ready := by
      have := List.all_eq_true.mp hw _ (mem_of_lookup hx)
      simpa [isBound_boundVariable] using this
    obtain ⟨taken, rfl, -, -⟩ := h3 hs
    cases v <;> rfl

end

/-! ### Patterns -/

section
variable {D : Decls}

/-- What a pattern sees. -/
def InMode : Mode → CTy → RVal P V E F → Prop
  | .move, t, v => HasTy t v
  | .ref, t, v => ∃ w, v = .ref w ∧ HasTy t w
  | .place, t, v => ∃ w, v = .place w ∧ HasTy t w

/-- The references in one value are some of those in another. -/
def Within (w v : RVal P V E F) : Prop := (w.shares = true → v.shares = true) ∧ (w.excludes = true → v.excludes = true)

theorem Within.refl (v : RVal P V E F) : Within v v := ⟨id, id⟩

theorem Within.trans {u v w : RVal P V E F} (h : Within u v) (h' : Within v w) : Within u w :=
  ⟨fun x => h'.1 (h.1 x), fun x => h'.2 (h.2 x)⟩

theorem Within.of_flat {w : RVal P V E F} (h : w.Flat) (v : RVal P V E F) : Within w v :=
  ⟨fun x => (by rw [h.1] at x; cases x), fun x => (by rw [h.2] at x; cases x)⟩

theorem RVal.good_self (v : RVal P V E F) (now : Time) : v.good now now = true := by
  simp [RVal.good]

theorem field_ty (hD : D.Plain) {k : Con} {t t' : CTy} {v w : RVal P V E F} (ht : k.fieldTy D t = some t')
    (hw : k.field v = some w) (hv : HasTy t v) : HasTy t' w ∧ Within w v := by
  unfold Con.field at hw
  split at hw
  case h_7 => cases hw
  case h_5 =>
    split at hw
    · cases hw
      cases t <;> first | (cases ht; done) | skip
      simp only [Con.fieldTy] at ht
      split at ht
      · exact ⟨(hasTy_plain (hD.variants _ _ ht)).mpr hv, Within.refl _⟩
      · cases ht
    · cases hw
  case h_6 =>
    split at hw
    · cases hw
      cases t <;> first | (cases ht; done) | skip
      simp only [Con.fieldTy] at ht
      split at ht
      · cases ht
        exact ⟨⟨rfl, rfl⟩, Within.of_flat ⟨rfl, rfl⟩ _⟩
      · cases ht
    · cases hw
  all_goals
    cases hw
    cases t <;> first | (cases ht; done) | skip
    cases ht
    refine ⟨?_, Within.refl _⟩
    rcases hv with hv | hv
    all_goals first
      | (cases hv; done)
      | (obtain ⟨x, hx, hv⟩ := hv
         cases hx
         done)
      | (obtain ⟨x, hx, hv⟩ := hv
         cases hx
         exact hv)

theorem take_ref {k : Con} {v w : RVal P V E F} (h : k.take (.ref v) = some w) : ∃ x, k.field v = some x ∧ w = .ref x := by
  obtain ⟨x, h1, h2⟩ := Option.map_eq_some_iff.mp h
  exact ⟨x, h1, h2.symm⟩

theorem take_place {k : Con} {v w : RVal P V E F} (h : k.take (.place v) = some w) :
    ∃ x, k.field v = some x ∧ w = .place x := by
  obtain ⟨x, h1, h2⟩ := Option.map_eq_some_iff.mp h
  exact ⟨x, h1, h2.symm⟩

theorem field_stream {k : Con} : k.field (.stream : RVal P V E F) = none := by
  cases k <;> rfl

theorem field_ref {k : Con} {v : RVal P V E F} : k.field (.ref v) = none := by
  cases k <;> rfl

theorem take_ty (hD : D.Plain) {k : Con} {m : Mode} {t t' : CTy} {v w : RVal P V E F}
    (ht : k.fieldTy D (through m t).2 = some t') (hw : k.take v = some w) (hv : InMode m t v) :
    InMode (through m t).1 t' w ∧ Within w v := by
  by_cases hr : ∃ t₀, t = .ref t₀
  · obtain ⟨t₀, rfl⟩ := hr
    have hth : through m (.ref t₀) = (.ref, t₀) := by cases m <;> rfl
    rw [hth] at ht ⊢
    cases m with
    | move =>
      rcases hv with rfl | ⟨x, rfl, hv⟩
      · rw [show k.take (.stream : RVal P V E F) = k.field .stream from rfl, field_stream] at hw
        cases hw
      · obtain ⟨y, h1, rfl⟩ := take_ref hw
        exact ⟨⟨y, rfl, (field_ty hD ht h1 hv).1⟩, fun _ => rfl, fun h => (by cases h)⟩
    | ref =>
      obtain ⟨x, rfl, hv⟩ := hv
      obtain ⟨y, h1, rfl⟩ := take_ref hw
      rcases hv with rfl | ⟨z, rfl, hv⟩
      · rw [field_stream] at h1
        cases h1
      · rw [field_ref] at h1
        cases h1
    | place =>
      obtain ⟨x, rfl, hv⟩ := hv
      obtain ⟨y, h1, rfl⟩ := take_place hw
      rcases hv with rfl | ⟨z, rfl, hv⟩
      · rw [field_stream] at h1
        cases h1
      · rw [field_ref] at h1
        cases h1
  · have hth : through m t = (m, t) := by
      cases t <;> first | rfl | exact absurd ⟨_, rfl⟩ hr
    rw [hth] at ht ⊢
    cases m with
    | move =>
      have hf : k.take v = k.field v := by
        cases v <;> first | rfl | skip
        all_goals
          exfalso
          cases t <;> first | exact absurd ⟨_, rfl⟩ hr | skip
          all_goals first
            | exact hv.elim
            | (rcases hv with ⟨x, hx, -⟩ | ⟨x, hx, -⟩ <;> cases hx)
            | (rcases hv with hx | ⟨x, hx, -⟩ <;> cases hx)
            | (obtain ⟨n, hx⟩ := hv; cases hx)
      rw [hf] at hw
      exact field_ty hD ht hw hv
    | ref =>
      obtain ⟨x, rfl, hv⟩ := hv
      obtain ⟨y, h1, rfl⟩ := take_ref hw
      exact ⟨⟨y, rfl, (field_ty hD ht h1 hv).1⟩, fun _ => rfl, fun h => (by cases h)⟩
    | place =>
      obtain ⟨x, rfl, hv⟩ := hv
      obtain ⟨y, h1, rfl⟩ := take_place hw
      exact ⟨⟨y, rfl, (field_ty hD ht h1 hv).1⟩, fun _ => rfl, fun h => (by cases h)⟩

/-- The variables of a pattern get values of their types. -/
theorem bind_ty [DecidableEq P] (hD : D.Plain) {sem : Sem P V E σ} {p : RPat} {m : Mode} {t : CTy} {l : List (String × CTy)}
    {v : RVal P V E F} {Δ : Scope P V E F} (hp : p.check D m t = some l) (hv : InMode m t v) (hb : p.bind sem v = some Δ) :
    List.Forall₂ (fun p q => p.1 = q.1 ∧ HasTy p.2 q.2 ∧ Within q.2 v) l Δ := by
  induction p generalizing m t l v Δ with
  | wild =>
    cases hp
    cases hb
    exact .nil
  | var x =>
    cases m with
    | move =>
      cases hp
      cases hb
      exact .cons ⟨rfl, hv, Within.refl _⟩ .nil
    | ref =>
      cases hp
      cases hb
      obtain ⟨w, rfl, hv⟩ := hv
      exact .cons ⟨rfl, .inr ⟨w, rfl, hv⟩, Within.refl _⟩ .nil
    | place => cases hp
  | atom a =>
    simp only [RPat.check] at hp
    split at hp
    · split at hp
      · cases hp
        simp only [RPat.bind] at hb
        split at hb
        · cases hb
          exact .nil
        · cases hb
      · cases hp
    · cases hp
  | con k p ih =>
    simp only [RPat.check] at hp
    split at hp
    · rename_i t' ht
      simp only [RPat.bind, Option.bind_eq_some_iff] at hb
      obtain ⟨w, hw, hb⟩ := hb
      obtain ⟨h1, h2⟩ := take_ty hD ht hw hv
      exact (ih hp h1 hb).imp fun _ _ ⟨h3, h4, h5⟩ => ⟨h3, h4, h5.trans h2⟩
    · cases hp
  | rest k =>
    obtain ⟨_, -, rfl⟩ := Option.map_eq_some_iff.mp hp
    obtain ⟨_, -, rfl⟩ := Option.map_eq_some_iff.mp hb
    exact .nil
  | ref p ih =>
    cases m with
    | ref => cases hp
    | move =>
      cases t <;> first | (cases hp; done) | skip
      rcases hv with rfl | ⟨w, rfl, hv⟩
      · cases hb
      · simp only [RPat.check] at hp
        simp only [RPat.bind] at hb
        exact (ih (m := .place) hp ⟨w, rfl, hv⟩ hb).imp fun _ _ ⟨h3, h4, h5⟩ =>
          ⟨h3, h4, h5.trans ⟨fun _ => rfl, fun h => (by cases h)⟩⟩
    | place =>
      obtain ⟨w, rfl, hv⟩ := hv
      cases hb
  | named x p ih =>
    cases m with
    | move => cases hp
    | ref => cases hp
    | place =>
      obtain ⟨w, rfl, hv⟩ := hv
      simp only [RPat.check] at hp
      split at hp
      · rename_i hp'
        cases hp
        simp only [RPat.bind] at hb
        obtain ⟨Δ', h1, rfl⟩ := Option.map_eq_some_iff.mp hb
        cases ih (m := .place) hp' ⟨w, rfl, hv⟩ h1
        exact .cons ⟨rfl, .inr ⟨w, rfl, hv⟩, fun _ => rfl, fun h => (by cases h)⟩ .nil
      · cases hp
  | user text =>
    simp only [RPat.check] at hp
    split at hp
    · split at hp
      · cases hp
        simp only [RPat.bind] at hb
        split at hb
        · split at hb
          · cases hb
            exact .nil
          · cases hb
        · cases hb
      · cases hp
    · cases hp
  | or p q ihp ihq =>
    simp only [RPat.check] at hp
    split at hp
    · rename_i heq
      simp only [RPat.bind, Option.or_eq_some_iff] at hb
      rcases hb with hb | ⟨-, hb⟩
      · exact ihp hp hv hb
      · exact ihq (heq ▸ hp) hv hb
    · cases hp

/-! ### The library -/

theorem run_ne_err {c : Ctx P V E F σ} {m : Method} {v : RVal P V E F} {s : Store P V E F σ} (e : Unit) :
    m.run c v s ≠ .err e := by
  unfold Method.run
  split
  all_goals first
    | (intro h; cases h; done)
    | (cases hs : s.state <;> simp [topState, hs, Outcome.unwrap, Outcome.unwrapUnchecked, Outcome.assert] <;>
        (repeat' split) <;> simp)

theorem storeOk_world {s : Store P V E F σ} (h : StoreOk s) (w : σ) : StoreOk { s with world := w } := h

theorem ofItem_ty (i : Item P F) : HasTy (.result .owner .streamError) (ofItem i : RVal P V E F) := by
  cases i with
  | ok t => exact .inl ⟨_, rfl, rfl, rfl⟩
  | error f => exact .inr ⟨_, rfl, rfl, rfl⟩

theorem topState_ty {s s' : Store P V E F σ} {w : RVal P V E F} (hs : StoreOk s) (h : topState s = .ok (w, s')) :
    HasTy (.ref .states) w ∧ StoreOk s' := by
  unfold topState at h
  cases hst : s.state with
  | none => simp [hst] at h
  | some st =>
    cases hh : st.stack with
    | nil => simp [hst, hh] at h
    | cons top rest =>
      simp only [hst, Outcome.unwrap_some, Outcome.ok_bind, hh, List.head?_cons, Outcome.unwrapUnchecked_some,
        Outcome.pure_eq, Outcome.ok.injEq, Prod.mk.injEq] at h
      obtain ⟨rfl, rfl⟩ := h
      exact ⟨.inr ⟨top, rfl, hs st hst top (by simp [hh])⟩, hs⟩

/-- Methods of the parser's state return values of their types. -/
theorem run_state {c : Ctx P V E F σ} {m : Method} {b : Bool} {t : CTy} {v w : RVal P V E F} {s s' : Store P V E F σ}
    (hm : m.onState = some (b, t)) (hs : StoreOk s) (h : m.run c v s = .ok (w, s')) : HasTy t w ∧ StoreOk s' := by
  unfold Method.run at h
  split at h
  case h_7 =>
    cases hm
    exact topState_ty hs h
  case h_8 =>
    cases hm
    exact topState_ty hs h
  case h_9 =>
    cases hm
    cases hst : s.state with
    | none => simp [hst] at h
    | some st =>
      cases hh : st.stack with
      | nil => simp [hst, hh] at h
      | cons top rest =>
        simp only [hst, Outcome.unwrap_some, Outcome.ok_bind, hh, List.head?_cons, Outcome.unwrapUnchecked_some,
          Outcome.pure_eq, Outcome.ok.injEq, Prod.mk.injEq, List.tail_cons] at h
        obtain ⟨rfl, rfl⟩ := h
        refine ⟨hs st hst top (by simp [hh]), fun st' h x hx => ?_⟩
        cases h
        exact hs st hst x (by simp [hh, show x ∈ rest from hx])
  case h_10 =>
    cases hm
    cases hst : s.state with
    | none => simp [hst] at h
    | some st =>
      simp only [hst, Outcome.unwrap_some, Outcome.ok_bind, Outcome.assert] at h
      split at h
      · simp only [Outcome.ok_bind, Outcome.pure_eq, Outcome.ok.injEq, Prod.mk.injEq] at h
        obtain ⟨rfl, rfl⟩ := h
        exact ⟨⟨rfl, rfl⟩, hs⟩
      · cases h
  all_goals first
    | (cases hm; done)
    | (cases h; done)
    | (cases hm
       cases h
       exact ⟨.inl rfl, hs⟩)
    | (cases hm
       cases h
       exact ⟨⟨rfl, .inl rfl⟩, hs⟩)

/-- Other methods return values of their types, with references that they were given. -/
theorem run_ty {c : Ctx P V E F σ} {m : Method} {t t' : CTy} {v w : RVal P V E F} {s s' : Store P V E F σ}
    (hm : m.ty D t = some t') (hv : HasTy t v) (hs : StoreOk s) (h : m.run c v s = .ok (w, s')) :
    HasTy t' w ∧ StoreOk s' ∧ Within w v := by
  unfold Method.ty at hm
  split at hm
  case h_1 =>
    cases hm
    rcases hv with rfl | ⟨x, rfl, -⟩
    · simp only [Method.run] at h
      cases hst : s.state with
      | none => simp [hst] at h
      | some st =>
        simp only [hst, Outcome.unwrap_some, Outcome.ok_bind, Outcome.pure_eq, Outcome.ok.injEq, Prod.mk.injEq] at h
        obtain ⟨rfl, rfl⟩ := h
        refine ⟨?_, hs, fun _ => rfl, ?_⟩
        · split
          · exact .inr ⟨_, rfl, .inr ⟨_, rfl, ofItem_ty _⟩⟩
          · exact .inl rfl
        · split <;> exact fun h => (by cases h)
    · cases h
  case h_2 =>
    cases hm
    cases v <;> first | (cases h; done) | skip
    simp only [Method.run] at h
    cases hst : s.state with
    | none => simp [hst] at h
    | some st =>
      simp only [hst, Outcome.unwrap_some, Outcome.ok_bind, Outcome.assert] at h
      split at h
      · simp only [Outcome.ok_bind, Outcome.pure_eq, Outcome.ok.injEq, Prod.mk.injEq] at h
        obtain ⟨rfl, rfl⟩ := h
        refine ⟨⟨rfl, rfl⟩, fun st' h x hx => ?_, Within.of_flat ⟨rfl, rfl⟩ _⟩
        cases h
        exact hs st hst x hx
      · cases h
  case h_3 =>
    cases hm
    cases v <;> first | (cases h; done) | skip
    cases h
    exact ⟨⟨rfl, rfl⟩, hs, Within.refl _⟩
  case h_4 =>
    cases hm
    rcases hv with rfl | ⟨x, rfl, hv⟩
    · cases h
    · cases h
      exact ⟨.inr ⟨x, rfl, hv⟩, hs, Within.refl _⟩
  case h_5 =>
    split at hm
    · cases hm
      rcases hv with rfl | ⟨x, rfl, hv⟩
      · cases h
      · cases h
        exact ⟨hv, hs, Within.of_flat hv _⟩
    · cases hm
  case h_6 =>
    cases hm
    rcases hv with rfl | ⟨x, rfl, hv⟩
    · cases h
    · cases h
      exact ⟨hv, hs, Within.of_flat hv _⟩
  case h_7 =>
    cases hm
    rcases hv with rfl | ⟨x, rfl, hv⟩
    · cases h
    · cases h
      exact ⟨hv, hs, Within.of_flat hv _⟩
  case h_8 =>
    cases hm
    rcases hv with rfl | ⟨x, rfl, ⟨y, rfl, hv⟩ | ⟨y, rfl, hv⟩⟩
    · cases h
      exact ⟨.inl ⟨_, rfl, .inl rfl⟩, hs, Within.of_flat ⟨rfl, rfl⟩ _⟩
    · cases h
      exact ⟨.inl ⟨_, rfl, .inr ⟨_, rfl, hv⟩⟩, hs, Within.refl _⟩
    · cases h
      exact ⟨.inr ⟨_, rfl, hv⟩, hs, Within.refl _⟩
  case h_9 =>
    cases hm
    cases v <;> first | (cases h; done) | skip
    cases h
    exact ⟨⟨rfl, rfl⟩, hs, Within.of_flat ⟨rfl, rfl⟩ _⟩
  case h_10 => cases hm

theorem build_ty (hD : D.Plain) {k : Con} {t t' : CTy} {v w : RVal P V E F} (ht : k.ty D t = some t')
    (hw : k.build v = some w) (hv : HasTy t v) : HasTy t' w ∧ Within w v := by
  cases k with
  | some => cases ht; cases hw; exact ⟨.inr ⟨_, rfl, hv⟩, Within.refl _⟩
  | ok => cases ht; cases hw; exact ⟨.inl ⟨_, rfl, hv⟩, Within.refl _⟩
  | err => cases ht; cases hw; exact ⟨.inr ⟨_, rfl, hv⟩, Within.refl _⟩
  | accept => cases ht; cases hw; exact ⟨.inr ⟨_, rfl, hv⟩, Within.refl _⟩
  | state enum x =>
    cases hw
    simp only [Con.ty] at ht
    split at ht
    · split at ht
      · rename_i t₀ hl
        split at ht
        · rename_i hf
          cases ht
          have hfl : v.Flat := (hasTy_plain (hD.variants _ _ hl)).mp (hv.fits hf)
          exact ⟨⟨hfl.1, hfl.2⟩, Within.refl _⟩
        · cases ht
      · cases ht
    · cases ht
  | token ty x =>
    simp only [Con.ty] at ht
    split at ht
    · cases ht
      cases v with
      | val v =>
        cases v <;> first | (cases hw; done) | skip
        cases hw
        exact ⟨⟨rfl, rfl⟩, Within.of_flat ⟨rfl, rfl⟩ _⟩
      | _ => cases hw
    · cases ht

theorem atom_ty {sem : Sem P V E σ} {a : Atom} {t : CTy} (h : a.ty D = some t) :
    HasTy t (a.build sem : RVal P V E F) := by
  cases a with
  | unit => cases h; exact ⟨rfl, rfl⟩
  | none => cases h; exact .inl rfl
  | «continue» => cases h; exact .inl rfl
  | lit text =>
    simp only [Atom.ty] at h
    split at h
    · cases h; exact ⟨rfl, rfl⟩
    · cases h
  | token ty x =>
    simp only [Atom.ty] at h
    split at h
    · cases h; exact ⟨rfl, rfl⟩
    · cases h

/-! ### Expressions -/

/-- What is known at the end of an evaluation. -/
def Post (ret : Option CTy) (t : CTy) (o : Option Vars) (n : Nat) (te : Owners P V E F) (ts scope : Scope P V E F) :
    Done P V E F σ → Ended P V E F σ → Prop
  | (.val v, s), (.val v' taken, m) => v' = v ∧ m.store = s ∧ StoreOk s ∧
      ∃ Γ, o = some Γ ∧ Γ.length = n ∧ HasTy t v ∧ v.good taken m.now = true ∧ Linked m.now te ts Γ m.vars scope
  | (.ret v, s), (.ret v' _, m) => v' = v ∧ m.store = s ∧ StoreOk s ∧ ∃ r, ret = some r ∧ HasTy r v
  | _, _ => False

section
variable {ret : Option CTy} {t t' : CTy} {o o' : Option Vars} {n : Nat} {te : Owners P V E F} {ts scope : Scope P V E F}

theorem agree_follow {r : Outcome Unit (Done P V E F σ)} {r' : Outcome Misuse (Ended P V E F σ)}
    {f : RVal P V E F → Store P V E F σ → Outcome Unit (Done P V E F σ)}
    {g : RVal P V E F → Time → Memory P V E F σ → Outcome Misuse (Ended P V E F σ)}
    (h : Agree (Post ret t o n te ts scope) r r')
    (hk : ∀ v taken m Γ, o = some Γ → Γ.length = n → HasTy t v → v.good taken m.now = true →
      Linked m.now te ts Γ m.vars scope → StoreOk m.store → Agree (Post ret t' o' n te ts scope) (f v m.store) (g v taken m)) :
    Agree (Post ret t' o' n te ts scope) (andThen r f) (follow r' g) := by
  refine h.bind fun a b hab => ?_
  obtain ⟨x, s⟩ := a
  obtain ⟨y, m⟩ := b
  cases x with
  | val v =>
    cases y with
    | val v' taken =>
      obtain ⟨rfl, rfl, h1, Γ, h2, h3, h4, h5, h6⟩ := hab
      simp only [need, h5, if_true]
      exact hk _ _ _ Γ h2 h3 h4 h5 h6 h1
    | ret => exact hab.elim
  | ret v =>
    cases y with
    | val => exact hab.elim
    | ret v' taken => exact hab

/-- Leaving the scope of variables. -/
theorem agree_close {r : Outcome Unit (Done P V E F σ)} {r' : Outcome Misuse (Ended P V E F σ)} {Δ : Scope P V E F} {k : Nat}
    (h : Agree (Post ret t o (k + n) te ts (Δ ++ scope)) r r') (hk : Δ.length = k) :
    Agree (Post ret t (o.map (List.drop k)) n te ts scope) r (close k r') := by
  have := h.bind (R' := Post ret t (o.map (List.drop k)) n te ts scope) (f := pure)
    (g := fun x => pure (x.1, { x.2 with vars := x.2.vars.drop k })) fun a b hab => ?_
  · rwa [bind_pure] at this
  · obtain ⟨x, s⟩ := a
    obtain ⟨y, m⟩ := b
    cases x with
    | val v =>
      cases y with
      | val v' taken =>
        obtain ⟨rfl, rfl, h1, Γ, rfl, h3, h4, h5, h6⟩ := hab
        refine ⟨rfl, rfl, h1, Γ.drop k, rfl, by simp [h3], h4, h5, ?_⟩
        have := h6.drop (n := k) (by omega)
        rwa [List.drop_left' hk] at this
      | ret => exact hab.elim
    | ret v =>
      cases y with
      | val => exact hab.elim
      | ret v' taken => exact hab

theorem agree_deliver {r : Outcome Unit (RVal P V E F × Store P V E F σ)} {taken now : Time} {vars : Owners P V E F} {Γ : Vars}
    (hr : ∀ e, r ≠ .err e) (ho : o = some Γ) (hn : Γ.length = n) (hl : Linked now te ts Γ vars scope)
    (h : ∀ v s, r = .ok (v, s) → HasTy t v ∧ StoreOk s ∧ v.good taken now = true) :
    Agree (Post ret t o n te ts scope) (value r) (deliver r taken vars now) := by
  refine (agree_lift hr).bind fun a b hab => ?_
  obtain ⟨rfl, hab⟩ := hab
  obtain ⟨h1, h2, h3⟩ := h _ _ hab
  exact ⟨rfl, rfl, h2, Γ, ho, hn, h1, h3, hl⟩

theorem Post.weaken_left {x : Done P V E F σ} {y : Ended P V E F σ} {a b : Checked} {u : CTy}
    (hab : either a b = some (u, o')) (ha : a = some (t, o)) (h : Post ret t o n te ts scope x y) :
    Post ret u o' n te ts scope x y := by
  subst ha
  simp only [either, bind, Option.bind_eq_some_iff, Option.bind_some] at hab
  obtain ⟨⟨t₂, o₂⟩, rfl, t₃, hj, hab⟩ := hab
  obtain ⟨x, s⟩ := x
  obtain ⟨y, m⟩ := y
  cases x with
  | val v =>
    cases y with
    | val v' taken =>
      obtain ⟨rfl, rfl, h1, Γ, rfl, h3, h4, h5, h6⟩ := h
      cases o₂ with
      | none =>
        cases hab
        exact ⟨rfl, rfl, h1, Γ, rfl, h3, (HasTy.join hj).1 h4, h5, h6⟩
      | some Δ =>
        obtain ⟨Θ, hΘ, hab⟩ := Option.map_eq_some_iff.mp hab
        cases hab
        obtain ⟨h7, h8⟩ := h6.merge_left hΘ
        exact ⟨rfl, rfl, h1, Θ, rfl, by omega, (HasTy.join hj).1 h4, h5, h7⟩
    | ret => exact h.elim
  | ret v =>
    cases y with
    | val => exact h.elim
    | ret v' taken => exact h

theorem Post.weaken_right {x : Done P V E F σ} {y : Ended P V E F σ} {a b : Checked} {u : CTy}
    (hab : either a b = some (u, o')) (hb : b = some (t, o)) (h : Post ret t o n te ts scope x y) :
    Post ret u o' n te ts scope x y := by
  subst hb
  simp only [either, bind, Option.bind_eq_some_iff] at hab
  obtain ⟨⟨t₁, o₁⟩, rfl, ⟨t₂, o₂⟩, h0, t₃, hj, hab⟩ := hab
  cases h0
  obtain ⟨x, s⟩ := x
  obtain ⟨y, m⟩ := y
  cases x with
  | val v =>
    cases y with
    | val v' taken =>
      obtain ⟨rfl, rfl, h1, Γ, rfl, h3, h4, h5, h6⟩ := h
      cases o₁ with
      | none =>
        cases hab
        exact ⟨rfl, rfl, h1, Γ, rfl, h3, (HasTy.join hj).2 h4, h5, h6⟩
      | some Δ =>
        obtain ⟨Θ, hΘ, hab⟩ := Option.map_eq_some_iff.mp hab
        cases hab
        obtain ⟨h7, h8⟩ := h6.merge_right hΘ
        exact ⟨rfl, rfl, h1, Θ, rfl, by omega, (HasTy.join hj).2 h4, h5, h7⟩
    | ret => exact h.elim
  | ret v =>
    cases y with
    | val => exact h.elim
    | ret v' taken => exact h

theorem next_eq_some {r : Checked} {k : CTy → Vars → Checked} {x : CTy × Option Vars} (h : next r k = some x) :
    ∃ t Γ, r = some (t, some Γ) ∧ k t Γ = some x := by
  unfold next at h
  split at h
  · exact ⟨_, _, rfl, h⟩
  · cases h

/-- A variable that is ready can be used. -/
theorem get_of_ready {now : Time} {te vars : Owners P V E F} {ts scope : Scope P V E F} {Γ : Vars}
    (hl : Linked now te ts Γ vars scope) {x : String} {s : Slot} (hx : Γ.lookup x = some s) (hs : s.status = .ready) :
    ∃ v taken, vars.get x now = .ok (v, taken) ∧ scope.lookup x = some v ∧ HasTy s.ty v ∧ v.good taken now = true := by
  obtain ⟨h, v, h1, h2, h3⟩ := hl.lookup hx
  obtain ⟨taken, rfl, h4, h5⟩ := h3 hs
  exact ⟨v, taken, by simp [Owners.get, h1, h5], h2, h4, h5⟩

/-- So can the parser's state. -/
theorem get_of_parser {now : Time} {te vars : Owners P V E F} {ts scope : Scope P V E F} {Γ : Vars}
    (hl : Linked now te ts Γ vars scope) {x : String} {isMut : Bool} (hx : Γ.isParser isMut x = true) :
    ∃ v taken, vars.get x now = .ok (v, taken) ∧ scope.lookup x = some v ∧ v.Flat := by
  unfold Vars.isParser at hx
  split at hx
  · rename_i s hs
    simp only [Bool.and_eq_true, decide_eq_true_eq, Bool.or_eq_true] at hx
    obtain ⟨v, taken, h1, h2, h3, -⟩ := get_of_ready hl hs hx.1
    refine ⟨v, taken, h1, h2, ?_⟩
    rcases hx.2 with hty | ⟨hty, -⟩
    · rw [hty] at h3
      exact ⟨h3.1, h3.2.resolve_left (by simp)⟩
    · rw [hty] at h3
      exact h3
  · cases hx

theorem place_eq {e : Expr} {x : String} (h : e.place = some x) : e = .var x := by
  cases e <;> cases h
  rfl

theorem declare_ty {t : CTy} {v : RVal P V E F} {taken now : Time} (isMut : Bool) (h : HasTy t v)
    (hg : v.good taken now = true) : HasTy t (v.declare isMut) ∧ (v.declare isMut).good taken now = true := by
  cases v <;> first | exact ⟨h, hg⟩ | skip
  refine ⟨?_, RVal.good_of_flat ⟨rfl, rfl⟩ _ _⟩
  cases t <;> first | exact ⟨rfl, rfl⟩ | exact ⟨rfl, .inr rfl⟩ | skip
  all_goals first
    | exact h.elim
    | (rcases h with ⟨x, hx, -⟩ | ⟨x, hx, -⟩ <;> cases hx)
    | (rcases h with hx | ⟨x, hx, -⟩ <;> cases hx)
    | (obtain ⟨n, hx⟩ := h; cases hx)

theorem Post.fits {ret : Option CTy} {t u : CTy} {o : Option Vars} {n : Nat} {te : Owners P V E F}
    {ts scope : Scope P V E F} {x : Done P V E F σ} {y : Ended P V E F σ} (h : Post ret t o n te ts scope x y)
    (hf : t.fits u = true) : Post ret u o n te ts scope x y := by
  obtain ⟨x, s⟩ := x
  obtain ⟨y, m⟩ := y
  cases x with
  | val v =>
    cases y with
    | val v' taken =>
      obtain ⟨h0, h1, h2, Γ, h3, h4, h5, h6⟩ := h
      exact ⟨h0, h1, h2, Γ, h3, h4, h5.fits hf, h6⟩
    | ret => exact h.elim
  | ret v =>
    cases y with
    | val => exact h.elim
    | ret v' taken => exact h

theorem lookup_mark_none {Γ : Vars} {x : String} {st : Status} (h : List.lookup x Γ = none) :
    List.lookup x (Γ.mark x st) = none := by
  induction Γ with
  | nil => rfl
  | cons p Γ ih =>
    obtain ⟨y, s⟩ := p
    simp only [List.lookup_cons] at h
    cases hxy : x == y with
    | true => simp [hxy] at h
    | false =>
      simp only [hxy] at h
      simp only [Vars.mark, if_neg (ne_of_beq_false hxy), List.lookup_cons, hxy]
      exact ih h

theorem length_mark (x : String) (st : Status) (Γ : Vars) : (Γ.mark x st).length = Γ.length := by
  induction Γ with
  | nil => rfl
  | cons p Γ ih =>
    obtain ⟨y, s⟩ := p
    simp only [Vars.mark]
    split <;> simp [ih]

theorem length_disturb (b : Bool) (Γ : Vars) : (Γ.disturb b).length = Γ.length := List.length_map ..

theorem length_spend (Γ : Vars) : Γ.spend.length = Γ.length := List.length_map ..

/-- The functions in scope do what they are declared to do. -/
def CallsOk (D : Decls) (c : Ctx P V E F σ) (calls : Calls P V E F σ) : Prop := ∀ f now s, f ∈ D.functions → StoreOk s →
  Agree (fun a b => b.1.1 = a.1 ∧ b.2.2 = a.2 ∧ StoreOk a.2 ∧ HasTy D.control a.1) (c.call f .self s) (calls f .self now s)

theorem control_flat (hD : D.Plain) {v : RVal P V E F} (h : HasTy D.control v) : v.Flat := by
  have hv : D.value.shares = false ∧ D.value.excludes = false := by
    have := hD.value
    revert this
    cases D.value <;> simp [CTy.plain, CTy.shares, CTy.excludes]
  exact ⟨h.shares (by simp [Decls.control, CTy.shares, hv.1]), h.excludes (by simp [Decls.control, CTy.excludes, hv.2])⟩

mutual

theorem agree_expr [DecidableEq P] (hD : D.Plain) {c : Ctx P V E F σ} {calls : Calls P V E F σ} (hc : CallsOk D c calls) :
    ∀ (e : Expr) (Γ : Vars) (ret : Option CTy) (t : CTy) (o : Option Vars), e.check D c.debug ret Γ = some (t, o) →
    ∀ (te : Owners P V E F) (ts scope : Scope P V E F) (m : Memory P V E F σ), (ret.isSome = true → te = [] ∧ ts = []) →
    Linked m.now te ts Γ m.vars scope → StoreOk m.store →
    Agree (Post ret t o Γ.length te ts scope) (e.eval c scope m.store) (e.own c calls m)
  | .var x, Γ, ret, t, o, h, te, ts, scope, m, htail, hl, hs => by
    simp only [Expr.check, Option.map_eq_some_iff, Vars.use] at h
    obtain ⟨⟨t', Γ'⟩, h, h'⟩ := h
    cases h'
    split at h
    · rename_i s hx
      split at h
      · rename_i hst
        cases h
        obtain ⟨v, taken, h1, h2, h3, h4⟩ := get_of_ready hl hx hst
        simp only [Expr.eval, Expr.own, h2, Outcome.unwrap_some, Outcome.ok_bind, Owners.use, h1, Outcome.pure_eq]
        refine ⟨rfl, rfl, hs, _, rfl, ?_, h3, h4, ?_⟩
        · split
          · rfl
          · exact length_mark ..
        · by_cases hcopy : s.ty.copy = true
          · simp only [h3.copies hcopy, hcopy, if_true]
            exact hl
          · simp only [hcopy, Bool.false_eq_true, if_false]
            split
            · exact hl.mark_moved x
            · exact hl.set_none (by simp [hx])
      · cases h
    · cases h
  | .atom a, Γ, ret, t, o, h, te, ts, scope, m, htail, hl, hs => by
    simp only [Expr.check, Option.map_eq_some_iff] at h
    obtain ⟨t', h, h'⟩ := h
    cases h'
    exact ⟨rfl, rfl, hs, Γ, rfl, rfl, atom_ty h, RVal.good_self _ _, hl⟩
  | .con k e, Γ, ret, t, o, h, te, ts, scope, m, htail, hl, hs => by
    simp only [Expr.check] at h
    obtain ⟨t₁, Γ₁, h1, h⟩ := next_eq_some h
    obtain ⟨t₂, h2, h⟩ := Option.map_eq_some_iff.mp h
    cases h
    refine agree_follow (agree_expr hD hc e Γ ret _ _ h1 te ts scope m htail hl hs) fun v taken m' Γ' ho hn hv hg hl' hs' => ?_
    cases ho
    refine (agree_unwrap _).bind fun a b hab => ?_
    obtain ⟨rfl, hab⟩ := hab
    obtain ⟨h3, h4⟩ := build_ty hD h2 hab hv
    exact ⟨rfl, rfl, hs', _, rfl, hn, h3, RVal.good_mono hg h4.1 h4.2, hl'⟩
  | .call0 f e, Γ, ret, t, o, h, te, ts, scope, m, htail, hl, hs => by
    simp only [Expr.check] at h
    cases hf : f.onState with
    | some bt =>
      obtain ⟨isMut, t₀⟩ := bt
      simp only [hf] at h
      cases hp : e.place with
      | none =>
        simp only [hp] at h
        cases h
      | some x =>
        simp only [hp, Vars.access] at h
        split at h
        · rename_i hx
          cases h
          cases place_eq hp
          obtain ⟨v, taken, h1, h2, h3⟩ := get_of_parser hl hx
          simp only [Expr.eval, Expr.own, hf, Expr.place, h1, h2, Outcome.unwrap_some, Outcome.ok_bind, andThen, Outcome.pure_eq]
          refine agree_deliver run_ne_err rfl (length_disturb ..) (hl.disturb isMut) fun w s hr => ?_
          obtain ⟨h4, h5⟩ := run_state hf hs hr
          exact ⟨h4, h5, RVal.good_self _ _⟩
        · cases h
    | none =>
      simp only [hf] at h
      obtain ⟨t₁, Γ₁, h1, h⟩ := next_eq_some h
      obtain ⟨t₂, h2, h⟩ := Option.map_eq_some_iff.mp h
      cases h
      simp only [Expr.eval, Expr.own, hf]
      refine agree_follow (agree_expr hD hc e Γ ret _ _ h1 te ts scope m htail hl hs) fun v taken m' Γ' ho hn hv hg hl' hs' => ?_
      cases ho
      by_cases ha : f = .advance
      · simp only [ha, if_true]
        subst ha
        refine agree_deliver run_ne_err rfl ((length_disturb ..).trans hn) (hl'.disturb true) fun w s hr => ?_
        obtain ⟨h3, h4, h5⟩ := run_ty h2 hv hs' hr
        refine ⟨h3, h4, ?_⟩
        have : t = .unit := by
          unfold Method.ty at h2
          split at h2 <;> first | (cases h2; done) | skip
          all_goals first | (cases h2; rfl) | contradiction
        subst this
        exact RVal.good_of_flat h3 _ _
      · simp only [ha, if_false]
        refine agree_deliver run_ne_err rfl hn hl' fun w s hr => ?_
        obtain ⟨h3, h4, h5⟩ := run_ty h2 hv hs' hr
        exact ⟨h3, h4, RVal.good_mono hg h5.1 h5.2⟩
  | .push e arg, Γ, ret, t, o, h, te, ts, scope, m, htail, hl, hs => by
    simp only [Expr.check] at h
    cases hp : e.place with
    | none =>
      simp only [hp] at h
      cases h
    | some x =>
      simp only [hp] at h
      cases place_eq hp
      split at h
      · rename_i hx
        obtain ⟨t₁, Γ₁, h1, h⟩ := next_eq_some h
        split at h
        · rename_i hfit
          obtain ⟨Γ₂, h2, h⟩ := Option.map_eq_some_iff.mp h
          cases h
          simp only [Vars.access] at h2
          split at h2
          · rename_i hx₂
            cases h2
            obtain ⟨v, taken, h3, h4, h5⟩ := get_of_parser hl hx
            have hsome : (Γ.lookup x).isSome = true := by
              unfold Vars.isParser at hx
              split at hx
              · simp [*]
              · cases hx
            simp only [Expr.eval, Expr.own, Expr.place, h3, h4, Outcome.unwrap_some, Outcome.ok_bind, andThen, Outcome.pure_eq]
            have := agree_expr hD hc arg _ ret _ _ h1 te ts scope { m with vars := m.vars.set x none } htail
              (hl.set_none hsome) hs
            rw [length_mark] at this
            refine agree_follow this fun a taken' m' Γ' ho hn hv hg hl' hs' => ?_
            cases ho
            simp only [need, RVal.good_of_flat h5, if_true, Outcome.ok_bind]
            have hl₂ : Linked m'.now te ts (Γ₁.mark x .ready) (m'.vars.set x (some (v, taken))) scope := by
              unfold Vars.isParser at hx₂
              split at hx₂
              · rename_i s₂ hs₂
                simp only [Bool.and_eq_true, decide_eq_true_eq, Bool.or_eq_true] at hx₂
                cases hl₁ : List.lookup x Γ₁ with
                | none =>
                  rw [lookup_mark_none hl₁] at hs₂
                  cases hs₂
                | some s₁ =>
                  have hty : s₂.ty = s₁.ty := by
                    rw [Vars.lookup_mark, if_pos rfl, hl₁] at hs₂
                    cases hs₂
                    rfl
                  refine hl'.set_some hl₁ h4 ?_ (RVal.good_of_flat h5 _ _)
                  rcases hx₂.2 with h6 | ⟨h6, -⟩
                  · rw [← hty, h6]
                    exact ⟨h5.1, .inr h5.2⟩
                  · rw [← hty, h6]
                    exact h5
              · cases hx₂
            refine agree_deliver ?_ rfl (by rw [length_disturb, length_mark, hn]) (hl₂.disturb true) ?_
            · intro e
              unfold pushState
              split
              · cases m'.store.state <;> simp
              · simp
            · intro w s hr
              unfold pushState at hr
              split at hr
              · cases hst : m'.store.state with
                | none => simp [hst] at hr
                | some st =>
                  simp only [hst, Outcome.unwrap_some, Outcome.ok_bind, Outcome.pure_eq, Outcome.ok.injEq, Prod.mk.injEq] at hr
                  obtain ⟨rfl, rfl⟩ := hr
                  refine ⟨⟨rfl, rfl⟩, fun st' h x hx => ?_, RVal.good_self _ _⟩
                  cases h
                  rcases List.mem_cons.mp hx with rfl | hx
                  · exact hv.fits hfit
                  · exact hs' st hst x hx
              · cases hr
          · cases h2
        · cases h
      · cases h
  | .newState input initial, Γ, ret, t, o, h, te, ts, scope, m, htail, hl, hs => by
    simp only [Expr.check] at h
    obtain ⟨t₁, Γ₁, h1, h⟩ := next_eq_some h
    obtain ⟨t₂, Γ₂, h2, h⟩ := next_eq_some h
    split at h
    · rename_i hty
      cases h
      obtain ⟨rfl, hfit⟩ := hty
      refine agree_follow (agree_expr hD hc input Γ ret _ _ h1 te ts scope m htail hl hs) fun v taken m' Γ' ho hn hv hg hl' hs' => ?_
      cases ho
      have := agree_expr hD hc initial _ ret _ _ h2 te ts scope m' htail hl' hs'
      rw [hn] at this
      refine agree_follow this fun i taken' m'' Γ'' ho hn hi hg' hl'' hs'' => ?_
      cases ho
      simp only [need, RVal.good_of_flat (v := v) hv, if_true, Outcome.ok_bind]
      refine agree_deliver ?_ rfl (by rw [length_disturb, hn]) (hl''.disturb true) ?_
      · intro e
        unfold newState
        split <;> simp
      · intro w s hr
        unfold newState at hr
        split at hr
        · cases hr
          refine ⟨⟨rfl, rfl⟩, fun st' h x hx => ?_, RVal.good_self _ _⟩
          cases h
          cases List.mem_singleton.mp hx
          exact hi.fits hfit
        · cases hr
    · cases h
  | .call f e, Γ, ret, t, o, h, te, ts, scope, m, htail, hl, hs => by
    simp only [Expr.check] at h
    cases hp : e.place with
    | none =>
      simp only [hp] at h
      cases h
    | some x =>
      simp only [hp] at h
      cases place_eq hp
      split at h
      · rename_i hf
        obtain ⟨Γ₂, h2, h⟩ := Option.map_eq_some_iff.mp h
        cases h
        simp only [Vars.access] at h2
        split at h2
        · rename_i hx
          cases h2
          obtain ⟨v, taken, h3, h4, h5⟩ := get_of_parser hl hx
          simp only [Expr.eval, Expr.own, Expr.place, h3, h4, Outcome.unwrap_some, Outcome.ok_bind, andThen, Outcome.pure_eq]
          refine (agree_unwrap _).bind fun a b hab => ?_
          obtain ⟨rfl, hab⟩ := hab
          have ha : a = .self := by
            unfold RVal.borrowMut at hab
            split at hab
            · cases hab
              rfl
            · cases hab
          subst ha
          refine (hc f _ _ hf.1 hs).bind fun a b hab => ?_
          obtain ⟨w, s⟩ := a
          obtain ⟨⟨w', taken'⟩, now', s'⟩ := b
          obtain ⟨rfl, rfl, h6, h7⟩ := hab
          exact ⟨rfl, rfl, h6, _, rfl, length_disturb .., h7, RVal.good_of_flat (control_flat hD h7) _ _, hl.after _⟩
        · cases h2
      · cases h
  | .map e x body, Γ, ret, t, o, h, te, ts, scope, m, htail, hl, hs => by
    simp only [Expr.check] at h
    obtain ⟨t₁, Γ₁, h1, h⟩ := next_eq_some h
    split at h
    · rename_i t₂
      obtain ⟨t₃, Γ₃, h3, h⟩ := next_eq_some h
      cases h
      refine agree_follow (agree_expr hD hc e Γ ret _ _ h1 te ts scope m htail hl hs) fun v taken m' Γ' ho hn hv hg hl' hs' => ?_
      cases ho
      rcases hv with rfl | ⟨w, rfl, hv⟩
      · exact ⟨rfl, rfl, hs', _, rfl, (length_disturb ..).trans hn, .inl rfl, hg, hl'.after _⟩
      · have := agree_expr hD hc body _ none _ _ h3 m'.vars scope ((x, w) :: scope)
          { m' with vars := (x, some (w, taken)) :: m'.vars } (fun h => by cases h)
          ⟨rfl, rfl, fun _ => ⟨taken, rfl, hv, hg⟩, rfl, rfl⟩ hs'
        have := agree_close (k := 1) (n := 0) (Δ := [(x, w)]) (scope := scope) (ret := none) this rfl
        refine this.bind fun a b hab => ?_
        obtain ⟨y, s⟩ := a
        obtain ⟨z, m''⟩ := b
        cases y with
        | val v =>
          cases z with
          | val v' taken' =>
            obtain ⟨rfl, rfl, g1, Γ₄, g2, g3, g4, g5, g6⟩ := hab
            cases Γ₄ with
            | nil =>
              obtain ⟨g6, -⟩ := g6
              refine ⟨rfl, rfl, g1, _, rfl, (length_disturb ..).trans hn, .inr ⟨_, rfl, g4⟩, g5, ?_⟩
              rw [g6]
              exact hl'.after _
            | cons => cases g3
          | ret => exact hab.elim
        | ret v =>
          cases z with
          | val => exact hab.elim
          | ret v' taken' =>
            obtain ⟨-, -, -, r, hr, -⟩ := hab
            cases hr
    · cases h
  | .parseError e, Γ, ret, t, o, h, te, ts, scope, m, htail, hl, hs => by
    simp only [Expr.check] at h
    obtain ⟨t₁, Γ₁, h1, h⟩ := next_eq_some h
    split at h
    · cases h
      refine agree_follow (agree_expr hD hc e Γ ret _ _ h1 te ts scope m htail hl hs) fun v taken m' Γ' ho hn hv hg hl' hs' => ?_
      cases ho
      refine (agree_unwrap _).bind fun a b hab => ?_
      obtain ⟨rfl, hab⟩ := hab
      exact ⟨rfl, rfl, hs', _, rfl, hn, ⟨rfl, rfl⟩, RVal.good_of_flat ⟨rfl, rfl⟩ _ _, hl'⟩
    · cases h
  | .overlapping e, Γ, ret, t, o, h, te, ts, scope, m, htail, hl, hs => by
    simp only [Expr.check] at h
    obtain ⟨t₁, Γ₁, h1, h⟩ := next_eq_some h
    split at h
    · cases h
      refine agree_follow (agree_expr hD hc e Γ ret _ _ h1 te ts scope m htail hl hs) fun v taken m' Γ' ho hn hv hg hl' hs' => ?_
      cases ho
      refine (agree_unwrap _).bind fun a b hab => ?_
      obtain ⟨rfl, hab⟩ := hab
      exact ⟨rfl, rfl, hs', _, rfl, hn, ⟨rfl, rfl⟩, RVal.good_of_flat ⟨rfl, rfl⟩ _ _, hl'⟩
    · cases h
  | .closure rule body, Γ, ret, t, o, h, te, ts, scope, m, htail, hl, hs => by
    simp only [Expr.check] at h
    split at h
    · rename_i hw
      obtain ⟨t₁, h1, h⟩ := Option.map_eq_some_iff.mp h
      cases h
      obtain ⟨rfl, rfl⟩ := htail hw.1
      obtain ⟨vars', h2, h3⟩ := hl.takeBound hw.2
      simp only [Expr.eval, Expr.own, h2, Outcome.ok_bind, hl.env hw.2]
      have hpl := hD.user.body _ _ _ _ h1
      cases hb : c.sem.body rule body (Scope.env scope) m.store.world with
      | mk r w =>
        cases r with
        | ok v =>
          exact ⟨rfl, rfl, hs, _, rfl, length_spend .., .inl ⟨_, rfl, (hasTy_plain hpl).mpr ⟨rfl, rfl⟩⟩,
            RVal.good_self _ _, h3⟩
        | error e =>
          exact ⟨rfl, rfl, hs, _, rfl, length_spend .., .inr ⟨_, rfl, (hasTy_plain hD.error).mpr ⟨rfl, rfl⟩⟩,
            RVal.good_self _ _, h3⟩
    · cases h
  | .convert rule e, Γ, ret, t, o, h, te, ts, scope, m, htail, hl, hs => by
    simp only [Expr.check] at h
    obtain ⟨t₁, Γ₁, h1, h⟩ := next_eq_some h
    obtain ⟨t₂, h2, h⟩ := Option.map_eq_some_iff.mp h
    cases h
    have hpl := hD.user.conv _ _ _ h2
    refine agree_follow (agree_expr hD hc e Γ ret _ _ h1 te ts scope m htail hl hs) fun v taken m' Γ' ho hn hv hg hl' hs' => ?_
    cases ho
    cases v with
    | val v =>
      dsimp only
      cases hb : c.sem.conv rule v m'.store.world with
      | mk r w =>
        cases r with
        | ok v =>
          exact ⟨rfl, rfl, hs', _, rfl, hn, .inl ⟨_, rfl, (hasTy_plain hpl).mpr ⟨rfl, rfl⟩⟩,
            RVal.good_of_flat ⟨rfl, rfl⟩ _ _, hl'⟩
        | error e =>
          exact ⟨rfl, rfl, hs', _, rfl, hn, .inr ⟨_, rfl, rfl, rfl⟩, RVal.good_of_flat ⟨rfl, rfl⟩ _ _, hl'⟩
    | _ => trivial
  | .block e, Γ, ret, t, o, h, te, ts, scope, m, htail, hl, hs =>
    agree_expr hD hc e Γ ret t o h te ts scope m htail hl hs
  | .question e, Γ, ret, t, o, h, te, ts, scope, m, htail, hl, hs => by
    simp only [Expr.check] at h
    obtain ⟨t₁, Γ₁, h1, h⟩ := next_eq_some h
    split at h
    · rename_i t₂ e₂ u
      split at h
      · cases h
        refine agree_follow (agree_expr hD hc e Γ _ _ _ h1 te ts scope m htail hl hs) fun v taken m' Γ' ho hn hv hg hl' hs' => ?_
        cases ho
        rcases hv with ⟨x, rfl, hv⟩ | ⟨x, rfl, hv⟩
        · exact ⟨rfl, rfl, hs', _, rfl, hn, hv, hg, hl'⟩
        · refine (agree_unwrap _).bind fun a b hab => ?_
          obtain ⟨rfl, hab⟩ := hab
          refine ⟨rfl, rfl, hs', _, rfl, .inr ⟨_, rfl, ?_⟩⟩
          unfold convertError at hab
          split at hab <;> cases hab <;> exact ⟨rfl, rfl⟩
      · cases h
    · cases h
  | .ret e, Γ, ret, t, o, h, te, ts, scope, m, htail, hl, hs => by
    simp only [Expr.check] at h
    obtain ⟨t₁, Γ₁, h1, h⟩ := next_eq_some h
    split at h
    · split at h
      · rename_i hfit
        cases h
        refine agree_follow (agree_expr hD hc e Γ _ _ _ h1 te ts scope m htail hl hs) fun v taken m' Γ' ho hn hv hg hl' hs' => ?_
        exact ⟨rfl, rfl, hs', _, rfl, hv.fits hfit⟩
      · cases h
    · cases h
  | .letIn isMut x e rest, Γ, ret, t, o, h, te, ts, scope, m, htail, hl, hs => by
    simp only [Expr.check] at h
    obtain ⟨t₁, Γ₁, h1, h⟩ := next_eq_some h
    split at h
    · obtain ⟨⟨t₂, o₂⟩, h2, h⟩ := Option.map_eq_some_iff.mp h
      cases h
      refine agree_follow (agree_expr hD hc e Γ _ _ _ h1 te ts scope m htail hl hs) fun v taken m' Γ' ho hn hv hg hl' hs' => ?_
      cases ho
      obtain ⟨d1, d2⟩ := declare_ty isMut hv hg
      have := agree_expr hD hc rest _ ret _ _ h2 te ts ((x, v.declare isMut) :: scope)
        { m' with vars := (x, some (v.declare isMut, taken)) :: m'.vars } htail
        ⟨rfl, rfl, fun _ => ⟨taken, rfl, d1, d2⟩, hl'⟩ hs'
      rw [List.length_cons, hn, Nat.add_comm] at this
      exact agree_close (k := 1) (Δ := [(x, v.declare isMut)]) this rfl
    · cases h
  | .seq e rest, Γ, ret, t, o, h, te, ts, scope, m, htail, hl, hs => by
    simp only [Expr.check] at h
    split at h
    · rename_i t₁ Γ₁ h1
      split at h
      · refine agree_follow (agree_expr hD hc e Γ _ _ _ h1 te ts scope m htail hl hs) fun v taken m' Γ' ho hn hv hg hl' hs' => ?_
        cases ho
        have := agree_expr hD hc rest _ ret _ _ h te ts scope m' htail hl' hs'
        rwa [hn] at this
      · cases h
    · rename_i t₁ h1
      split at h
      · cases h
        exact agree_follow (agree_expr hD hc e Γ _ _ _ h1 te ts scope m htail hl hs) fun v taken m' Γ' ho _ _ _ _ _ => (by cases ho)
      · cases h
    · cases h
  | .stmt e rest, Γ, ret, t, o, h, te, ts, scope, m, htail, hl, hs => by
    simp only [Expr.check] at h
    obtain ⟨t₁, Γ₁, h1, h⟩ := next_eq_some h
    split at h
    · refine agree_follow (agree_expr hD hc e Γ _ _ _ h1 te ts scope m htail hl hs) fun v taken m' Γ' ho hn hv hg hl' hs' => ?_
      cases ho
      have := agree_expr hD hc rest _ ret _ _ h te ts scope m' htail hl' hs'
      rwa [hn] at this
    · cases h
  | .nothing, Γ, ret, t, o, h, te, ts, scope, m, htail, hl, hs => by
    cases h
    exact ⟨rfl, rfl, hs, _, rfl, rfl, ⟨rfl, rfl⟩, RVal.good_self _ _, hl⟩
  | .cases e arms, Γ, ret, t, o, h, te, ts, scope, m, htail, hl, hs => by
    simp only [Expr.check] at h
    obtain ⟨t₁, Γ₁, h1, h⟩ := next_eq_some h
    split at h
    · refine agree_follow (agree_expr hD hc e Γ _ _ _ h1 te ts scope m htail hl hs) fun v taken m' Γ' ho hn hv hg hl' hs' => ?_
      cases ho
      have := agree_arms hD hc arms Γ₁ ret t₁ t o h te ts scope v taken m' htail hv hg hl' hs'
      rwa [hn] at this
    · cases h
  | .unreachable, Γ, ret, t, o, h, te, ts, scope, m, htail, hl, hs => trivial
  | .count e p, Γ, ret, t, o, h, te, ts, scope, m, htail, hl, hs => by
    simp only [Expr.check] at h
    obtain ⟨t₁, Γ₁, h1, h⟩ := next_eq_some h
    obtain ⟨l, h2, h⟩ := Option.map_eq_some_iff.mp h
    cases h
    refine agree_follow (agree_expr hD hc e Γ _ _ _ h1 te ts scope m htail hl hs) fun v taken m' Γ' ho hn hv hg hl' hs' => ?_
    cases ho
    exact ⟨rfl, rfl, hs', _, rfl, hn, ⟨_, rfl⟩, RVal.good_of_flat ⟨rfl, rfl⟩ _ _, hl'⟩
  | .add a b, Γ, ret, t, o, h, te, ts, scope, m, htail, hl, hs => by
    simp only [Expr.check] at h
    obtain ⟨t₁, Γ₁, h1, h⟩ := next_eq_some h
    obtain ⟨t₂, Γ₂, h2, h⟩ := next_eq_some h
    split at h
    · rename_i hty
      cases h
      obtain ⟨rfl, rfl⟩ := hty
      refine agree_follow (agree_expr hD hc a Γ _ _ _ h1 te ts scope m htail hl hs) fun v taken m' Γ' ho hn hv hg hl' hs' => ?_
      cases ho
      have := agree_expr hD hc b _ ret _ _ h2 te ts scope m' htail hl' hs'
      rw [hn] at this
      refine agree_follow this fun w taken' m'' Γ'' ho hn hw hg' hl'' hs'' => ?_
      cases ho
      obtain ⟨x, rfl⟩ := hv
      obtain ⟨y, rfl⟩ := hw
      simp only [need, RVal.good_of_flat (v := (.nat x : RVal P V E F)) ⟨rfl, rfl⟩, if_true, Outcome.ok_bind]
      exact ⟨rfl, rfl, hs'', _, rfl, hn, ⟨_, rfl⟩, RVal.good_of_flat ⟨rfl, rfl⟩ _ _, hl''⟩
    · cases h
  | .ifMany e then_, Γ, ret, t, o, h, te, ts, scope, m, htail, hl, hs => by
    simp only [Expr.check] at h
    obtain ⟨t₁, Γ₁, h1, h⟩ := next_eq_some h
    split at h
    · rename_i hty
      subst hty
      split at h
      · rename_i t₂ o₂ h2
        split at h
        · rename_i hu
          subst hu
          cases h
          refine agree_follow (agree_expr hD hc e Γ _ _ _ h1 te ts scope m htail hl hs) fun v taken m' Γ' ho hn hv hg hl' hs' => ?_
          cases ho
          obtain ⟨k, rfl⟩ := hv
          dsimp only
          split
          · cases h3 : then_.check D c.debug ret Γ₁ with
            | none =>
              rw [h3] at h2
              cases h2
            | some q =>
              obtain ⟨t₃, o₃⟩ := q
              have := agree_expr hD hc then_ _ ret _ _ h3 te ts scope m' htail hl' hs'
              rw [hn] at this
              exact this.mono fun _ _ hp => hp.weaken_left h2 h3
          · have hp : Post ret .unit (some Γ₁) Γ.length te ts scope (.val (.val .unit), m'.store)
                (.val (.val .unit) taken, m') :=
              ⟨rfl, rfl, hs', Γ₁, rfl, hn, ⟨rfl, rfl⟩, RVal.good_of_flat ⟨rfl, rfl⟩ _ _, hl'⟩
            exact hp.weaken_right h2 rfl
        · cases h
      · cases h
    · cases h
  | .debug e, Γ, ret, t, o, h, te, ts, scope, m, htail, hl, hs => by
    simp only [Expr.check] at h
    simp only [Expr.eval, Expr.own]
    split at h
    · rename_i hdebug
      simp only [hdebug, if_true]
      split at h
      · rename_i t₁ o₁ h1
        split at h
        · rename_i hfit
          cases h
          exact (agree_expr hD hc e Γ _ _ _ h1 te ts scope m htail hl hs).mono fun _ _ hp => hp.fits hfit
        · cases h
      · cases h
    · rename_i hdebug
      simp only [hdebug]
      cases h
      exact ⟨rfl, rfl, hs, _, rfl, rfl, ⟨rfl, rfl⟩, RVal.good_self _ _, hl⟩
  | .loop e, Γ, ret, t, o, h, te, ts, scope, m, htail, hl, hs => by
    simp only [Expr.check] at h
    split at h
    · rename_i t₁ o₁ h1
      split at h
      · rename_i hfit
        cases h
        simp only [Expr.eval, Expr.own]
        have : ∀ (fuel : Nat) (m : Memory P V E F σ), Linked m.now te ts Γ m.vars scope → StoreOk m.store →
            Agree (Post ret .hole none Γ.length te ts scope) (iterate (fun s => e.eval c scope s) fuel m.store)
              (repeated (fun m => e.own c calls m) fuel m) := by
          intro fuel
          induction fuel with
          | zero => exact fun _ _ _ => trivial
          | succ fuel ih =>
            intro m hl hs
            refine agree_follow (agree_expr hD hc e Γ _ _ _ h1 te ts scope m htail hl hs) fun v taken m' Γ' ho hn hv hg hl' hs' => ?_
            rcases hfit.2 with rfl | rfl
            · cases ho
            · cases ho
              exact ih m' hl' hs'
        exact this _ _ hl hs
      · cases h
    · cases h

theorem agree_arms [DecidableEq P] (hD : D.Plain) {c : Ctx P V E F σ} {calls : Calls P V E F σ} (hc : CallsOk D c calls) :
    ∀ (arms : Arms) (Γ : Vars) (ret : Option CTy) (t₀ t : CTy) (o : Option Vars), arms.check D c.debug ret t₀ Γ = some (t, o) →
    ∀ (te : Owners P V E F) (ts scope : Scope P V E F) (v : RVal P V E F) (taken : Time) (m : Memory P V E F σ),
    (ret.isSome = true → te = [] ∧ ts = []) → HasTy t₀ v → v.good taken m.now = true →
    Linked m.now te ts Γ m.vars scope → StoreOk m.store →
    Agree (Post ret t o Γ.length te ts scope) (arms.eval c v scope m.store) (arms.own c calls v taken m)
  | .nil, Γ, ret, t₀, t, o, h, te, ts, scope, v, taken, m, htail, hv, hg, hl, hs => trivial
  | .cons p style e rest, Γ, ret, t₀, t, o, h, te, ts, scope, v, taken, m, htail, hv, hg, hl, hs => by
    simp only [Arms.check] at h
    split at h
    · rename_i l hp
      simp only [Arms.eval, Arms.own]
      cases hb : p.bind c.sem v with
      | some Δ =>
        have hΔ := bind_ty hD (m := .move) hp hv hb
        dsimp only
        cases h1 : leave l.length (e.check D c.debug ret (fresh l ++ Γ)) with
        | none =>
          rw [h1] at h
          cases h
        | some q =>
          obtain ⟨t₁, o₁⟩ := q
          obtain ⟨⟨t₂, o₂⟩, h2, h3⟩ := Option.map_eq_some_iff.mp h1
          cases h3
          have hlen : l.length = Δ.length := hΔ.length_eq
          have := agree_expr hD hc e _ ret _ _ h2 te ts (Δ ++ scope) { m with vars := holding Δ taken ++ m.vars } htail
            (hl.append (hΔ.imp fun _ _ ⟨g1, g2, g3⟩ => ⟨g1, g2, RVal.good_mono hg g3.1 g3.2⟩)) hs
          rw [List.length_append, show (fresh l).length = Δ.length from (List.length_map ..).trans hlen] at this
          have := agree_close this rfl
          rw [← hlen] at this ⊢
          exact this.mono fun _ _ hp => hp.weaken_left h h1
      | none =>
        dsimp only
        cases h1 : rest.check D c.debug ret t₀ Γ with
        | none =>
          rw [h1] at h
          simp only [either, bind, Option.bind_eq_some_iff] at h
          obtain ⟨_, _, _, h, _⟩ := h
          cases h
        | some q =>
          obtain ⟨t₁, o₁⟩ := q
          exact (agree_arms hD hc rest Γ ret t₀ _ _ h1 te ts scope v taken m htail hv hg hl hs).mono
            fun _ _ hp => hp.weaken_right h h1
    · cases h

end

end

end
end
end Verif.Rust
