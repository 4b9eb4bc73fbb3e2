import Verif.Spec.Rust
import Verif.Model.Emit

/-!
# Generated code behaves as the model of the parser says

The code of `Verif.Model.Emit`, run by the interpreter of `Verif.Spec.Rust`, does what `Verif.Model.Runtime` does with
the `Program`.
-/

set_option linter.unusedSectionVars false
set_option autoImplicit false

namespace Verif.Rust
open Emit

variable {P V E F σ : Type} [DecidableEq P] {gi : GrammarInfo}

/-! ### Names -/

theorem boundVariable_ne {i : Nat} {x : String} (h : x.toList.take 3 ≠ ['_', '_', 'v']) : boundVariable i ≠ x := by
  rintro rfl
  apply h
  unfold boundVariable
  rw [String.toList_append]
  rfl

theorem repr_inj {a b : Nat} {s : String} (h : s ++ Nat.repr a = s ++ Nat.repr b) : a = b := by
  have h1 := congrArg String.toList h
  simp only [String.toList_append, List.append_cancel_left_eq] at h1
  have h2 : Nat.toDigits 10 a = Nat.toDigits 10 b := by
    rw [← Nat.toList_repr, ← Nat.toList_repr]
    exact h1
  have := congrArg (fun l => Nat.ofDigitChars 10 l 0) h2
  simpa only [Nat.ofDigitChars_ten_toDigits] using this

theorem boundVariable_inj {a b : Nat} (h : boundVariable a = boundVariable b) : a = b := repr_inj h

theorem variantName_inj {a b : Nat} (h : variantName a = variantName b) : a = b := repr_inj h

theorem functionName_inj {a b : Nat} (h : functionName a = functionName b) : a = b := repr_inj h

/-- No variable of generated code except those for the nodes of a rule is called `__v0`, `__v1`, .. -/
theorem state_ne (i : Nat) : boundVariable i ≠ prefixed "state" := boundVariable_ne (by decide +kernel)
theorem peeked_ne (i : Nat) : boundVariable i ≠ peekedVal := boundVariable_ne (by decide +kernel)

/-! ### States -/

/-- A state with its data as a value. -/
def encState (gi : GrammarInfo) (s : Nat × Val P V) : RVal P V E F :=
  .state (enumName gi) (variantName s.1) (.val s.2)

/-- The parser's state as the interpreter has it. -/
def enc (gi : GrammarInfo) (st : PState P V F) : RState P V E F := ⟨st.next, st.pulled, st.stack.map (encState gi)⟩

/-- The lookahead as a value. -/
def ofLookahead : Option (Token P) → RVal P V E F
  | none => .none
  | some t => .some (.ref (ofToken t))

theorem toShown_of (o : Option (Token P)) : toShown (ofLookahead o : RVal P V E F) = some o := by
  cases o <;> rfl

theorem take_state {s t : Nat} {v : Val P V} : (stateName gi s).take (encState gi (t, v) : RVal P V E F) =
    if s = t then some (.val v) else none := by
  simp only [stateName, encState, Con.take, Con.field, true_and]
  by_cases h : s = t
  · simp [h]
  · rw [if_neg h, if_neg fun he => h (variantName_inj he)]

theorem take_stateRef {s t : Nat} {v : Val P V} : (stateName gi s).take (.ref (encState gi (t, v)) : RVal P V E F) =
    if s = t then some (.ref (.val v)) else none := by
  have := take_state (gi := gi) (s := s) (t := t) (v := v) (E := E) (F := F)
  simp only [encState, Con.take] at this ⊢
  rw [this]
  by_cases h : s = t <;> simp [h]

/-! ### Patterns -/

/-- The variables that a pattern for the lookahead binds. -/
def bound : Bool → Matcher → Option (Token P) → Scope P V E F
  | true, .token (.any _), some (.data _ p) => [(wildcardVar, .ref (.val (.payload p)))]
  | true, .token (.data _ _), some (.data _ p) => [(wildcardVar, .ref (.val (.payload p)))]
  | _, _, _ => []

theorem bound_false (m : Matcher) (o : Option (Token P)) : (bound false m o : Scope P V E F) = [] := rfl

theorem bind_matcher (sem : Sem P V E σ) (named : Bool) (m : Matcher) (o : Option (Token P)) :
    (matcher gi named m).bind sem (ofLookahead o : RVal P V E F) =
      if m.matches sem o then some (bound named m o) else none := by
  rcases m with p | _
  · rcases o with _ | t
    · cases p <;> cases named <;> rfl
    · cases p with
      | lit text => cases t <;> cases named <;> simp [matcher, pattern, RPat.bind, Con.take, Con.field, RVal.target, ofLookahead, ofToken,
          Atom.is, Matcher.matches, Pat.matches, bound]
      | unit v => cases t <;> cases named <;> simp [matcher, pattern, RPat.bind, Con.take, Con.field, RVal.target, ofLookahead, ofToken,
          Atom.is, Matcher.matches, Pat.matches, bound]
      | any v =>
        cases t with
        | data n p =>
          by_cases h : v = n <;> cases named <;> simp [matcher, pattern, RPat.bind, Con.take, Con.field, ofLookahead, ofToken,
            Matcher.matches, Pat.matches, bound, h]
        | _ => cases named <;> rfl
      | data v text =>
        cases t with
        | data n p =>
          by_cases h : v = n <;> by_cases h' : sem.pat text p = true <;> cases named <;>
            simp [matcher, pattern, RPat.bind, Con.take, Con.field, RVal.target, ofLookahead, ofToken, Matcher.matches, Pat.matches, bound, h, h']
        | _ => cases named <;> rfl
  · cases o <;> cases named <;> rfl

theorem bind_anyOf {sem : Sem P V E σ} {α : Type} {f : α → RPat} {q : α → Bool} {v : RVal P V E F} {l : List α}
    (hl : l ≠ []) (h : ∀ a ∈ l, (f a).bind sem v = if q a then some [] else none) :
    (anyOf (l.map f)).bind sem v = if l.any q then some [] else none := by
  induction l with
  | nil => exact absurd rfl hl
  | cons a l ih =>
    cases l with
    | nil => simpa [anyOf] using h a (by simp)
    | cons b l =>
      have h1 := h a (by simp)
      have h2 := ih (by simp) fun a ha => h a (List.mem_cons_of_mem _ ha)
      simp only [List.map_cons, anyOf, RPat.bind, List.any_cons] at h2 ⊢
      rw [h1, h2]
      by_cases hq : q a = true <;> simp [hq]

theorem declare_val {isMut : Bool} {v : Val P V} : (RVal.val v : RVal P V E F).declare isMut = .val v := rfl

theorem declare_nat {isMut : Bool} {n : Nat} : (RVal.nat n : RVal P V E F).declare isMut = .nat n := rfl

theorem declare_lookahead {isMut : Bool} {o : Option (Token P)} :
    (ofLookahead o : RVal P V E F).declare isMut = ofLookahead o := by cases o <;> rfl

/-- The first arm that matches is taken. -/
theorem eval_ofList {c : Ctx P V E F σ} {α : Type} {f : α → RPat × Style × Expr} {q : α → Bool}
    {Δ : α → Scope P V E F} {v : RVal P V E F} {l : List α} {rest : Arms} {Γ : Scope P V E F} {s : Store P V E F σ}
    (h : ∀ a ∈ l, (f a).1.bind c.sem v = if q a then some (Δ a) else none) :
    (Arms.ofList (l.map f) rest).eval c v Γ s =
      match l.find? q with
      | some a => (f a).2.2.eval c (Δ a ++ Γ) s
      | none => rest.eval c v Γ s := by
  induction l with
  | nil => rfl
  | cons a l ih =>
    have : Arms.ofList ((a :: l).map f) rest = .cons (f a).1 (f a).2.1 (f a).2.2 (Arms.ofList (l.map f) rest) := rfl
    rw [this, Arms.eval, h a (by simp), List.find?_cons]
    cases q a
    · exact ih fun a ha => h a (List.mem_cons_of_mem _ ha)
    · rfl

/-! ### Parts of the code -/

section
variable {c : Ctx P V E F σ} {Γ : Scope P V E F} {st : PState P V F} {w : σ}

/-- The variable for the parser's state is in scope. -/
def HasState (Γ : Scope P V E F) : Prop := Γ.lookup (prefixed "state") = some .self

theorem HasState.cons {x : String} {v : RVal P V E F} (h : HasState Γ) (hx : x ≠ prefixed "state") :
    HasState ((x, v) :: Γ) := by
  unfold HasState
  rw [List.lookup_cons, show (prefixed "state" == x) = false by simpa using fun he => hx he.symm]
  exact h

theorem eval_state (h : HasState Γ) {s : Store P V E F σ} : Emit.state.eval c Γ s = .ok (.val .self, s) := by
  unfold Emit.state Expr.eval
  rw [h]
  rfl

theorem eval_push (h : HasState Γ) {n : Nat} {v : Val P V} {e : Expr}
    (he : ∀ s, e.eval c Γ s = .ok (.val (.val v), s)) :
    (Expr.push Emit.state (.con (stateName gi n) e)).eval c Γ ⟨some (enc gi st), w⟩ =
      .ok (.val (.val .unit), ⟨some (enc gi (st.push (n, v))), w⟩) := by
  simp only [Expr.eval, eval_state h, andThen, Outcome.ok_bind, he]
  rfl

/-- What the rest of the code is run with after the pops. -/
def withVars (vars : List (Nat × Val P V)) (Γ : Scope P V E F) : Scope P V E F :=
  (vars.reverse.map fun p => (boundVariable p.1, .val p.2)) ++ Γ

theorem withVars_cons {i : Nat} {v : Val P V} {vars : List (Nat × Val P V)} :
    withVars ((i, v) :: vars) Γ = withVars vars ((boundVariable i, .val v) :: Γ) := by
  simp [withVars]

theorem hasState_withVars {vars : List (Nat × Val P V)} (h : HasState Γ) : HasState (withVars vars Γ) := by
  induction vars generalizing Γ with
  | nil => exact h
  | cons p vars ih =>
    rw [withVars_cons]
    exact ih (h.cons (state_ne _))

theorem lookup_ne {x y : String} {v : RVal P V E F} (h : x ≠ y) :
    List.lookup y ((x, v) :: Γ) = List.lookup y Γ := by
  rw [List.lookup_cons, show (y == x) = false by simpa using fun he => h he.symm]

theorem lookup_withVars_ne {vars : List (Nat × Val P V)} {i : Nat} (h : i ∉ vars.map Prod.fst) :
    (withVars vars Γ).lookup (boundVariable i) = Γ.lookup (boundVariable i) := by
  induction vars generalizing Γ with
  | nil => rfl
  | cons p vars ih =>
    rw [List.map_cons, List.mem_cons, not_or] at h
    obtain ⟨j, v⟩ := p
    rw [withVars_cons, ih h.2, lookup_ne]
    exact fun he => h.1 (boundVariable_inj he).symm

/-- The constructor of a rule sees the nodes of the rule. -/
theorem env_withVars {vars : List (Nat × Val P V)} (hd : (vars.map Prod.fst).Nodup)
    (hΓ : ∀ i, Γ.lookup (boundVariable i) = none) : Scope.env (withVars vars Γ) = fun i => vars.lookup i := by
  funext i
  suffices (withVars vars Γ).lookup (boundVariable i) = (vars.lookup i).map .val by
    unfold Scope.env
    rw [this]
    cases vars.lookup i <;> rfl
  have : ∀ (vars : List (Nat × Val P V)) (Γ : Scope P V E F), (vars.map Prod.fst).Nodup →
      (withVars vars Γ).lookup (boundVariable i) = ((vars.lookup i).map .val).or (Γ.lookup (boundVariable i)) := by
    intro vars
    induction vars with
    | nil => intro Γ _; rfl
    | cons p vars ih =>
      intro Γ hd
      obtain ⟨j, v⟩ := p
      rw [List.map_cons, List.nodup_cons] at hd
      rw [withVars_cons, ih _ hd.2]
      by_cases h : i = j
      · subst h
        have : vars.lookup i = none := by
          rw [List.lookup_eq_none_iff]
          intro p hp
          simp only [bne_iff_ne, ne_eq]
          rintro rfl
          exact hd.1 (List.mem_map.mpr ⟨p, hp, rfl⟩)
        simp [this]
      · rw [lookup_ne fun he => h (boundVariable_inj he).symm, List.lookup_cons,
          show (i == j) = false by simpa using h]
  rw [this vars Γ hd, hΓ i]
  simp

theorem bind_popArm (sem : Sem P V E σ) {variant : Option String} {s t : Nat} {v : Val P V} {w' : Val P V}
    (h : extractData variant v = .ok w') : (popArm gi variant s).1.bind sem (encState gi (t, v) : RVal P V E F) =
      if s = t then some [("v", .val w')] else none := by
  simp only [popArm, RPat.bind, take_state]
  by_cases hs : s = t
  · rw [if_pos hs, if_pos hs]
    cases variant with
    | none => cases h; rfl
    | some name =>
      cases v with
      | tok tk =>
        cases tk with
        | data n p =>
          by_cases hn : n = name
          · subst hn
            simp [extractData] at h
            subst h
            simp [RPat.bind, Con.take, Con.field]
          · simp [extractData, hn] at h
        | _ => cases h
      | _ => cases h
  · rw [if_neg hs, if_neg hs]
    rfl

theorem bind_popArm_none (sem : Sem P V E σ) {variant : Option String} {s t : Nat} {v : Val P V}
    (h : ∀ w', extractData variant v ≠ .ok w') :
    (popArm gi variant s).1.bind sem (encState gi (t, v) : RVal P V E F) = none := by
  simp only [popArm, RPat.bind, take_state]
  by_cases hs : s = t
  · rw [if_pos hs]
    cases variant with
    | none => exact absurd rfl (h v)
    | some name =>
      cases v with
      | tok tk =>
        cases tk with
        | data n p =>
          by_cases hn : name = n
          · subst hn
            exact absurd (by simp [extractData]) (h (.payload p))
          · simp [RPat.bind, Con.take, Con.field, hn]
        | _ => rfl
      | _ => rfl
  · rw [if_neg hs]
    rfl

theorem extractData_cases (variant : Option String) (v : Val P V) :
    (∃ w', extractData variant v = .ok w') ∨ extractData variant v = .ub := by
  cases variant with
  | none => exact .inl ⟨v, rfl⟩
  | some name =>
    cases v with
    | tok tk =>
      cases tk with
      | data n p =>
        by_cases hn : n = name
        · exact .inl ⟨.payload p, by simp [extractData, hn]⟩
        · exact .inr (by simp [extractData, hn])
      | _ => exact .inr rfl
    | _ => exact .inr rfl

theorem eval_unreachable {v : RVal P V E F} {s : Store P V E F σ} : unreachableArm.eval c v Γ s = .ub := rfl

/-- The `let` statements at the beginning of a reduction. -/
theorem eval_pops {body : Expr} {l : List PopStep} (h : HasState Γ) :
    (pops gi body l).eval c Γ ⟨some (enc gi st), w⟩ =
      runPops l st >>= fun r => body.eval c (withVars r.1 Γ) ⟨some (enc gi r.2), w⟩ := by
  induction l generalizing Γ st with
  | nil => rfl
  | cons pop l ih =>
    obtain ⟨next, pulled, stack⟩ := st
    cases stack with
    | nil =>
      simp only [pops, Expr.eval, eval_state h, andThen, Outcome.ok_bind]
      rfl
    | cons top stack =>
      obtain ⟨t, v⟩ := top
      have hstep : (Expr.cases (.call0 .popState Emit.state) (.ofList (pop.states.map (popArm gi pop.variant))
          unreachableArm)).eval c Γ ⟨some (enc gi ⟨next, pulled, (t, v) :: stack⟩), w⟩ =
          (Arms.ofList (pop.states.map (popArm gi pop.variant)) unreachableArm).eval c (encState gi (t, v)) Γ
            ⟨some (enc gi ⟨next, pulled, stack⟩), w⟩ := by
        simp only [Expr.eval, eval_state h, andThen, Outcome.ok_bind]
        rfl
      rw [pops, Expr.eval, hstep]
      simp only [runPops, PState.popState, List.head?_cons, Outcome.unwrapUnchecked_some, Outcome.ok_bind,
        List.tail_cons, Outcome.pure_eq]
      rcases extractData_cases pop.variant v with ⟨w', hw⟩ | hub
      · rw [eval_ofList (q := fun s => decide (s = t)) (Δ := fun _ => [("v", .val w')]) (fun s _ => by
          rw [bind_popArm _ hw]; simp only [decide_eq_true_eq])]
        by_cases hm : t ∈ pop.states
        · have hf : pop.states.find? (fun s => decide (s = t)) = some t := by
            cases hf : pop.states.find? (fun s => decide (s = t)) with
            | none => exact absurd (decide_eq_true rfl) (List.find?_eq_none.mp hf t hm)
            | some s =>
              have := List.find?_some hf
              rw [of_decide_eq_true this]
          rw [hf, if_pos hm, hw]
          have hv : (popArm gi pop.variant t).2.2.eval c ([("v", RVal.val w')] ++ Γ)
              ⟨some (enc gi ⟨next, pulled, stack⟩), w⟩ =
                .ok (.val (.val w'), ⟨some (enc gi ⟨next, pulled, stack⟩), w⟩) := by
            simp [popArm, Expr.eval]
          simp only [hv, andThen, Outcome.ok_bind, declare_val]
          rw [ih (h.cons (state_ne _))]
          cases runPops l (⟨next, pulled, stack⟩ : PState P V F) with
          | ok r => simp only [Outcome.ok_bind, withVars_cons]
          | _ => rfl
        · have hf : pop.states.find? (fun s => decide (s = t)) = none := by
            rw [List.find?_eq_none]
            intro s hs he
            exact hm (of_decide_eq_true he ▸ hs)
          rw [hf, if_neg hm]
          rfl
      · rw [eval_ofList (q := fun _ => false) (Δ := fun _ => []) (fun s _ => by
          rw [bind_popArm_none _ fun w' hw => by rw [hub] at hw; cases hw]; rfl)]
        rw [show pop.states.find? (fun _ => false) = none by simp]
        simp only [hub]
        by_cases hm : t ∈ pop.states <;> simp [hm, eval_unreachable, andThen]

/-- The code that runs the constructor of a rule. -/
theorem eval_constructor {ctor : Ctor} {s : Option (RState P V E F)} :
    (constructor ctor).eval c Γ ⟨s, w⟩ = ctor.run c.sem Γ.env w >>= fun r =>
      match r with
      | (.ok v, w) => .ok (.val (.val v), ⟨s, w⟩)
      | (.error e, w) => .ok (.ret (.err (.parserError (.user e))), ⟨s, w⟩) := by
  cases ctor with
  | provided rule body =>
    simp only [constructor, Expr.eval, Ctor.run, Outcome.pure_eq, Outcome.ok_bind]
    rcases c.sem.body rule body Γ.env w with ⟨_ | _, w'⟩ <;> rfl
  | tryInto rule =>
    have he : Γ.env 0 = match Γ.lookup (boundVariable 0) with | some (.val v) => some v | _ => none := rfl
    simp only [constructor, Expr.eval, Ctor.run, he]
    cases Γ.lookup (boundVariable 0) with
    | none => rfl
    | some x =>
      cases x with
      | val v =>
        simp only [Outcome.unwrap_some, Outcome.ok_bind, Outcome.pure_eq, andThen]
        rcases c.sem.conv rule v w with ⟨_ | _, w'⟩ <;> rfl
      | _ => rfl
  | unit => rfl

/-! ### Functions of states -/

/-- What generated code needs of the program: patterns are not empty, and the nodes of a rule are different. -/
structure StateCode.Sound (code : StateCode) : Prop where
  matchers : ∀ arm ∈ code.reduces, arm.matchers ≠ []
  gotos : ∀ arm ∈ code.reduces, ∀ arms, arm.goto = .select arms → ∀ a ∈ arms, a.2 ≠ []
  nodes : ∀ arm ∈ code.reduces, (arm.pops.map PopStep.node).Nodup
  acceptNodes : ∀ arm, code.accept = some arm → (arm.pops.map PopStep.node).Nodup

/-- The result of a function agrees with a step of the model. After an error, only the world and the position in the
input are compared. -/
def Agrees (gi : GrammarInfo) (pulled : Nat) (r : Outcome Unit (RVal P V E F × Store P V E F σ))
    (m : Outcome Unit (StepResult P V E F σ)) : Prop :=
  match r, m with
  | .ok (v, s), .ok (.next st w) => v = .ok .continue ∧ s = ⟨some (enc gi st), w⟩
  | .ok (v, s), .ok (.accept x st w) => v = .ok (.accept (.val x)) ∧ s = ⟨some (enc gi st), w⟩
  | .ok (v, s), .ok (.fail e w) => v = .err (.parserError e) ∧ s.world = w ∧
      ∃ st, s.state = some st ∧ st.pulled = pulled
  | .panic, .panic => True
  | .ub, .ub => True
  | .timeout, .timeout => True
  | _, _ => False

/-- The result of code that does not go on. -/
def Returns (gi : GrammarInfo) (pulled : Nat) (r : Outcome Unit (Done P V E F σ))
    (m : Outcome Unit (StepResult P V E F σ)) : Prop :=
  match r, m with
  | .ok (.ret v, s), m => Agrees gi pulled (.ok (v, s)) m
  | .panic, .panic => True
  | .ub, .ub => True
  | .timeout, .timeout => True
  | _, _ => False

/-- The value with which a function returns. -/
def returned (r : Outcome Unit (Done P V E F σ)) : Outcome Unit (RVal P V E F × Store P V E F σ) :=
  r >>= fun p => .ok (p.1.value, p.2)

theorem Returns.agrees {gi : GrammarInfo} {pulled : Nat} {r : Outcome Unit (Done P V E F σ)}
    {m : Outcome Unit (StepResult P V E F σ)} (h : Returns gi pulled r m) : Agrees gi pulled (returned r) m := by
  cases r with
  | ok p =>
    rcases p with ⟨_ | v, s⟩
    · exact h.elim
    · exact h
  | _ => cases m <;> exact h

theorem Returns.andThen {gi : GrammarInfo} {pulled : Nat} {r : Outcome Unit (Done P V E F σ)}
    {m : Outcome Unit (StepResult P V E F σ)} (h : Returns gi pulled r m)
    (k : RVal P V E F → Store P V E F σ → Outcome Unit (Done P V E F σ)) : Returns gi pulled (andThen r k) m := by
  cases r with
  | ok p =>
    rcases p with ⟨_ | v, s⟩
    · exact h.elim
    · exact h
  | _ => cases m <;> exact h

theorem runPops_pulled {l : List PopStep} {st st' : PState P V F} {vars : List (Nat × Val P V)}
    (h : runPops l st = .ok (vars, st')) : st'.pulled = st.pulled ∧ vars.map Prod.fst = l.map PopStep.node := by
  induction l generalizing st vars with
  | nil => cases h; exact ⟨rfl, rfl⟩
  | cons pop l ih =>
    rw [runPops] at h
    obtain ⟨⟨s, st1⟩, h1, h⟩ := Outcome.bind_eq_ok.mp h
    obtain ⟨s', -, h1⟩ := Outcome.bind_eq_ok.mp h1
    cases h1
    simp only at h
    split at h
    · obtain ⟨v, -, h⟩ := Outcome.bind_eq_ok.mp h
      obtain ⟨⟨vs, st2⟩, h2, h⟩ := Outcome.bind_eq_ok.mp h
      cases h
      obtain ⟨h3, h4⟩ := ih h2
      exact ⟨h3, by rw [List.map_cons, List.map_cons, h4]⟩
    · cases h

theorem runPops_not_err {l : List PopStep} {st : PState P V F} : runPops l st ≠ .err () := by
  induction l generalizing st with
  | nil => simp [runPops]
  | cons pop l ih =>
    obtain ⟨next, pulled, stack⟩ := st
    cases stack with
    | nil => simp [runPops, PState.popState]
    | cons top stack =>
      simp only [runPops, PState.popState, List.head?_cons, Outcome.unwrapUnchecked_some, Outcome.ok_bind,
        List.tail_cons, Outcome.pure_eq]
      split
      · rcases extractData_cases pop.variant top.2 with ⟨w', hw⟩ | hub
        · rw [hw, Outcome.ok_bind]
          have := ih (st := ⟨next, pulled, stack⟩)
          cases h : runPops l (⟨next, pulled, stack⟩ : PState P V F) with
          | err e => exact absurd h this
          | _ => simp
        · rw [hub]
          simp
      · simp

theorem ctor_not_err {ctor : Ctor} {sem : Sem P V E σ} {env : Env P V} {w : σ} : ctor.run sem env w ≠ .err () := by
  cases ctor with
  | tryInto rule => cases h : env 0 <;> simp [Ctor.run, h]
  | _ => simp [Ctor.run]

theorem eval_continue {s : Store P V E F σ} :
    (Expr.seq (.ret (.con .ok (.atom .continue))) .nothing).eval c Γ s = .ok (.ret (.ok .continue), s) := rfl

/-- The end of a reduction. -/
theorem eval_goto (h : HasState Γ) {ctor : Ctor} {goto : GotoCode}
    (hg : ∀ arms, goto = .select arms → ∀ a ∈ arms, a.2 ≠ []) {m : Outcome Unit (Except E (Val P V) × σ)}
    (hm : ctor.run c.sem Γ.env w = m) :
    Returns gi st.pulled
      ((gotoCode gi ctor (.seq (.ret (.con .ok (.atom .continue))) .nothing) goto).eval c Γ ⟨some (enc gi st), w⟩)
      (m >>= fun r => match r with
        | (.error e, w) => pure (.fail (.user e) w)
        | (.ok v, w) => do
          let st ← goto.run v st
          pure (.next st w)) := by
  have hcon := eval_constructor (c := c) (Γ := Γ) (w := w) (ctor := ctor) (s := some (enc gi st))
  rw [hm] at hcon
  have hne : m ≠ .err () := hm ▸ ctor_not_err
  cases goto with
  | direct next =>
    simp only [gotoCode, Expr.eval, eval_state h, hcon, andThen, Outcome.ok_bind]
    cases m with
    | ok r =>
      rcases r with ⟨_ | v, w'⟩
      · exact ⟨rfl, rfl, _, rfl, rfl⟩
      · exact ⟨rfl, rfl⟩
    | err e => exact absurd rfl hne
    | _ => trivial
  | select arms =>
    simp only [gotoCode]
    rw [Expr.eval, hcon]
    cases m with
    | ok r =>
      rcases r with ⟨e | v, w'⟩
      · exact ⟨rfl, rfl, _, rfl, rfl⟩
      · simp only [Outcome.ok_bind, andThen, declare_val]
        have h' : HasState (("__constructed", RVal.val v) :: Γ) := h.cons (by decide +kernel)
        obtain ⟨next, pulled, stack⟩ := st
        cases stack with
        | nil =>
          simp only [Expr.eval, eval_state h', andThen, Outcome.ok_bind]
          trivial
        | cons top stack =>
          obtain ⟨t, x⟩ := top
          have hstep : (Expr.cases (.call0 .state Emit.state) (.ofList (arms.map fun arm =>
              (anyOf (arm.2.map (stateMatcher gi)), .comma, .push Emit.state (.con (stateName gi arm.1)
                (.var "__constructed")))) unreachableArm)).eval c (("__constructed", RVal.val v) :: Γ)
                ⟨some (enc gi ⟨next, pulled, (t, x) :: stack⟩), w'⟩ =
              match arms.find? fun arm => decide (t ∈ arm.2) with
              | some arm => .ok (.val (.val .unit), ⟨some (enc gi ⟨next, pulled, (arm.1, v) :: (t, x) :: stack⟩), w'⟩)
              | none => .ub := by
            simp only [Expr.eval, eval_state h', andThen, Outcome.ok_bind]
            show Arms.eval c _ (.ref (encState gi (t, x))) _ _ = _
            rw [eval_ofList (q := fun arm => decide (t ∈ arm.2)) (Δ := fun _ => [])]
            · cases arms.find? fun arm => decide (t ∈ arm.2) with
              | none => rfl
              | some arm =>
                simp only [List.nil_append]
                exact eval_push (st := ⟨next, pulled, (t, x) :: stack⟩) h' fun s => by simp [Expr.eval]
            · intro a ha
              rw [bind_anyOf (q := fun s => decide (s = t)) (hg arms rfl a ha)]
              · congr 1
                rw [eq_iff_iff, List.any_eq_true, decide_eq_true_eq]
                constructor
                · rintro ⟨s, hs, he⟩
                  exact of_decide_eq_true he ▸ hs
                · exact fun ht => ⟨t, ht, decide_eq_true rfl⟩
              · intro s _
                simp only [stateMatcher, RPat.bind, take_stateRef, decide_eq_true_eq]
                by_cases hs : s = t <;> simp [hs]
          rw [Expr.eval, hstep]
          simp only [GotoCode.run, PState.state, List.head?_cons, Outcome.unwrapUnchecked_some, Outcome.ok_bind]
          cases arms.find? fun arm => decide (t ∈ arm.2) with
          | none => trivial
          | some arm => exact ⟨rfl, rfl⟩
    | err e => exact absurd rfl hne
    | _ => trivial

/-- An arm that reduces. -/
theorem eval_reduce (h : HasState Γ) (hΓ : ∀ i, Γ.lookup (boundVariable i) = none) {arm : ReduceArm}
    (hg : ∀ arms, arm.goto = .select arms → ∀ a ∈ arms, a.2 ≠ []) (hn : (arm.pops.map PopStep.node).Nodup) :
    Returns gi st.pulled ((reduceArm gi arm).2.2.eval c Γ ⟨some (enc gi st), w⟩) (arm.run c.sem st w) := by
  simp only [reduceArm]
  rw [eval_pops h, ReduceArm.run]
  cases hr : runPops arm.pops st with
  | ok r =>
    obtain ⟨vars, st'⟩ := r
    obtain ⟨hp, hv⟩ := runPops_pulled hr
    simp only [Outcome.ok_bind]
    rw [← hp]
    refine eval_goto (hasState_withVars h) hg ?_
    rw [env_withVars (hv ▸ hn) hΓ]
  | err e => exact absurd hr runPops_not_err
  | _ => trivial

/-- The arm that accepts. -/
theorem eval_accept (h : HasState Γ) (hΓ : ∀ i, Γ.lookup (boundVariable i) = none) {arm : AcceptArm}
    (hn : (arm.pops.map PopStep.node).Nodup) :
    Returns gi st.pulled ((Emit.acceptArm gi arm).2.2.eval c Γ ⟨some (enc gi st), w⟩) (arm.run c.sem st w) := by
  simp only [Emit.acceptArm]
  rw [eval_pops h, AcceptArm.run]
  cases hr : runPops arm.pops st with
  | ok r =>
    obtain ⟨vars, st'⟩ := r
    obtain ⟨hp, hv⟩ := runPops_pulled hr
    simp only [Outcome.ok_bind]
    have hcon := eval_constructor (c := c) (Γ := withVars vars Γ) (w := w) (ctor := arm.ctor)
      (s := some (enc gi st'))
    rw [env_withVars (hv ▸ hn) hΓ] at hcon
    have hlen : (enc gi st' : RState P V E F).stack.length = st'.stack.length := List.length_map _
    simp only [Expr.eval, eval_state (hasState_withVars h), andThen, Outcome.ok_bind, Method.run, value,
      Outcome.unwrap_some, hlen]
    cases st'.stack.length == 1 with
    | false => trivial
    | true =>
      simp only [Outcome.assert_true, Outcome.ok_bind, Outcome.pure_eq]
      rw [hcon]
      have hne := ctor_not_err (ctor := arm.ctor) (sem := c.sem) (env := fun i => vars.lookup i) (w := w)
      cases hm : arm.ctor.run c.sem (fun i => vars.lookup i) w with
      | ok r =>
        rcases r with ⟨e | v, w'⟩
        · exact ⟨rfl, rfl, _, rfl, hp⟩
        · exact ⟨rfl, rfl⟩
      | err e => exact absurd hm hne
      | _ => trivial
  | err e => exact absurd hr runPops_not_err
  | _ => trivial

/-- Reading the lookahead. -/
theorem eval_peek (h : HasState Γ) :
    peekNext.eval c Γ ⟨some (enc gi st), w⟩ = .ok (match st.next with
      | some (.error f) => .ret (.err (.parserError (.user (c.into f))))
      | some (.ok t) => .val (ofLookahead (some t))
      | none => .val (ofLookahead none), ⟨some (enc gi st), w⟩) := by
  obtain ⟨next, pulled, stack⟩ := st
  simp only [peekNext, Expr.eval, eval_state h, andThen, Outcome.ok_bind, Method.run, value, enc]
  rcases next with _ | ⟨_ | _⟩ <;> rfl

/-- Counting the patterns that match. -/
theorem eval_sum {o : Option (Token P)} (hp : Γ.lookup peekedVal = some (ofLookahead o)) {ms : List Matcher}
    (hne : ms ≠ []) {s : Store P V E F σ} :
    (sum (ms.map fun m => .count (.var peekedVal) (matcher gi false m))).eval c Γ s =
      .ok (.val (.nat (ms.filter fun m => m.matches c.sem o).length), s) := by
  have hone : ∀ m, (Expr.count (.var peekedVal) (matcher gi false m)).eval c Γ s =
      .ok (.val (.nat (if m.matches c.sem o then 1 else 0)), s) := by
    intro m
    simp only [Expr.eval, hp, Outcome.unwrap_some, Outcome.ok_bind, Outcome.pure_eq, andThen, bind_matcher]
    cases m.matches c.sem o <;> rfl
  have hfold : ∀ (ms : List Matcher) (e : Expr) (n : Nat), e.eval c Γ s = .ok (.val (.nat n), s) →
      ((ms.map fun m => Expr.count (.var peekedVal) (matcher gi false m)).foldl Expr.add e).eval c Γ s =
        .ok (.val (.nat (n + (ms.filter fun m => m.matches c.sem o).length)), s) := by
    intro ms
    induction ms with
    | nil => intro e n he; exact he
    | cons m ms ih =>
      intro e n he
      rw [List.map_cons, List.foldl_cons, ih _ (n + if m.matches c.sem o then 1 else 0)]
      · rw [List.filter_cons]
        cases m.matches c.sem o
        · simp
        · simp [Nat.add_assoc, Nat.add_comm]
      · rw [Expr.eval, he]
        simp only [andThen, Outcome.ok_bind]
        rw [hone]
        rfl
  cases ms with
  | nil => exact absurd rfl hne
  | cons m ms =>
    rw [List.map_cons, sum, hfold _ _ _ (hone m), List.filter_cons]
    cases m.matches c.sem o
    · simp
    · simp [Nat.add_comm]

/-- The debug check. -/
theorem eval_overlap {o : Option (Token P)} (hp : Γ.lookup peekedVal = some (ofLookahead o)) {ms : List Matcher}
    {rest : Expr} {s : Store P V E F σ} :
    (overlapCheck gi rest ms).eval c Γ s =
      if c.debug = true ∧ 1 < (ms.filter fun m => m.matches c.sem o).length then
        .ok (.ret (.err (.parserError (.overlapping o))), s)
      else rest.eval c Γ s := by
  unfold overlapCheck
  cases ms with
  | nil => simp
  | cons m ms =>
    simp only
    rw [Expr.eval]
    cases hd : c.debug with
    | false => simp [Expr.eval, hd, andThen]
    | true =>
      rw [Expr.eval, if_pos hd, Expr.eval, eval_sum hp (by simp)]
      simp only [andThen, Outcome.ok_bind, true_and, Expr.eval, declare_nat]
      generalize (List.filter (fun m => m.matches c.sem o) (m :: ms)).length = n
      have hl : List.lookup peekedVal (("count_matches", RVal.nat n) :: Γ) = some (ofLookahead o) := by
        rw [lookup_ne (by decide +kernel)]
        exact hp
      by_cases hn : 1 < n
      · simp [hn, hl, toShown_of, Con.build]
      · simp [hn]

/-- Arms that report an error. -/
theorem eval_returnErr {o : Option (Token P)} {s : Store P V E F σ} :
    returnErr.eval c (ofLookahead o) Γ s = .ok (.ret (.err (.parserError (.parseError o))), s) := by
  cases o with
  | none => rfl
  | some t => simp [returnErr, Arms.eval, RPat.bind, Con.take, Con.field, ofLookahead, Expr.eval, andThen, Method.run, value,
      Con.build, toLookahead, ofToken]

/-- The value of a token that is shifted. -/
theorem eval_token {m : Matcher} {o : Option (Token P)} {e : TokExpr} (hm : m.matches c.sem o = true)
    (hΓ : Γ.lookup wildcardVar = none) {s : Store P V E F σ} :
    (tokenExpr gi e).eval c (bound true m o ++ Γ) s = e.eval c.sem o >>= fun t => .ok (.val (ofToken t), s) := by
  cases e with
  | lit text => rfl
  | unit v => rfl
  | data v =>
    have hnone : ∀ {o : Option (Token P)}, (∀ n p, o ≠ some (.data n p)) →
        (tokenExpr gi (.data v)).eval c ([] ++ Γ) s =
          (TokExpr.data v).eval c.sem o >>= fun t => .ok (.val (ofToken t), s) := by
      intro o ho
      have : (TokExpr.data v).eval c.sem o = .panic := by
        rcases o with _ | ⟨_ | _ | _⟩
        · rfl
        · rfl
        · rfl
        · exact absurd rfl (ho _ _)
      rw [this]
      simp [tokenExpr, Expr.eval, hΓ, andThen]
    have hsome : ∀ {n : String} {p : P}, (tokenExpr gi (.data v)).eval c ([(wildcardVar, .ref (.val (.payload p)))] ++ Γ) s =
        (TokExpr.data v).eval c.sem (some (.data n p)) >>= fun t => .ok (.val (ofToken t), s) := by
      intro n p
      simp [tokenExpr, Expr.eval, andThen, Method.run, value, Con.build, TokExpr.eval]
    rcases m with p | _
    · rcases o with _ | ⟨t⟩
      · cases hm
      · cases t with
        | data n q =>
          cases p with
          | any _ => exact hsome
          | data _ _ => exact hsome
          | _ => cases hm
        | _ => cases p <;> first | exact hnone (by simp) | cases hm
    · cases o with
      | none => exact hnone (by simp)
      | some t => cases hm

/-- The arms that do not shift. -/
theorem eval_arms {code : StateCode} (hs : StateCode.Sound code) (hS : HasState Γ)
    (hv : ∀ i, Γ.lookup (boundVariable i) = none) {o : Option (Token P)}
    (hf : code.shifts.find? (fun arm => arm.matcher.matches c.sem o) = none) :
    Returns gi st.pulled ((Arms.ofList (code.reduces.map (reduceArm gi))
      (.ofList (code.accept.toList.map (Emit.acceptArm gi)) returnErr)).eval c (ofLookahead o) Γ
        ⟨some (enc gi st), w⟩) (code.act c.sem c.items o st w) := by
  unfold StateCode.act
  rw [hf, eval_ofList (q := fun arm => arm.matchers.any fun m => m.matches c.sem o) (Δ := fun _ => [])]
  · simp only
    cases hr : code.reduces.find? fun arm => arm.matchers.any fun m => m.matches c.sem o with
    | some arm =>
      have hm := List.mem_of_find?_eq_some hr
      exact eval_reduce hS hv (hs.gotos arm hm) (hs.nodes arm hm)
    | none =>
      simp only
      rw [eval_ofList (q := fun arm => arm.matcher.matches c.sem o) (Δ := fun _ => [])]
      · cases ha : code.accept with
        | none => simpa [eval_returnErr] using ⟨rfl, rfl, _, rfl, rfl⟩
        | some arm =>
          simp only [Option.toList_some, List.find?_cons, List.find?_nil, Option.filter_some]
          cases arm.matcher.matches c.sem o with
          | true => exact eval_accept hS hv (hs.acceptNodes arm ha)
          | false =>
            simp only [Bool.false_eq_true, if_false, eval_returnErr]
            exact ⟨rfl, rfl, _, rfl, rfl⟩
      · intro arm _
        exact (bind_matcher c.sem false arm.matcher o).trans (by rw [bound_false])
  · intro arm harm
    exact bind_anyOf (hs.matchers arm harm) fun m _ => (bind_matcher c.sem false m o).trans (by rw [bound_false])

/-- The code of a state's function behaves as the model of the state. -/
theorem eval_actions {code : StateCode} (hs : StateCode.Sound code) :
    Agrees gi st.pulled (returned ((actions gi code).eval c [(prefixed "state", .self)] ⟨some (enc gi st), w⟩))
      (code.run c.debug c.sem c.into c.items st w) := by
  have h0 : HasState ([(prefixed "state", .self)] : Scope P V E F) := by simp [HasState]
  unfold actions
  rw [Expr.eval, eval_peek h0]
  have key : ∀ o : Option (Token P), st.next = o.map .ok → Agrees gi st.pulled
      (returned ((overlapCheck gi (match code.shifts with
        | [] => .cases (.var peekedVal) (.ofList (code.reduces.map (reduceArm gi)) (.ofList (code.accept.toList.map
            (Emit.acceptArm gi)) returnErr))
        | shifts => .letIn false "next_state" (.cases (.var peekedVal) (.ofList (shifts.map (shiftArm gi)) (.ofList
            (code.reduces.map (reduceArm gi)) (.ofList (code.accept.toList.map (Emit.acceptArm gi)) returnErr))))
            (.seq (.call0 .advance (.call0 .streamMut Emit.state)) (.seq (.push Emit.state (.var "next_state"))
              (.con .ok (.atom .continue))))) code.overlap).eval c
        ((peekedVal, ofLookahead o) :: [(prefixed "state", .self)]) ⟨some (enc gi st), w⟩))
      (code.check c.debug c.sem c.items o st w) := by
    intro o ho
    have hp : List.lookup peekedVal ((peekedVal, (ofLookahead o : RVal P V E F)) :: [(prefixed "state", .self)]) =
        some (ofLookahead o) := by simp
    rw [eval_overlap hp, StateCode.check]
    split
    · exact ⟨rfl, rfl, _, rfl, rfl⟩
    · generalize hΓ : (peekedVal, (ofLookahead o : RVal P V E F)) :: [(prefixed "state", RVal.self)] = Γ at hp
      have hS : HasState Γ := hΓ ▸ h0.cons (by decide +kernel)
      have hv : ∀ i, Γ.lookup (boundVariable i) = none := by
        intro i
        rw [← hΓ, lookup_ne (peeked_ne i).symm, lookup_ne (state_ne i).symm]
        rfl
      have hw : Γ.lookup wildcardVar = none := by
        rw [← hΓ, lookup_ne (by decide +kernel), lookup_ne (by decide +kernel)]
        rfl
      have hvar : ∀ s : Store P V E F σ, (Expr.var peekedVal).eval c Γ s = .ok (.val (ofLookahead o), s) := by
        intro s
        simp [Expr.eval, hp]
      cases hsh : code.shifts with
      | nil =>
        simp only
        rw [Expr.eval, hvar]
        exact (eval_arms hs hS hv (by rw [hsh]; rfl)).agrees
      | cons a l =>
        simp only
        rw [Expr.eval, Expr.eval, hvar]
        simp only [andThen, Outcome.ok_bind]
        rw [eval_ofList (q := fun arm => arm.matcher.matches c.sem o) (Δ := fun arm => bound true arm.matcher o), ← hsh]
        · cases hf : code.shifts.find? fun arm => arm.matcher.matches c.sem o with
          | none => exact ((eval_arms hs hS hv hf).andThen _).agrees
          | some arm =>
            have hm : arm.matcher.matches c.sem o = true := List.find?_some (p := fun arm : ShiftArm => arm.matcher.matches c.sem o) hf
            simp only [StateCode.act, hf, ShiftArm.run, shiftArm]
            rw [Expr.eval, eval_token hm hw]
            have hS' : ∀ v, HasState (("next_state", v) :: Γ) := fun v => hS.cons (by decide +kernel)
            have hne : arm.value.eval c.sem o ≠ .err () := by
              cases arm.value with
              | data v => rcases o with _ | ⟨_ | _ | _⟩ <;> simp [TokExpr.eval]
              | _ => simp [TokExpr.eval]
            cases ht : arm.value.eval c.sem o with
            | err e => exact absurd ht hne
            | ok t =>
              simp only [Outcome.ok_bind, andThen, Con.build, Outcome.pure_eq]
              have hlook : ∀ v : RVal P V E F, List.lookup "next_state" (("next_state", v) :: Γ) = some v := by simp
              obtain ⟨next, pulled, stack⟩ := st
              cases next with
              | none =>
                simp only [Expr.eval, eval_state (hS' _), andThen, Outcome.ok_bind]
                trivial
              | some i =>
                simp only [Expr.eval, eval_state (hS' _), andThen, Outcome.ok_bind, Method.run, enc, value,
                  Outcome.unwrap_some, Outcome.pure_eq, hlook, pushState]
                exact ⟨rfl, rfl⟩
            | _ => trivial
        · exact fun arm _ => bind_matcher c.sem true arm.matcher o
  unfold StateCode.run
  cases hn : st.next with
  | none => exact key none hn
  | some i =>
    cases i with
    | ok t => exact key (some t) hn
    | error f => exact ⟨rfl, rfl, _, rfl, rfl⟩

/-! ### The loop -/

theorem lookup_functions {l : List StateCode} {k i : Nat} :
    ((l.zipIdx k).map fun p => (functionName p.2, prefixed "state", actions gi p.1)).lookup (functionName (k + i)) =
      (l[i]?).map fun code => (prefixed "state", actions gi code) := by
  induction l generalizing k i with
  | nil => rfl
  | cons code l ih =>
    rw [List.zipIdx_cons, List.map_cons, List.lookup_cons]
    cases i with
    | zero => simp
    | succ i =>
      have : (functionName (k + (i + 1)) == functionName k) = false := by
        rw [beq_eq_false_iff_ne]
        intro h
        have := functionName_inj h
        omega
      rw [this]
      simp only [List.getElem?_cons_succ]
      rw [← ih (k := k + 1) (i := i), show k + 1 + i = k + (i + 1) by omega]

/-- The result of the loop agrees with that of the model. -/
def Finishes (r : Outcome Unit (Done P V E F σ)) (m : Outcome Unit (Run P V E σ)) : Prop :=
  (returned r >>= fun r => .ok (observe r)) = m >>= fun r => .ok (some (r.result, r.world, r.pulled))

theorem eval_loop {prog : Program} (hs : ∀ code ∈ prog.states, StateCode.Sound code) {debug : Bool}
    {sem : Sem P V E σ} {into : F → E} {items : Nat → Option (Item P F)} {n fuel : Nat}
    (hΓ : Γ.lookup "state" = some (.owned true)) :
    Finishes (iterate (fun s => (Expr.letIn false "action" (.question (.cases (.call0 .state (.var "state")) (.ofList
        ((List.range prog.states.length).map fun s =>
          (stateMatcher gi s, .comma, .call (functionName s) (.var "state"))) .nil)))
      (.cases (.var "action")
        (.cons (.con .accept (.var "result")) .comma (.ret (.con .ok (.var "result")))
        (.cons (.atom .continue) .block .nothing .nil)))).eval
          ⟨debug, sem, into, items, n, callIn (functions gi prog) debug sem into items⟩ Γ s) fuel ⟨some (enc gi st), w⟩)
      (prog.loop debug sem into items fuel st w) := by
  induction fuel generalizing st w with
  | zero => rfl
  | succ fuel ih =>
    rw [iterate, Program.loop, Program.step]
    generalize hc : (⟨debug, sem, into, items, n, callIn (functions gi prog) debug sem into items⟩ :
      Ctx P V E F σ) = c at ih ⊢
    have hvar : ∀ s : Store P V E F σ, (Expr.var "state").eval c Γ s = .ok (.val (.owned true), s) := by
      intro s
      simp [Expr.eval, hΓ]
    have hcall : ∀ i : Nat, c.call (functionName i) .self ⟨some (enc gi st), w⟩ =
        Outcome.index prog.states i >>= fun code =>
          returned ((actions gi code).eval ⟨debug, sem, into, items, 0, fun _ _ _ => Outcome.panic⟩
            [(prefixed "state", .self)] ⟨some (enc gi st), w⟩) := by
      intro i
      rw [← hc]
      simp only [callIn, functions]
      have := lookup_functions (gi := gi) (l := prog.states) (k := 0) (i := i)
      rw [Nat.zero_add] at this
      rw [this]
      unfold Outcome.index
      cases prog.states[i]? with
      | none => rfl
      | some code => rfl
    obtain ⟨next, pulled, stack⟩ := st
    cases stack with
    | nil =>
      simp only [Expr.eval, hΓ, andThen, Outcome.ok_bind, Outcome.unwrap_some, Outcome.pure_eq]
      rfl
    | cons top stack =>
      obtain ⟨t, x⟩ := top
      have hmatch : (Expr.cases (.call0 .state (.var "state")) (.ofList
        ((List.range prog.states.length).map fun s =>
          (stateMatcher gi s, .comma, .call (functionName s) (.var "state"))) .nil)).eval c Γ
            ⟨some (enc gi ⟨next, pulled, (t, x) :: stack⟩), w⟩ =
          value (c.call (functionName t) .self ⟨some (enc gi ⟨next, pulled, (t, x) :: stack⟩), w⟩) := by
        simp only [Expr.eval, hΓ, andThen, Outcome.ok_bind, Outcome.unwrap_some, Outcome.pure_eq]
        show Arms.eval c _ (.ref (encState gi (t, x))) _ _ = _
        rw [eval_ofList (q := fun s => decide (s = t)) (Δ := fun _ => [])]
        · cases hf : (List.range prog.states.length).find? fun s => decide (s = t) with
          | none =>
            have : ¬t < prog.states.length := by
              intro h
              have := List.find?_eq_none.mp hf t (List.mem_range.mpr h)
              simp at this
            rw [hcall, Outcome.index, List.getElem?_eq_none (by omega)]
            rfl
          | some s =>
            have := of_decide_eq_true (List.find?_some (p := fun s => decide (s = t)) hf)
            subst this
            simp only [List.nil_append, Expr.eval, hΓ, andThen, Outcome.ok_bind, Outcome.unwrap_some, Outcome.pure_eq,
              RVal.borrowMut]
        · intro s _
          simp only [stateMatcher, RPat.bind, take_stateRef, decide_eq_true_eq]
          by_cases hs : s = t <;> simp [hs]
      rw [Expr.eval, Expr.eval, hmatch, hcall]
      simp only [PState.state, List.head?_cons, Outcome.unwrapUnchecked_some, Outcome.ok_bind]
      unfold Outcome.index
      cases hcode : prog.states[t]? with
      | none => rfl
      | some code =>
        have hagree := eval_actions (c := ⟨debug, sem, into, items, 0, fun _ _ _ => Outcome.panic⟩) (gi := gi)
          (st := ⟨next, pulled, (t, x) :: stack⟩) (w := w) (hs code (List.mem_of_getElem? hcode))
        simp only [Outcome.ok_bind]
        revert hagree
        generalize returned _ = r
        generalize code.run debug sem into items ⟨next, pulled, (t, x) :: stack⟩ w = m
        intro hagree
        cases r with
        | ok r =>
          obtain ⟨v, s⟩ := r
          cases m with
          | ok m =>
            cases m with
            | next st w =>
              obtain ⟨rfl, rfl⟩ := hagree
              exact ih
            | accept v st w =>
              obtain ⟨rfl, rfl⟩ := hagree
              rfl
            | fail e w =>
              obtain ⟨rfl, rfl, st, h1, h2⟩ := hagree
              obtain ⟨s1, s2⟩ := s
              cases h1
              subst h2
              rfl
          | _ => exact hagree.elim
        | err e => cases m <;> exact hagree.elim
        | panic => cases m <;> first | exact hagree.elim | rfl
        | ub => cases m <;> first | exact hagree.elim | rfl
        | timeout => cases m <;> first | exact hagree.elim | rfl

end
end Verif.Rust
