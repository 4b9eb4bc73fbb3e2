import Verif.Model.Runtime

/-!
# Facts about the runtime library that hold for any program
-/

set_option linter.unusedSectionVars false
set_option autoImplicit false

namespace Verif

section
variable {P V E F σ : Type} [DecidableEq P] {sem : Sem P V E σ} {prog : Program} {debug : Bool}
  {into : F → E} {items items' : Nat → Option (Item P F)}

theorem runPops_stream {pops : List PopStep} : ∀ {st st' : PState P V F} {vs : List (Nat × Val P V)},
    runPops pops st = .ok (vs, st') → st'.next = st.next ∧ st'.pulled = st.pulled := by
  induction pops with
  | nil =>
    intro st st' vs h
    simp only [runPops, Outcome.pure_eq, Outcome.ok.injEq, Prod.mk.injEq] at h
    obtain ⟨-, rfl⟩ := h
    exact ⟨rfl, rfl⟩
  | cons p rest ih =>
    intro st st' vs h
    simp only [runPops] at h
    obtain ⟨⟨s, st1⟩, h1, h⟩ := Outcome.bind_eq_ok.mp h
    unfold PState.popState at h1
    obtain ⟨s', -, h1⟩ := Outcome.bind_eq_ok.mp h1
    cases h1
    simp only at h
    split at h
    · obtain ⟨v, -, h⟩ := Outcome.bind_eq_ok.mp h
      obtain ⟨⟨vs', st2⟩, h2, h⟩ := Outcome.bind_eq_ok.mp h
      cases h
      have := ih h2
      exact this
    · cases h

theorem gotoRun_stream {g : GotoCode} {v : Val P V} {st st' : PState P V F} (h : g.run v st = .ok st') :
    st'.next = st.next ∧ st'.pulled = st.pulled := by
  cases g with
  | direct next => cases h; exact ⟨rfl, rfl⟩
  | select arms =>
    unfold GotoCode.run at h
    obtain ⟨top, -, h⟩ := Outcome.bind_eq_ok.mp h
    split at h
    · cases h; exact ⟨rfl, rfl⟩
    · cases h

/-- The stream is left alone. -/
def StepResult.Stays (st : PState P V F) : StepResult P V E F σ → Prop
  | .next st' _ => st'.next = st.next ∧ st'.pulled = st.pulled
  | .accept _ st' _ => st'.next = st.next ∧ st'.pulled = st.pulled
  | .fail _ _ => True

theorem ReduceArm.run_stays {arm : ReduceArm} {st : PState P V F} {w : σ} {res : StepResult P V E F σ}
    (h : arm.run sem st w = .ok res) : res.Stays st := by
  unfold ReduceArm.run at h
  obtain ⟨⟨vs, st1⟩, h1, h⟩ := Outcome.bind_eq_ok.mp h
  obtain ⟨⟨x, w1⟩, h2, h⟩ := Outcome.bind_eq_ok.mp h
  cases x with
  | error e => cases h; trivial
  | ok v =>
    obtain ⟨st2, h3, h⟩ := Outcome.bind_eq_ok.mp h
    cases h
    obtain ⟨a, b⟩ := runPops_stream h1
    obtain ⟨c, d⟩ := gotoRun_stream h3
    exact ⟨c.trans a, d.trans b⟩

theorem AcceptArm.run_stays {arm : AcceptArm} {st : PState P V F} {w : σ} {res : StepResult P V E F σ}
    (h : arm.run sem st w = .ok res) : res.Stays st := by
  unfold AcceptArm.run at h
  obtain ⟨⟨vs, st1⟩, h1, h⟩ := Outcome.bind_eq_ok.mp h
  obtain ⟨_, -, h⟩ := Outcome.bind_eq_ok.mp h
  obtain ⟨⟨x, w1⟩, h2, h⟩ := Outcome.bind_eq_ok.mp h
  cases x with
  | error e => cases h; trivial
  | ok v => cases h; exact runPops_stream h1

/-- A step pulls one item, or does not look at the rest of the stream. -/
theorem act_items {code : StateCode} {peeked : Option (Token P)} {st : PState P V F} {w : σ}
    {res : StepResult P V E F σ} (h : code.act sem items peeked st w = .ok res) :
    (∃ st', res = .next st' w ∧ st.next.isSome = true ∧ st'.next = items st.pulled ∧
      st'.pulled = st.pulled + 1) ∨
    (res.Stays st ∧ ∀ items' : Nat → Option (Item P F), code.act sem items' peeked st w = .ok res) := by
  unfold StateCode.act at h ⊢
  split at h
  · left
    unfold ShiftArm.run PState.advance at h
    obtain ⟨v, -, h⟩ := Outcome.bind_eq_ok.mp h
    obtain ⟨st1, h1, h⟩ := Outcome.bind_eq_ok.mp h
    obtain ⟨_, h2, h1⟩ := Outcome.bind_eq_ok.mp h1
    cases h1
    cases h
    rw [Outcome.assert_eq_ok] at h2
    exact ⟨_, rfl, h2, rfl, rfl⟩
  · right
    split at h
    · exact ⟨ReduceArm.run_stays h, fun _ => h⟩
    · split at h
      · exact ⟨AcceptArm.run_stays h, fun _ => h⟩
      · cases h
        exact ⟨trivial, fun _ => rfl⟩

theorem step_items {st : PState P V F} {w : σ} {res : StepResult P V E F σ}
    (h : prog.step debug sem into items st w = .ok res) :
    (∃ st', res = .next st' w ∧ st.next.isSome = true ∧ st'.next = items st.pulled ∧
      st'.pulled = st.pulled + 1) ∨
    (res.Stays st ∧ ∀ items' : Nat → Option (Item P F), prog.step debug sem into items' st w = .ok res) := by
  unfold Program.step at h ⊢
  obtain ⟨top, h1, h⟩ := Outcome.bind_eq_ok.mp h
  obtain ⟨code, h2, h⟩ := Outcome.bind_eq_ok.mp h
  simp only [h1, Outcome.ok_bind, h2]
  have hcheck : ∀ peeked, code.check debug sem items peeked st w = .ok res →
      (∃ st', res = .next st' w ∧ st.next.isSome = true ∧ st'.next = items st.pulled ∧
        st'.pulled = st.pulled + 1) ∨
      (res.Stays st ∧ ∀ items' : Nat → Option (Item P F), code.check debug sem items' peeked st w = .ok res) := by
    intro peeked h
    unfold StateCode.check at h ⊢
    split at h
    · rename_i hc
      cases h
      right
      refine ⟨trivial, fun items' => ?_⟩
      simp only [if_pos hc]
      rfl
    · rename_i hc
      simp only [if_neg hc]
      exact act_items h
  unfold StateCode.run at h ⊢
  split at h
  · cases h
    right
    exact ⟨trivial, fun items' => rfl⟩
  · exact hcheck _ h
  · exact hcheck _ h

/-- Steps depend on the stream only through the item they may pull. -/
theorem step_congr {st : PState P V F} {w : σ} (he : items st.pulled = items' st.pulled) :
    prog.step debug sem into items st w = prog.step debug sem into items' st w := by
  have hact : ∀ (code : StateCode) peeked,
      code.act sem items peeked st w = code.act sem items' peeked st w := by
    intro code peeked
    unfold StateCode.act ShiftArm.run PState.advance
    rw [he]
  unfold Program.step StateCode.run StateCode.check
  simp only [hact]

theorem step_pulled {st st' : PState P V F} {w w' : σ}
    (h : prog.step debug sem into items st w = .ok (.next st' w')) : st.pulled ≤ st'.pulled := by
  rcases step_items h with ⟨st1, e, -, -, h1⟩ | ⟨⟨-, h1⟩, -⟩
  · cases e; omega
  · omega

/-- More fuel does not change a result. -/
theorem Program.loop_mono {fuel fuel' : Nat} (hf : fuel ≤ fuel') {run : Run P V E σ} :
    ∀ {st : PState P V F} {w : σ}, prog.loop debug sem into items fuel st w = .ok run →
      prog.loop debug sem into items fuel' st w = .ok run := by
  induction fuel generalizing fuel' with
  | zero => intro st w h; cases h
  | succ fuel ih =>
    intro st w h
    obtain ⟨n, rfl⟩ : ∃ n, fuel' = n + 1 := ⟨fuel' - 1, by omega⟩
    unfold Program.loop at h ⊢
    obtain ⟨r, h1, h2⟩ := Outcome.bind_eq_ok.mp h
    rw [h1, Outcome.ok_bind]
    cases r with
    | next st w => exact ih (by omega) h2
    | accept v st w => exact h2
    | fail e w => exact h2

/-- Results do not depend on the fuel. -/
theorem Program.loop_det {fuel fuel' : Nat} {run run' : Run P V E σ} {st : PState P V F} {w : σ}
    (h : prog.loop debug sem into items fuel st w = .ok run)
    (h' : prog.loop debug sem into items fuel' st w = .ok run') : run = run' := by
  have h1 := Program.loop_mono (Nat.le_max_left fuel fuel') h
  have h2 := Program.loop_mono (Nat.le_max_right fuel fuel') h'
  rw [h1] at h2
  cases h2
  rfl

theorem Program.loop_pulled {fuel : Nat} {run : Run P V E σ} :
    ∀ {st : PState P V F} {w : σ}, prog.loop debug sem into items fuel st w = .ok run →
      st.pulled ≤ run.pulled := by
  induction fuel with
  | zero => intro st w h; cases h
  | succ fuel ih =>
    intro st w h
    unfold Program.loop at h
    obtain ⟨r, h1, h2⟩ := Outcome.bind_eq_ok.mp h
    cases r with
    | next st' w' => exact Nat.le_trans (step_pulled h1) (ih h2)
    | accept v st' w' =>
      cases h2
      rcases step_items h1 with ⟨st1, e, -⟩ | ⟨⟨-, h1⟩, -⟩
      · cases e
      · exact Nat.le_of_eq h1.symm
    | fail e w => cases h2; exact Nat.le_refl _

/-- **Causality**: items that have not been pulled have no influence. -/
theorem Program.loop_causal {fuel : Nat} {run : Run P V E σ} :
    ∀ {st : PState P V F} {w : σ}, prog.loop debug sem into items fuel st w = .ok run →
      (∀ i < run.pulled, items i = items' i) →
      prog.loop debug sem into items' fuel st w = .ok run := by
  induction fuel with
  | zero => intro st w h; cases h
  | succ fuel ih =>
    intro st w h hag
    unfold Program.loop at h ⊢
    obtain ⟨r, h1, h2⟩ := Outcome.bind_eq_ok.mp h
    have h3 : prog.step debug sem into items' st w = .ok r := by
      rcases step_items h1 with ⟨st1, rfl, -, -, h3⟩ | ⟨-, h3⟩
      · rw [← h1]
        refine (step_congr (hag _ ?_)).symm
        have := Program.loop_pulled h2
        omega
      · exact h3 items'
    rw [h3, Outcome.ok_bind]
    cases r with
    | next st' w' => exact ih h2 hag
    | accept v st' w' => exact h2
    | fail e w => exact h2

/-- States of a run. -/
inductive GenReach (debug : Bool) (sem : Sem P V E σ) (into : F → E) (items : Nat → Option (Item P F))
    (prog : Program) (w0 : σ) : PState P V F → σ → Prop
  | start : GenReach debug sem into items prog w0 (.new items (LRTable.rootState, .unit)) w0
  | step {st st' : PState P V F} {w w' : σ} : GenReach debug sem into items prog w0 st w →
      prog.step debug sem into items st w = .ok (.next st' w') →
      GenReach debug sem into items prog w0 st' w'

/-- How a run ends in a state. -/
inductive EndsIn (prog : Program) (debug : Bool) (sem : Sem P V E σ) (into : F → E)
    (items : Nat → Option (Item P F)) (st : PState P V F) (w : σ) : Run P V E σ → Prop
  | accept {v : Val P V} {st' : PState P V F} {w' : σ} :
      prog.step debug sem into items st w = .ok (.accept v st' w') →
      EndsIn prog debug sem into items st w ⟨.ok v, w', st'.pulled, st'.stack⟩
  | fail {e : ParseErr P E} {w' : σ} :
      prog.step debug sem into items st w = .ok (.fail e w') →
      EndsIn prog debug sem into items st w ⟨.error e, w', st.pulled, st.stack⟩

theorem loop_ends {fuel : Nat} {run : Run P V E σ} {w0 : σ} :
    ∀ {st : PState P V F} {w : σ}, GenReach debug sem into items prog w0 st w →
      prog.loop debug sem into items fuel st w = .ok run →
      ∃ st' w', GenReach debug sem into items prog w0 st' w' ∧
        EndsIn prog debug sem into items st' w' run := by
  induction fuel with
  | zero => intro st w _ h; cases h
  | succ fuel ih =>
    intro st w hr h
    unfold Program.loop at h
    obtain ⟨r, h1, h2⟩ := Outcome.bind_eq_ok.mp h
    cases r with
    | next st' w' => exact ih (.step hr h1) h2
    | accept v st' w' => cases h2; exact ⟨st, w, hr, .accept h1⟩
    | fail e w' => cases h2; exact ⟨st, w, hr, .fail h1⟩

theorem parse_ends {fuel : Nat} {run : Run P V E σ} {w0 : σ}
    (h : prog.parseFallible debug sem into items fuel w0 = .ok run) :
    ∃ st w, GenReach debug sem into items prog w0 st w ∧
      EndsIn prog debug sem into items st w run := loop_ends .start h

/-- Debug builds differ from release builds only in reporting overlaps. -/
theorem step_release {st : PState P V F} {w : σ} {res : StepResult P V E F σ}
    (h : prog.step true sem into items st w = .ok res)
    (hne : ∀ t w', res ≠ .fail (.overlapping t) w') : prog.step false sem into items st w = .ok res := by
  unfold Program.step at h ⊢
  obtain ⟨top, h1, h⟩ := Outcome.bind_eq_ok.mp h
  obtain ⟨code, h2, h⟩ := Outcome.bind_eq_ok.mp h
  simp only [h1, Outcome.ok_bind, h2]
  have hcheck : ∀ peeked, code.check true sem items peeked st w = .ok res →
      code.check false sem items peeked st w = .ok res := by
    intro peeked h
    unfold StateCode.check at h ⊢
    split at h
    · cases h; exact absurd rfl (hne _ _)
    · simpa using h
  unfold StateCode.run at h ⊢
  split at h
  · exact h
  · exact hcheck _ h
  · exact hcheck _ h

theorem Program.loop_release {fuel : Nat} {run : Run P V E σ} :
    ∀ {st : PState P V F} {w : σ}, prog.loop true sem into items fuel st w = .ok run →
      (∀ t, run.result ≠ .error (.overlapping t)) →
      prog.loop false sem into items fuel st w = .ok run := by
  induction fuel with
  | zero => intro st w h; cases h
  | succ fuel ih =>
    intro st w h hne
    unfold Program.loop at h ⊢
    obtain ⟨r, h1, h2⟩ := Outcome.bind_eq_ok.mp h
    rw [step_release h1 ?_, Outcome.ok_bind]
    · cases r with
      | next st' w' => exact ih h2 hne
      | accept v st' w' => exact h2
      | fail e w => exact h2
    · rintro t w' rfl
      cases h2
      exact hne t rfl

end

/-! ### Naturality in the error type of the stream -/

section
variable {P V E F F' σ : Type} [DecidableEq P] {sem : Sem P V E σ} {prog : Program} {debug : Bool}

/-- Convert the errors of an item. -/
def Item.conv (g : F → F') (x : Item P F) : Item P F' := x.mapError g

/-- Convert the errors of a stream. -/
def convItems (g : F → F') (items : Nat → Option (Item P F)) : Nat → Option (Item P F') :=
  fun i => (items i).map (Item.conv g)

def PState.conv (g : F → F') (st : PState P V F) : PState P V F' :=
  ⟨st.next.map (Item.conv g), st.pulled, st.stack⟩

def StepResult.conv (g : F → F') : StepResult P V E F σ → StepResult P V E F' σ
  | .next st w => .next (st.conv g) w
  | .accept v st w => .accept v (st.conv g) w
  | .fail e w => .fail e w

variable (g : F → F')

theorem runPops_conv (pops : List PopStep) : ∀ (st : PState P V F),
    runPops pops (st.conv g) = (runPops pops st >>= fun r => pure (r.1, r.2.conv g)) := by
  induction pops with
  | nil => intro st; rfl
  | cons p rest ih =>
    intro st
    obtain ⟨next, pulled, stack⟩ := st
    cases stack with
    | nil => rfl
    | cons s stack =>
      have := ih ⟨next, pulled, stack⟩
      simp only [PState.conv] at this
      simp only [runPops, PState.popState, PState.conv, List.head?_cons, Outcome.unwrapUnchecked_some,
        Outcome.ok_bind, Outcome.pure_eq, List.tail_cons]
      by_cases hs : s.1 ∈ p.states
      · simp only [if_pos hs]
        cases extractData p.variant s.2 with
        | ok v =>
          simp only [Outcome.ok_bind, this]
          cases runPops rest (⟨next, pulled, stack⟩ : PState P V F) <;> rfl
        | _ => rfl
      · simp only [if_neg hs]; rfl

theorem gotoRun_conv (c : GotoCode) (v : Val P V) (st : PState P V F) :
    c.run v (st.conv g) = (c.run v st >>= fun r => pure (r.conv g)) := by
  cases c with
  | direct n => rfl
  | select arms =>
    unfold GotoCode.run PState.state
    simp only [PState.conv]
    cases Outcome.unwrapUnchecked (ε := Unit) st.stack.head? with
    | ok top =>
      simp only [Outcome.ok_bind]
      split <;> rfl
    | _ => rfl

theorem reduceRun_conv (arm : ReduceArm) (st : PState P V F) (w : σ) :
    arm.run sem (st.conv g) w = (arm.run sem st w >>= fun r => pure (r.conv g)) := by
  unfold ReduceArm.run
  rw [runPops_conv]
  cases runPops arm.pops st with
  | ok r =>
    simp only [Outcome.ok_bind, Outcome.pure_eq]
    cases arm.ctor.run sem (fun i => r.1.lookup i) w with
    | ok x =>
      obtain ⟨x, w⟩ := x
      cases x with
      | error e => rfl
      | ok v =>
        simp only [Outcome.ok_bind, gotoRun_conv]
        cases arm.goto.run v r.2 <;> rfl
    | _ => rfl
  | _ => rfl

theorem acceptRun_conv (arm : AcceptArm) (st : PState P V F) (w : σ) :
    arm.run sem (st.conv g) w = (arm.run sem st w >>= fun r => pure (r.conv g)) := by
  unfold AcceptArm.run
  rw [runPops_conv]
  cases runPops arm.pops st with
  | ok r =>
    simp only [Outcome.ok_bind, Outcome.pure_eq]
    have : (r.2.conv g).stack = r.2.stack := rfl
    rw [this]
    cases Outcome.assert (ε := Unit) (r.2.stack.length == 1) with
    | ok _ =>
      simp only [Outcome.ok_bind]
      cases arm.ctor.run sem (fun i => r.1.lookup i) w with
      | ok x =>
        obtain ⟨x, w⟩ := x
        cases x <;> rfl
      | _ => rfl
    | _ => rfl
  | _ => rfl

theorem shiftRun_conv (items : Nat → Option (Item P F)) (arm : ShiftArm) (peeked : Option (Token P))
    (st : PState P V F) (w : σ) :
    (arm.run sem (convItems g items) peeked (st.conv g) w : Outcome Unit (StepResult P V E F' σ)) =
      (arm.run sem items peeked st w >>= fun r => pure (r.conv g)) := by
  unfold ShiftArm.run PState.advance
  cases arm.value.eval sem peeked with
  | ok v =>
    obtain ⟨next, pulled, stack⟩ := st
    simp only [Outcome.ok_bind, PState.conv, Option.isSome_map]
    cases Outcome.assert (ε := Unit) next.isSome <;> rfl
  | _ => rfl

theorem step_conv (into : F' → E) (items : Nat → Option (Item P F)) (st : PState P V F) (w : σ) :
    prog.step debug sem into (convItems g items) (st.conv g) w =
      (prog.step debug sem (into ∘ g) items st w >>= fun r => pure (r.conv g)) := by
  have hact : ∀ (code : StateCode) peeked,
      code.act sem (convItems g items) peeked (st.conv g) w =
        (code.act sem items peeked st w >>= fun r => pure (r.conv g)) := by
    intro code peeked
    unfold StateCode.act
    split
    · exact shiftRun_conv g _ _ _ _ _
    · split
      · exact reduceRun_conv g _ _ _
      · split
        · exact acceptRun_conv g _ _ _
        · rfl
  have hcheck : ∀ (code : StateCode) peeked,
      code.check debug sem (convItems g items) peeked (st.conv g) w =
        (code.check debug sem items peeked st w >>= fun r => pure (r.conv g)) := by
    intro code peeked
    unfold StateCode.check
    split
    · rfl
    · exact hact _ _
  unfold Program.step
  have hs : (st.conv g).state = st.state := rfl
  rw [hs]
  cases st.state with
  | ok top =>
    simp only [Outcome.ok_bind]
    cases Outcome.index (ε := Unit) prog.states top.1 with
    | ok code =>
      simp only [Outcome.ok_bind]
      unfold StateCode.run
      have hn : (st.conv g).next = st.next.map (Item.conv g) := rfl
      rw [hn]
      cases st.next with
      | none => exact hcheck _ _
      | some x =>
        cases x with
        | error f => rfl
        | ok t => exact hcheck _ _
    | _ => rfl
  | _ => rfl

/-- Converting the errors of the stream first or when they are met is the same. -/
theorem loop_conv (into : F' → E) (items : Nat → Option (Item P F)) (fuel : Nat) :
    ∀ (st : PState P V F) (w : σ), prog.loop debug sem into (convItems g items) fuel (st.conv g) w =
      prog.loop debug sem (into ∘ g) items fuel st w := by
  induction fuel with
  | zero => intro st w; rfl
  | succ fuel ih =>
    intro st w
    unfold Program.loop
    rw [step_conv]
    cases prog.step debug sem (into ∘ g) items st w with
    | ok r =>
      cases r with
      | next st w => exact ih st w
      | accept v st w => rfl
      | fail e w => rfl
    | _ => rfl

end
end Verif
