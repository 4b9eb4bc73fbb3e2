import Verif.Proof.Feedback
import Verif.Proof.Run

/-!
# Generated parsers that read from an iterator with effects: sentences, and iterators without effects
-/

set_option linter.unusedSectionVars false
set_option autoImplicit false

namespace Verif
open Spec

section
variable {T L A : Type} {G : List (Rule T L)} {first : List (Node T L) → AugTok T → Prop} {m : A → T → Prop}

theorem Spec.Look.swap {z y : List A} {x : AugTok T} (e : y.head? = z.head?) (h : Look m z x) : Look m y x := by
  cases h with
  | eos =>
    rw [List.head?_nil, List.head?_eq_none_iff] at e
    rw [e]
    exact .eos
  | tok h =>
    rw [List.head?_cons, List.head?_eq_some_iff] at e
    obtain ⟨y', rfl⟩ := e
    exact .tok h

/-- What comes after the lookahead does not matter. -/
theorem Spec.Steps.swap {c c' : Config T L A} {tr : List Nat} (h : Steps G first m c c' tr) :
    ∀ {u y : List A}, c.input = u ++ c'.input → y.head? = c'.input.head? →
      Steps G first m ⟨c.stack, c.trees, u ++ y⟩ ⟨c'.stack, c'.trees, y⟩ tr := by
  induction h with
  | refl c =>
    intro u y hu _
    have : u = [] := by
      have := congrArg List.length hu
      simp only [List.length_append] at this
      exact List.length_eq_zero_iff.mp (by omega)
    subst this
    exact .refl _
  | @step c c1 c' o tr h1 h2 ih =>
    intro u y hu hy
    obtain ⟨u1, hu1⟩ := h2.suffix
    cases h1 with
    | @shift γ ts a z t g1 g2 =>
      simp only at hu hu1 ⊢
      rw [hu1, ← List.cons_append] at hu
      have := List.append_cancel_right hu
      subst this
      exact .step (.shift g1 g2) (ih hu1 hy)
    | @reduce γ ts z x i r g1 g2 g3 =>
      simp only at hu ⊢
      refine .step (.reduce g1 (g2.swap ?_) g3) (ih hu hy)
      rw [hu]
      cases u with
      | nil => exact hy
      | cons a u => rfl

end

namespace Spec
variable {A V E S : Type} {read : A → S → Except E V × S} {apply : Nat → List V → S → Except E V × S}

theorem walk_reduce' {i k : Nat} {ts : List (Tree A)} {s s' : S} {vs : List V}
    (h : walk read apply (Forest.ofTrees ts) s = (.ok vs, s')) :
    ∃ us vs', walk read apply (Forest.ofTrees (reduceTrees i k ts)) s =
      andThen (apply i us s') fun v s'' => (.ok (vs' ++ [v]), s'') := by
  have hl := walk_length h
  rw [Forest.trees_ofTrees] at hl
  have e : reduceTrees i k ts = reduceTrees i (min k ts.length) ts := by
    unfold reduceTrees
    have : ts.length - k = ts.length - min k ts.length := by omega
    rw [this]
  refine ⟨vs.drop (vs.length - min k ts.length), vs.take (vs.length - min k ts.length), ?_⟩
  rw [e, walk_reduce (vs := vs.take (vs.length - min k ts.length))
    (us := vs.drop (vs.length - min k ts.length)) (by rw [List.take_append_drop]; exact h)
    (by rw [List.length_drop]; omega)]

end Spec

variable {P V E F' σ : Type} [DecidableEq P] {sem : Sem P V E σ} {lex : Lexer} {o : HashOrder}
  {gi : GrammarInfo} {prog : Program} {F : FirstTable} {kt : KernelTable} {src : Source P F' σ}
  {debug : Bool} {into : F' → E}

/-- If all of the input can be read, then so far the item read ahead has been the next token. -/
theorem Spec.Steps.readable {c d : Config Nat Nat (Token P)} {tr : List Nat}
    {G : List (Rule Nat Nat)} {first : List INode → AugTokId → Prop} {m : Token P → Nat → Prop}
    {apply : Nat → List (Val P V) → σ → Except E (Val P V) × σ} {s0 : Option (Item P F') × σ}
    (hs : Steps G first m c d tr) (hd : d.input = []) {us : List (Val P V)} {w' : σ}
    (hw : walk (useToken src) (useRule apply) (Forest.ofTrees d.trees) s0 = (.ok us, (none, w'))) :
    ∃ vs w, walk (useToken src) (useRule apply) (Forest.ofTrees c.trees) s0 =
      (.ok vs, (c.input.head?.map .ok, w)) := by
  induction hs with
  | refl c => exact ⟨us, w', by rw [hw, hd]; rfl⟩
  | @step c c1 d o tr h1 h2 ih =>
    obtain ⟨vs1, w1, ih⟩ := ih hd hw
    rcases h : walk (useToken src) (useRule apply) (Forest.ofTrees c.trees) s0 with ⟨x, la, w⟩
    cases x with
    | error e =>
      have := h1.walk_error h
      rw [ih] at this
      cases this
    | ok vs =>
      refine ⟨vs, w, ?_⟩
      suffices la = c.input.head?.map .ok by rw [this]
      cases h1 with
      | @shift γ ts a z t g1 g2 =>
        rw [walk_leaf h, andThen_eq_ok] at ih
        obtain ⟨v, s', h3, -⟩ := ih
        exact (useToken_ok h3).1
      | @reduce γ ts z x i r g1 g2 g3 =>
        obtain ⟨us', vs', h3⟩ := walk_reduce' (i := i) (k := (rhs r).length) h
        rw [h3, andThen_eq_ok] at ih
        obtain ⟨v, s', h4, h5⟩ := ih
        have := useRule_fst (apply := apply) (i := i) (us := us') (la, w)
        rw [h4] at this
        cases h5
        exact this.symm

namespace GenCtx
variable (h : GenCtx o lex gi prog F kt) {w0 : σ}
include h

/-- **Sentences**: the parser follows the canonical parser to the end. -/
theorem runFed (hU : Unique (gi.tokMatch sem)) {c d : Config Nat Nat (Token P)} {tr : List Nat}
    (hs : Steps gi.indexedGrammar.cfg F.NodesFirst (gi.tokMatch sem) c d tr)
    (hacc : Accepting gi.indexedGrammar.cfg F.NodesFirst (gi.tokMatch sem) d) (hd : d.input = [])
    {v : Val P V} {w' : σ}
    (hw : gi.walkIds sem src (.node 0 (Forest.ofTrees d.trees) .nil) (src w0) = (.ok [v], (none, w'))) :
    ∀ {st : PState P V F'} {w : σ}, HoldsFed gi F kt sem src w0 st w c →
      ∃ N run, (∀ fuel ≥ N, prog.loopFed debug sem into src fuel st w = .ok run) ∧ run.result = .ok v ∧
        run.world = w' := by
  have hn := h.good.noConflict
  obtain ⟨us, w1, hw1⟩ : ∃ us w1, gi.walkIds sem src (Forest.ofTrees d.trees) (src w0) = (.ok us, (none, w1)) := by
    simp only [GrammarInfo.walkIds, walk, andThen_eq_ok] at hw ⊢
    obtain ⟨us, ⟨la, w1⟩, h1, u, s2, h2, vs, s3, h3, h4⟩ := hw
    have := useRule_fst (apply := fun i => construct gi sem (gi.indexedGrammar.orig i)) (i := 0) (us := us)
      (la, w1)
    rw [h2] at this
    cases h3
    cases h4
    subst this
    exact ⟨us, w1, h1⟩
  have peek : ∀ {c : Config Nat Nat (Token P)} {tr : List Nat} {st : PState P V F'} {w : σ},
      Steps gi.indexedGrammar.cfg F.NodesFirst (gi.tokMatch sem) c d tr →
      HoldsFed gi F kt sem src w0 st w c → st.next = c.input.head?.map .ok := by
    rintro c tr st w hs ⟨vs, -, hv⟩
    obtain ⟨vs', w', h1⟩ := hs.readable hd hw1
    rw [GrammarInfo.walkIds, h1] at hv
    exact (congrArg (fun x => x.2.1) hv).symm
  induction hs with
  | refl c =>
    intro st w hh
    have hp := peek (.refl c) hh
    obtain ⟨res, e, hg⟩ := h.stepFed (debug := debug) (into := into) hh (.inr hp)
    cases hg with
    | stream g => rw [hp, hd] at g; cases g
    | overlap _ g => exact absurd g.2.2 (not_overlap_of_unique hU)
    | shift _ _ g => exact absurd (.inl hacc) (g.not_final hn hU)
    | reduce _ _ g => exact absurd (.inl hacc) (g.not_final hn hU)
    | reduceFail _ _ g => exact absurd (.inl hacc) (g.not_final hn hU)
    | @accept v' st' w2 _ _ _ g =>
      rw [hw] at g
      obtain ⟨rfl, rfl⟩ : v = v' ∧ w' = w2 := by
        simp only [Prod.mk.injEq, Except.ok.injEq, List.cons.injEq, and_true] at g
        exact ⟨g.1, g.2.2⟩
      refine ⟨1, ⟨.ok v, w', st'.pulled, st'.stack⟩, ?_, rfl, rfl⟩
      intro fuel hf
      obtain ⟨fuel, rfl⟩ : ∃ n, fuel = n + 1 := ⟨fuel - 1, by omega⟩
      unfold Program.loopFed
      rw [e]
      rfl
    | acceptFail _ _ _ g => rw [hw] at g; cases g
    | stuck _ _ g => exact absurd (accepting_iff.mp hacc) (stuck_iff.mp g _)
  | @step c c1 d o1 tr hst hs' ih =>
    intro st w hh
    have hp := peek (.step hst hs') hh
    obtain ⟨res, e, hg⟩ := h.stepFed (debug := debug) (into := into) hh (.inr hp)
    have go : ∀ {st' : PState P V F'} {w2 : σ}, res = .next st' w2 → HoldsFed gi F kt sem src w0 st' w2 c1 →
        ∃ N run, (∀ fuel ≥ N, prog.loopFed debug sem into src fuel st w = .ok run) ∧ run.result = .ok v ∧
          run.world = w' := by
      rintro st' w2 rfl hh'
      obtain ⟨N, run, h1, h2, h3⟩ := ih hacc hd hw hw1 peek hh'
      refine ⟨N + 1, run, ?_, h2, h3⟩
      intro fuel hf
      obtain ⟨fuel, rfl⟩ : ∃ n, fuel = n + 1 := ⟨fuel - 1, by omega⟩
      unfold Program.loopFed
      rw [e, Outcome.ok_bind]
      exact h1 fuel (by omega)
    cases hg with
    | stream g =>
      rw [hp] at g
      cases hz : c.input with
      | nil => rw [hz] at g; cases g
      | cons a z => rw [hz] at g; cases g
    | overlap _ g => exact absurd g.2.2 (not_overlap_of_unique hU)
    | shift _ _ g _ _ g6 =>
      obtain ⟨rfl, -⟩ := hst.det hn hU g
      exact go rfl g6
    | reduce _ _ g _ _ g6 =>
      obtain ⟨rfl, -⟩ := hst.det hn hU g
      exact go rfl g6
    | reduceFail _ _ g g6 =>
      obtain ⟨rfl, -⟩ := hst.det hn hU g
      obtain ⟨vs', w', h1⟩ := hs'.readable hd hw1
      rw [GrammarInfo.walkIds, h1] at g6
      cases g6
    | accept _ _ g => exact absurd (.inl g) (hst.not_final hn hU)
    | acceptFail _ _ g => exact absurd (.inl g) (hst.not_final hn hU)
    | stuck _ _ g => exact absurd (.inr g) (hst.not_final hn hU)

end GenCtx

/-! ### Iterators without effects -/

/-- The same constructors, beside a counter. -/
def Sem.counted (sem : Sem P V E σ) : Sem P V E (σ × Nat) where
  litVal := sem.litVal
  pat := sem.pat
  body r b env w := ((sem.body r b env w.1).1, (sem.body r b env w.1).2, w.2)
  conv r v w := ((sem.conv r v w.1).1, (sem.conv r v w.1).2, w.2)

/-- The iterator over given items; the counter is its position. -/
def Source.ofItems (items : Nat → Option (Item P F')) : Source P F' (σ × Nat) :=
  fun w => (items w.2, w.1, w.2 + 1)

/-- Puts the number of items read beside the world. -/
def StepResult.counted (n : Nat) : StepResult P V E F' σ → StepResult P V E F' (σ × Nat)
  | .next st w => .next st (w, st.pulled)
  | .accept v st w => .accept v st (w, st.pulled)
  | .fail e w => .fail e (w, n)

/-- Puts the number of items read beside the world. -/
def Run.counted (run : Run P V E σ) : Run P V E (σ × Nat) :=
  ⟨run.result, (run.world, run.pulled), run.pulled, run.stack⟩

theorem Ctor.run_counted (c : Ctor) (env : Env P V) (w : σ) (n : Nat) :
    c.run sem.counted env (w, n) = (c.run sem env w >>= fun x => pure (x.1, x.2, n)) := by
  cases c with
  | provided => rfl
  | unit => rfl
  | tryInto r =>
    unfold Ctor.run
    cases env 0 <;> rfl

theorem ReduceArm.run_counted (arm : ReduceArm) (st : PState P V F') (w : σ) :
    arm.run sem.counted st (w, st.pulled) = (arm.run sem st w >>= fun r => pure (r.counted st.pulled)) := by
  unfold ReduceArm.run
  cases hp : (runPops arm.pops st : Outcome Unit _) with
  | ok x =>
    obtain ⟨vars, st1⟩ := x
    have h1 := (runPops_stream hp).2
    simp only [Outcome.ok_bind]
    rw [Ctor.run_counted]
    cases arm.ctor.run sem (fun i => vars.lookup i) w with
    | ok x =>
      obtain ⟨x, w1⟩ := x
      cases x with
      | error e => rfl
      | ok v =>
        simp only [Outcome.ok_bind, Outcome.pure_eq]
        cases hg : arm.goto.run v st1 with
        | ok st2 =>
          have h2 := (gotoRun_stream hg).2
          simp only [Outcome.ok_bind, StepResult.counted, h2, h1]
        | _ => rfl
    | _ => rfl
  | _ => rfl

theorem AcceptArm.run_counted (arm : AcceptArm) (st : PState P V F') (w : σ) :
    arm.run sem.counted st (w, st.pulled) = (arm.run sem st w >>= fun r => pure (r.counted st.pulled)) := by
  unfold AcceptArm.run
  cases hp : (runPops arm.pops st : Outcome Unit _) with
  | ok x =>
    obtain ⟨vars, st1⟩ := x
    have h1 := (runPops_stream hp).2
    simp only [Outcome.ok_bind]
    cases Outcome.assert (ε := Unit) (st1.stack.length == 1) with
    | ok _ =>
      simp only [Outcome.ok_bind]
      rw [Ctor.run_counted]
      cases arm.ctor.run sem (fun i => vars.lookup i) w with
      | ok x =>
        obtain ⟨x, w1⟩ := x
        cases x with
        | error e => rfl
        | ok v => simp only [Outcome.ok_bind, Outcome.pure_eq, StepResult.counted, h1]
      | _ => rfl
    | _ => rfl
  | _ => rfl

theorem Pat.matches_counted (p : Pat) (t : Token P) : p.matches sem.counted t = p.matches sem t := by
  cases p <;> cases t <;> rfl

theorem Matcher.matches_counted (m : Matcher) (t : Option (Token P)) :
    m.matches sem.counted t = m.matches sem t := by
  cases m <;> cases t
  case token.some => exact Pat.matches_counted _ _
  all_goals rfl

theorem TokExpr.eval_counted (x : TokExpr) (t : Option (Token P)) :
    x.eval sem.counted t = x.eval sem t := by
  cases x with
  | data =>
    rcases t with _ | t
    · rfl
    · cases t <;> rfl
  | _ => rfl

theorem Program.stepFed_ofItems (items : Nat → Option (Item P F')) (st : PState P V F') (w : σ) :
    prog.stepFed debug sem.counted into (Source.ofItems items) st (w, st.pulled) =
      (prog.step debug sem into items st w >>= fun r => pure (r.counted st.pulled)) := by
  have hact : ∀ (code : StateCode) peeked,
      code.actFed sem.counted (Source.ofItems items) peeked st (w, st.pulled) =
        (code.act sem items peeked st w >>= fun r => pure (r.counted st.pulled)) := by
    intro code peeked
    unfold StateCode.actFed StateCode.act
    simp only [Matcher.matches_counted]
    cases code.shifts.find? fun arm => arm.matcher.matches sem peeked with
    | some arm =>
      simp only
      unfold ShiftArm.runFed ShiftArm.run
      rw [TokExpr.eval_counted]
      cases arm.value.eval sem peeked with
      | ok v =>
        simp only [Outcome.ok_bind, PState.advanceFed, PState.advance]
        cases Outcome.assert (ε := Unit) st.next.isSome <;> rfl
      | _ => rfl
    | none =>
      simp only
      cases code.reduces.find? fun arm => arm.matchers.any fun m => m.matches sem peeked with
      | some arm => exact ReduceArm.run_counted _ _ _
      | none =>
        simp only
        cases code.accept.filter fun arm => arm.matcher.matches sem peeked with
        | some arm => exact AcceptArm.run_counted _ _ _
        | none => rfl
  have hcheck : ∀ (code : StateCode) peeked,
      code.checkFed debug sem.counted (Source.ofItems items) peeked st (w, st.pulled) =
        (code.check debug sem items peeked st w >>= fun r => pure (r.counted st.pulled)) := by
    intro code peeked
    unfold StateCode.checkFed StateCode.check
    simp only [Matcher.matches_counted]
    by_cases hc : debug = true ∧ 1 < (code.overlap.filter fun m => m.matches sem peeked).length
    · rw [if_pos hc, if_pos hc]; rfl
    · rw [if_neg hc, if_neg hc]; exact hact _ _
  unfold Program.stepFed Program.step
  cases st.state with
  | ok top =>
    simp only [Outcome.ok_bind]
    cases Outcome.index (ε := Unit) prog.states top.1 with
    | ok code =>
      simp only [Outcome.ok_bind]
      unfold StateCode.runFed StateCode.run
      rcases st.next with _ | f | t
      · exact hcheck _ _
      · rfl
      · exact hcheck _ _
    | _ => rfl
  | _ => rfl

theorem Program.loopFed_ofItems (items : Nat → Option (Item P F')) (fuel : Nat) :
    ∀ (st : PState P V F') (w : σ),
      prog.loopFed debug sem.counted into (Source.ofItems items) fuel st (w, st.pulled) =
        (prog.loop debug sem into items fuel st w >>= fun run => pure run.counted) := by
  induction fuel with
  | zero => intro st w; rfl
  | succ fuel ih =>
    intro st w
    unfold Program.loopFed Program.loop
    rw [Program.stepFed_ofItems]
    cases prog.step debug sem into items st w with
    | ok r =>
      cases r with
      | next st' w' => exact ih st' w'
      | accept v st' w' => rfl
      | fail e w' => rfl
    | _ => rfl

end Verif
