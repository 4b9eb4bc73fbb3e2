import Verif.Proof.Walk
import Verif.Proof.GenFinish

/-!
# Generated parsers that read from an iterator with effects: one iteration and the states of a run
-/

set_option linter.unusedSectionVars false
set_option autoImplicit false

namespace Verif
open Spec

variable {P V E F' σ : Type} [DecidableEq P] {sem : Sem P V E σ} {lex : Lexer} {o : HashOrder}
  {gi : GrammarInfo} {prog : Program} {F : FirstTable} {kt : KernelTable} {src : Source P F' σ}
  {debug : Bool} {into : F' → E}

/-- What becomes of an iteration if the item is read by an iterator that leaves the world `w2`. -/
def StepResult.fed (st : PState P V F') (w2 : σ) : StepResult P V E F' σ → StepResult P V E F' σ
  | .next st' w' => .next st' (if st'.pulled = st.pulled then w' else w2)
  | .accept v st' w' => .accept v st' w'
  | .fail e w' => .fail e w'

theorem StepResult.Stays.fed {st : PState P V F'} {w2 : σ} {res : StepResult P V E F' σ} (h : res.Stays st) :
    res.fed st w2 = res := by
  cases res with
  | next st' w' => simp only [StepResult.fed, if_pos h.2]
  | accept => rfl
  | fail => rfl

/-- An iteration asks for one item at most. -/
theorem Program.stepFed_of_step {st : PState P V F'} {w : σ} {res : StepResult P V E F' σ}
    (h : prog.step debug sem into (fun _ => (src w).1) st w = .ok res) :
    prog.stepFed debug sem into src st w = .ok (res.fed st (src w).2) := by
  have hact : ∀ {code : StateCode} {peeked : Option (Token P)} {res : StepResult P V E F' σ},
      code.act sem (fun _ => (src w).1) peeked st w = .ok res →
      code.actFed sem src peeked st w = .ok (res.fed st (src w).2) := by
    intro code peeked res h
    unfold StateCode.act at h
    unfold StateCode.actFed
    split at h
    · rename_i arm hf
      simp only [hf]
      unfold ShiftArm.run at h
      unfold ShiftArm.runFed
      obtain ⟨v, h1, h⟩ := Outcome.bind_eq_ok.mp h
      obtain ⟨st1, h2, h⟩ := Outcome.bind_eq_ok.mp h
      unfold PState.advance at h2
      obtain ⟨_, h3, h2⟩ := Outcome.bind_eq_ok.mp h2
      cases h2
      cases h
      simp only [h1, Outcome.ok_bind, PState.advanceFed, h3]
      simp [Outcome.pure_eq, StepResult.fed, PState.push]
    · rename_i hf
      split at h
      · rename_i arm hf2
        simp only [hf, hf2, h, (ReduceArm.run_stays h).fed]
      · rename_i hf2
        split at h
        · rename_i arm hf3
          simp only [hf, hf2, hf3, h, (AcceptArm.run_stays h).fed]
        · rename_i hf3
          simp only [hf, hf2, hf3]
          cases h
          rfl
  have hcheck : ∀ {code : StateCode} {peeked : Option (Token P)} {res : StepResult P V E F' σ},
      code.check debug sem (fun _ => (src w).1) peeked st w = .ok res →
      code.checkFed debug sem src peeked st w = .ok (res.fed st (src w).2) := by
    intro code peeked res h
    unfold StateCode.check at h
    unfold StateCode.checkFed
    split at h
    · rename_i hc
      rw [if_pos hc]
      cases h
      rfl
    · rename_i hc
      rw [if_neg hc]
      exact hact h
  unfold Program.step at h
  unfold Program.stepFed
  obtain ⟨top, h1, h⟩ := Outcome.bind_eq_ok.mp h
  obtain ⟨code, h2, h⟩ := Outcome.bind_eq_ok.mp h
  rw [h1, Outcome.ok_bind, h2, Outcome.ok_bind]
  unfold StateCode.run at h
  unfold StateCode.runFed
  split at h
  · rename_i hn
    simp only [hn]
    cases h
    rfl
  · rename_i hn
    simp only [hn]
    exact hcheck h
  · rename_i hn
    simp only [hn]
    exact hcheck h

/-- Evaluation over ids. -/
abbrev GrammarInfo.walkIds (gi : GrammarInfo) (sem : Sem P V E σ) (src : Source P F' σ)
    (f : Forest (Token P)) (s : Option (Item P F') × σ) :
    Except (Option E) (List (Val P V)) × (Option (Item P F') × σ) :=
  walk (useToken src) (useRule fun i => construct gi sem (gi.indexedGrammar.orig i)) f s

theorem walkIds_eq (f : Forest (Token P)) (s : Option (Item P F') × σ) :
    gi.walkIds sem src f s = readValue gi sem src (f.mapRules gi.indexedGrammar.orig) s := by
  unfold readValue GrammarInfo.walkIds
  rw [walk_mapRules]
  rfl

/-- The state of the parser is that of a configuration whose trees have been read and evaluated in turns. -/
def HoldsFed (gi : GrammarInfo) (F : FirstTable) (kt : KernelTable) (sem : Sem P V E σ) (src : Source P F' σ)
    (w0 : σ) (st : PState P V F') (w : σ) (c : Config Nat Nat (Token P)) : Prop :=
  ∃ vs, GStk gi.indexedGrammar F kt sem gi.terminalType st.stack c.stack vs ∧
    gi.walkIds sem src (Forest.ofTrees c.trees) (src w0) = (.ok vs, (st.next, w))

/-- What one iteration does. -/
inductive FedStep (debug : Bool) (gi : GrammarInfo) (F : FirstTable) (kt : KernelTable)
    (sem : Sem P V E σ) (into : F' → E) (src : Source P F' σ) (w0 : σ)
    (c : Config Nat Nat (Token P)) (st : PState P V F') (w : σ) : StepResult P V E F' σ → Prop
  | stream {f : F'} : st.next = some (.error f) →
      FedStep debug gi F kt sem into src w0 c st w (.fail (.user (into f)) w)
  | overlap : (∀ f, st.next ≠ some (.error f)) → Reported debug gi F sem c →
      FedStep debug gi F kt sem into src w0 c st w (.fail (.overlapping c.input.head?) w)
  | shift {c' : Config Nat Nat (Token P)} {st' : PState P V F'} :
      (∀ f, st.next ≠ some (.error f)) → ¬ Reported debug gi F sem c →
      Spec.Step gi.indexedGrammar.cfg F.NodesFirst (gi.tokMatch sem) c c' none →
      st'.next = (src w).1 → st'.pulled = st.pulled + 1 → HoldsFed gi F kt sem src w0 st' (src w).2 c' →
      FedStep debug gi F kt sem into src w0 c st w (.next st' (src w).2)
  | reduce {c' : Config Nat Nat (Token P)} {i : Nat} {st' : PState P V F'} {w' : σ} :
      (∀ f, st.next ≠ some (.error f)) → ¬ Reported debug gi F sem c →
      Spec.Step gi.indexedGrammar.cfg F.NodesFirst (gi.tokMatch sem) c c' (some i) →
      st'.next = st.next → st'.pulled = st.pulled → HoldsFed gi F kt sem src w0 st' w' c' →
      FedStep debug gi F kt sem into src w0 c st w (.next st' w')
  | reduceFail {c' : Config Nat Nat (Token P)} {i : Nat} {w' : σ} {e : E} :
      (∀ f, st.next ≠ some (.error f)) → ¬ Reported debug gi F sem c →
      Spec.Step gi.indexedGrammar.cfg F.NodesFirst (gi.tokMatch sem) c c' (some i) →
      gi.walkIds sem src (Forest.ofTrees c'.trees) (src w0) = (.error (some e), (st.next, w')) →
      FedStep debug gi F kt sem into src w0 c st w (.fail (.user e) w')
  | accept {v : Val P V} {st' : PState P V F'} {w' : σ} :
      (∀ f, st.next ≠ some (.error f)) → ¬ Reported debug gi F sem c →
      Accepting gi.indexedGrammar.cfg F.NodesFirst (gi.tokMatch sem) c →
      gi.walkIds sem src (.node 0 (Forest.ofTrees c.trees) .nil) (src w0) = (.ok [v], (st.next, w')) →
      st'.stack = [(0, .unit)] → st'.pulled = st.pulled →
      FedStep debug gi F kt sem into src w0 c st w (.accept v st' w')
  | acceptFail {w' : σ} {e : E} :
      (∀ f, st.next ≠ some (.error f)) → ¬ Reported debug gi F sem c →
      Accepting gi.indexedGrammar.cfg F.NodesFirst (gi.tokMatch sem) c →
      gi.walkIds sem src (.node 0 (Forest.ofTrees c.trees) .nil) (src w0) = (.error (some e), (st.next, w')) →
      FedStep debug gi F kt sem into src w0 c st w (.fail (.user e) w')
  | stuck : (∀ f, st.next ≠ some (.error f)) → ¬ Reported debug gi F sem c →
      Stuck gi.indexedGrammar.cfg F.NodesFirst (gi.tokMatch sem) c →
      FedStep debug gi F kt sem into src w0 c st w (.fail (.parseError c.input.head?) w)

/-- States of a run, with the items that have been read. -/
inductive FedReach (debug : Bool) (sem : Sem P V E σ) (into : F' → E) (src : Source P F' σ)
    (prog : Program) (w0 : σ) : List (Option (Item P F')) → PState P V F' → σ → Prop
  | start : FedReach debug sem into src prog w0 [(src w0).1] ⟨(src w0).1, 1, [(LRTable.rootState, .unit)]⟩
      (src w0).2
  | step {its : List (Option (Item P F'))} {st st' : PState P V F'} {w w' : σ} :
      FedReach debug sem into src prog w0 its st w →
      prog.stepFed debug sem into src st w = .ok (.next st' w') →
      FedReach debug sem into src prog w0
        (if st'.pulled = st.pulled then its else its ++ [st'.next]) st' w'

/-- What is read ahead, in terms of tokens. -/
theorem peek_of {items : Nat → Option (Item P F')} {W : List (Token P)} (hW : Begins items W)
    {st : PState P V F'} {c : Config Nat Nat (Token P)} (hu : ∃ u, W = u ++ c.input)
    (hpull : st.pulled + c.input.length = W.length + 1) (hnext : st.next = items (W.length - c.input.length))
    (hend : st.pulled ≤ W.length ∨ EndsAfter items W) :
    (∃ f, st.next = some (.error f)) ∨ st.next = c.input.head?.map .ok := by
  obtain ⟨u, hu⟩ := hu
  have hulen : W.length - c.input.length = u.length := by
    rw [hu, List.length_append]; omega
  cases hz : c.input with
  | cons a z =>
    right
    rw [hnext, hulen]
    exact hW _ _ (by rw [hu, hz]; simp)
  | nil =>
    rw [hz] at hpull hnext
    rcases hend with h1 | h1
    · simp at hpull; omega
    · rw [hnext]
      simp only [List.length_nil, Nat.sub_zero, List.head?_nil, Option.map_none]
      cases hi : items W.length with
      | none => exact .inr rfl
      | some x =>
        cases x with
        | error f => exact .inl ⟨f, rfl⟩
        | ok a => exact absurd hi (h1 a)

namespace GenCtx
variable (h : GenCtx o lex gi prog F kt) {w0 : σ}
include h

/-- **One iteration.** -/
theorem stepFed {c : Config Nat Nat (Token P)} {st : PState P V F'} {w : σ}
    (hh : HoldsFed gi F kt sem src w0 st w c)
    (hp : (∃ f, st.next = some (.error f)) ∨ st.next = c.input.head?.map .ok) :
    ∃ res, prog.stepFed debug sem into src st w = .ok res ∧
      FedStep debug gi F kt sem into src w0 c st w res := by
  obtain ⟨vs, hg, hev⟩ := hh
  obtain ⟨res, h1, h2⟩ := h.stepG (debug := debug) (into := into) (items := fun _ => (src w).1) (w := w) hg hp
  refine ⟨_, Program.stepFed_of_step h1, ?_⟩
  have hnode : ∀ {x : Except E (Val P V)} {w' : σ}, construct gi sem (gi.indexedGrammar.orig 0) vs w = (x, w') →
      gi.walkIds sem src (.node 0 (Forest.ofTrees c.trees) .nil) (src w0) =
        match x with
        | .ok v => (.ok [v], st.next, w')
        | .error e => (.error (some e), st.next, w') := by
    intro x w' hx
    simp only [GrammarInfo.walkIds, walk] at hev ⊢
    rw [hev, andThen_ok]
    cases x with
    | ok v => rw [useRule_ok (apply := fun i => construct gi sem (gi.indexedGrammar.orig i)) (i := 0) hx]; rfl
    | error e => rw [useRule_error (apply := fun i => construct gi sem (gi.indexedGrammar.orig i)) (i := 0) hx]; rfl
  cases h2 with
  | stream g => exact .stream g
  | overlap g1 g2 => exact .overlap g1 g2
  | @shift a z k st' g1 g2 g3 g4 g5 g6 g7 =>
    have hne : ¬ st'.pulled = st.pulled := by omega
    simp only [StepResult.fed, if_neg hne]
    refine .shift g1 g2 g4 g5 g6 ⟨_, g7, ?_⟩
    have hn : st.next = some (.ok a) := by
      rcases hp with ⟨f, hf⟩ | hp
      · exact absurd hf (g1 f)
      · rw [hp, g3]; rfl
    have hev' := walk_leaf (a := a) hev
    rw [hn, useToken_same, andThen_ok] at hev'
    rw [GrammarInfo.walkIds, hev', g5]
  | @reduce _ _ i _ _ _ _ _ g1 g2 g3 g4 g5 g6 g7 g8 g9 =>
    simp only [StepResult.fed, if_pos g8]
    refine .reduce g1 g2 g5 g7 g8 ⟨_, g9, ?_⟩
    rw [g3] at hev
    rw [GrammarInfo.walkIds, walk_reduce hev g4,
      useRule_ok (apply := fun i => construct gi sem (gi.indexedGrammar.orig i)) (i := i) g6, andThen_ok, g7]
  | @reduceFail _ _ i _ _ _ _ g1 g2 g3 g4 g5 g6 =>
    refine .reduceFail g1 g2 g5 ?_
    rw [g3] at hev
    rw [GrammarInfo.walkIds, walk_reduce hev g4,
      useRule_error (apply := fun i => construct gi sem (gi.indexedGrammar.orig i)) (i := i) g6, andThen_error]
  | accept g1 g2 g3 g4 g5 g6 g7 g8 => exact .accept g1 g2 g3 (hnode g6) g7 g8
  | acceptFail g1 g2 g3 g4 g5 g6 => exact .acceptFail g1 g2 g3 (hnode g6)
  | stuck g1 g2 g3 => exact .stuck g1 g2 g3

/-- Any state of a run stands for a configuration of the canonical parser. -/
theorem reachFed {its : List (Option (Item P F'))} {st : PState P V F'} {w : σ}
    (hr : FedReach debug sem into src prog w0 its st w) {items : Nat → Option (Item P F')}
    (hits : ∀ i x, its[i]? = some x → items i = x)
    {W : List (Token P)} (hW : Begins items W) (hend : st.pulled ≤ W.length ∨ EndsAfter items W) :
    its.length = st.pulled ∧
    ∃ c tr, Steps gi.indexedGrammar.cfg F.NodesFirst (gi.tokMatch sem) (.start W) c tr ∧
      HoldsFed gi F kt sem src w0 st w c ∧ st.pulled + c.input.length = W.length + 1 ∧
      st.next = items (W.length - c.input.length) ∧
      ((∃ f, st.next = some (.error f)) ∨ st.next = c.input.head?.map .ok) := by
  induction hr with
  | start =>
    have hn : (src w0).1 = items (W.length - W.length) := by
      rw [Nat.sub_self]
      exact (hits 0 _ rfl).symm
    exact ⟨rfl, .start W, [], .refl _, ⟨[], .nil, rfl⟩, by simp [Config.start]; omega, hn,
      peek_of hW (c := .start W) ⟨[], rfl⟩ (by simp [Config.start]; omega) hn hend⟩
  | @step its st st' w w' _ hs ih =>
    have hits0 : ∀ i x, its[i]? = some x → items i = x := by
      intro i x hx
      refine hits i x ?_
      split
      · exact hx
      · rw [List.getElem?_append_left (List.getElem?_eq_some_iff.mp hx).1, hx]
    -- an iteration does not give items back
    have hmono : st.pulled ≤ st'.pulled := by
      by_contra hlt
      unfold Program.stepFed at hs
      obtain ⟨top, h1, hs⟩ := Outcome.bind_eq_ok.mp hs
      obtain ⟨code, h2, hs⟩ := Outcome.bind_eq_ok.mp hs
      unfold StateCode.runFed at hs
      have hact : ∀ peeked, code.actFed sem src peeked st w = .ok (.next st' w') → False := by
        intro peeked hs
        unfold StateCode.actFed at hs
        split at hs
        · unfold ShiftArm.runFed at hs
          obtain ⟨v, h3, hs⟩ := Outcome.bind_eq_ok.mp hs
          obtain ⟨⟨st1, w1⟩, h4, hs⟩ := Outcome.bind_eq_ok.mp hs
          unfold PState.advanceFed at h4
          obtain ⟨_, h5, h4⟩ := Outcome.bind_eq_ok.mp h4
          cases h4
          cases hs
          simp only [PState.push] at hlt
          omega
        · split at hs
          · exact hlt (by rw [(ReduceArm.run_stays hs).2])
          · split at hs
            · exact hlt (by rw [(AcceptArm.run_stays hs).2])
            · cases hs
      have hcheck : ∀ peeked, code.checkFed debug sem src peeked st w = .ok (.next st' w') → False := by
        intro peeked hs
        unfold StateCode.checkFed at hs
        split at hs
        · cases hs
        · exact hact _ hs
      split at hs
      · cases hs
      · exact hcheck _ hs
      · exact hcheck _ hs
    obtain ⟨hl, c, tr, h1, h2, h3, h4, h5⟩ := ih hits0 (hend.imp (fun h => by omega) id)
    obtain ⟨res, e, hg⟩ := h.stepFed (debug := debug) (into := into) h2 h5
    rw [hs] at e
    cases e
    cases hg with
    | @shift c' _ _ _ g3 g4 g5 g6 =>
      have hc : c.input.length = c'.input.length + 1 := by
        cases g3; rfl
      have hne : ¬ st'.pulled = st.pulled := by omega
      rw [if_neg hne] at hits ⊢
      have hlast : items its.length = st'.next := hits _ _ (by simp)
      have e3 : st'.pulled + c'.input.length = W.length + 1 := by omega
      have e4 : st'.next = items (W.length - c'.input.length) := by
        rw [← hlast]; congr 1; omega
      have hst := h1.snoc g3
      exact ⟨by simp; omega, c', _, hst, g6, e3, e4, peek_of hW hst.suffix e3 e4 hend⟩
    | @reduce c' i _ _ _ _ g3 g4 g5 g6 =>
      have hc : c'.input = c.input := by
        cases g3; rfl
      rw [if_pos g5]
      have e3 : st'.pulled + c'.input.length = W.length + 1 := by rw [g5, hc]; exact h3
      have e4 : st'.next = items (W.length - c'.input.length) := by rw [g4, hc]; exact h4
      have hst := h1.snoc g3
      exact ⟨by omega, c', _, hst, g6, e3, e4, peek_of hW hst.suffix e3 e4 hend⟩

end GenCtx

/-- The end of a run. -/
inductive FedEnds (prog : Program) (debug : Bool) (sem : Sem P V E σ) (into : F' → E)
    (src : Source P F' σ) (st : PState P V F') (w : σ) : Run P V E σ → Prop
  | accept {v : Val P V} {st' : PState P V F'} {w' : σ} :
      prog.stepFed debug sem into src st w = .ok (.accept v st' w') →
      FedEnds prog debug sem into src st w ⟨.ok v, w', st'.pulled, st'.stack⟩
  | fail {e : ParseErr P E} {w' : σ} :
      prog.stepFed debug sem into src st w = .ok (.fail e w') →
      FedEnds prog debug sem into src st w ⟨.error e, w', st.pulled, st.stack⟩

theorem loopFed_ends {fuel : Nat} {run : Run P V E σ} {w0 : σ} :
    ∀ {its : List (Option (Item P F'))} {st : PState P V F'} {w : σ},
      FedReach debug sem into src prog w0 its st w →
      prog.loopFed debug sem into src fuel st w = .ok run →
      ∃ its' st' w', FedReach debug sem into src prog w0 its' st' w' ∧
        FedEnds prog debug sem into src st' w' run := by
  induction fuel with
  | zero => intro its st w _ h; cases h
  | succ fuel ih =>
    intro its st w hr h
    unfold Program.loopFed at h
    obtain ⟨res, h1, h⟩ := Outcome.bind_eq_ok.mp h
    cases res with
    | next st' w' => exact ih (.step hr h1) h
    | accept v st' w' => cases h; exact ⟨its, st, w, hr, .accept h1⟩
    | fail e w' => cases h; exact ⟨its, st, w, hr, .fail h1⟩

/-- The end of a run: the configuration, the state and the last step. -/
structure FedFinish (debug : Bool) (gi : GrammarInfo) (F : FirstTable) (kt : KernelTable) (sem : Sem P V E σ)
    (into : F' → E) (src : Source P F' σ) (w0 : σ) (W : List (Token P))
    (c : Config Nat Nat (Token P)) (tr : List Nat) (st : PState P V F') (w : σ)
    (res : StepResult P V E F' σ) (run : Run P V E σ) : Prop where
  steps : Steps gi.indexedGrammar.cfg F.NodesFirst (gi.tokMatch sem) (.start W) c tr
  holds : HoldsFed gi F kt sem src w0 st w c
  pulled : st.pulled + c.input.length = W.length + 1
  peek : (∃ f, st.next = some (.error f)) ∨ st.next = c.input.head?.map .ok
  gen : FedStep debug gi F kt sem into src w0 c st w res
  done : (∃ v st' w', res = .accept v st' w' ∧ run = ⟨.ok v, w', st'.pulled, st'.stack⟩) ∨
    ∃ e w', res = .fail e w' ∧ run = ⟨.error e, w', st.pulled, st.stack⟩
  total : run.pulled = st.pulled

namespace GenCtx
variable (h : GenCtx o lex gi prog F kt) {w0 : σ}
include h

theorem finishFed {fuel : Nat} {run : Run P V E σ}
    (hrun : prog.parseFed debug sem into src fuel w0 = .ok run) :
    ∃ W c tr st w res, FedFinish debug gi F kt sem into src w0 W c tr st w res run := by
  obtain ⟨its, st, w, hr, he⟩ := loopFed_ends .start hrun
  have hits : ∀ (i : Nat) (x : Option (Item P F')), its[i]? = some x → (its[i]?).join = x := by
    intro i x hx
    rw [hx]; rfl
  obtain ⟨hW, hend⟩ := begins_tokensOf (fun i => (its[i]?).join) st.pulled
  obtain ⟨-, c, tr, h1, h2, h3, -, h5⟩ := h.reachFed hr hits hW hend
  obtain ⟨res, e, hg⟩ := h.stepFed (debug := debug) (into := into) h2 h5
  cases he with
  | accept hs =>
    rw [hs] at e
    cases e
    refine ⟨_, c, tr, st, w, _, h1, h2, h3, h5, hg, .inl ⟨_, _, _, rfl, rfl⟩, ?_⟩
    cases hg with
    | accept _ _ _ _ _ g => exact g
  | fail hs =>
    rw [hs] at e
    cases e
    exact ⟨_, c, tr, st, w, _, h1, h2, h3, h5, hg, .inr ⟨_, _, rfl, rfl⟩, rfl⟩

/-- The loop does not panic. -/
theorem loopFed_safe {fuel : Nat} :
    ∀ {its : List (Option (Item P F'))} {st : PState P V F'} {w : σ},
      FedReach debug sem into src prog w0 its st w →
      prog.loopFed debug sem into src fuel st w = .timeout ∨
        ∃ run, prog.loopFed debug sem into src fuel st w = .ok run := by
  induction fuel with
  | zero => intro its st w _; exact .inl rfl
  | succ fuel ih =>
    intro its st w hr
    have hits : ∀ (i : Nat) (x : Option (Item P F')), its[i]? = some x → (its[i]?).join = x := by
      intro i x hx
      rw [hx]; rfl
    obtain ⟨hW, hend⟩ := begins_tokensOf (fun i => (its[i]?).join) st.pulled
    obtain ⟨-, c, tr, h1, h2, h3, -, h5⟩ := h.reachFed hr hits hW hend
    obtain ⟨res, e, hg⟩ := h.stepFed (debug := debug) (into := into) h2 h5
    unfold Program.loopFed
    rw [e, Outcome.ok_bind]
    cases res with
    | next st' w' => exact ih (.step hr e)
    | accept v st' w' => exact .inr ⟨_, rfl⟩
    | fail e w' => exact .inr ⟨_, rfl⟩

end GenCtx
end Verif
