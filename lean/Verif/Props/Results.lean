import Verif.Proof.Results
import Verif.Props.Agree
import Verif.Props.Conflict

/-!
# C61: parsers do what the LR(1) parser of the grammar does
-/

set_option linter.unusedSectionVars false
set_option autoImplicit false

namespace Verif
open Spec

section
variable {T L A V E σ : Type} {P : List (Rule T L)} {first first' : List (Node T L) → AugTok T → Prop}
  {m : A → T → Prop} {tok : A → V} {apply : Nat → List V → σ → Except E V × σ} {w0 : σ} {W : List A}

/-- Parsers with the same actions end alike. -/
theorem Spec.Ends.congr (hd : Demands P first = Demands P first') :
    Ends P first m tok apply w0 W = Ends P first' m tok apply w0 W := by
  have key : ∀ {f f' : List (Node T L) → AugTok T → Prop}, Demands P f = Demands P f' → ∀ r w z,
      Ends P f m tok apply w0 W r w z → Ends P f' m tok apply w0 W r w z := by
    intro f f' hd r w z h
    cases h with
    | accept h1 h2 h3 h4 => exact .accept ((Steps.congr hd).mp h1) h2 ((Accepting.congr hd).mp h3) h4
    | acceptFail h1 h2 h3 h4 => exact .acceptFail ((Steps.congr hd).mp h1) h2 ((Accepting.congr hd).mp h3) h4
    | reduceFail h1 h2 h3 h4 => exact .reduceFail ((Steps.congr hd).mp h1) h2 ((Step.congr hd).mp h3) h4
    | stuck h1 h2 h3 => exact .stuck ((Steps.congr hd).mp h1) h2 ((Stuck.congr hd).mp h3)
  funext r w z
  exact propext ⟨key hd r w z, key hd.symm r w z⟩

theorem Spec.BreaksOff.congr (hd : Demands P first = Demands P first') (e : E) :
    BreaksOff P first m tok apply w0 W e = BreaksOff P first' m tok apply w0 W e := by
  have key : ∀ {f f' : List (Node T L) → AugTok T → Prop}, Demands P f = Demands P f' → ∀ r w z,
      BreaksOff P f m tok apply w0 W e r w z → BreaksOff P f' m tok apply w0 W e r w z := by
    intro f f' hd r w z h
    cases h with
    | before h => exact .before (by rwa [Spec.Ends.congr hd] at h)
    | nothing h => exact .nothing h
    | shifted h1 h2 h3 h4 => exact .shifted ((Steps.congr hd).mp h1) ((Step.congr hd).mp h2) h3 h4
  funext r w z
  exact propext ⟨key hd r w z, key hd.symm r w z⟩

end

section
variable {P V E F' σ : Type} [DecidableEq P]

/-- `a` stands for the terminal `s` of the grammar. -/
def GrammarInfo.Means (gi : GrammarInfo) (sem : Sem P V E σ) (a : Token P) (s : Sym) : Prop :=
  gi.Terminal s ∧ Matches sem gi.terminalType a s

/-- What `parse` returns for the end of a parse. -/
def resultOf : End (Token P) (Val P V) E → Except (ParseErr P E) (Val P V)
  | .value v => .ok v
  | .failed e => .error (.user e)
  | .unexpected a => .error (.parseError a)

theorem resultOf_inj {r r' : End (Token P) (Val P V) E} (h : resultOf r = resultOf r') : r = r' := by
  cases r <;> cases r' <;> simp_all [resultOf]

variable {sem : Sem P V E σ} {lex : Lexer} {o : HashOrder} {gi : GrammarInfo} {prog : Program}

theorem GrammarInfo.Disjoint.unique (hD : gi.Disjoint sem) : Unique (gi.Means sem) :=
  fun a _ _ h1 h2 => hD a _ _ h1.1 h2.1 h1.2 h2.2

theorem Generated.tokMatch_eq (h : Generated o lex gi prog) :
    gi.tokMatch sem = idMatch gi.indexedGrammar (gi.Means sem) := by
  funext a k
  refine propext ⟨?_, ?_⟩
  · rintro ⟨t, h1, h2⟩
    exact ⟨t, h1, h.used (List.mem_of_getElem? h1), h2⟩
  · rintro ⟨t, h1, h2, h3⟩
    exact ⟨t, h1, h3⟩

theorem Generated.noConflict (h : Generated o lex gi prog) :
    NoConflict gi.grammar.productions (seqFirst (Recorded gi.grammar)) := by
  obtain ⟨F, kt, hF, hc⟩ := h.ctx
  exact (noConflict_iff hc.enc (sameFirst_recorded h.grammar hF)).mp hc.good.noConflict

end

namespace C61
section
variable {P V E F' σ : Type} [DecidableEq P] {lex : Lexer} {o : HashOrder} {gi : GrammarInfo} {prog : Program}

/-- **C61 (generated parsers).** On a finite stream of tokens, a generated parser does exactly what the LR(1) parser
for the user's grammar does: the same value, the same error of a constructor or the same unexpected token, the same
effects of the constructors, and the same number of tokens read. FIRST sets as recorded by the code. -/
theorem generated_is_lr1 (h : Generated o lex gi prog) (debug : Bool) (sem : Sem P V E σ) (into : F' → E)
    (items : Nat → Option (Item P F')) (W : List (Token P)) (w0 : σ) (hD : gi.Disjoint sem)
    (hW : ∀ i a, W[i]? = some a → items i = some (.ok a)) (hend : items W.length = none) :
    ∃ N run r z, (∀ fuel ≥ N, prog.parseFallible debug sem into items fuel w0 = .ok run) ∧
      run.result = resultOf r ∧ run.pulled + z.length = W.length + 1 ∧
      Ends gi.grammar.productions (seqFirst (Recorded gi.grammar)) (gi.Means sem) .tok (construct gi sem) w0 W
        r run.world z ∧
      ∀ r' w' z', Ends gi.grammar.productions (seqFirst (Recorded gi.grammar)) (gi.Means sem) .tok (construct gi sem) w0
        W r' w' z' → r' = r ∧ w' = run.world ∧ z' = z := by
  obtain ⟨N, run, hN⟩ := C03.generated_terminates_partial h debug sem into items W w0 (.inr (.inl hD)) hW
    (by rw [hend]; intro a; simp)
  obtain ⟨F, kt, hF, hx⟩ := h.ctx
  have hU := h.unique hD
  have hS := sameFirst_recorded h.grammar hF
  obtain ⟨c, tr, st, w1, res, hfin⟩ := hx.finish (hN N (Nat.le_refl _)) hW
    (.inr (by intro a; rw [hend]; simp))
  have hno : ∀ f, st.next ≠ some (.error f) := by
    intro f e
    rw [hfin.next] at e
    rcases Nat.eq_or_lt_of_le (Nat.sub_le W.length c.input.length) with e' | hlt
    · rw [e', hend] at e; cases e
    · rw [hW _ _ (List.getElem?_eq_getElem hlt)] at e; cases e
  obtain ⟨vs, -, hvs⟩ := hfin.holds
  have hnode : ∀ {x : Except E (List (Val P V)) × σ},
      eval .tok (fun i => construct gi sem (gi.indexedGrammar.orig i)) (.node 0 (Forest.ofTrees c.trees) .nil) w0 = x →
      (∀ v w', x = (.ok [v], w') → construct gi sem (gi.indexedGrammar.orig 0) vs w1 = (.ok v, w')) ∧
      (∀ e w', x = (.error e, w') → construct gi sem (gi.indexedGrammar.orig 0) vs w1 = (.error e, w')) := by
    intro x hx'
    simp only [eval, hvs, andThen] at hx'
    rcases hcon : construct gi sem (gi.indexedGrammar.orig 0) vs w1 with ⟨_ | _, w2⟩ <;>
      rw [hcon] at hx' <;> simp only at hx' <;> subst hx' <;> simp
  have key : ∃ r, run.result = resultOf r ∧
      Ends gi.grammar.productions (seqFirst (Recorded gi.grammar)) (gi.Means sem) .tok (construct gi sem) w0 W r run.world
        c.input := by
    have hgen := hfin.gen
    have hsteps := hfin.steps
    have hM := h.tokMatch_eq (sem := sem)
    rw [hM] at hsteps
    rcases hfin.done with ⟨v', st', w', rfl, rfl⟩ | ⟨e, w', rfl, rfl⟩
    · cases hgen with
      | accept _ _ g1 g2 g3 g4 =>
        rw [hM] at g1
        exact ⟨.value v', rfl, ends_dec hx.enc hS (.accept hsteps hvs g1 ((hnode g4).1 _ _ rfl))⟩
    · cases hgen with
      | stream g => exact absurd g (hno _)
      | overlap _ g => exact absurd g.2.2 (not_overlap_of_unique hU)
      | stuck _ _ g =>
        rw [hM] at g
        exact ⟨.unexpected _, rfl, ends_dec hx.enc hS (.stuck hsteps hvs g)⟩
      | acceptFail _ _ g1 g2 g3 g4 =>
        rw [hM] at g1
        exact ⟨.failed _, rfl, ends_dec hx.enc hS (.acceptFail hsteps hvs g1 ((hnode g4).2 _ _ rfl))⟩
      | reduceFail g0 _ g1 g2 =>
        rw [hM] at g1
        exact ⟨.failed _, rfl, ends_dec hx.enc hS (.reduceFail hsteps hvs g1 g2)⟩
  obtain ⟨r, hr, he⟩ := key
  refine ⟨N, run, r, c.input, hN, hr, by rw [hfin.total]; exact hfin.pulled, he, fun r' w' z' h' => ?_⟩
  obtain ⟨rfl, rfl, rfl⟩ := he.unique h.noConflict hD.unique h'
  exact ⟨rfl, rfl, rfl⟩

/-- **C61, partial: the true LR(1) parser**, for grammars with no action missing. (Missing: the others, for
which the claim is false.) -/
theorem generated_is_lr1_partial (h : Generated o lex gi prog) (debug : Bool) (sem : Sem P V E σ) (into : F' → E)
    (items : Nat → Option (Item P F')) (W : List (Token P)) (w0 : σ) (hD : gi.Disjoint sem)
    (hc : C07.ActionsComplete gi.grammar)
    (hW : ∀ i a, W[i]? = some a → items i = some (.ok a)) (hend : items W.length = none) :
    ∃ N run r z, (∀ fuel ≥ N, prog.parseFallible debug sem into items fuel w0 = .ok run) ∧
      run.result = resultOf r ∧ run.pulled + z.length = W.length + 1 ∧
      Ends gi.grammar.productions (InFirst gi.grammar.productions) (gi.Means sem) .tok (construct gi sem) w0 W
        r run.world z ∧
      ∀ r' w' z', Ends gi.grammar.productions (InFirst gi.grammar.productions) (gi.Means sem) .tok (construct gi sem) w0
        W r' w' z' → r' = r ∧ w' = run.world ∧ z' = z := by
  rw [← Spec.Ends.congr hc.eq]
  exact generated_is_lr1 h debug sem into items W w0 hD hW hend

/-- **C61 (streams that fail).** On a stream that fails after finitely many tokens, a generated parser does exactly what
the LR(1) parser for the user's grammar does on an input that breaks off there: it ends before the failure as on every
input that begins like this, or it returns the error of the stream right after the last token has been shifted, without
any further constructor being run. FIRST sets as recorded by the code. -/
theorem broken_is_lr1 (h : Generated o lex gi prog) (debug : Bool) (sem : Sem P V E σ) (into : F' → E)
    (items : Nat → Option (Item P F')) (W : List (Token P)) (f : F') (w0 : σ) (hD : gi.Disjoint sem)
    (hW : ∀ i a, W[i]? = some a → items i = some (.ok a)) (hend : items W.length = some (.error f)) :
    ∃ N run r z, (∀ fuel ≥ N, prog.parseFallible debug sem into items fuel w0 = .ok run) ∧
      run.result = resultOf r ∧ run.pulled + z.length = W.length + 1 ∧
      BreaksOff gi.grammar.productions (seqFirst (Recorded gi.grammar)) (gi.Means sem) .tok (construct gi sem) w0 W
        (into f) r run.world z ∧
      ∀ r' w' z', BreaksOff gi.grammar.productions (seqFirst (Recorded gi.grammar)) (gi.Means sem) .tok
        (construct gi sem) w0 W (into f) r' w' z' → r' = r ∧ w' = run.world ∧ z' = z := by
  obtain ⟨N, run, hN⟩ := C03.generated_terminates_partial h debug sem into items W w0 (.inr (.inl hD)) hW
    (by rw [hend]; intro a e; cases e)
  obtain ⟨F, kt, hF, hx⟩ := h.ctx
  have hU := h.unique hD
  have hS := sameFirst_recorded h.grammar hF
  have hE : EndsAfter items W := by intro a; rw [hend]; intro e; cases e
  obtain ⟨c, tr, st, w1, res, hfin⟩ := hx.finish (hN N (Nat.le_refl _)) hW (.inr hE)
  obtain ⟨vs, -, hvs⟩ := hfin.holds
  have hM := h.tokMatch_eq (sem := sem)
  have hle : c.input.length ≤ W.length := by
    obtain ⟨u, hu⟩ := hfin.steps.suffix
    have : W.length = (u ++ c.input).length := congrArg List.length hu
    simp at this
    omega
  have key : ∃ r z, run.result = resultOf r ∧ z.length = c.input.length ∧
      BreaksOff gi.grammar.productions (seqFirst (Recorded gi.grammar)) (gi.Means sem) .tok (construct gi sem) w0 W
        (into f) r run.world z := by
    by_cases hst : ∃ f', st.next = some (.error f')
    · -- the error of the stream is seen
      obtain ⟨f', hf'⟩ := hst
      have hidx : c.input.length = 0 := by
        have hn := hfin.next
        rw [hf'] at hn
        rcases Nat.eq_zero_or_pos c.input.length with e | hpos
        · exact e
        · have hlt : W.length - c.input.length < W.length := by omega
          rw [hW _ _ (List.getElem?_eq_getElem hlt)] at hn
          cases hn
      have hff : f' = f := by
        have hn := hfin.next
        rw [hf', hidx, Nat.sub_zero, hend] at hn
        cases hn
        rfl
      subst hff
      have hpul := hfin.pulled
      have hrun : run.result = .error (.user (into f')) ∧ run.world = w1 := by
        rcases hfin.done with ⟨v', st', w', rfl, rfl⟩ | ⟨e, w', rfl, rfl⟩
        · cases hfin.gen with
          | accept g => exact absurd hf' (g _)
        · cases hfin.gen with
          | stream g => rw [hf'] at g; cases g; exact ⟨rfl, rfl⟩
          | overlap g => exact absurd hf' (g _)
          | reduceFail g => exact absurd hf' (g _)
          | acceptFail g => exact absurd hf' (g _)
          | stuck g => exact absurd hf' (g _)
      refine ⟨.failed (into f'), [], hrun.1, by simp [hidx], ?_⟩
      rw [hrun.2]
      have hr := hfin.reach
      cases hr with
      | start =>
        have : W.length = 0 := by simp only [PState.new] at hpul; omega
        exact .nothing (List.length_eq_zero_iff.mp this)
      | @step st1 _ w2 _ hr1 hs1 =>
        obtain ⟨c1, tr1, res1, k1, k2, k3, k4, k5, k6, k7⟩ := hx.reach_step hr1 hW (.inr hE)
        rw [hs1] at k6
        cases k6
        cases k7 with
        | @shift c' _ g1 g2 g3 g4 g5 g6 =>
          obtain ⟨vs', -, hvs'⟩ := g6
          rw [hM] at k1 g3
          refine breaksOff_dec hx.enc hS (.shifted k1 g3 ?_ hvs')
          have hlen : c1.input.length = 1 := by omega
          cases g3 with
          | @shift γ ts a z t _ _ => simpa using hlen
        | reduce g1 g2 g3 g4 g5 g6 =>
          rw [g4] at hf'
          exact absurd hf' (g1 _)
    · -- the run ends before
      have hst' : ∀ f', st.next ≠ some (.error f') := fun f' e => hst ⟨f', e⟩
      have hpos : c.input ≠ [] := by
        intro e
        have hn := hfin.next
        rw [e, List.length_nil, Nat.sub_zero, hend] at hn
        exact hst' _ hn
      have hnode : ∀ {x : Except E (List (Val P V)) × σ},
          eval .tok (fun i => construct gi sem (gi.indexedGrammar.orig i)) (.node 0 (Forest.ofTrees c.trees) .nil) w0 = x →
          (∀ v w', x = (.ok [v], w') → construct gi sem (gi.indexedGrammar.orig 0) vs w1 = (.ok v, w')) ∧
          (∀ e w', x = (.error e, w') → construct gi sem (gi.indexedGrammar.orig 0) vs w1 = (.error e, w')) := by
        intro x hx'
        simp only [eval, hvs, andThen] at hx'
        rcases hcon : construct gi sem (gi.indexedGrammar.orig 0) vs w1 with ⟨_ | _, w2⟩ <;>
          rw [hcon] at hx' <;> simp only at hx' <;> subst hx' <;> simp
      have key : ∃ r, run.result = resultOf r ∧
          Ends gi.grammar.productions (seqFirst (Recorded gi.grammar)) (gi.Means sem) .tok (construct gi sem) w0 W r
            run.world c.input := by
        have hgen := hfin.gen
        have hsteps := hfin.steps
        rw [hM] at hsteps
        rcases hfin.done with ⟨v', st', w', rfl, rfl⟩ | ⟨e, w', rfl, rfl⟩
        · cases hgen with
          | accept _ _ g1 g2 g3 g4 =>
            rw [hM] at g1
            exact ⟨.value v', rfl, ends_dec hx.enc hS (.accept hsteps hvs g1 ((hnode g4).1 _ _ rfl))⟩
        · cases hgen with
          | stream g => exact absurd g (hst' _)
          | overlap _ g => exact absurd g.2.2 (not_overlap_of_unique hU)
          | stuck _ _ g =>
            rw [hM] at g
            exact ⟨.unexpected _, rfl, ends_dec hx.enc hS (.stuck hsteps hvs g)⟩
          | acceptFail _ _ g1 g2 g3 g4 =>
            rw [hM] at g1
            exact ⟨.failed _, rfl, ends_dec hx.enc hS (.acceptFail hsteps hvs g1 ((hnode g4).2 _ _ rfl))⟩
          | reduceFail g0 _ g1 g2 =>
            rw [hM] at g1
            exact ⟨.failed _, rfl, ends_dec hx.enc hS (.reduceFail hsteps hvs g1 g2)⟩
      obtain ⟨r, hr, he⟩ := key
      rcases hc : c.input with _ | ⟨a, z⟩
      · exact absurd hc hpos
      · rw [hc] at he
        exact ⟨r, a :: z, hr, rfl, .before he⟩
  obtain ⟨r, z, hr, hz, he⟩ := key
  refine ⟨N, run, r, z, hN, hr, by rw [hfin.total, hz]; exact hfin.pulled, he, fun r' w' z' h' => ?_⟩
  obtain ⟨rfl, rfl, rfl⟩ := he.unique h.noConflict hD.unique h'
  exact ⟨rfl, rfl, rfl⟩

/-- **C61 (streams that fail), partial: the true LR(1) parser**, for grammars with no action missing. -/
theorem broken_is_lr1_partial (h : Generated o lex gi prog) (debug : Bool) (sem : Sem P V E σ) (into : F' → E)
    (items : Nat → Option (Item P F')) (W : List (Token P)) (f : F') (w0 : σ) (hD : gi.Disjoint sem)
    (hc : C07.ActionsComplete gi.grammar)
    (hW : ∀ i a, W[i]? = some a → items i = some (.ok a)) (hend : items W.length = some (.error f)) :
    ∃ N run r z, (∀ fuel ≥ N, prog.parseFallible debug sem into items fuel w0 = .ok run) ∧
      run.result = resultOf r ∧ run.pulled + z.length = W.length + 1 ∧
      BreaksOff gi.grammar.productions (InFirst gi.grammar.productions) (gi.Means sem) .tok (construct gi sem) w0 W
        (into f) r run.world z ∧
      ∀ r' w' z', BreaksOff gi.grammar.productions (InFirst gi.grammar.productions) (gi.Means sem) .tok
        (construct gi sem) w0 W (into f) r' w' z' → r' = r ∧ w' = run.world ∧ z' = z := by
  rw [← Spec.BreaksOff.congr hc.eq]
  exact broken_is_lr1 h debug sem into items W f w0 hD hW hend

/-- The hypotheses are met by the sample. -/
example : ∃ gi prog, Generated .id Sample.lexer gi prog ∧ gi.Disjoint Sample.sem ∧ C07.ActionsComplete gi.grammar := by
  obtain ⟨gi, prog, h, h1, h2, -⟩ := Sample.generated
  exact ⟨gi, prog, h, Sample.disjoint h1 h2, (Sample.firstComplete h1).actions⟩

/-- Streams that fail: after `Plus` the failure is seen, after `Plus Num(1) Plus` it is not, the second `Plus` is
rejected before. -/
example : ∃ gi prog, Generated .id Sample.lexer gi prog ∧ gi.Disjoint Sample.sem ∧ C07.ActionsComplete gi.grammar ∧
    (∃ run, prog.parseFallible true Sample.sem id (Sample.stream [.unit "Plus"] (some "i/o")) 50 0 = .ok run ∧
      run.result = resultOf (.failed "i/o")) ∧
    ∃ run, prog.parseFallible true Sample.sem id
        (Sample.stream [.unit "Plus", .data "Num" 1, .unit "Plus"] (some "i/o")) 50 0 = .ok run ∧
      run.result = resultOf (.unexpected (some (.unit "Plus"))) := by
  obtain ⟨gi, prog, h, h1, h2, h3, h4⟩ := Sample.generated
  obtain ⟨run, k1, k2, -⟩ := Sample.run_of h3 h4 Sample.broken
  obtain ⟨run', k1', k2', -⟩ := Sample.run_of h3 h4
    (show Sample.outcome true [.unit "Plus", .data "Num" 1, .unit "Plus"] (some "i/o") =
      .ok (.error (.parseError (some (.unit "Plus"))), 0, 3) by decide +kernel)
  exact ⟨gi, prog, h, Sample.disjoint h1 h2, (Sample.firstComplete h1).actions, ⟨run, k1, k2⟩, run', k1', k2'⟩

end

section
variable {T L : Type} [DecidableEq T] [DecidableEq L] {g : Grammar T L} {p : SimParser T L}

/-- The LR(1) parser of the grammar accepts `w`. -/
def Accepts (g : Grammar T L) (first : List (Node T L) → AugTok T → Prop) (w : List T) : Prop :=
  ∃ c tr, Steps g.productions first (fun a t => a = t) (.start w) c tr ∧ Accepting g.productions first (fun a t => a = t) c

/-- **C61 (simulator).** The parse simulator accepts exactly what the LR(1) parser for the user's grammar accepts. FIRST
sets as recorded by the code. -/
theorem simulator_is_lr1 (hg : WellFormed g) {n : Nat} (hp : SimParser.new n g = .ok p) (w : List T) :
    ∃ N, ∀ fuel ≥ N,
      ((p.parseStream fuel w : Outcome (LRTableError T L) _) = .ok true ↔ Accepts g (seqFirst (Recorded g)) w) ∧
      ((p.parseStream fuel w : Outcome (LRTableError T L) _) = .ok false ↔ ¬ Accepts g (seqFirst (Recorded g)) w) := by
  obtain ⟨F, kt, hR⟩ := ready hg hp
  have hS := sameFirst_recorded hR.built hR.first
  obtain ⟨c', tr', h1, h2⟩ := reaches_final (m := tokMatch p.grammar) hR.good.rootOk
    hR.good.justified hR.good.noEos _ (.start w) rfl .nil
  have hM := loop_terminates (ε := LRTableError T L) hR.good h1 h2 .nil
  refine ⟨tr'.length + w.length + 1, fun fuel hfuel => ?_⟩
  have hn := (noConflict_iff hR.enc hS).mp hR.good.noConflict
  have hu : Unique (fun a t : T => a = t) := by rintro a b b' rfl rfl; rfl
  rcases hR.result fuel w with e | ⟨c, tr, k1, k2⟩
  · exact absurd e (hM fuel hfuel)
  · rw [tokMatch_eq] at k1 k2
    obtain ⟨d, k3, k4⟩ := steps_dec hR.enc hS k1 (.start w)
    rcases k2 with ⟨k5, e⟩ | ⟨k5, e⟩
    · have : Accepts g (seqFirst (Recorded g)) w := ⟨d, _, k3, accepting_dec hR.enc hS k5 k4⟩
      rw [e]
      simp [this]
    · have : ¬ Accepts g (seqFirst (Recorded g)) w := by
        rintro ⟨d', tr2, k6, k7⟩
        have k8 := stuck_dec hR.enc hS k5 k4
        obtain ⟨rfl, -⟩ := k3.unique hn hu (.inr k8) k6 (.inl k7)
        exact stuck_iff.mp k8 _ (accepting_iff.mp k7)
      rw [e]
      simp [this]

/-- **C61 (simulator), partial: the true LR(1) parser**, for grammars with no action missing. -/
theorem simulator_is_lr1_partial (hg : WellFormed g) (hc : C07.ActionsComplete g) {n : Nat} (hp : SimParser.new n g = .ok p)
    (w : List T) :
    ∃ N, ∀ fuel ≥ N,
      ((p.parseStream fuel w : Outcome (LRTableError T L) _) = .ok true ↔ Accepts g (InFirst g.productions) w) ∧
      ((p.parseStream fuel w : Outcome (LRTableError T L) _) = .ok false ↔ ¬ Accepts g (InFirst g.productions) w) := by
  have e : Accepts g (InFirst g.productions) w ↔ Accepts g (seqFirst (Recorded g)) w := by
    unfold Accepts
    simp only [Steps.congr hc.eq, Accepting.congr hc.eq]
  rw [e]
  exact simulator_is_lr1 hg hp w

end
end C61
end Verif
