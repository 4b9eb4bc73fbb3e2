import Verif.Proof.Linear
import Verif.Props.Agree

/-!
# C53: parsing takes linear time
-/

set_option linter.unusedSectionVars false
set_option autoImplicit false

namespace Verif
open Spec

namespace C53

section
variable {T L : Type} [DecidableEq T] [DecidableEq L]

/-- **C53 (simulator).** For every parser there is a number `K` such that every list of `n` tokens is parsed
within `K * (n + 1)` iterations of the loop, whether it is accepted or not. -/
theorem simulator_linear (g : Grammar T L) (p : SimParser T L) (fuel : Nat) (hg : WellFormed g)
    (hp : SimParser.new fuel g = .ok p) :
    ∃ K, ∀ w : List T, ∃ b, ∀ fuel' ≥ K * (w.length + 1),
      (p.parseStream fuel' w : Outcome (LRTableError T L) _) = .ok b := by
  obtain ⟨F, kt, h⟩ := ready hg hp
  obtain ⟨K, hK⟩ := reaches_final_in h.good.rootOk h.good.justified h.good.noEos
  refine ⟨K + 1, fun w => ?_⟩
  obtain ⟨c, tr, h1, h2, h3⟩ := hK T (tokMatch p.grammar) w
  have hN := loop_terminates (ε := LRTableError T L) h.good h1 h2 .nil
  have hN := hN (tr.length + w.length + 1) (Nat.le_refl _)
  have hle : tr.length + w.length + 1 ≤ (K + 1) * (w.length + 1) := by
    rw [Nat.succ_mul]
    omega
  rcases h.result (tr.length + w.length + 1) w with e | ⟨c', tr', -, ⟨-, e⟩ | ⟨-, e⟩⟩
  · exact absurd e hN
  · exact ⟨true, fun fuel' hf => loop_mono (Nat.le_trans hle hf) e⟩
  · exact ⟨false, fun fuel' hf => loop_mono (Nat.le_trans hle hf) e⟩

/-- The sample parser. -/
example : ∃ p K, SimParser.new 20 sampleLR = .ok p ∧ ∀ w : List Nat, ∃ b, ∀ fuel ≥ K * (w.length + 1),
    (p.parseStream fuel w : Outcome (LRTableError Nat Nat) _) = .ok b := by
  obtain ⟨p, h1, -⟩ := sampleLR_parser
  obtain ⟨K, h⟩ := simulator_linear _ p _ sampleLR_wellFormed h1
  exact ⟨p, K, h1, h⟩

end

section
variable {P V E F' σ : Type} [DecidableEq P] {lex : Lexer} {o : HashOrder} {gi : GrammarInfo} {prog : Program}

/-- **C53 (generated parsers), partial.** For every generated parser there is a number `K` such that every stream of `n`
tokens, followed by the end or an error, is parsed within `K * (n + 1)` iterations of the loop. `K` depends
neither on the stream nor on the types and the meaning of terminals and constructors. Missing: parsers with
overlapping patterns and missing actions, without the debug check for overlaps; these can loop for ever
(`C03.generated_terminates_refuted`). -/
theorem generated_linear_partial (h : Generated o lex gi prog) :
    ∃ K, ∀ {P V E F' σ : Type} [DecidableEq P] (debug : Bool) (sem : Sem P V E σ) (into : F' → E)
      (items : Nat → Option (Item P F')) (W : List (Token P)) (w0 : σ),
      (debug = true ∧ ∃ ty, gi.terminalType = .enum ty) ∨ gi.Disjoint sem ∨ C07.ActionsComplete gi.grammar →
      (∀ i a, W[i]? = some a → items i = some (.ok a)) →
      (∀ a, items W.length ≠ some (.ok a)) →
      ∃ run, ∀ fuel ≥ K * (W.length + 1), prog.parseFallible debug sem into items fuel w0 = .ok run := by
  obtain ⟨F, kt, hF, hc⟩ := h.ctx
  obtain ⟨K, hK⟩ := reaches_final_in hc.good.rootOk hc.good.justified hc.good.noEos
  obtain ⟨K', hK'⟩ : ∃ K', C07.ActionsComplete gi.grammar →
      ∀ {P V E F' σ : Type} [DecidableEq P] (debug : Bool) (sem : Sem P V E σ) (into : F' → E)
        (items : Nat → Option (Item P F')) (W : List (Token P)) (w0 : σ), Begins items W → EndsAfter items W →
        ∃ run, prog.parseFallible debug sem into items (K' * (W.length + 1)) w0 = .ok run := by
    by_cases hA : C07.ActionsComplete gi.grammar
    · obtain ⟨K', hK'⟩ := hc.ends_of_covers (h.closed hA hF)
      exact ⟨K', fun _ => hK'⟩
    · exact ⟨0, fun h => absurd h hA⟩
  refine ⟨max (K + 1) K', ?_⟩
  intro P V E F' σ _ debug sem into items W w0 ho hW hend
  rw [← or_assoc] at ho
  rcases ho with ho | hA
  · obtain ⟨c, tr, h1, h2, h3⟩ := hK (Token P) (gi.tokMatch sem) W
    obtain ⟨run, hN⟩ := hc.parse_ends_in (debug := debug) (into := into) (items := items) (w0 := w0)
      (sem := sem) (by
        intro c hov
        rcases ho with ⟨h1, ty, h2⟩ | hD
        · exact ⟨h1, by rw [h2]; rfl, hov⟩
        · exact absurd hov (not_overlap_of_unique (h.unique hD))) hW hend h1 h2
    refine ⟨run, fun fuel hf => Program.loop_mono (Nat.le_trans ?_ hf) hN⟩
    refine Nat.le_trans ?_ (Nat.mul_le_mul_right _ (Nat.le_max_left ..))
    rw [Nat.succ_mul]
    omega
  · obtain ⟨run, hN⟩ := hK' hA debug sem into items W w0 hW hend
    exact ⟨run, fun fuel hf => Program.loop_mono
      (Nat.le_trans (Nat.mul_le_mul_right _ (Nat.le_max_right ..)) hf) hN⟩

/-- **C53 (stack), partial.** On a stream that has at most `n` tokens before its end or its first error, the stack of a
generated parser never has more than `K * (n + 1)` entries. Missing: as in `generated_linear_partial`. -/
theorem generated_stack_partial (h : Generated o lex gi prog) :
    ∃ K, ∀ {P V E F' σ : Type} [DecidableEq P] (debug : Bool) (sem : Sem P V E σ) (into : F' → E)
      (items : Nat → Option (Item P F')) (W : List (Token P)) (w0 : σ) (st : PState P V F') (w : σ),
      (debug = true ∧ ∃ ty, gi.terminalType = .enum ty) ∨ gi.Disjoint sem ∨ C07.ActionsComplete gi.grammar →
      (∀ i a, W[i]? = some a → items i = some (.ok a)) →
      (∀ a, items W.length ≠ some (.ok a)) →
      GenReach debug sem into items prog w0 st w → st.stack.length ≤ K * (W.length + 1) := by
  obtain ⟨K, hK⟩ := generated_linear_partial h
  obtain ⟨F, kt, -, hc⟩ := h.ctx
  refine ⟨K + 2, ?_⟩
  intro P V E F' σ _ debug sem into items W w0 st w ho hW hend hr
  obtain ⟨run, hrun⟩ := hK debug sem into items W w0 ho hW hend
  obtain ⟨n, hn⟩ := hr.after
  have hle : n ≤ K * (W.length + 1) := by
    apply Nat.le_of_not_lt
    intro hlt
    exact Program.after_loop (k := 0) (n := n) rfl (by rw [Nat.zero_add]; exact hn) (hrun n (Nat.le_of_lt hlt))
  obtain ⟨c, tr, h4, h5, h6⟩ := hc.after_steps hW hend hn
  obtain ⟨vs, hs, -⟩ := h6.holds
  have hh := h4.height
  have hl := hs.length.1
  simp only [Config.start, List.length_nil] at hh
  rw [Nat.add_mul]
  omega

/-- The sample parser, on every finite list of its tokens. -/
example : ∃ gi prog, Generated .id Sample.lexer gi prog ∧ gi.Disjoint Sample.sem ∧
    ∃ K, ∀ (W : List (Token Nat)) (w0 : Nat), ∃ run, ∀ fuel ≥ K * (W.length + 1),
      prog.parseFallible false Sample.sem (id : String → String) (fun i => W[i]?.map .ok) fuel w0 = .ok run := by
  obtain ⟨gi, prog, h, h1, h2, -⟩ := Sample.generated
  obtain ⟨K, hK⟩ := generated_linear_partial h
  exact ⟨gi, prog, h, Sample.disjoint h1 h2, K, fun W w0 => hK false Sample.sem id _ W w0
    (.inr (.inl (Sample.disjoint h1 h2))) (fun i a e => by rw [e]; rfl) (by simp)⟩

end
end C53
end Verif
