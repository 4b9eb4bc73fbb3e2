import Verif.Proof.Generated

/-!
# Runs of generated parsers
-/

set_option linter.unusedSectionVars false
set_option autoImplicit false

namespace Verif
open Spec

section
variable {P V E F' σ : Type} [DecidableEq P] {sem : Sem P V E σ} {lex : Lexer} {o : HashOrder}
  {gi : GrammarInfo} {prog : Program} {F : FirstTable} {kt : KernelTable}

/-- The stream begins with the tokens `w`. -/
def Begins (items : Nat → Option (Item P F')) (w : List (Token P)) : Prop :=
  ∀ i a, w[i]? = some a → items i = some (.ok a)

/-- What follows the tokens `w` is not a token. -/
def EndsAfter (items : Nat → Option (Item P F')) (w : List (Token P)) : Prop :=
  ∀ a, items w.length ≠ some (.ok a)

/-- The tokens at the beginning of a stream, at most `n`. -/
def tokensOf (items : Nat → Option (Item P F')) : Nat → Nat → List (Token P)
  | 0, _ => []
  | n + 1, i =>
    match items i with
    | some (.ok a) => a :: tokensOf items n (i + 1)
    | _ => []

theorem tokensOf_spec (items : Nat → Option (Item P F')) (n i : Nat) :
    (∀ j a, (tokensOf items n i)[j]? = some a → items (i + j) = some (.ok a)) ∧
    (n = (tokensOf items n i).length ∨ ∀ a, items (i + (tokensOf items n i).length) ≠ some (.ok a)) := by
  induction n generalizing i with
  | zero => simp [tokensOf]
  | succ n ih =>
    unfold tokensOf
    split
    · rename_i a ha
      obtain ⟨h1, h2⟩ := ih (i + 1)
      refine ⟨?_, ?_⟩
      · intro j b hj
        cases j with
        | zero => simp at hj; subst hj; simpa using ha
        | succ j =>
          simp only [List.getElem?_cons_succ] at hj
          have := h1 j b hj
          rw [Nat.add_right_comm] at this
          exact this
      · rcases h2 with h2 | h2
        · left; rw [List.length_cons, ← h2]
        · right
          rw [List.length_cons]
          intro b
          have := h2 b
          rw [Nat.add_right_comm] at this
          exact this
    · rename_i hne
      refine ⟨by simp, .inr ?_⟩
      intro a ha
      exact hne a (by simpa using ha)

theorem begins_tokensOf (items : Nat → Option (Item P F')) (n : Nat) :
    Begins items (tokensOf items n 0) ∧ (n ≤ (tokensOf items n 0).length ∨ EndsAfter items (tokensOf items n 0)) := by
  obtain ⟨h1, h2⟩ := tokensOf_spec items n 0
  simp only [Nat.zero_add] at h1 h2
  refine ⟨h1, ?_⟩
  rcases h2 with h2 | h2
  · exact .inl (Nat.le_of_eq h2)
  · exact .inr h2

/-- How a run ended: in configuration `c` after reading part of `w`. -/
structure Ended (debug : Bool) (gi : GrammarInfo) (F : FirstTable) (kt : KernelTable) (sem : Sem P V E σ)
    (into : F' → E) (items : Nat → Option (Item P F')) (w0 : σ) (w : List (Token P))
    (c : Config Nat Nat (Token P)) (run : Run P V E σ) : Prop where
  exists_step : ∃ st w1 res, Holds gi F kt sem w0 st.stack w1 c ∧
    st.pulled + c.input.length = w.length + 1 ∧ st.next = items (w.length - c.input.length) ∧
    GenStep debug gi F kt sem into items w0 c st w1 res ∧
    ((∃ v st' w', res = .accept v st' w' ∧ run = ⟨.ok v, w', st'.pulled, st'.stack⟩) ∨
      ∃ e w', res = .fail e w' ∧ run = ⟨.error e, w', st.pulled, st.stack⟩)

namespace GenCtx
variable (h : GenCtx o lex gi prog F kt)
include h

/-- **Runs**: a run ends as the canonical LR(1) parser does, or the fuel is used up. -/
theorem run {debug : Bool} {into : F' → E} {items : Nat → Option (Item P F')} {W : List (Token P)} {w0 : σ}
    (hW : Begins items W) (fuel : Nat) {c : Config Nat Nat (Token P)} {st : PState P V F'} {w : σ}
    (hh : Holds gi F kt sem w0 st.stack w c) (hpull : st.pulled + c.input.length = W.length + 1)
    (hsuf : ∃ u, W = u ++ c.input) (hnext : st.next = items (W.length - c.input.length))
    (hend : fuel ≤ c.input.length ∨ EndsAfter items W) :
    prog.loop debug sem into items fuel st w = .timeout ∨
    ∃ run c' tr, prog.loop debug sem into items fuel st w = .ok run ∧
      Steps gi.indexedGrammar.cfg F.NodesFirst (gi.tokMatch sem) c c' tr ∧
      Ended debug gi F kt sem into items w0 W c' run := by
  induction fuel generalizing c st w with
  | zero => exact .inl rfl
  | succ fuel ih =>
    obtain ⟨u, hu⟩ := hsuf
    have hulen : W.length - c.input.length = u.length := by
      rw [hu, List.length_append]; omega
    have hp : (∃ f, st.next = some (.error f)) ∨ st.next = c.input.head?.map .ok := by
      cases hz : c.input with
      | cons a z =>
        right
        rw [hnext, hulen]
        exact hW _ _ (by rw [hu, hz]; simp)
      | nil =>
        rw [hz] at hend hnext
        rcases hend with h1 | h1
        · simp at h1
        · rw [hnext]
          simp only [List.length_nil, Nat.sub_zero, List.head?_nil, Option.map_none]
          cases hi : items W.length with
          | none => exact .inr rfl
          | some x =>
            cases x with
            | error f => exact .inl ⟨f, rfl⟩
            | ok a => exact absurd hi (h1 a)
    obtain ⟨res, hstep, hgs⟩ := h.step (debug := debug) (into := into) (items := items) hh hp
    unfold Program.loop
    rw [hstep, Outcome.ok_bind]
    have hdone : ∀ run : Run P V E σ, ((∃ v st' w', res = .accept v st' w' ∧ run = ⟨.ok v, w', st'.pulled, st'.stack⟩) ∨
        ∃ e w', res = .fail e w' ∧ run = ⟨.error e, w', st.pulled, st.stack⟩) →
        Ended debug gi F kt sem into items w0 W c run := fun run hr =>
      ⟨⟨st, w, res, hh, hpull, hnext, hgs, hr⟩⟩
    cases res with
    | accept v st' w' => exact .inr ⟨_, c, [], rfl, .refl c, hdone _ (.inl ⟨v, st', w', rfl, rfl⟩)⟩
    | fail e w' => exact .inr ⟨_, c, [], rfl, .refl c, hdone _ (.inr ⟨e, w', rfl, rfl⟩)⟩
    | next st' w' =>
      simp only
      cases hgs with
      | @shift c' _ h1 h2 h3 h4 h5 h6 =>
        have hc : ∃ a, c.input = a :: c'.input := by
          cases h3 with
          | @shift γ ts a z t _ _ => exact ⟨a, rfl⟩
        obtain ⟨a, hc⟩ := hc
        have hlen : c.input.length = c'.input.length + 1 := by rw [hc]; rfl
        rcases ih h6 (by omega) ⟨u ++ [a], by rw [hu, hc]; simp⟩
          (by
            rw [h4]
            congr 1
            have : W.length = u.length + c.input.length := by rw [hu, List.length_append]
            omega)
          (by rcases hend with h | h
              · exact .inl (by omega)
              · exact .inr h) with h7 | ⟨run, c'', tr, h7, h8, h9⟩
        · exact .inl h7
        · exact .inr ⟨run, c'', _, h7, .step h3 h8, h9⟩
      | @reduce c' i _ _ h1 h2 h3 h4 h5 h6 =>
        have hc : c'.input = c.input := by
          cases h3 with
          | reduce _ _ _ => rfl
        rcases ih h6 (by rw [h5, hc]; exact hpull) ⟨u, by rw [hc]; exact hu⟩
          (by rw [h4, hc]; exact hnext)
          (by rcases hend with h | h
              · exact .inl (by rw [hc]; omega)
              · exact .inr h) with h7 | ⟨run, c'', tr, h7, h8, h9⟩
        · exact .inl h7
        · exact .inr ⟨run, c'', _, h7, .step h3 h8, h9⟩

/-- Runs from the start. -/
theorem parse {debug : Bool} {into : F' → E} {items : Nat → Option (Item P F')} {W : List (Token P)}
    (hW : Begins items W) (fuel : Nat) (w0 : σ) (hend : fuel ≤ W.length ∨ EndsAfter items W) :
    prog.parseFallible debug sem into items fuel w0 = .timeout ∨
    ∃ run c tr, prog.parseFallible debug sem into items fuel w0 = .ok run ∧
      Steps gi.indexedGrammar.cfg F.NodesFirst (gi.tokMatch sem) (.start W) c tr ∧
      Ended debug gi F kt sem into items w0 W c run :=
  h.run (c := .start W) hW fuel (st := .new items (0, .unit)) ⟨[], .nil, rfl⟩
    (by simp [PState.new, Config.start]; omega) ⟨[], rfl⟩ (by simp [PState.new, Config.start]) hend

/-- Runs on any stream. -/
theorem parse' (debug : Bool) (into : F' → E) (items : Nat → Option (Item P F')) (fuel : Nat) (w0 : σ) :
    prog.parseFallible debug sem into items fuel w0 = .timeout ∨
    ∃ W run c tr, Begins items W ∧ prog.parseFallible debug sem into items fuel w0 = .ok run ∧
      Steps gi.indexedGrammar.cfg F.NodesFirst (gi.tokMatch sem) (.start W) c tr ∧
      Ended debug gi F kt sem into items w0 W c run := by
  obtain ⟨h1, h2⟩ := begins_tokensOf items fuel
  rcases h.parse (sem := sem) (debug := debug) (into := into) h1 fuel w0 h2 with h3 | ⟨run, c, tr, h3, h4, h5⟩
  · exact .inl h3
  · exact .inr ⟨_, run, c, tr, h1, h3, h4, h5⟩

end GenCtx

/-- At most one expected terminal matches the next token, unless debug builds report it. -/
theorem will_det {c : Config Nat Nat (Token P)} {G : List (Rule Nat Nat)} {first : List INode → AugTokId → Prop}
    {m : Token P → Nat → Prop} (hn : NoConflict G first) (ho : ¬ OverlapAt G first m c) {a b : Act}
    (h : Will G first m c a) (h' : Will G first m c b) : a = b := by
  obtain ⟨γ, ts, z⟩ := c
  cases h with
  | mk h1 h2 =>
    cases h' with
    | mk h3 h4 =>
      simp only at h1 h2 h3 h4
      cases h1 with
      | eos => cases h3; exact hn _ _ _ _ h2 h4
      | @tok x z t h1 =>
        cases h3 with
        | @tok _ _ t' h3 =>
          by_cases ht : t = t'
          · subst ht; exact hn _ _ _ _ h2 h4
          · exact absurd ⟨x, z, t, t', rfl, ht, h1, h3, ⟨_, h2⟩, _, h4⟩ ho

theorem not_overlap_of_unique {c : Config Nat Nat (Token P)} {G : List (Rule Nat Nat)}
    {first : List INode → AugTokId → Prop} {m : Token P → Nat → Prop} (hm : Unique m) :
    ¬ OverlapAt G first m c := by
  rintro ⟨a, z, x, y, -, hne, h1, h2, -⟩
  exact hne (hm _ _ _ h1 h2)

end
end Verif
