import Verif.Proof.GenFacts
import Verif.Proof.Linear

/-!
# Runs whose lookahead is ambiguous

If a token matches several patterns, a release build picks one of them at every step, perhaps another one each time.
With complete FIRST sets the last choice before a shift could have been made from the start: a reduction that is
possible on one lookahead is possible on every lookahead on which something can be done after it. So what such a
parser does on a list of tokens is what the deterministic parser does on some list of terminals, one of those that
match for each token.
-/

set_option linter.unusedSectionVars false
set_option autoImplicit false

namespace Verif
open Spec

section
variable {T L A B : Type} {P : List (Rule T L)}

theorem inFirst_append {α β : List (Node T L)} {t : AugTok T} :
    InFirst P (α ++ β) t ↔ (InFirst P α t ∧ t ≠ .epsilon) ∨ (InFirst P α .epsilon ∧ InFirst P β t) := by
  rw [← first_iff, ← first_iff, ← first_iff, ← first_iff, First.append]

theorem inFirst_prod {r : Rule T L} {β : List (Node T L)} {t : AugTok T} (hr : r ∈ P)
    (h : (InFirst P (rhs r) t ∧ t ≠ .epsilon) ∨ (InFirst P (rhs r) .epsilon ∧ InFirst P β t)) :
    InFirst P (.production r.symbol :: β) t :=
  firstClosed_true.prod r hr β t (inFirst_append.mpr h)

/-- What begins the rest of an item begins what follows the last symbol read, for some item. -/
theorem valid_first {δ γ : List (Node T L)} {X : Node T L} {i d : Nat} {s : AugTok T} (h : Valid P δ i d)
    (hδ : δ = γ ++ [X]) (hs : s ≠ .epsilon) :
    ∀ {r : Rule T L}, P[i]? = some r → InFirst P ((rhs r).drop d) s →
      ∃ i' d' r' β, Valid P γ i' d' ∧ P[i']? = some r' ∧ (rhs r').drop d' = X :: β ∧ InFirst P β s := by
  induction h with
  | root => simp at hδ
  | @close δ i d j r1 r' β h1 h2 h3 h4 ih =>
    intro r hr hf
    rw [h4] at hr
    cases hr
    refine ih hδ h2 ?_
    rw [h3]
    exact inFirst_prod (List.mem_of_getElem? h4) (.inl ⟨hf, hs⟩)
  | @move δ i d r1 Y β h1 h2 h3 ih =>
    intro r hr hf
    rw [h2] at hr
    cases hr
    obtain ⟨rfl, e⟩ := List.append_inj' hδ rfl
    cases e
    rw [drop_succ_of_drop h3] at hf
    exact ⟨i, d, r1, β, h1, h2, h3, hf⟩

/-- The same for what may follow an item whose rest may vanish. -/
theorem validLook_first {δ γ : List (Node T L)} {X : Node T L} {i d : Nat} {s : AugTok T}
    (h : ValidLook P (InFirst P) δ i d s) (hδ : δ = γ ++ [X]) :
    ∀ {r : Rule T L}, P[i]? = some r → InFirst P ((rhs r).drop d) .epsilon →
      ∃ i' d' r' β, P[i']? = some r' ∧ (rhs r').drop d' = X :: β ∧
        ((Valid P γ i' d' ∧ s ≠ .epsilon ∧ InFirst P β s) ∨
          (ValidLook P (InFirst P) γ i' d' s ∧ InFirst P β .epsilon)) := by
  induction h with
  | root => simp at hδ
  | @closeFirst δ i d j r1 r' β s h1 h2 h3 h4 h5 h6 =>
    intro r hr hf
    rw [h4] at hr
    cases hr
    obtain ⟨i', d', q, β', k1, k2, k3, k4⟩ := valid_first h1 hδ h5 h2 (by
      rw [h3]
      exact inFirst_prod (List.mem_of_getElem? h4) (.inr ⟨hf, h6⟩))
    exact ⟨i', d', q, β', k2, k3, .inl ⟨k1, h5, k4⟩⟩
  | @closePass δ i d j r1 r' β s h1 h2 h3 h4 h5 ih =>
    intro r hr hf
    rw [h4] at hr
    cases hr
    refine ih hδ h2 ?_
    rw [h3]
    exact inFirst_prod (List.mem_of_getElem? h4) (.inr ⟨hf, h5⟩)
  | @move δ i d r1 Y β s h1 h2 h3 ih =>
    intro r hr hf
    rw [h2] at hr
    cases hr
    obtain ⟨rfl, e⟩ := List.append_inj' hδ rfl
    cases e
    rw [drop_succ_of_drop h3] at hf
    exact ⟨i, d, r1, β, h2, h3, .inr ⟨h1, hf⟩⟩

/-- A step can be made on the lookahead. -/
def Moves (P : List (Rule T L)) (γ : List (Node T L)) (s : AugTok T) : Prop :=
  (∃ t, s = .token t ∧ Demands P (InFirst P) γ s .shift) ∨ ∃ i, Demands P (InFirst P) γ s (.reduce i)

/-- If a step can be made after a reduction, this is on a lookahead of the reduction. -/
theorem reduce_back {γ : List (Node T L)} {r : Rule T L} {j : Nat} {s : AugTok T}
    (hj : P[j]? = some r) (hj0 : j ≠ 0) (h : Moves P (γ ++ [.production r.symbol]) s) :
    Demands P (InFirst P) (γ ++ rhs r) s (.reduce j) := by
  have key : ∀ {i' d' : Nat} {r' : Rule T L} {β : List (Node T L)}, P[i']? = some r' →
      (rhs r').drop d' = .production r.symbol :: β →
      ((Valid P γ i' d' ∧ s ≠ .epsilon ∧ InFirst P β s) ∨ (ValidLook P (InFirst P) γ i' d' s ∧ InFirst P β .epsilon)) →
      Demands P (InFirst P) (γ ++ rhs r) s (.reduce j) := by
    intro i' d' r' β k1 k2 k3
    have hv : ValidLook P (InFirst P) γ j 0 s := by
      rcases k3 with ⟨k3, k4, k5⟩ | ⟨k3, k4⟩
      · exact .closeFirst k3 k1 k2 hj k4 k5
      · exact .closePass k3 k1 k2 hj k4
    have := hv.extend (α := rhs r) (β := []) hj (by simp)
    exact .reduce hj hj0 (by simpa using this)
  rcases h with ⟨t, rfl, h⟩ | ⟨i, h⟩
  · cases h with
    | shift h1 h2 h3 =>
      obtain ⟨i', d', r', β, k1, k2, k3, k4⟩ := valid_first h1 rfl (s := .token t) (by simp) h2 (by
        rw [h3]
        exact firstClosed_true.tok _ _)
      exact key k2 k3 (.inl ⟨k1, by simp, k4⟩)
  · cases h with
    | reduce h1 h2 h3 =>
      obtain ⟨i', d', r', β, k1, k2, k3⟩ := validLook_first h3 rfl h1 (by
        rw [List.drop_length]; exact firstClosed_true.nil)
      exact key k1 k2 k3

variable {m : A → T → Prop}

/-- **Choosing terminals.** A run that can be continued is a run on terminals that match its tokens, with the same
reductions. -/
theorem steps_choose {c c' : Config T L A} {tr : List Nat} (h : Steps P (InFirst P) m c c' tr) {s : AugTok T}
    (hd : Moves P c'.stack s) {z : List T} (hl : Look Eq z s) :
    ∃ u v, c.input = v ++ c'.input ∧ List.Forall₂ m v u ∧
      (∃ s', Look Eq (u ++ z) s' ∧ Moves P c.stack s') ∧
      ∀ ts : List (Tree T), ∃ ts', Steps P (InFirst P) Eq ⟨c.stack, ts, u ++ z⟩ ⟨c'.stack, ts', z⟩ tr := by
  induction h with
  | refl => exact ⟨[], [], rfl, .nil, ⟨s, hl, hd⟩, fun ts => ⟨ts, .refl _⟩⟩
  | @step c c1 c' o tr h1 h2 ih =>
    obtain ⟨u, v, k1, k2, ⟨s', k3, k4⟩, k5⟩ := ih hd
    cases h1 with
    | @shift γ ts b z' t g1 g2 =>
      refine ⟨t :: u, b :: v, by simp only at k1; rw [k1]; rfl, .cons g1 k2, ⟨.token t, .tok rfl, .inl ⟨t, rfl, g2⟩⟩, fun ts => ?_⟩
      obtain ⟨ts', k6⟩ := k5 (ts ++ [.leaf t])
      exact ⟨ts', .step (.shift rfl g2) k6⟩
    | @reduce γ ts z' x j r g1 g2 g3 =>
      have k6 := reduce_back g1 g3.reduce_stack.1 k4
      refine ⟨u, v, k1, k2, ⟨s', k3, .inr ⟨j, k6⟩⟩, fun ts' => ?_⟩
      obtain ⟨ts2, k7⟩ := k5 (reduceTrees j (rhs r).length ts')
      exact ⟨ts2, .step (.reduce g1 k3 k6) k7⟩

end

section
variable {A : Type} {P : List (Rule Nat Nat)} {F : FirstTable}

/-- After a reduction the parser is not stuck, even if its lookahead is ambiguous. -/
theorem reduce_not_stuck (hu : RootOk P) (hJ : F.Justified P) (hn : NoConflict P F.NodesFirst) {m : A → Nat → Prop}
    {c c' : Config Nat Nat A} {i : Nat} (h : Step P F.NodesFirst m c c' (some i)) (hd : NoDead P c.stack) :
    ¬ Stuck P F.NodesFirst m c' := by
  intro hst
  cases h with
  | @reduce γ ts z x i r h1 h2 h3 =>
    have key : ∀ (z' : List Unit) (m' : Unit → Nat → Prop), Unique m' → Look m' z' x →
        (∀ y, Look m' z' y → y = x) → False := by
      intro z' m' hm hl hx
      have hs : Step P F.NodesFirst m' ⟨γ ++ rhs r, [], z'⟩ _ (some i) := .reduce h1 hl h3
      refine stuck_after_shift hu hJ hn hm hs (.refl _) rfl hd ?_
      intro y a hy hda
      rw [hx y hy] at hda
      exact hst x a h2 hda
    cases h2 with
    | eos => exact key [] (fun _ _ => False) (fun _ _ _ h => h.elim) .eos (fun y hy => by cases hy; rfl)
    | @tok _ _ t h =>
      exact key [()] (fun _ t' => t' = t) (fun _ _ _ h h' => h.trans h'.symm) (.tok rfl)
        (fun y hy => by cases hy with | tok h => rw [h])

theorem _root_.Verif.Spec.Steps.last {T L A : Type} {P : List (Rule T L)} {first : List (Node T L) → AugTok T → Prop}
    {m : A → T → Prop} {c c' : Config T L A} {tr : List Nat} (h : Steps P first m c c' tr) :
    (tr = [] ∧ c = c') ∨ ∃ d tr' o, Steps P first m c d tr' ∧ Step P first m d c' o ∧ tr = tr' ++ o.toList := by
  induction h with
  | refl => exact .inl ⟨rfl, rfl⟩
  | @step c c1 c' o tr h1 h2 ih =>
    right
    rcases ih with ⟨rfl, rfl⟩ | ⟨d, tr', o', k1, k2, rfl⟩
    · exact ⟨c, [], o, .refl _, h1, by simp⟩
    · exact ⟨d, _, o', .step h1 k1, k2, by simp⟩

/-- **Time without determinism**: with complete FIRST sets all runs are short, whichever of the matching terminals the
parser takes at each step. -/
theorem steps_bound (hu : RootOk P) (hJ : F.Justified P) (he : NoEos P) (hn : NoConflict P F.NodesFirst)
    (hD : Demands P F.NodesFirst = Demands P (InFirst P)) : ∃ K, ∀ (A : Type) (m : A → Nat → Prop) (w : List A)
      (c : Config Nat Nat A) (tr : List Nat), Steps P F.NodesFirst m (.start w) c tr →
      tr.length ≤ K * (w.length + 1) + 1 := by
  obtain ⟨K, hK⟩ := reaches_final_in hu hJ he
  have hE : Unique (Eq : Nat → Nat → Prop) := fun _ _ _ h h' => h.symm.trans h'
  -- a run that can be continued
  have key : ∀ (A : Type) (m : A → Nat → Prop) (w : List A) (c : Config Nat Nat A) (tr : List Nat) (s : AugTokId),
      Steps P F.NodesFirst m (.start w) c tr → Look m c.input s → Moves P c.stack s →
      tr.length ≤ K * (w.length + 1) := by
    intro A m w c tr s h1 h2 h3
    have h1 := h1.mono (first' := InFirst P) (by rw [hD]; exact fun _ _ _ h => h)
    obtain ⟨z, hz, hle⟩ : ∃ z : List Nat, Look Eq z s ∧ z.length ≤ c.input.length := by
      generalize c.input = y at h2
      cases h2 with
      | eos => exact ⟨[], .eos, Nat.le_refl _⟩
      | @tok _ _ t h => exact ⟨[t], .tok rfl, by simp⟩
    obtain ⟨u, v, k1, k2, -, k4⟩ := steps_choose h1 h3 hz
    obtain ⟨ts', k5⟩ := k4 []
    have k5 := k5.mono (first' := F.NodesFirst) (by rw [hD]; exact fun _ _ _ h => h)
    have hlen : (u ++ z).length ≤ w.length := by
      have := congrArg List.length k1
      have := k2.length_eq
      simp only [Config.start, List.length_append] at *
      omega
    obtain ⟨d, tr', k6, k7, k8⟩ := hK Nat Eq (u ++ z)
    have hle' : tr.length ≤ tr'.length := by
      rcases Steps.linear hn hE k5 k6 with ⟨tr2, -, e⟩ | ⟨tr2, h5, e⟩
      · rw [e]; simp
      · obtain ⟨rfl, rfl⟩ := h5.final_eq hn hE k7
        rw [e]; simp
    exact Nat.le_trans hle' (Nat.le_trans k8 (Nat.mul_le_mul_left _ (by omega)))
  refine ⟨K, fun A m w c tr h => ?_⟩
  rcases h.last with ⟨rfl, -⟩ | ⟨d, tr', o, h1, h2, rfl⟩
  · simp
  · have h2 := h2.mono (first' := InFirst P) (by rw [hD]; exact fun _ _ _ h => h)
    cases h2 with
    | shift g1 g2 => simpa using Nat.le_succ_of_le (key A m w _ _ _ h1 (.tok g1) (.inl ⟨_, rfl, g2⟩))
    | reduce g1 g2 g3 => simpa using key A m w _ _ _ h1 g2 (.inr ⟨_, g3⟩)

end

section
variable {P V E F' σ : Type} [DecidableEq P] {sem : Sem P V E σ} {lex : Lexer} {o : HashOrder}
  {gi : GrammarInfo} {prog : Program} {F : FirstTable} {kt : KernelTable} {debug : Bool} {into : F' → E}
  {items : Nat → Option (Item P F')} {w0 : σ}

theorem demands_true (hJ : F.Justified gi.indexedGrammar.cfg) (hF : Covers gi.indexedGrammar.cfg F.NodesFirst) :
    Demands gi.indexedGrammar.cfg F.NodesFirst = Demands gi.indexedGrammar.cfg (InFirst gi.indexedGrammar.cfg) := by
  funext γ t a
  exact propext ⟨fun h => h.mono fun _ _ _ _ _ _ _ h => first_iff.mp (h.just hJ).first, hF γ t a⟩

/-- The state after `n` iterations of the loop, if there is one. -/
def Program.after (prog : Program) (debug : Bool) (sem : Sem P V E σ) (into : F' → E)
    (items : Nat → Option (Item P F')) (w0 : σ) : Nat → Option (PState P V F' × σ)
  | 0 => some (.new items (LRTable.rootState, .unit), w0)
  | n + 1 =>
    match prog.after debug sem into items w0 n with
    | some (st, w) =>
      match prog.step debug sem into items st w with
      | .ok (.next st' w') => some (st', w')
      | _ => none
    | none => none

theorem GenReach.after {st : PState P V F'} {w : σ} (h : GenReach debug sem into items prog w0 st w) :
    ∃ n, prog.after debug sem into items w0 n = some (st, w) := by
  induction h with
  | start => exact ⟨0, rfl⟩
  | step _ e ih =>
    obtain ⟨n, hn⟩ := ih
    exact ⟨n + 1, by simp only [Program.after, hn, e]⟩

theorem Program.after_reach {n : Nat} {st : PState P V F'} {w : σ}
    (h : prog.after debug sem into items w0 n = some (st, w)) : GenReach debug sem into items prog w0 st w := by
  induction n generalizing st w with
  | zero =>
    simp only [Program.after, Option.some.injEq, Prod.mk.injEq] at h
    obtain ⟨rfl, rfl⟩ := h
    exact .start
  | succ n ih =>
    simp only [Program.after] at h
    split at h
    · rename_i st1 w1 h1
      split at h
      · rename_i st2 w2 h2
        cases h
        exact .step (ih h1) h2
      · cases h
    · cases h

theorem Program.after_le {n m : Nat} {st : PState P V F'} {w : σ} (hle : n ≤ m)
    (h : prog.after debug sem into items w0 m = some (st, w)) :
    ∃ st' w', prog.after debug sem into items w0 n = some (st', w') ∧ st'.pulled ≤ st.pulled := by
  induction m generalizing st w with
  | zero =>
    obtain rfl : n = 0 := by omega
    exact ⟨st, w, h, Nat.le_refl _⟩
  | succ m ih =>
    rcases Nat.eq_or_lt_of_le hle with rfl | hlt
    · exact ⟨st, w, h, Nat.le_refl _⟩
    · simp only [Program.after] at h
      split at h
      · rename_i st1 w1 h1
        split at h
        · rename_i st2 w2 h2
          cases h
          obtain ⟨st', w', k1, k2⟩ := ih (by omega) h1
          refine ⟨st', w', k1, Nat.le_trans k2 ?_⟩
          rcases step_items h2 with ⟨st1', e, k3⟩ | ⟨⟨-, k3⟩, -⟩
          · cases e
            omega
          · omega
        · cases h
      · cases h

/-- What a state of the parser has to do with a configuration of the machine. -/
structure GenCtx.Stands (gi : GrammarInfo) (F : FirstTable) (kt : KernelTable) (sem : Sem P V E σ) (w0 : σ)
    (W : List (Token P)) (st : PState P V F') (w : σ) (c : Config Nat Nat (Token P)) : Prop where
  holds : Holds gi F kt sem w0 st.stack w c
  next : (∃ f, st.next = some (.error f)) ∨ st.next = c.input.head?.map .ok
  pulled : st.pulled + c.input.length = W.length + 1
  input : ∃ u, W = u ++ c.input

namespace GenCtx
variable (h : GenCtx o lex gi prog F kt)
include h

omit h in
theorem stands_start {W : List (Token P)} (hW : Begins items W) (hend : EndsAfter items W) :
    Stands gi F kt sem w0 W (.new items (LRTable.rootState, .unit)) w0 (.start W) := by
  refine ⟨⟨[], .nil, rfl⟩, ?_, by simp [PState.new, Config.start]; omega, ⟨[], rfl⟩⟩
  simp only [PState.new, Config.start]
  cases W with
  | nil =>
    cases hi : items 0 with
    | none => exact .inr rfl
    | some x =>
      cases x with
      | error f => exact .inl ⟨f, rfl⟩
      | ok a => exact absurd hi (hend a)
  | cons a W => exact .inr (hW 0 a rfl)

/-- An iteration of the loop that is not the last one is a step of the machine. -/
theorem stands_next {W : List (Token P)} {c : Config Nat Nat (Token P)} (hW : Begins items W) (hend : EndsAfter items W)
    {st st' : PState P V F'} {w w' : σ} (hs : Stands gi F kt sem w0 W st w c)
    (e : prog.step debug sem into items st w = .ok (.next st' w')) :
    ∃ c' o, Step gi.indexedGrammar.cfg F.NodesFirst (gi.tokMatch sem) c c' o ∧ Stands gi F kt sem w0 W st' w' c' := by
  obtain ⟨hh, hp, hl, u, hu⟩ := hs
  obtain ⟨res, e', hg⟩ := h.step (debug := debug) (into := into) (items := items) hh hp
  rw [e] at e'
  cases e'
  cases hg with
  | @shift c' _ g1 g2 g3 g4 g5 g6 =>
    refine ⟨c', _, g3, g6, ?_, ?_, ?_⟩
    · cases g3 with
      | @shift γ ts a z t k1 k2 =>
        simp only at hu hl ⊢
        have hz : W.length = u.length + z.length + 1 := by rw [hu]; simp; omega
        simp only [List.length_cons] at hl
        have hpos : st.pulled = u.length + 1 := by omega
        rw [g4, hpos]
        cases z with
        | nil =>
          have := hend
          have hlen : u.length + 1 = W.length := by rw [hz]; simp
          rw [hlen]
          cases hi : items W.length with
          | none => exact .inr rfl
          | some x =>
            cases x with
            | error f => exact .inl ⟨f, rfl⟩
            | ok a => exact absurd hi (hend a)
        | cons b z =>
          right
          rw [hW (u.length + 1) b (by rw [hu]; simp)]
          rfl
    · cases g3
      simp only [List.length_cons] at hl ⊢
      omega
    · cases g3 with
      | @shift γ ts a z t k1 k2 => exact ⟨u ++ [a], by rw [hu]; simp⟩
  | @reduce c' i _ _ g1 g2 g3 g4 g5 g6 =>
    have hc : c'.input = c.input := by cases g3; rfl
    exact ⟨c', _, g3, g6, by rw [g4, hc]; exact hp, by rw [g5, hc]; exact hl, ⟨u, by rw [hc]; exact hu⟩⟩

/-- The configuration after `n` iterations of the loop has been reached in `n` steps. -/
theorem after_steps {W : List (Token P)} (hW : Begins items W) (hend : EndsAfter items W) {n : Nat} {st : PState P V F'}
    {w : σ} (ha : prog.after debug sem into items w0 n = some (st, w)) :
    ∃ c tr, Steps gi.indexedGrammar.cfg F.NodesFirst (gi.tokMatch sem) (.start W) c tr ∧
      tr.length + W.length = n + c.input.length ∧ Stands gi F kt sem w0 W st w c := by
  induction n generalizing st w with
  | zero =>
    simp only [Program.after, Option.some.injEq, Prod.mk.injEq] at ha
    obtain ⟨rfl, rfl⟩ := ha
    exact ⟨.start W, [], .refl _, by simp [Config.start], stands_start hW hend⟩
  | succ n ih =>
    simp only [Program.after] at ha
    split at ha
    · rename_i st1 w1 h1
      split at ha
      · rename_i st2 w2 h2
        cases ha
        obtain ⟨c, tr, k1, k2, k3⟩ := ih h1
        obtain ⟨c', o, k4, k5⟩ := h.stands_next hW hend k3 h2
        refine ⟨c', _, k1.trans (.step k4 (.refl _)), ?_, k5⟩
        cases k4 with
        | shift => simp only [List.length_cons, List.append_nil, Option.toList_none] at k2 ⊢; omega
        | reduce => simp only [List.length_append, Option.toList_some, List.length_cons, List.length_nil] at k2 ⊢; omega
      · cases ha
    · cases ha

omit h in
theorem _root_.Verif.Program.loop_or_after (n : Nat) {st : PState P V F'} {w : σ} {k : Nat}
    (hk : prog.after debug sem into items w0 k = some (st, w))
    (hs : ∀ st w, GenReach debug sem into items prog w0 st w → ∃ res, prog.step debug sem into items st w = .ok res) :
    (∃ run, prog.loop debug sem into items n st w = .ok run) ∨ ∃ x, prog.after debug sem into items w0 (k + n) = some x := by
  induction n generalizing st w k with
  | zero => exact .inr ⟨_, hk⟩
  | succ n ih =>
    obtain ⟨res, e⟩ := hs st w (Program.after_reach hk)
    unfold Program.loop
    rw [e, Outcome.ok_bind]
    cases res with
    | accept v st' w' => exact .inl ⟨_, rfl⟩
    | fail x w' => exact .inl ⟨_, rfl⟩
    | next st' w' =>
      have := ih (k := k + 1) (st := st') (w := w') (by simp only [Program.after, hk, e])
      rw [show k + (n + 1) = k + 1 + n by omega]
      exact this

omit h in
/-- The loop has not ended before a state that it reaches. -/
theorem _root_.Verif.Program.after_loop {n k : Nat} {st st' : PState P V F'} {w w' : σ} {run : Run P V E σ}
    (hk : prog.after debug sem into items w0 k = some (st, w))
    (hn : prog.after debug sem into items w0 (k + n) = some (st', w')) :
    prog.loop debug sem into items n st w ≠ .ok run := by
  induction n generalizing st w k with
  | zero => intro e; cases e
  | succ n ih =>
    unfold Program.loop
    have h1 : ∃ x, prog.after debug sem into items w0 (k + 1) = some x := by
      obtain ⟨a, b, e, -⟩ := Program.after_le (n := k + 1) (by omega) hn
      exact ⟨_, e⟩
    simp only [Program.after, hk] at h1
    split at h1
    · rename_i st2 w2 h2
      rw [h2, Outcome.ok_bind]
      exact ih (k := k + 1) (by simp only [Program.after, hk, h2]) (by rw [← hn]; congr 1; omega)
    · obtain ⟨x, hx⟩ := h1
      cases hx

/-- **Time**, whatever patterns overlap, if no action is missing. -/
theorem ends_of_covers (hF : Covers gi.indexedGrammar.cfg F.NodesFirst) :
    ∃ K, ∀ {P V E F' σ : Type} [DecidableEq P] (debug : Bool) (sem : Sem P V E σ) (into : F' → E)
      (items : Nat → Option (Item P F')) (W : List (Token P)) (w0 : σ), Begins items W → EndsAfter items W →
      ∃ run, prog.parseFallible debug sem into items (K * (W.length + 1)) w0 = .ok run := by
  obtain ⟨K, hK⟩ := steps_bound h.good.rootOk h.good.justified h.good.noEos h.good.noConflict
    (demands_true h.good.justified hF)
  refine ⟨K + 2, fun {P V E F' σ} _ debug sem into items W w0 hW hend => ?_⟩
  rcases Program.loop_or_after (prog := prog) (debug := debug) (sem := sem) (into := into) (items := items) (w0 := w0)
    ((K + 2) * (W.length + 1)) (k := 0) rfl (by
      intro st w hr
      obtain ⟨n, hn⟩ := hr.after
      obtain ⟨c, tr, -, -, k⟩ := h.after_steps hW hend hn
      obtain ⟨res, e, -⟩ := h.step (debug := debug) (into := into) (items := items) k.holds k.next
      exact ⟨res, e⟩) with hrun | ⟨⟨st, w⟩, hx⟩
  · exact hrun
  · obtain ⟨c, tr, k1, k2, k3⟩ := h.after_steps hW hend hx
    have := hK _ _ _ _ _ k1
    obtain ⟨u, hu⟩ := k3.input
    have hle := congrArg List.length hu
    rw [Nat.add_mul] at k2
    simp only [List.length_append] at hle
    omega

end GenCtx
end
end Verif
