import Verif.Proof.Machine
import Verif.Proof.FirstMap

/-!
# The canonical LR(1) parser: progress

Whatever FIRST table is used, as long as its entries are justified: once the parser reduces on a lookahead,
it goes on to shift that lookahead or to accept. Hence it terminates on every input and never reduces before
rejecting a token.
-/

set_option linter.unusedSectionVars false
set_option autoImplicit false

namespace Verif
open Spec

section
variable {T L A : Type} {P : List (Rule T L)}

/-- If there is no parse tree for the root, the stack does not contain it. -/
def NoDead (P : List (Rule T L)) (γ : List (Node T L)) : Prop :=
  RootDead P → ∀ r0, P[0]? = some r0 → .production r0.symbol ∉ γ

theorem NoDead.nil : NoDead P [] := fun _ _ _ => by simp

theorem NoDead.step {first : List (Node T L) → AugTok T → Prop} {m : A → T → Prop} {c c' : Config T L A}
    {o : Option Nat} (h : NoDead P c.stack) (hs : Step P first m c c' o) : NoDead P c'.stack := by
  intro hd r0 h0
  cases hs with
  | shift => simpa using h hd r0 h0
  | @reduce γ ts z x i r h1 h2 h3 =>
    have h4 := h hd r0 h0
    simp only [List.mem_append, not_or] at h4 ⊢
    refine ⟨h4.1, fun hm => ?_⟩
    have hi := h3.reduce_stack.1
    rw [List.mem_singleton] at hm
    injection hm with hm
    exact hi (hd.1 i r0 r h0 h1 hm.symm)

theorem NoDead.steps {first : List (Node T L) → AugTok T → Prop} {m : A → T → Prop} {c c' : Config T L A}
    {tr : List Nat} (h : NoDead P c.stack) (hs : Steps P first m c c' tr) : NoDead P c'.stack := by
  induction hs with
  | refl => exact h
  | step h1 _ ih => exact ih (h.step h1)

end

variable {A : Type} {P : List (Rule Nat Nat)} {F : FirstTable} {m : A → Nat → Prop}

theorem nodesFirst_strip {α : List INode} {t : AugTokId} :
    F.NodesFirst (strip α) t ↔ F.NodesFirst α t := by
  induction α with
  | nil => exact Iff.rfl
  | cons n α ih =>
    match n with
    | .terminal .epsilon => exact ih
    | .terminal (.token k) => exact Iff.rfl
    | .terminal .eos => exact Iff.rfl
    | .production l =>
      simp only [strip_prod, FirstTable.NodesFirst, ih]

theorem nodesFirst_nil : F.NodesFirst [] .epsilon := rfl

/-- With a closed table the parser of the specification is complete. -/
theorem firstClosed (h : F.Closed P) : FirstClosed P F.NodesFirst where
  nil := rfl
  tok _ _ := rfl
  prod r hr α t ht := by
    rw [FirstTable.NodesFirst.append] at ht
    show (t ≠ .epsilon ∧ F.In r.symbol t) ∨ (F.In r.symbol .epsilon ∧ F.NodesFirst α t)
    rcases ht with ⟨h1, h2⟩ | ⟨h1, h2⟩
    · exact .inl ⟨h1, h r hr t (nodesFirst_strip.mp h2)⟩
    · exact .inr ⟨h r hr _ (nodesFirst_strip.mp h1), h2⟩

/-- Lookahead `x` may follow what is left of the item. -/
theorem mayFollow_append {γ : List INode} {i d : Nat} {α β : List INode} {x : AugTokId}
    (h : MayFollow P F.NodesFirst γ i d β x) (ha : F.NodesFirst α .epsilon) :
    MayFollow P F.NodesFirst γ i d (α ++ β) x := by
  rcases h with h | ⟨h1, h2⟩
  · exact .inl (FirstTable.NodesFirst.append.mpr (.inr ⟨ha, h⟩))
  · exact .inr ⟨FirstTable.NodesFirst.append.mpr (.inr ⟨ha, h1⟩), h2⟩

theorem Spec.RootDead.just (hd : RootDead P) {α : List INode} {t : AugTokId} (hj : FirstTable.Just P F α t)
    (ht : t = .epsilon) : ∀ r0, P[0]? = some r0 → .production r0.symbol ∉ α := by
  intro r0 h0
  induction hj with
  | nil => simp
  | eps _ ih => simpa using ih ht
  | term h => exact absurd ht h
  | @skip r α t hr _ _ _ ih1 ih2 =>
    intro hm
    obtain ⟨i, hi⟩ := List.mem_iff_getElem?.mp hr
    rcases List.mem_cons.mp hm with e | hm
    · injection e with e
      have := hd.1 i r0 r h0 hi e.symm
      subst this
      obtain ⟨r1, h1, h2⟩ := hd.2
      rw [h0] at h1 hi
      cases h1
      cases hi
      exact ih1 rfl h2
    · exact ih2 ht hm
  | take _ _ _ h => exact absurd ht h

theorem Spec.RootOk.just_ne_zero (h : RootOk P) {i d j : Nat} {r r' : Rule Nat Nat} {β : List INode}
    (hr : P[i]? = some r) (hd : (rhs r).drop d = .production r'.symbol :: β) (hj : P[j]? = some r')
    (hc : FirstTable.Just P F r'.rule .epsilon) : j ≠ 0 := by
  rcases h with h | h
  · exact h.ne_zero hr hd hj
  · rintro rfl
    obtain ⟨r1, h1, h2⟩ := h.2
    rw [hj] at h1
    cases h1
    exact h.just hc rfl _ hj h2

theorem Spec.RootOk.read_ne_zero (h : RootOk P) {i d j : Nat} {r r' : Rule Nat Nat} {γ β : List INode}
    (hr : P[i]? = some r) (hd : (rhs r).drop d = .production r'.symbol :: β) (hj : P[j]? = some r')
    (hf : NoDead P (γ ++ rhs r')) : j ≠ 0 := by
  rcases h with h | h
  · exact h.ne_zero hr hd hj
  · rintro rfl
    obtain ⟨r1, h1, h2⟩ := h.2
    rw [hj] at h1
    cases h1
    exact hf h _ hj (List.mem_append_right _ (List.mem_filter.mpr ⟨h2, by simp⟩))

/-- A sequence recorded as vanishing is put on the stack without reading input. -/
theorem vanish (hu : RootOk P) {α : List INode} {x0 : AugTokId} (hj : FirstTable.Just P F α x0)
    (h0 : x0 = .epsilon) :
    ∀ {γ : List INode} {ts : List (Tree A)} {z : List A} {i d : Nat} {r : Rule Nat Nat}
      {β : List INode} {x : AugTokId},
      Valid P γ i d → P[i]? = some r → (rhs r).drop d = strip α ++ β → Look m z x →
      MayFollow P F.NodesFirst γ i d β x →
      ∃ ts' tr, Steps P F.NodesFirst m ⟨γ, ts, z⟩ ⟨γ ++ strip α, ts', z⟩ tr := by
  induction hj with
  | nil =>
    intro γ ts z i d r β x _ _ _ _ _
    exact ⟨ts, [], by simpa using .refl _⟩
  | eps _ ih => exact ih h0
  | term h => exact absurd h0 h
  | take _ _ _ h => exact absurd h0 h
  | @skip r' α t hr' _ hj1 hj2 ih1 ih2 =>
    intro γ ts z i d r β x hv hr hd hl hfol
    obtain ⟨j, hj'⟩ := List.mem_iff_getElem?.mp hr'
    have hd' : (rhs r).drop d = .production r'.symbol :: (strip α ++ β) := hd
    have hjn := hu.just_ne_zero hr hd' hj' hj1
    have hfα : F.NodesFirst (strip α) .epsilon := nodesFirst_strip.mpr (h0 ▸ hj2.nodesFirst)
    have hlook : ValidLook P F.NodesFirst γ j 0 x :=
      (mayFollow_append hfol hfα).close hl.ne_eps hv hr hd' hj'
    obtain ⟨ts1, tr1, hs1⟩ := ih1 rfl (ts := ts) (β := []) (Valid.close hv hr hd' hj') hj'
      (by simp [rhs_def]) hl (.inr ⟨rfl, hlook⟩)
    rw [← rhs_def] at hs1
    have hs2 := Step.reduce (m := m) (ts := ts1) hj' hl (Demands.reduce (γ := γ ++ rhs r') hj' hjn
      (by simpa using hlook.extend (α := rhs r') (β := []) hj' (by simp)))
    obtain ⟨ts3, tr3, hs3⟩ := ih2 h0 (ts := reduceTrees j (rhs r').length ts1) (.move hv hr hd') hr
      (drop_succ_of_drop hd') hl (hfol.extend (α := [_]) hr hd')
    refine ⟨ts3, tr1 ++ ((some j).toList ++ tr3), hs1.trans (.step hs2 ?_)⟩
    simpa using hs3

/-- A sequence recorded as beginning with `t` leads to a shift of `t`. -/
theorem toShift (hu : RootOk P) {α : List INode} {t : AugTokId} (hj : FirstTable.Just P F α t)
    (h0 : t ≠ .epsilon) :
    ∀ {γ : List INode} {ts : List (Tree A)} {z : List A} {i d : Nat} {r : Rule Nat Nat} {β : List INode},
      Valid P γ i d → P[i]? = some r → (rhs r).drop d = strip α ++ β → Look m z t →
      ∃ c' tr, Steps P F.NodesFirst m ⟨γ, ts, z⟩ c' tr ∧ c'.input = z ∧
        Demands P F.NodesFirst c'.stack t .shift := by
  induction hj with
  | nil => exact absurd rfl h0
  | eps _ ih => exact ih h0
  | @term t α h =>
    intro γ ts z i d r β hv hr hd hl
    refine ⟨_, _, .refl _, rfl, ?_⟩
    cases t with
    | epsilon => exact absurd rfl h
    | token k => exact .shift hv hr hd
    | eos => exact .shift hv hr hd
  | @take r' α t hr' _ hj h ih =>
    intro γ ts z i d r β hv hr hd hl
    obtain ⟨j, hj'⟩ := List.mem_iff_getElem?.mp hr'
    exact ih h (β := []) (Valid.close hv hr hd hj') hj' (by simp [rhs_def]) hl
  | @skip r' α t hr' _ hj1 hj2 _ ih2 =>
    intro γ ts z i d r β hv hr hd hl
    obtain ⟨j, hj'⟩ := List.mem_iff_getElem?.mp hr'
    have hd' : (rhs r).drop d = .production r'.symbol :: (strip α ++ β) := hd
    have hjn := hu.just_ne_zero hr hd' hj' hj1
    have hlook : ValidLook P F.NodesFirst γ j 0 t :=
      .closeFirst hv hr hd' hj' h0
        (FirstTable.NodesFirst.append.mpr (.inl ⟨h0, nodesFirst_strip.mpr hj2.nodesFirst⟩))
    obtain ⟨ts1, tr1, hs1⟩ := vanish (m := m) hu hj1 rfl (ts := ts) (β := []) (Valid.close hv hr hd' hj') hj'
      (by simp [rhs_def]) hl (.inr ⟨rfl, hlook⟩)
    rw [← rhs_def] at hs1
    have hs2 := Step.reduce (m := m) (ts := ts1) hj' hl (Demands.reduce (γ := γ ++ rhs r') hj' hjn
      (by simpa using hlook.extend (α := rhs r') (β := []) hj' (by simp)))
    obtain ⟨c', tr3, hs3, h3⟩ := ih2 h0 (ts := reduceTrees j (rhs r').length ts1) (.move hv hr hd') hr
      (drop_succ_of_drop hd') hl
    exact ⟨c', tr1 ++ ((some j).toList ++ tr3), hs1.trans (.step hs2 hs3), h3⟩

/-- The parser will shift or accept the current lookahead. -/
def Welcome (P : List (Rule Nat Nat)) (F : FirstTable) (m : A → Nat → Prop) (t : AugTokId)
    (c : Config Nat Nat A) : Prop :=
  ∃ c' tr, Steps P F.NodesFirst m c c' tr ∧ c'.input = c.input ∧
    (Demands P F.NodesFirst c'.stack t .shift ∨ Demands P F.NodesFirst c'.stack t .accept)

/-- A token that may follow a rule is welcome when the rule has been read. -/
theorem welcome_of_look (hu : RootOk P) (hJ : F.Justified P) {γ : List INode} {i d : Nat}
    {t : AugTokId} (h : ValidLook P F.NodesFirst γ i d t) :
    ∀ {r : Rule Nat Nat} {ts : List (Tree A)} {z : List A}, P[i]? = some r → Look m z t →
      NoDead P (γ ++ (rhs r).drop d) → Welcome P F m t ⟨γ ++ (rhs r).drop d, ts, z⟩ := by
  induction h with
  | root =>
    intro r ts z hr hl hn
    refine ⟨_, _, .refl _, rfl, .inr (.accept hr rfl ?_)⟩
    simpa using Valid.root.extend (P := P) (α := rhs r) (β := []) hr (by simp)
  | @move γ i d r' X β t h1 h2 h3 ih =>
    intro r ts z hr hl hn
    rw [h2] at hr
    cases hr
    rw [drop_succ_of_drop h3, List.append_assoc] at hn
    have := ih (ts := ts) h2 hl (by rw [h3]; exact hn)
    rw [h3] at this
    rw [drop_succ_of_drop h3, List.append_assoc]
    exact this
  | @closeFirst γ i d j r r' β t h1 h2 h3 h4 h5 h6 =>
    intro r'' ts z hr hl hn
    rw [h4] at hr
    cases hr
    have hjn := hu.read_ne_zero h2 h3 h4 hn
    have hlook : ValidLook P F.NodesFirst γ j 0 t := .closeFirst h1 h2 h3 h4 h5 h6
    have hs2 := Step.reduce (m := m) (ts := ts) h4 hl (Demands.reduce (γ := γ ++ rhs r') h4 hjn
      (by simpa using hlook.extend (α := rhs r') (β := []) h4 (by simp)))
    obtain ⟨c', tr, h7, h8, h9⟩ := toShift (m := m) hu (h6.just hJ) h5
      (ts := reduceTrees j (rhs r').length ts) (β := []) (.move h1 h2 h3) h2
      (by rw [drop_succ_of_drop h3, strip_of_drop (drop_succ_of_drop h3), List.append_nil]) hl
    exact ⟨c', _, by simpa using Steps.step hs2 h7, h8, .inl h9⟩
  | @closePass γ i d j r r' β t h1 h2 h3 h4 h5 ih =>
    intro r'' ts z hr hl hn
    rw [h4] at hr
    cases hr
    have hjn := hu.read_ne_zero h2 h3 h4 hn
    have hlook : ValidLook P F.NodesFirst γ j 0 t := .closePass h1 h2 h3 h4 h5
    have hs2 := Step.reduce (m := m) (ts := ts) h4 hl (Demands.reduce (γ := γ ++ rhs r') h4 hjn
      (by simpa using hlook.extend (α := rhs r') (β := []) h4 (by simp)))
    have hst := strip_of_drop (drop_succ_of_drop h3)
    obtain ⟨ts', tr, h7⟩ := vanish (m := m) hu (h5.just hJ) rfl (ts := reduceTrees j (rhs r').length ts)
      (β := []) (.move h1.valid h2 h3) h2 (by rw [drop_succ_of_drop h3, hst, List.append_nil]) hl
      (.inr ⟨rfl, .move h1 h2 h3⟩)
    rw [hst] at h7
    obtain ⟨c', tr', h8, h9, h10⟩ := ih (ts := ts') h2 hl (by
      intro hd r0 h0 hm
      rw [h3] at hm
      rcases List.mem_append.mp hm with hm | hm
      · exact hn hd r0 h0 (List.mem_append_left _ hm)
      · rcases List.mem_cons.mp hm with e | hm
        · injection e with e
          exact hjn (hd.1 j r0 r' h0 h4 e.symm)
        · exact hd.just (h5.just hJ) rfl r0 h0 hm)
    rw [h3] at h8
    refine ⟨c', (some j).toList ++ (tr ++ tr'), ?_, h9, h10⟩
    rw [List.drop_zero]
    exact Steps.step hs2 (h7.trans (by simpa using h8))

/-- Once the parser reduces, the lookahead is welcome. -/
theorem welcome_of_reduce (hu : RootOk P) (hJ : F.Justified P) {c : Config Nat Nat A} {x : AugTokId}
    {i : Nat} (hl : Look m c.input x) (h : Demands P F.NodesFirst c.stack x (.reduce i))
    (hn : NoDead P c.stack) : Welcome P F m x c := by
  cases h with
  | @reduce _ r h1 h2 h3 =>
    have := welcome_of_look (m := m) hu hJ h3 (ts := c.trees) h1 hl (by simpa using hn)
    rw [List.drop_length, List.append_nil] at this
    exact this

/-- No rule contains the end marker. -/
def NoEos (P : List (Rule Nat Nat)) : Prop := ∀ r ∈ P, .terminal .eos ∉ r.rule

theorem shift_ne_eos (he : NoEos P) {first : List INode → AugTokId → Prop} {γ : List INode}
    {t : AugTokId} (h : Demands P first γ t .shift) : t ≠ .eos := by
  rintro rfl
  cases h with
  | @shift i d r β h1 h2 h3 =>
    refine he r (List.mem_of_getElem? h2) ?_
    have : Node.terminal .eos ∈ (rhs r).drop d := by rw [h3]; simp
    exact (List.mem_filter.mp (List.mem_of_mem_drop this)).1

/-- **Termination**: every configuration reaches a final one. -/
theorem reaches_final (hu : RootOk P) (hJ : F.Justified P) (he : NoEos P) (n : Nat) :
    ∀ c : Config Nat Nat A, c.input.length = n → NoDead P c.stack →
      ∃ c' tr, Steps P F.NodesFirst m c c' tr ∧ Final P F.NodesFirst m c' := by
  induction n using Nat.strongRecOn with
  | ind n ih =>
    intro c hc hd0
    have hshift : ∀ c' : Config Nat Nat A, ∀ x, c'.input = c.input → NoDead P c'.stack → Look m c.input x →
        Demands P F.NodesFirst c'.stack x .shift →
        ∃ c'' tr, Steps P F.NodesFirst m c' c'' tr ∧ Final P F.NodesFirst m c'' := by
      intro c' x hi hnd hl hd
      obtain ⟨γ, ts, z⟩ := c'
      simp only at hi hd
      rw [← hi] at hl
      cases hl with
      | eos => exact absurd rfl (shift_ne_eos he hd)
      | @tok a z t hm =>
        rw [← hi] at hc
        obtain ⟨c'', tr, h1, h2⟩ := ih z.length (by rw [← hc]; simp)
          ⟨γ ++ [.terminal (.token t)], ts ++ [.leaf a], z⟩ rfl (hnd.step (.shift (ts := ts) hm hd))
        exact ⟨c'', _, .step (.shift hm hd) h1, h2⟩
    by_cases hst : Stuck P F.NodesFirst m c
    · exact ⟨c, [], .refl c, .inr hst⟩
    · rw [stuck_iff] at hst
      obtain ⟨a, ha⟩ := Classical.not_forall_not.mp hst
      cases ha with
      | @mk x _ hl hd =>
        cases a with
        | shift => exact hshift c x rfl hd0 hl hd
        | accept => exact ⟨c, [], .refl c, .inl ⟨x, hl, hd⟩⟩
        | reduce i =>
          obtain ⟨c', tr, h1, h2, h3⟩ := welcome_of_reduce hu hJ hl hd hd0
          rcases h3 with h3 | h3
          · obtain ⟨c'', tr', h4, h5⟩ := hshift c' x h2 (hd0.steps h1) hl h3
            exact ⟨c'', _, h1.trans h4, h5⟩
          · exact ⟨c', tr, h1, .inl ⟨x, h2 ▸ hl, h3⟩⟩

/-- **No reduction on account of a bad token**: when the parser gets stuck, its last step (if any) was a
shift. -/
theorem stuck_after_shift (hu : RootOk P) (hJ : F.Justified P) (hn : NoConflict P F.NodesFirst)
    (hm : Unique m) {c c' : Config Nat Nat A} {o : Option Nat} {tr : List Nat} {c'' : Config Nat Nat A}
    (h : Step P F.NodesFirst m c c' o) (hs : Steps P F.NodesFirst m c' c'' tr)
    (hi : c''.input = c.input) (hnd : NoDead P c.stack) : ¬ Stuck P F.NodesFirst m c'' := by
  intro hst
  have hlen : ∀ {d d' : Config Nat Nat A} {tr : List Nat}, Steps P F.NodesFirst m d d' tr →
      d'.input.length ≤ d.input.length := by
    intro d d' tr h
    induction h with
    | refl => exact Nat.le_refl _
    | step h1 _ ih => cases h1 <;> simp at ih ⊢ <;> omega
  have hstep := h
  cases h with
  | shift h1 h2 =>
    have := hlen hs
    rw [hi] at this
    simp at this
    omega
  | @reduce γ ts z x i r h1 h2 h3 =>
    obtain ⟨d, tr', h4, h5, h6⟩ := welcome_of_reduce (c := ⟨γ ++ rhs r, ts, z⟩) hu hJ h2 h3 hnd
    have hall : Steps P F.NodesFirst m ⟨γ ++ rhs r, ts, z⟩ c'' _ := .step hstep hs
    have hw : ¬ Stuck P F.NodesFirst m d := by
      intro hsd
      rcases h6 with h6 | h6
      · exact hsd x _ (h5 ▸ h2) h6
      · exact hsd x _ (h5 ▸ h2) h6
    rcases h4.linear hn hm hall with ⟨tr2, h7, -⟩ | ⟨tr2, h7, -⟩
    · -- the run passes through `d`, where the token is shifted or accepted
      cases h7 with
      | refl => exact hw hst
      | @step _ d1 _ o1 tr1 h8 h9 =>
        rcases h6 with h6 | h6
        · have := h8.will.det hn hm (.mk (h5 ▸ h2) h6)
          cases h8 with
          | shift =>
            have := hlen h9
            rw [hi] at this
            simp only at h5
            rw [← h5] at this
            simp at this
            omega
          | reduce => cases this
        · exact h8.not_accepting hn hm ⟨x, h5 ▸ h2, h6⟩
    · obtain ⟨rfl, -⟩ := h7.final_eq hn hm (.inr hst)
      exact hw hst

end Verif
