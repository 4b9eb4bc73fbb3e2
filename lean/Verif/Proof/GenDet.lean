import Verif.Proof.GenFinish

/-!
# Determinism of generated parsers, and comparison with the simulator
-/

set_option linter.unusedSectionVars false
set_option autoImplicit false

namespace Verif
open Spec

section
variable {P V E F' σ : Type} [DecidableEq P] {sem : Sem P V E σ} {lex : Lexer} {o : HashOrder}
  {gi : GrammarInfo} {prog : Program} {F : FirstTable} {kt : KernelTable}

/-- The same result, up to the peeked item of an accepting run. -/
inductive SameRes : StepResult P V E F' σ → StepResult P V E F' σ → Prop
  | refl (r : StepResult P V E F' σ) : SameRes r r
  | accept {v : Val P V} {st st' : PState P V F'} {w : σ} : st.stack = st'.stack → st.pulled = st'.pulled →
      SameRes (.accept v st w) (.accept v st' w)

/-- What the parser intends to do in a step that does not fail on the stream or an overlap. -/
theorem GenStep.det {table : LRTable} {debug debug' : Bool} {into : F' → E} {items : Nat → Option (Item P F')}
    {w0 w : σ} (hB : Built gi.indexedGrammar F kt table)
    (hn : NoConflict gi.indexedGrammar.cfg F.NodesFirst) {c : Config Nat Nat (Token P)}
    (ho : ¬ OverlapAt gi.indexedGrammar.cfg F.NodesFirst (gi.tokMatch sem) c)
    {st : PState P V F'} {res res' : StepResult P V E F' σ}
    (h : GenStep debug gi F kt sem into items w0 c st w res)
    (h' : GenStep debug' gi F kt sem into items w0 c st w res') : SameRes res res' := by
  have ss : ∀ {c' c'' : Config Nat Nat (Token P)} {a b : Option Nat},
      Spec.Step gi.indexedGrammar.cfg F.NodesFirst (gi.tokMatch sem) c c' a →
      Spec.Step gi.indexedGrammar.cfg F.NodesFirst (gi.tokMatch sem) c c'' b → c' = c'' ∧ a = b :=
    fun h1 h2 => h1.det' hn ho h2
  have sa : ∀ {c' : Config Nat Nat (Token P)} {a : Option Nat},
      Spec.Step gi.indexedGrammar.cfg F.NodesFirst (gi.tokMatch sem) c c' a →
      ¬ Accepting gi.indexedGrammar.cfg F.NodesFirst (gi.tokMatch sem) c := by
    intro c' a h1 h2
    have := Will.det' hn ho h1.will (accepting_iff.mp h2)
    cases a <;> cases this
  have as : Accepting gi.indexedGrammar.cfg F.NodesFirst (gi.tokMatch sem) c →
      ¬ Stuck gi.indexedGrammar.cfg F.NodesFirst (gi.tokMatch sem) c :=
    fun h1 h2 => stuck_iff.mp h2 _ (accepting_iff.mp h1)
  cases h with
  | stream h1 =>
    cases h' with
    | stream h2 => rw [h1] at h2; cases h2; exact .refl _
    | overlap h2 => exact absurd h1 (h2 _)
    | shift h2 => exact absurd h1 (h2 _)
    | reduce h2 => exact absurd h1 (h2 _)
    | reduceFail h2 => exact absurd h1 (h2 _)
    | accept h2 => exact absurd h1 (h2 _)
    | acceptFail h2 => exact absurd h1 (h2 _)
    | stuck h2 => exact absurd h1 (h2 _)
  | overlap _ h1 => exact absurd h1.2.2 ho
  | @shift c1 st1 h0 _ h1 h2 h3 h4 =>
    cases h' with
    | stream g => exact absurd g (h0 _)
    | overlap _ g => exact absurd g.2.2 ho
    | @shift c2 st2 _ _ g1 g2 g3 g4 =>
      obtain ⟨rfl, -⟩ := ss h1 g1
      obtain ⟨e, -⟩ := h4.det hB g4
      obtain ⟨n1, p1, s1⟩ := st1
      obtain ⟨n2, p2, s2⟩ := st2
      simp only at h2 h3 g2 g3 e
      subst h2; subst h3; subst g2; subst g3; subst e
      exact .refl _
    | reduce _ _ g => cases (ss h1 g).2
    | reduceFail _ _ g => cases (ss h1 g).2
    | accept _ _ g => exact absurd g (sa h1)
    | acceptFail _ _ g => exact absurd g (sa h1)
    | stuck _ _ g => exact absurd g h1.not_stuck
  | @reduce c1 i st1 w1 h0 _ h1 h2 h3 h4 =>
    cases h' with
    | stream g => exact absurd g (h0 _)
    | overlap _ g => exact absurd g.2.2 ho
    | shift _ _ g => cases (ss h1 g).2
    | @reduce c2 j st2 w2 _ _ g1 g2 g3 g4 =>
      obtain ⟨rfl, -⟩ := ss h1 g1
      obtain ⟨e, rfl⟩ := h4.det hB g4
      obtain ⟨n1, p1, s1⟩ := st1
      obtain ⟨n2, p2, s2⟩ := st2
      simp only at h2 h3 g2 g3 e
      subst h2; subst h3; subst g2; subst g3; subst e
      exact .refl _
    | reduceFail _ _ g1 g2 =>
      obtain ⟨rfl, -⟩ := ss h1 g1
      obtain ⟨vs, -, hv⟩ := h4
      rw [hv] at g2
      cases g2
    | accept _ _ g => exact absurd g (sa h1)
    | acceptFail _ _ g => exact absurd g (sa h1)
    | stuck _ _ g => exact absurd g h1.not_stuck
  | @reduceFail c1 i w1 e h0 _ h1 h2 =>
    cases h' with
    | stream g => exact absurd g (h0 _)
    | overlap _ g => exact absurd g.2.2 ho
    | shift _ _ g => cases (ss h1 g).2
    | reduce _ _ g1 g2 g3 g4 =>
      obtain ⟨rfl, -⟩ := ss h1 g1
      obtain ⟨vs, -, hv⟩ := g4
      rw [hv] at h2
      cases h2
    | reduceFail _ _ g1 g2 =>
      obtain ⟨rfl, -⟩ := ss h1 g1
      rw [h2] at g2
      cases g2
      exact .refl _
    | accept _ _ g => exact absurd g (sa h1)
    | acceptFail _ _ g => exact absurd g (sa h1)
    | stuck _ _ g => exact absurd g h1.not_stuck
  | accept h0 _ h1 h2 h3 h4 h5 h6 =>
    cases h' with
    | stream g => exact absurd g (h0 _)
    | overlap _ g => exact absurd g.2.2 ho
    | shift _ _ g => exact absurd h1 (sa g)
    | reduce _ _ g => exact absurd h1 (sa g)
    | reduceFail _ _ g => exact absurd h1 (sa g)
    | accept _ _ g1 g2 g3 g4 g5 g6 =>
      rw [h4] at g4
      cases g4
      exact .accept (by rw [h5, g5]) (by rw [h6, g6])
    | acceptFail _ _ g1 g2 g3 g4 =>
      rw [h4] at g4
      cases g4
    | stuck _ _ g => exact absurd g (as h1)
  | acceptFail h0 _ h1 h2 h3 h4 =>
    cases h' with
    | stream g => exact absurd g (h0 _)
    | overlap _ g => exact absurd g.2.2 ho
    | shift _ _ g => exact absurd h1 (sa g)
    | reduce _ _ g => exact absurd h1 (sa g)
    | reduceFail _ _ g => exact absurd h1 (sa g)
    | accept _ _ g1 g2 g3 g4 g5 g6 =>
      rw [h4] at g4
      cases g4
    | acceptFail _ _ g1 g2 g3 g4 =>
      rw [h4] at g4
      cases g4
      exact .refl _
    | stuck _ _ g => exact absurd g (as h1)
  | stuck h0 _ h1 =>
    cases h' with
    | stream g => exact absurd g (h0 _)
    | overlap _ g => exact absurd g.2.2 ho
    | shift _ _ g => exact absurd h1 g.not_stuck
    | reduce _ _ g => exact absurd h1 g.not_stuck
    | reduceFail _ _ g => exact absurd h1 g.not_stuck
    | accept _ _ g => exact absurd h1 (as g)
    | acceptFail _ _ g => exact absurd h1 (as g)
    | stuck => exact .refl _

/-- Two parsers generated for the same table run in lockstep. -/
theorem GenCtx.loop_eq {o' : HashOrder} {lex' : Lexer} {prog' : Program} {debug debug' : Bool} {into : F' → E}
    {items : Nat → Option (Item P F')} {w0 : σ} (h : GenCtx o lex gi prog F kt)
    (h' : GenCtx o' lex' gi prog' F kt)
    (ho : ∀ c, ¬ OverlapAt gi.indexedGrammar.cfg F.NodesFirst (gi.tokMatch sem) c) (fuel : Nat) :
    ∀ {st : PState P V F'} {w : σ}, GenReach debug sem into items prog w0 st w →
      prog.loop debug sem into items fuel st w = prog'.loop debug' sem into items fuel st w := by
  induction fuel with
  | zero => intro st w _; rfl
  | succ fuel ih =>
    intro st w hr
    obtain ⟨hW, hend⟩ := begins_tokensOf items st.pulled
    obtain ⟨c, tr, res, h1, h2, h3, h4, h5, h6, h7⟩ := h.reach_step hr hW hend
    obtain ⟨res', h8, h9⟩ := h'.step (debug := debug') (into := into) (items := items) h2 h5
    have hs := h7.det h.fit.built h.good.noConflict (ho c) h9
    unfold Program.loop
    rw [h6, h8, Outcome.ok_bind, Outcome.ok_bind]
    cases hs with
    | refl =>
      cases res with
      | next st' w' => exact ih (.step hr h6)
      | accept v st' w' => rfl
      | fail e w' => rfl
    | accept e1 e2 => simp only [e1, e2]

/-- Where an overlap is reported, nothing else happens. -/
theorem GenStep.reported {debug debug' : Bool} {into : F' → E} {items : Nat → Option (Item P F')}
    {w0 w : σ} {c : Config Nat Nat (Token P)} {st : PState P V F'} {res res' : StepResult P V E F' σ}
    (hr : Reported debug gi F sem c) (hr' : Reported debug' gi F sem c)
    (h : GenStep debug gi F kt sem into items w0 c st w res)
    (h' : GenStep debug' gi F kt sem into items w0 c st w res') : res = res' := by
  have key : ∀ {d : Bool} {r : StepResult P V E F' σ}, Reported d gi F sem c → GenStep d gi F kt sem into items w0 c st w r →
      (∃ f, st.next = some (.error f) ∧ r = .fail (.user (into f)) w) ∨
      (∀ f, st.next ≠ some (.error f)) ∧ r = .fail (.overlapping c.input.head?) w := by
    intro d r hd hs
    cases hs with
    | stream h1 => exact .inl ⟨_, h1, rfl⟩
    | overlap h1 => exact .inr ⟨h1, rfl⟩
    | shift _ h1 => exact absurd hd h1
    | reduce _ h1 => exact absurd hd h1
    | reduceFail _ h1 => exact absurd hd h1
    | accept _ h1 => exact absurd hd h1
    | acceptFail _ h1 => exact absurd hd h1
    | stuck _ h1 => exact absurd hd h1
  rcases key hr h with ⟨f, h1, rfl⟩ | ⟨h1, rfl⟩
  · rcases key hr' h' with ⟨f', h2, rfl⟩ | ⟨h2, rfl⟩
    · rw [h1] at h2
      cases h2
      rfl
    · exact absurd h1 (h2 f)
  · rcases key hr' h' with ⟨f', h2, rfl⟩ | ⟨h2, rfl⟩
    · exact absurd h2 (h1 f')
    · rfl

/-- In debug builds with an enum of tokens, overlaps do not disturb this. -/
theorem GenCtx.loop_eq_debug {o' : HashOrder} {lex' : Lexer} {prog' : Program} {into : F' → E}
    {items : Nat → Option (Item P F')} {w0 : σ} (h : GenCtx o lex gi prog F kt)
    (h' : GenCtx o' lex' gi prog' F kt) (he : gi.terminalType.isEnum = true) (fuel : Nat) :
    ∀ {st : PState P V F'} {w : σ}, GenReach true sem into items prog w0 st w →
      prog.loop true sem into items fuel st w = prog'.loop true sem into items fuel st w := by
  induction fuel with
  | zero => intro st w _; rfl
  | succ fuel ih =>
    intro st w hr
    obtain ⟨hW, hend⟩ := begins_tokensOf items st.pulled
    obtain ⟨c, tr, res, h1, h2, h3, h4, h5, h6, h7⟩ := h.reach_step hr hW hend
    obtain ⟨res', h8, h9⟩ := h'.step (debug := true) (into := into) (items := items) h2 h5
    have hs : SameRes res res' := by
      by_cases ho : OverlapAt gi.indexedGrammar.cfg F.NodesFirst (gi.tokMatch sem) c
      · have hrep : Reported true gi F sem c := ⟨rfl, he, ho⟩
        rw [h7.reported hrep hrep h9]
        exact .refl _
      · exact h7.det h.fit.built h.good.noConflict ho h9
    unfold Program.loop
    rw [h6, h8, Outcome.ok_bind, Outcome.ok_bind]
    cases hs with
    | refl =>
      cases res with
      | next st' w' => exact ih (.step hr h6)
      | accept v st' w' => rfl
      | fail e w' => rfl
    | accept e1 e2 => simp only [e1, e2]
end

/-! ### Inputs of different types -/

section
variable {T L A B : Type} {G : List (Rule T L)} {first : List (Node T L) → AugTok T → Prop}
  {m : A → T → Prop} {m' : B → T → Prop}

/-- Inputs whose tokens stand for the same terminals. -/
def Alike (m : A → T → Prop) (m' : B → T → Prop) : List A → List B → Prop :=
  List.Forall₂ fun a b => ∀ t, m a t ↔ m' b t

theorem Alike.look {z : List A} {z' : List B} (h : Alike m m' z z') {x : AugTok T} (hl : Look m z x) :
    Look m' z' x := by
  cases h with
  | nil => cases hl; exact .eos
  | cons h1 h2 => cases hl with | tok hm => exact .tok ((h1 _).mp hm)

theorem Alike.symm {z : List A} {z' : List B} (h : Alike m m' z z') : Alike m' m z' z := by
  induction h with
  | nil => exact .nil
  | cons h1 _ ih => exact .cons (fun t => (h1 t).symm) ih

/-- The parser does the same on inputs that are alike. -/
theorem Spec.Steps.alike {c c' : Config T L A} {tr : List Nat} (h : Steps G first m c c' tr) :
    ∀ {ts : List (Tree B)} {z : List B}, Alike m m' c.input z →
      ∃ ts' z', Steps G first m' ⟨c.stack, ts, z⟩ ⟨c'.stack, ts', z'⟩ tr ∧ Alike m m' c'.input z' := by
  induction h with
  | refl c => intro ts z hz; exact ⟨ts, z, .refl _, hz⟩
  | @step c c1 c' o tr h1 _ ih =>
    intro ts z hz
    cases h1 with
    | @shift γ ts0 a z0 t hm hd =>
      simp only at hz
      cases hz with
      | @cons _ b _ z' h2 h3 =>
        obtain ⟨ts', z'', h4, h5⟩ := ih (ts := ts ++ [.leaf b]) (z := z') h3
        exact ⟨ts', z'', .step (.shift ((h2 _).mp hm) hd) h4, h5⟩
    | @reduce γ ts0 z0 x i r hi hl hd =>
      obtain ⟨ts', z'', h4, h5⟩ := ih (ts := reduceTrees i (rhs r).length ts) (z := z) hz
      exact ⟨ts', z'', .step (.reduce hi (hz.look hl) hd) h4, h5⟩

theorem Alike.accepting {γ : List (Node T L)} {ts : List (Tree A)} {ts' : List (Tree B)} {z : List A}
    {z' : List B} (h : Alike m m' z z') (ha : Accepting G first m ⟨γ, ts, z⟩) :
    Accepting G first m' ⟨γ, ts', z'⟩ := by
  obtain ⟨x, h1, h2⟩ := ha
  exact ⟨x, h.look h1, h2⟩

theorem Alike.stuck {γ : List (Node T L)} {ts : List (Tree A)} {ts' : List (Tree B)} {z : List A}
    {z' : List B} (h : Alike m m' z z') (ha : Stuck G first m ⟨γ, ts, z⟩) :
    Stuck G first m' ⟨γ, ts', z'⟩ :=
  fun x a h1 h2 => ha x a (h.symm.look h1) h2

end
end Verif
