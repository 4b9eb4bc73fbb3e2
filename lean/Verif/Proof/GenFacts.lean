import Verif.Proof.RootRec
import Verif.Proof.VocabUsed
import Verif.Proof.Runtime
import Verif.Props.Parse

/-!
# Generated parsers: states of a run and configurations of the canonical LR(1) parser
-/

set_option linter.unusedSectionVars false
set_option autoImplicit false

namespace Verif
open Spec

/-- The terminals of a grammar. -/
def GrammarInfo.Terminal (gi : GrammarInfo) (s : Sym) : Prop :=
  ∃ r ∈ gi.productionRules, .symbol s ∈ r.rule

/-- A parser that the macro has generated (and that compiles): the grammar has been indexed, the table
built, and code generated. -/
structure Generated (o : HashOrder) (lex : Lexer) (gi : GrammarInfo) (prog : Program) : Prop where
  grammar : IndexedGrammar.build gi.grammar = .ok gi.indexedGrammar
  table : ∃ fuel, LRTable.build fuel gi.indexedGrammar = .ok gi.lrTable
  epsilonLast : EpsilonLast gi.grammar
  program : generateParser o lex gi = .ok prog
  compiles : prog.Compiles

theorem GrammarInfo.noEndMarker (gi : GrammarInfo) : NoEndMarker gi.grammar := by
  intro r hr hm
  simp only [GrammarInfo.grammar, List.mem_map] at hr
  obtain ⟨q, -, rfl⟩ := hr
  simp only [ARule.toLr, List.mem_map] at hm
  obtain ⟨n, -, hn⟩ := hm
  cases n <;> simp [ANode.toLrNode] at hn

theorem GrammarInfo.terminal_of_mem {gi : GrammarInfo} {s : Sym} {r : Rule Sym String}
    (hr : r ∈ gi.grammar.productions) (hm : .terminal (.token s) ∈ r.rule) : gi.Terminal s := by
  simp only [GrammarInfo.grammar, List.mem_map] at hr
  obtain ⟨q, hq, rfl⟩ := hr
  simp only [ARule.toLr, List.mem_map] at hm
  obtain ⟨n, hn, hn'⟩ := hm
  cases n with
  | symbol s' => cases hn'; exact ⟨q, hq, hn⟩
  | production _ => cases hn'
  | epsilon => cases hn'

section
variable {P V E F' σ : Type} [DecidableEq P]

/-- No token stands for two terminals of the grammar. -/
def GrammarInfo.Disjoint (gi : GrammarInfo) (sem : Sem P V E σ) : Prop :=
  ∀ a s s', gi.Terminal s → gi.Terminal s' → Matches sem gi.terminalType a s →
    Matches sem gi.terminalType a s' → s = s'

variable {sem : Sem P V E σ} {lex : Lexer} {o : HashOrder} {gi : GrammarInfo} {prog : Program}
  {F : FirstTable} {kt : KernelTable}

theorem Generated.parts (h : Generated o lex gi prog) :
    ∃ F kt, (FirstTable.build gi.indexedGrammar : Outcome (LRTableError Sym String) _) = .ok F ∧
      Fit gi.indexedGrammar F kt gi.lrTable := by
  have henc := (IndexedGrammar.build_ok h.grammar).1
  obtain ⟨fuel, hb⟩ := h.table
  obtain ⟨kt, hkt⟩ := build_eq.mp hb
  obtain ⟨F, eF, hres, hB⟩ := built_of_ok henc.wf hkt
  refine ⟨F, kt, eF, henc.wf, hres, henc.epsLast h.epsilonLast, ?_, henc.vocab, hB⟩
  intro r hr
  obtain ⟨i, hi⟩ := List.mem_iff_getElem?.mp hr
  obtain ⟨q, hq, rfl⟩ := cfg_get.mp hi
  exact henc.noEnd gi.noEndMarker q (List.mem_of_getElem? hq)

theorem Generated.used (h : Generated o lex gi prog) {t : Sym} (ht : t ∈ gi.indexedGrammar.vocab.idMap) :
    gi.Terminal t := by
  obtain ⟨r, hr, hm⟩ := IndexedGrammar.build_used h.grammar t ht
  exact GrammarInfo.terminal_of_mem hr hm

theorem Generated.unique (h : Generated o lex gi prog) (hD : gi.Disjoint sem) :
    Unique (gi.tokMatch sem) := by
  rintro a k k' ⟨t, h1, h2⟩ ⟨t', h3, h4⟩
  have := hD a t t' (h.used (List.mem_of_getElem? h1)) (h.used (List.mem_of_getElem? h3)) h2 h4
  subst this
  exact getElem?_inj_of_nodup (IndexedGrammar.build_ok h.grammar).1.vocab.nodup h1 h3

theorem Generated.ctx_of (h : Generated o lex gi prog) (hf : Fit gi.indexedGrammar F kt gi.lrTable) :
    GenCtx o lex gi prog F kt :=
  ⟨⟨(IndexedGrammar.build_ok h.grammar).1, hf, h.program⟩, h.compiles⟩

theorem Generated.ctx (h : Generated o lex gi prog) :
    ∃ F kt, (FirstTable.build gi.indexedGrammar : Outcome (LRTableError Sym String) _) = .ok F ∧
      GenCtx o lex gi prog F kt := by
  obtain ⟨F, kt, h1, h2⟩ := h.parts
  exact ⟨F, kt, h1, h.ctx_of h2⟩

theorem Generated.closed (h : Generated o lex gi prog) (hc : C07.ActionsComplete gi.grammar)
    (hF : (FirstTable.build gi.indexedGrammar : Outcome (LRTableError Sym String) _) = .ok F) :
    Covers gi.indexedGrammar.cfg F.NodesFirst :=
  hc.covers h.grammar hF

/-! ### Determinism -/

section
variable {T L A : Type} {G : List (Rule T L)} {first : List (Node T L) → AugTok T → Prop} {m : A → T → Prop}

theorem Spec.Will.det' (hn : NoConflict G first) {c : Config T L A} (ho : ¬ OverlapAt G first m c) {a b : Act}
    (h : Will G first m c a) (h' : Will G first m c b) : a = b := by
  obtain ⟨γ, ts, z⟩ := c
  cases h with
  | mk h1 h2 =>
    cases h' with
    | mk h3 h4 =>
      simp only at h1 h2 h3 h4
      cases h1 with
      | eos => cases h3; exact hn _ _ _ _ h2 h4
      | @tok x z t h1 =>
        cases h3 with
        | @tok _ _ t' h3 =>
          by_cases ht : t = t'
          · subst ht; exact hn _ _ _ _ h2 h4
          · exact absurd ⟨x, z, t, t', rfl, ht, h1, h3, ⟨_, h2⟩, _, h4⟩ ho

theorem Spec.Step.det' (hn : NoConflict G first) {c c' c'' : Config T L A} (ho : ¬ OverlapAt G first m c)
    {o o' : Option Nat} (h : Step G first m c c' o) (h' : Step G first m c c'' o') :
    c' = c'' ∧ o = o' := by
  have hw := Will.det' hn ho h.will h'.will
  generalize hc : c = d at h'
  cases h with
  | @shift γ ts a z t h1 h2 =>
    cases h' with
    | @shift γ' ts' a' z' t' h3 h4 =>
      cases hc
      by_cases ht : t = t'
      · subst ht; exact ⟨rfl, rfl⟩
      · exact absurd ⟨a, z, t, t', rfl, ht, h1, h3, ⟨_, h2⟩, _, h4⟩ ho
    | reduce => cases hw
  | @reduce γ ts z x i r h1 h2 h3 =>
    cases h' with
    | shift => cases hw
    | @reduce γ' ts' z' x' i' r' h4 h5 h6 =>
      simp only [stepAct, Act.reduce.injEq] at hw
      subst hw
      rw [h1] at h4
      cases h4
      simp only [Config.mk.injEq] at hc
      obtain ⟨hγ, rfl, rfl⟩ := hc
      rw [List.append_cancel_right hγ]
      exact ⟨rfl, rfl⟩

end

/-- The stack is determined by the symbols and the values. -/
theorem GStk.det {ig : IndexedGrammar Sym String} {table : LRTable} {tt : TerminalType}
    (hB : Built ig F kt table) {ss : List (Nat × Val P V)} {γ : List INode}
    {vs : List (Val P V)} (h : GStk ig F kt sem tt ss γ vs) :
    ∀ {ss' : List (Nat × Val P V)}, GStk ig F kt sem tt ss' γ vs → ss = ss' := by
  induction h with
  | nil =>
    intro ss' h'
    generalize hγ : ([] : List INode) = γ at h'
    generalize ([] : List (Val P V)) = vs at h'
    cases h' with
    | nil => rfl
    | snoc => simp at hγ
  | @snoc ss γ vs s X v _ h1 _ ih =>
    intro ss' h'
    generalize hγ : γ ++ [X] = γ' at h'
    generalize hv : vs ++ [v] = vs' at h'
    cases h' with
    | nil => simp at hγ
    | @snoc ss2 γ2 vs2 s2 X2 v2 h3 h4 h5 =>
      obtain ⟨rfl, e⟩ := List.append_inj' hγ rfl
      obtain ⟨rfl, e'⟩ := List.append_inj' hv rfl
      cases e
      cases e'
      rw [ih h3, hB.at_unique h1 h4]

theorem Holds.det {table : LRTable} (hB : Built gi.indexedGrammar F kt table) {w0 w w' : σ}
    {ss ss' : List (Nat × Val P V)} {c : Config Nat Nat (Token P)}
    (h : Holds gi F kt sem w0 ss w c) (h' : Holds gi F kt sem w0 ss' w' c) : ss = ss' ∧ w = w' := by
  obtain ⟨vs, h1, h2⟩ := h
  obtain ⟨vs', h3, h4⟩ := h'
  rw [h2] at h4
  cases h4
  exact ⟨h1.det hB h3, rfl⟩

/-! ### States of a run -/

namespace GenCtx
variable (h : GenCtx o lex gi prog F kt) {debug : Bool} {into : F' → E} {items : Nat → Option (Item P F')}
  {w0 : σ}
include h

/-- Any state of a run stands for a configuration of the canonical parser. -/
theorem reach {st : PState P V F'} {w : σ} (hr : GenReach debug sem into items prog w0 st w)
    {W : List (Token P)} (hW : Begins items W) (hend : st.pulled ≤ W.length ∨ EndsAfter items W) :
    ∃ c tr, Steps gi.indexedGrammar.cfg F.NodesFirst (gi.tokMatch sem) (.start W) c tr ∧
      Holds gi F kt sem w0 st.stack w c ∧ st.pulled + c.input.length = W.length + 1 ∧
      st.next = items (W.length - c.input.length) ∧
      ((∃ f, st.next = some (.error f)) ∨ st.next = c.input.head?.map .ok) := by
  have peek : ∀ {st : PState P V F'} {c : Config Nat Nat (Token P)}, (∃ u, W = u ++ c.input) →
      st.pulled + c.input.length = W.length + 1 → st.next = items (W.length - c.input.length) →
      (st.pulled ≤ W.length ∨ EndsAfter items W) →
      (∃ f, st.next = some (.error f)) ∨ st.next = c.input.head?.map .ok := by
    rintro st c ⟨u, hu⟩ hpull hnext hend
    have hulen : W.length - c.input.length = u.length := by
      rw [hu, List.length_append]; omega
    cases hz : c.input with
    | cons a z =>
      right
      rw [hnext, hulen]
      exact hW _ _ (by rw [hu, hz]; simp)
    | nil =>
      rw [hz] at hpull hnext
      rcases hend with h1 | h1
      · simp at hpull; omega
      · rw [hnext]
        simp only [List.length_nil, Nat.sub_zero, List.head?_nil, Option.map_none]
        cases hi : items W.length with
        | none => exact .inr rfl
        | some x =>
          cases x with
          | error f => exact .inl ⟨f, rfl⟩
          | ok a => exact absurd hi (h1 a)
  induction hr with
  | start =>
    have e1 : (PState.new items (LRTable.rootState, (.unit : Val P V))).pulled +
        (Config.start W : Config Nat Nat (Token P)).input.length = W.length + 1 := by
      simp [PState.new, Config.start]; omega
    have e2 : (PState.new items (LRTable.rootState, (.unit : Val P V))).next =
        items (W.length - (Config.start W : Config Nat Nat (Token P)).input.length) := by
      simp [PState.new, Config.start]
    exact ⟨.start W, [], .refl _, ⟨[], .nil, rfl⟩, e1, e2, peek ⟨[], rfl⟩ e1 e2 hend⟩
  | @step st st' w w' _ hs ih =>
    have hmono := step_pulled hs
    obtain ⟨c, tr, h1, h2, h3, h4, h5⟩ := ih (hend.imp (fun h => by omega) id)
    obtain ⟨res, e, hg⟩ := h.step (debug := debug) (into := into) (items := items) h2 h5
    rw [hs] at e
    cases e
    have done : ∀ {c' : Config Nat Nat (Token P)} {o : Option Nat},
        Step gi.indexedGrammar.cfg F.NodesFirst (gi.tokMatch sem) c c' o →
        Holds gi F kt sem w0 st'.stack w' c' → st'.pulled + c'.input.length = W.length + 1 →
        st'.next = items (W.length - c'.input.length) →
        ∃ c tr, Steps gi.indexedGrammar.cfg F.NodesFirst (gi.tokMatch sem) (.start W) c tr ∧
          Holds gi F kt sem w0 st'.stack w' c ∧ st'.pulled + c.input.length = W.length + 1 ∧
          st'.next = items (W.length - c.input.length) ∧
          ((∃ f, st'.next = some (.error f)) ∨ st'.next = c.input.head?.map .ok) := by
      intro c' o e1 e2 e3 e4
      have := h1.snoc e1
      exact ⟨c', _, this, e2, e3, e4, peek this.suffix e3 e4 hend⟩
    cases hg with
    | @shift c' _ _ _ g3 g4 g5 g6 =>
      have hc : c.input.length = c'.input.length + 1 := by
        cases g3; rfl
      refine done g3 g6 (by omega) ?_
      rw [g4]
      congr 1
      omega
    | @reduce c' i _ _ _ _ g3 g4 g5 g6 =>
      have hc : c'.input = c.input := by
        cases g3; rfl
      exact done g3 g6 (by rw [g5, hc]; exact h3) (by rw [g4, hc]; exact h4)

/-- The tokens that matter for a state. -/
theorem reach' {st : PState P V F'} {w : σ} (hr : GenReach debug sem into items prog w0 st w) :
    ∃ W c tr, Begins items W ∧
      Steps gi.indexedGrammar.cfg F.NodesFirst (gi.tokMatch sem) (.start W) c tr ∧
      Holds gi F kt sem w0 st.stack w c ∧ st.pulled + c.input.length = W.length + 1 ∧
      st.next = items (W.length - c.input.length) ∧
      ((∃ f, st.next = some (.error f)) ∨ st.next = c.input.head?.map .ok) := by
  obtain ⟨h1, h2⟩ := begins_tokensOf items st.pulled
  obtain ⟨c, tr, h3⟩ := h.reach hr h1 h2
  exact ⟨_, c, tr, h1, h3⟩

/-- What the next step of a run is. -/
theorem reach_step {st : PState P V F'} {w : σ} (hr : GenReach debug sem into items prog w0 st w)
    {W : List (Token P)} (hW : Begins items W) (hend : st.pulled ≤ W.length ∨ EndsAfter items W) :
    ∃ c tr res, Steps gi.indexedGrammar.cfg F.NodesFirst (gi.tokMatch sem) (.start W) c tr ∧
      Holds gi F kt sem w0 st.stack w c ∧ st.pulled + c.input.length = W.length + 1 ∧
      st.next = items (W.length - c.input.length) ∧
      ((∃ f, st.next = some (.error f)) ∨ st.next = c.input.head?.map .ok) ∧
      prog.step debug sem into items st w = .ok res ∧
      GenStep debug gi F kt sem into items w0 c st w res := by
  obtain ⟨c, tr, h1, h2, h3, h4, h5⟩ := h.reach hr hW hend
  obtain ⟨res, e, hg⟩ := h.step (debug := debug) (into := into) (items := items) h2 h5
  exact ⟨c, tr, res, h1, h2, h3, h4, h5, e, hg⟩

/-- **Termination**: if overlaps are reported or impossible, a run on finitely many tokens ends,
after one iteration for each step of the machine. -/
theorem terminates (ho : ∀ c, OverlapAt gi.indexedGrammar.cfg F.NodesFirst (gi.tokMatch sem) c →
      Reported debug gi F sem c)
    {W : List (Token P)} (hW : Begins items W) (hend : EndsAfter items W) {c c' : Config Nat Nat (Token P)}
    {tr : List Nat} (hs : Steps gi.indexedGrammar.cfg F.NodesFirst (gi.tokMatch sem) c c' tr)
    (hf : Final gi.indexedGrammar.cfg F.NodesFirst (gi.tokMatch sem) c') :
    ∀ {st : PState P V F'} {w : σ}, GenReach debug sem into items prog w0 st w →
      Holds gi F kt sem w0 st.stack w c →
      ((∃ f, st.next = some (.error f)) ∨ st.next = c.input.head?.map .ok) →
      st.pulled + c.input.length = W.length + 1 → (∃ u, W = u ++ c.input) →
      ∃ run, prog.loop debug sem into items (tr.length + c.input.length + 1) st w = .ok run := by
  have fin : ∀ {c : Config Nat Nat (Token P)} {st : PState P V F'} {w : σ} {res : StepResult P V E F' σ},
      prog.step debug sem into items st w = .ok res → (∀ st' w', res ≠ .next st' w') →
      ∀ n, ∃ run, prog.loop debug sem into items (n + 1) st w = .ok run := by
    intro c st w res e hne n
    unfold Program.loop
    rw [e, Outcome.ok_bind]
    cases res with
    | next st' w' => exact absurd rfl (hne st' w')
    | accept v st' w' => exact ⟨_, rfl⟩
    | fail e w' => exact ⟨_, rfl⟩
  have hn := h.good.noConflict
  induction hs with
  | refl c =>
    intro st w hr hh hp hl hu
    obtain ⟨res, e, hg⟩ := h.step (debug := debug) (into := into) (items := items) hh hp
    refine fin (c := c) e ?_ _
    rintro st' w' rfl
    have key : ∀ {c' : Config Nat Nat (Token P)} {o : Option Nat},
        Step gi.indexedGrammar.cfg F.NodesFirst (gi.tokMatch sem) c c' o →
        ¬ Reported debug gi F sem c → False := by
      intro c' o hst hno
      rcases hf with hf | hf
      · have := Will.det' hn (fun ho' => hno (ho _ ho')) (accepting_iff.mp hf) hst.will
        cases o <;> cases this
      · exact hst.not_stuck hf
    cases hg with
    | shift _ h2 h3 _ _ _ => exact key h3 h2
    | reduce _ h2 h3 _ _ _ => exact key h3 h2
  | @step c c1 c' o1 tr hst _ ih =>
    intro st w hr hh hp hl hu
    obtain ⟨res, e, hg⟩ := h.step (debug := debug) (into := into) (items := items) hh hp
    cases res with
    | accept v st' w' => exact fin (c := c) e (fun _ _ => by simp) _
    | fail x w' => exact fin (c := c) e (fun _ _ => by simp) _
    | next st' w' =>
      have go : Holds gi F kt sem w0 st'.stack w' c1 →
          ∃ run, prog.loop debug sem into items ((o1.toList ++ tr).length + c.input.length + 1) st w = .ok run := by
        intro hh'
        have hr' := GenReach.step hr e
        obtain ⟨c2, tr2, h3, h4, h5, h6, h7⟩ := h.reach hr' hW (.inr hend)
        obtain ⟨u, hu⟩ := hu
        -- the remaining input is a matter of lengths
        have hlen : c2.input = c1.input := by
          obtain ⟨u2, hu2⟩ := h3.suffix
          obtain ⟨u1, hu1⟩ := (Steps.one hst).suffix
          have hu2 : W = u2 ++ c2.input := hu2
          have hl1 : st'.pulled + c1.input.length = W.length + 1 := by
            cases hg with
            | @shift c'' _ g1 g2 g3 g4 g5 g6 =>
              have := (Step.det' hn (fun ho' => g2 (ho _ ho')) hst g3).1
              subst this
              have hc : c.input.length = c1.input.length + 1 := by
                cases g3; rfl
              omega
            | @reduce c'' i _ _ g1 g2 g3 g4 g5 g6 =>
              have := (Step.det' hn (fun ho' => g2 (ho _ ho')) hst g3).1
              subst this
              have hc : c1.input = c.input := by
                cases g3; rfl
              rw [g5, hc]; exact hl
          have h8 : c2.input.length = c1.input.length := by omega
          have h9 : u2 ++ c2.input = (u ++ u1) ++ c1.input := by
            rw [← hu2, hu, hu1, List.append_assoc]
          exact (List.append_inj' h9 h8).2
        obtain ⟨run, hN⟩ := ih hf hr' hh' (by rw [← hlen]; exact h7) (by rw [← hlen]; exact h5)
          (by rw [← hlen]; exact h3.suffix)
        refine ⟨run, ?_⟩
        have hfuel : (o1.toList ++ tr).length + c.input.length = tr.length + c1.input.length + 1 := by
          cases hst <;> simp <;> omega
        unfold Program.loop
        rw [e, Outcome.ok_bind, hfuel]
        exact hN
      cases hg with
      | @shift c'' _ g1 g2 g3 g4 g5 g6 =>
        have := (Step.det' hn (fun ho' => g2 (ho _ ho')) hst g3).1
        subst this
        exact go g6
      | @reduce c'' i _ _ g1 g2 g3 g4 g5 g6 =>
        have := (Step.det' hn (fun ho' => g2 (ho _ ho')) hst g3).1
        subst this
        exact go g6

theorem parse_ends_in (ho : ∀ c, OverlapAt gi.indexedGrammar.cfg F.NodesFirst (gi.tokMatch sem) c →
      Reported debug gi F sem c) {W : List (Token P)} (hW : Begins items W) (hend : EndsAfter items W)
    {c' : Config Nat Nat (Token P)} {tr : List Nat}
    (h1 : Steps gi.indexedGrammar.cfg F.NodesFirst (gi.tokMatch sem) (.start W) c' tr)
    (h2 : Final gi.indexedGrammar.cfg F.NodesFirst (gi.tokMatch sem) c') :
    ∃ run, prog.parseFallible debug sem into items (tr.length + W.length + 1) w0 = .ok run := by
  obtain ⟨c, tr', h3, h4, h5, h6, h7⟩ := h.reach (debug := debug) (into := into) (w0 := w0) (sem := sem)
    (.start) hW (.inr hend)
  refine h.terminates ho hW hend h1 h2 .start ⟨[], .nil, rfl⟩ ?_ (by simp [PState.new, Config.start]; omega)
    ⟨[], rfl⟩
  have e : c.input = W := by
    obtain ⟨u, hu⟩ := h3.suffix
    have hu : W = u ++ c.input := hu
    have : u.length = 0 := by
      have := congrArg List.length hu
      simp only [List.length_append] at this
      simp only [PState.new] at h5
      omega
    rw [List.length_eq_zero_iff] at this
    rw [hu, this]; rfl
  rw [e] at h7
  exact h7

theorem parse_ends_at (ho : ∀ c, OverlapAt gi.indexedGrammar.cfg F.NodesFirst (gi.tokMatch sem) c →
      Reported debug gi F sem c) {W : List (Token P)} (hW : Begins items W) (hend : EndsAfter items W) :
    ∃ N run, prog.parseFallible debug sem into items N w0 = .ok run := by
  obtain ⟨c', tr, h1, h2⟩ := reaches_final (m := gi.tokMatch sem) h.good.rootOk h.good.justified
    h.good.noEos _ (.start W) rfl .nil
  exact ⟨_, h.parse_ends_in ho hW hend h1 h2⟩

end GenCtx
end
end Verif
