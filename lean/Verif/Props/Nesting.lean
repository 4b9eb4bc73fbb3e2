import Verif.Proof.Nesting
import Verif.Props.Feedback
import Verif.Props.Label
import Verif.Props.Exact
import Verif.Props.Mistakes
import Verif.Props.Table

/-!
# C86: a grammar whose recursion is left recursion is parsed in constant stack space
-/

set_option linter.unusedSectionVars false
set_option autoImplicit false

namespace Verif.C86
open Spec

/-! ### Helpers -/

section
variable {T L A : Type} [DecidableEq T] [DecidableEq L] {g : Grammar T L} {ig : IndexedGrammar T L}

/-- Stacks of the canonical parser for the indexed grammar are as short as the user's grammar says. -/
theorem stack_le (he : ig.Encodes g) (hl : LeftOnly g.productions) {first : List INode → AugTokId → Prop}
    {m : A → Nat → Prop} {w : List A} {c : Config Nat Nat A} {tr : List Nat}
    (h : Steps ig.cfg first m (.start w) c tr) :
    c.stack.length ≤ longest g.productions * labelCount g.productions := by
  obtain ⟨i, d, hv⟩ := (Sane.start.steps h).viable
  obtain ⟨γ, h1, h2⟩ := valid_dec he hv
  obtain ⟨root, rest, hroot, -⟩ := he.root_label
  rw [← h1.length_eq]
  exact Nesting.valid_length hl (root := root) (by rw [hroot]; rfl) h2

/-- Otherwise they have any length, even if all that is read is a sentence. -/
theorem stack_ge (hi : IndexedGrammar.build g = .ok ig) {m : A → Nat → Prop} (hp : ProductiveM ig.cfg m)
    (hu : RootOk ig.cfg) (h0 : ∃ r, ig.cfg[0]? = some r ∧ r.symbol = 0) (hl : ¬ LeftOnly g.productions) (n : Nat) :
    ∃ (w : List A) (c : Config Nat Nat A) (tr : List Nat) (f : Forest A),
      Steps ig.cfg (InFirst ig.cfg) m (.start w) c tr ∧ n ≤ c.stack.length ∧ ParsesM ig.cfg m f [.production 0] w := by
  have he := (IndexedGrammar.build_ok hi).1
  obtain ⟨root, rest, hroot, -⟩ := he.root_label
  obtain ⟨γ, i, d, h1, h2⟩ := Nesting.valid_pump (C81.rootOnce hi) (root := root) (by rw [hroot]; rfl)
    (C85.reachable hroot hi) hl n
  obtain ⟨γ', i', h3, -, -, h4⟩ := valid_enc he h2
  obtain ⟨r, hr, h0⟩ := h0
  obtain ⟨w, ts, z, tr, f, h5, h6⟩ := Nesting.deep hp firstClosed_true hu hr h4
  exact ⟨w, _, tr, f, h5, by rw [← h3.length_eq]; exact h1, h0 ▸ h6⟩

end

/-! ### The simulator -/

section
variable {T L : Type} [DecidableEq T] [DecidableEq L]

/-- **C86 (simulator).** If all recursion of the grammar is left recursion, then the stack never has more than
`1 + M * N` entries, where `M` is the length of the longest rule and `N` the number of labels: neither the length of the
input nor whether it is accepted matters. -/
theorem simulator_constant_stack (g : Grammar T L) (p : SimParser T L) (fuel : Nat) (hg : WellFormed g)
    (hp : SimParser.new fuel g = .ok p) (hl : LeftOnly g.productions) {w : List T} {ss : List Nat} {ns : List INode}
    {z : List T} {tr : List Nat} (hr : SimRun p w ss ns z tr) :
    ss.length ≤ 1 + longest g.productions * labelCount g.productions ∧
      ns.length ≤ longest g.productions * labelCount g.productions := by
  obtain ⟨F, kt, h⟩ := ready hg hp
  obtain ⟨c, h1, h2, rfl, -⟩ := h.run hr
  have h3 := stack_le h.enc hl h1
  have h4 := h2.length
  rw [List.length_reverse]
  omega

/-- Every run of the canonical parser is a run of the simulator. -/
theorem run_of_steps {p : SimParser T L} {F : FirstTable} {kt : KernelTable} (h : Good p.grammar F kt p.lrTable)
    {w : List T} {c : Config Nat Nat T} {tr : List Nat}
    (hs : Steps p.grammar.cfg F.NodesFirst (tokMatch p.grammar) (.start w) c tr) :
    ∃ ss, Stk p.grammar F kt ss c.stack ∧ SimRun p w ss c.stack.reverse c.input tr ∧ ss.length = c.stack.length + 1 := by
  have key : ∀ {c c' : Config Nat Nat T} {tr' : List Nat},
      Steps p.grammar.cfg F.NodesFirst (tokMatch p.grammar) c c' tr' →
      ∀ {ss tr}, Stk p.grammar F kt ss c.stack → SimRun p w ss c.stack.reverse c.input tr →
        ∃ ss', Stk p.grammar F kt ss' c'.stack ∧ SimRun p w ss' c'.stack.reverse c'.input (tr ++ tr') := by
    intro c c' tr' hs
    induction hs with
    | refl => intro ss tr h1 h2; exact ⟨ss, h1, by simpa using h2⟩
    | @step c c1 c2 o tr' h1 _ ih =>
      intro ss tr h2 h3
      rcases step_sim (ε := LRTableError T L) h h2 with ⟨h4, -⟩ | ⟨h4, -⟩ | ⟨c', o', ss', h4, h5, e, e'⟩
      · exact absurd h4 (h1.not_accepting h.noConflict h.unique)
      · exact absurd h4 h1.not_stuck
      · obtain ⟨rfl, rfl⟩ := h1.det h.noConflict h.unique h4
        obtain ⟨ss2, h6, h7⟩ := ih h5 (.step h3 e)
        refine ⟨ss2, h6, ?_⟩
        rw [e'] at h7
        simpa using h7
  obtain ⟨ss, h1, h2⟩ := key hs (ss := [0]) (tr := []) .nil .start
  exact ⟨ss, h1, by simpa using h2, h1.length⟩

/-- **C86 (simulator), partial.** Left recursion is the only recursion with this property: for any other grammar there are
sentences that fill a stack of any size. Missing: grammars with missing actions or with labels that derive nothing. -/
theorem simulator_stack_grows_partial (g : Grammar T L) (p : SimParser T L) (fuel : Nat) (hg : WellFormed g)
    (hc : C07.ActionsComplete g) (hpr : Productive g.productions) (hp : SimParser.new fuel g = .ok p)
    (hl : ¬ LeftOnly g.productions) (n : Nat) :
    ∃ w ss ns z tr, Language g w ∧ SimRun p w ss ns z tr ∧ n < ss.length := by
  obtain ⟨F, kt, h⟩ := ready hg hp
  obtain ⟨w, c, tr, f, h1, h2, h3⟩ := stack_ge h.built (h.productive hg hpr) h.good.rootOk h.root hl n
  obtain ⟨ss, -, h4, h5⟩ := run_of_steps h.good (h1.mono (h.closed hc))
  exact ⟨w, ss, _, _, _, language_iff_parseTree.mpr ⟨_, h.tree h3⟩, h4, by omega⟩

/-- **C86 (simulator), partial.** The stack is bounded exactly if all recursion is left recursion. -/
theorem simulator_constant_stack_iff_partial (g : Grammar T L) (p : SimParser T L) (fuel : Nat) (hg : WellFormed g)
    (hc : C07.ActionsComplete g) (hpr : Productive g.productions) (hp : SimParser.new fuel g = .ok p) :
    (∃ B, ∀ w ss ns z tr, SimRun p w ss ns z tr → ss.length ≤ B) ↔ LeftOnly g.productions := by
  refine ⟨fun ⟨B, hB⟩ => ?_, fun hl => ⟨_, fun w ss ns z tr h => (simulator_constant_stack g p fuel hg hp hl h).1⟩⟩
  by_contra hl
  obtain ⟨w, ss, ns, z, tr, -, h1, h2⟩ := simulator_stack_grows_partial g p fuel hg hc hpr hp hl B
  have := hB w ss ns z tr h1
  omega

end

/-! ### Generated parsers -/

section
variable {P V E F' σ : Type} [DecidableEq P] {lex : Lexer} {o : HashOrder} {gi : GrammarInfo} {prog : Program}

/-- **C86 (generated parsers).** If all recursion of the grammar is left recursion, then the stack of states and values never
has more than `1 + M * N` entries, whatever the stream, which may be infinite, and whatever patterns and constructors
mean. -/
theorem generated_constant_stack (h : Generated o lex gi prog) (hl : LeftOnly gi.grammar.productions) (debug : Bool)
    (sem : Sem P V E σ) (into : F' → E) (items : Nat → Option (Item P F')) (w0 : σ) {st : PState P V F'} {w : σ}
    (hr : GenReach debug sem into items prog w0 st w) :
    st.stack.length ≤ 1 + longest gi.grammar.productions * labelCount gi.grammar.productions := by
  obtain ⟨F, kt, -, hc⟩ := h.ctx
  obtain ⟨W, c, tr, -, h1, ⟨vs, h2, -⟩, -⟩ := hc.reach' hr
  have h3 := stack_le hc.enc hl h1
  have := h2.length.1
  omega

/-- **C86 (generated parsers).** Also if the stream depends on what constructors do (C71). -/
theorem generated_constant_stack_fed (h : Generated o lex gi prog) (hl : LeftOnly gi.grammar.productions) (debug : Bool)
    (sem : Sem P V E σ) (into : F' → E) (src : Source P F' σ) (w0 : σ) {its : List (Option (Item P F'))}
    {st : PState P V F'} {w : σ} (hr : FedReach debug sem into src prog w0 its st w) :
    st.stack.length ≤ 1 + longest gi.grammar.productions * labelCount gi.grammar.productions := by
  obtain ⟨F, kt, -, hc⟩ := h.ctx
  have hb := begins_tokensOf (fun i => (its[i]?).join) st.pulled
  obtain ⟨-, c, tr, h1, ⟨vs, h2, -⟩, -⟩ := hc.reachFed hr (items := fun i => (its[i]?).join)
    (by intro i x hx; simp [hx]) hb.1 hb.2
  have h3 := stack_le hc.enc hl h1
  have := h2.length.1
  omega

/-- Every run of the canonical parser is a run of the generated parser if constructors do not fail. -/
theorem reach_of_steps {F : FirstTable} {kt : KernelTable} (hc : GenCtx o lex gi prog F kt) (debug : Bool)
    {sem : Sem P V E σ} (into : F' → E) (w0 : σ) (hm : Unique (gi.tokMatch sem)) (hS : C70.Succeed gi sem)
    {items : Nat → Option (Item P F')} {W : List (Token P)} (hW : Begins items W) (hend : items W.length = none)
    {c : Config Nat Nat (Token P)} {tr : List Nat}
    (hs : Steps gi.indexedGrammar.cfg F.NodesFirst (gi.tokMatch sem) (.start W) c tr) :
    ∃ st w, GenReach debug sem into items prog w0 st w ∧ st.stack.length = c.stack.length + 1 := by
  have hend' : EndsAfter items W := by intro a; rw [hend]; simp
  have key : ∀ {c c' : Config Nat Nat (Token P)} {tr : List Nat},
      Steps gi.indexedGrammar.cfg F.NodesFirst (gi.tokMatch sem) c c' tr →
      ∀ {st w}, GenReach debug sem into items prog w0 st w → GenCtx.Stands gi F kt sem w0 W st w c →
        (∀ f, st.next ≠ some (.error f)) →
        ∃ st' w', GenReach debug sem into items prog w0 st' w' ∧ GenCtx.Stands gi F kt sem w0 W st' w' c' := by
    intro c c' tr hs
    induction hs with
    | refl => intro st w h1 h2 _; exact ⟨st, w, h1, h2⟩
    | @step c c1 c2 o tr h1 _ ih =>
      intro st w h2 h3 hno
      obtain ⟨res, e, hg⟩ := hc.step (debug := debug) (into := into) (items := items) h3.holds h3.next
      have go : ∀ {st' w'}, prog.step debug sem into items st w = .ok (.next st' w') →
          (∀ f, st'.next ≠ some (.error f)) → ∃ st2 w2, GenReach debug sem into items prog w0 st2 w2 ∧
            GenCtx.Stands gi F kt sem w0 W st2 w2 c2 := by
        intro st' w' e' hno'
        obtain ⟨c1', o', h4, h5⟩ := hc.stands_next hW hend' h3 e'
        obtain ⟨rfl, rfl⟩ := h1.det hc.good.noConflict hm h4
        exact ih (.step h2 e') h5 hno'
      cases hg with
      | stream hf => exact absurd hf (hno _)
      | overlap _ ho => exact absurd ho.2.2 (not_overlap_of_unique hm)
      | @shift c' st' g1 g2 g3 g4 g5 g6 =>
        refine go e fun f hf => ?_
        rw [g4] at hf
        have hlt : st.pulled < W.length ∨ st.pulled = W.length := by
          have := h3.pulled
          cases g3
          simp only [List.length_cons] at this
          omega
        rcases hlt with hlt | hlt
        · rw [hW _ _ (List.getElem?_eq_getElem hlt)] at hf
          cases hf
        · rw [hlt, hend] at hf
          cases hf
      | reduce g1 g2 g3 g4 g5 g6 =>
        exact go e (by rw [g4]; exact hno)
      | reduceFail g1 g2 g3 g4 =>
        obtain ⟨vs, w', h5⟩ := eval_succeeds (tok := .tok) (fun k => hS (gi.indexedGrammar.orig k)) (Forest.ofTrees _) w0
        rw [h5] at g4
        cases g4
      | accept g1 g2 g3 => exact absurd g3 (h1.not_accepting hc.good.noConflict hm)
      | acceptFail g1 g2 g3 => exact absurd g3 (h1.not_accepting hc.good.noConflict hm)
      | stuck g1 g2 g3 => exact absurd g3 h1.not_stuck
  obtain ⟨st, w, h1, h2⟩ := key hs .start (GenCtx.stands_start hW hend') (by
    intro f hf
    simp only [PState.new] at hf
    cases W with
    | nil => rw [show items 0 = none from hend] at hf; cases hf
    | cons a W => rw [hW 0 a rfl] at hf; cases hf)
  obtain ⟨vs, h3, -⟩ := h2.holds
  exact ⟨st, w, h1, h3.length.1⟩

/-- **C86 (generated parsers), partial.** For any other grammar there are sentences that fill a stack of any size. Missing:
overlapping patterns, constructors that fail, rules that derive nothing, missing actions. -/
theorem generated_stack_grows_partial (h : Generated o lex gi prog) (debug : Bool) (sem : Sem P V E σ) (into : F' → E)
    (w0 : σ) (hD : gi.Disjoint sem) (hc : C07.ActionsComplete gi.grammar) (hpr : gi.ProductiveRules sem)
    (hS : C70.Succeed gi sem) (hl : ¬ LeftOnly gi.grammar.productions) (n : Nat) :
    ∃ W, gi.Sentence sem W ∧ ∀ items : Nat → Option (Item P F'), (∀ i a, W[i]? = some a → items i = some (.ok a)) →
      items W.length = none → ∃ st w, GenReach debug sem into items prog w0 st w ∧ n < st.stack.length := by
  obtain ⟨F, kt, hF, hx⟩ := h.ctx
  obtain ⟨W, c, tr, f, h1, h2, h3⟩ := stack_ge h.grammar (h.productiveM hpr) hx.good.rootOk hx.good.root_rule hl n
  refine ⟨W, ⟨_, parseTreeM_dec hx.enc h3⟩, fun items hW hend => ?_⟩
  obtain ⟨st, w, h4, h5⟩ := reach_of_steps hx debug into w0 (h.unique hD) hS hW hend (h1.mono (h.closed hc hF))
  exact ⟨st, w, h4, by omega⟩

end

/-! ### Examples and limits -/

/-- `S => L; L => L Num(_) | Num(_)` needs five entries at most, for lists of any length, read from any iterator. -/
theorem list_leftOnly : LeftOnly (Sample.listRules.map ARule.toLr) :=
  leftOnly_of_levels (fun _ => 0) (by decide) (by decide)

example : ∃ gi prog, Generated .id Sample.lexer gi prog ∧ ∀ (sem : Sem Nat Nat String Nat) (debug : Bool)
    (items : Nat → Option (Item Nat String)) (w0 : Nat) (st : PState Nat Nat String) (w : Nat),
    GenReach debug sem id items prog w0 st w → st.stack.length ≤ 5 := by
  obtain ⟨gi, prog, h, h1, -⟩ := Sample.fed_generated
  have e : gi.grammar.productions = Sample.listRules.map ARule.toLr := by unfold GrammarInfo.grammar; rw [h1]
  refine ⟨gi, prog, h, fun sem debug items w0 st w hr => ?_⟩
  have := generated_constant_stack h (by rw [e]; exact list_leftOnly) debug sem id items w0 hr
  rw [e] at this
  exact this.trans (by decide)

/-- `S -> L B; L -> a L | !; B -> b c` recurses on the right. -/
theorem sampleLR_grows : ¬ LeftOnly sampleLR.productions := fun h =>
  h 1 1 ⟨⟨1, [.terminal (.token 7), .production 1]⟩, by decide, rfl, [.terminal (.token 7)], [], by simp, rfl⟩ .refl

theorem sampleLR_productive : Productive sampleLR.productions := by
  have h1 : Derives sampleLR.productions [.production 1] [] :=
    .prod (r := ⟨1, [.terminal .epsilon]⟩) (u := []) (by decide) (.eps .nil) .nil
  have h2 : Derives sampleLR.productions [.production 2] [9, 8] :=
    .prod (r := ⟨2, [.terminal (.token 9), .terminal (.token 8)]⟩) (u := [9, 8]) (by decide) (.tok (.tok .nil)) .nil
  have h0 : Derives sampleLR.productions [.production 0] [9, 8] :=
    .prod (r := ⟨0, [.production 1, .production 2]⟩) (u := [9, 8]) (by decide)
      (.prod (r := ⟨1, [.terminal .epsilon]⟩) (u := []) (by decide) (.eps .nil) h2) .nil
  intro r hr
  simp only [sampleLR, List.mem_cons, List.not_mem_nil, or_false] at hr
  rcases hr with rfl | rfl | rfl | rfl
  · exact ⟨_, h0⟩
  · exact ⟨_, h1⟩
  · exact ⟨_, h1⟩
  · exact ⟨_, h2⟩

example : ∃ p, SimParser.new 20 sampleLR = .ok p ∧ ∀ n, ∃ w ss ns z tr, Language sampleLR w ∧
    SimRun p w ss ns z tr ∧ n < ss.length := by
  obtain ⟨p, h1, -⟩ := sampleLR_parser
  exact ⟨p, h1, simulator_stack_grows_partial _ p _ sampleLR_wellFormed sampleLR_complete.actions sampleLR_productive h1
    sampleLR_grows⟩

/-- The generated sample parser recurses on the right. -/
example : ∃ gi prog, Generated .id Sample.lexer gi prog ∧ ∀ n, ∃ W, gi.Sentence C77.sem W ∧
    ∀ items : Nat → Option (Item Nat String), (∀ i a, W[i]? = some a → items i = some (.ok a)) →
      items W.length = none →
      ∃ st w, GenReach true C77.sem (id : String → String) items prog 0 st w ∧ n < st.stack.length := by
  obtain ⟨gi, prog, h, h1, h2, -⟩ := Sample.generated
  have e : Matches C77.sem gi.terminalType = Matches Sample.sem gi.terminalType :=
    Verif.matches_congr (sem := Sample.sem) (sem' := C77.sem) rfl rfl
  refine ⟨gi, prog, h, generated_stack_grows_partial h true C77.sem id 0 ?_ (Sample.firstComplete h1).actions ?_ ?_ ?_⟩
  · unfold GrammarInfo.Disjoint
    rw [e]
    exact Sample.disjoint h1 h2
  · unfold GrammarInfo.ProductiveRules
    rw [e]
    exact Sample.productive h1 h2
  · intro k vs w
    unfold construct
    split
    · exact ⟨_, _, rfl⟩
    · dsimp only
      split
      · exact ⟨_, _, rfl⟩
      · split <;> exact ⟨_, _, rfl⟩
      · exact ⟨_, _, rfl⟩
  · have e : gi.grammar.productions = Sample.rules.map ARule.toLr := by unfold GrammarInfo.grammar; rw [h1]
    rw [e]
    exact fun h => h "L" "L" ⟨⟨"L", [.terminal (.token ⟨"Plus", .none⟩), .production "L"]⟩, by decide, rfl,
      [.terminal (.token ⟨"Plus", .none⟩)], [], by simp, rfl⟩ .refl

section
variable {T L : Type} [DecidableEq T] [DecidableEq L]

/-- What is decided without reading further does not depend on it. -/
theorem step_done {p : SimParser T L} {ss : List Nat} {ns : List INode} {t : T} {z : List T} {b : Bool}
    (h : (p.step ss ns [t] : Outcome (LRTableError T L) _) = .ok (.done b)) :
    (p.step ss ns (t :: z) : Outcome (LRTableError T L) _) = .ok (.done b) := by
  unfold SimParser.step at h ⊢
  split
  · exact h
  · dsimp only at h ⊢
    split
    · rename_i e
      rw [e] at h
      exact h
    · rename_i tid e
      rw [e] at h
      dsimp only at h
      rw [Outcome.bind_eq_ok] at h ⊢
      obtain ⟨x, h1, h2⟩ := h
      refine ⟨x, h1, ?_⟩
      split at h2
      · exact h2
      · cases h2
      · rw [Outcome.bind_eq_ok] at h2 ⊢
        obtain ⟨y, h3, h4⟩ := h2
        refine ⟨y, h3, ?_⟩
        rw [Outcome.bind_eq_ok] at h4 ⊢
        obtain ⟨y, h5, h4⟩ := h4
        refine ⟨y, h5, ?_⟩
        rw [Outcome.bind_eq_ok] at h4 ⊢
        obtain ⟨y, h6, h4⟩ := h4
        refine ⟨y, h6, ?_⟩
        rw [Outcome.bind_eq_ok] at h4 ⊢
        obtain ⟨y, h7, h4⟩ := h4
        refine ⟨y, h7, ?_⟩
        rw [Outcome.bind_eq_ok] at h4 ⊢
        obtain ⟨y, h8, h4⟩ := h4
        refine ⟨y, h8, ?_⟩
        rw [Outcome.bind_eq_ok] at h4 ⊢
        obtain ⟨y, h9, h4⟩ := h4
        refine ⟨y, h9, ?_⟩
        split at h4
        · cases h4
        · exact h4
      · exact h2

theorem mem_of_lookup {l : List (T × Nat)} {t : T} {i : Nat} (h : l.lookup t = some i) : (t, i) ∈ l := by
  induction l with
  | nil => cases h
  | cons x l ih =>
    rw [List.lookup_cons] at h
    split at h
    · rename_i e
      cases h
      rw [beq_iff_eq] at e
      subst e
      exact List.mem_cons_self
    · exact List.mem_cons_of_mem _ (ih h)

/-- The parser does nothing, whatever the input begins with. -/
def blocked (p : SimParser T L) : Bool :=
  ((p.step [0] [] [] : Outcome (LRTableError T L) _) = .ok (.done false)) &&
    p.grammar.vocab.tokenMap.all fun x => ((p.step [0] [] [x.1] : Outcome (LRTableError T L) _) = .ok (.done false))

theorem blocked_run {p : SimParser T L} (h : blocked p = true) {w : List T} {ss : List Nat} {ns : List INode}
    {z : List T} {tr : List Nat} (hr : SimRun p w ss ns z tr) : ss = [0] ∧ ns = [] := by
  unfold blocked at h
  rw [Bool.and_eq_true, decide_eq_true_eq, List.all_eq_true] at h
  induction hr with
  | start => exact ⟨rfl, rfl⟩
  | @step ss ss' ns ns' z z' tr _ he ih =>
    obtain ⟨rfl, rfl⟩ := ih
    cases z with
    | nil => rw [h.1] at he; cases he
    | cons t z =>
      by_cases ht : ∃ i, p.grammar.vocab.tokenMap.lookup t = some i
      · obtain ⟨i, hi⟩ := ht
        have := h.2 (t, i) (mem_of_lookup hi)
        rw [decide_eq_true_eq] at this
        rw [step_done this] at he
        cases he
      · have hn : p.grammar.vocab.tokenMap.lookup t = none := by
          cases e : p.grammar.vocab.tokenMap.lookup t with
          | none => rfl
          | some i => exact absurd ⟨i, e⟩ ht
        simp only [SimParser.step, Vocab.augTokenToId, Vocab.tokenToId, hn, Option.map_none] at he
        cases he

end

/-- `S -> Y C; Y -> !; C -> A a C | A a; A -> !`: actions are missing. -/
def muted : Grammar Nat Nat :=
  ⟨[⟨0, [.production 1, .production 2]⟩, ⟨1, [.terminal .epsilon]⟩,
    ⟨2, [.production 3, .terminal (.token 7), .production 2]⟩, ⟨2, [.production 3, .terminal (.token 7)]⟩,
    ⟨3, [.terminal .epsilon]⟩]⟩

/-- `S -> U L; U -> U u; L -> l L | l`: `U` derives nothing. -/
def barren : Grammar Nat Nat :=
  ⟨[⟨0, [.production 1, .production 2]⟩, ⟨1, [.production 1, .terminal (.token 8)]⟩,
    ⟨2, [.terminal (.token 7), .production 2]⟩, ⟨2, [.terminal (.token 7)]⟩]⟩

theorem blocked_of {g : Grammar Nat Nat}
    (h : (do let p ← SimParser.new 20 g; pure (blocked p)) = (Outcome.ok true : Outcome (LRTableError Nat Nat) _)) :
    ∃ p, SimParser.new 20 g = .ok p ∧ ∀ w ss ns z tr, SimRun p w ss ns z tr → ss.length ≤ 1 := by
  obtain ⟨p, h1, h2⟩ := Outcome.bind_eq_ok.mp h
  refine ⟨p, h1, fun w ss ns z tr hr => ?_⟩
  rw [(blocked_run (by simpa using h2) hr).1]
  simp

/-- **C86: the hypotheses of the converse cannot be dropped.** With missing actions (finding 1), or with labels that derive
nothing, the stack may be bounded although there is other recursion. -/
theorem stack_grows_refuted :
    (WellFormed muted ∧ Productive muted.productions ∧ ¬ LeftOnly muted.productions ∧
      ∃ p, SimParser.new 20 muted = .ok p ∧ ∀ w ss ns z tr, SimRun p w ss ns z tr → ss.length ≤ 1) ∧
    (WellFormed barren ∧ ¬ LeftOnly barren.productions ∧
      ∃ p, SimParser.new 20 barren = .ok p ∧ ∀ w ss ns z tr, SimRun p w ss ns z tr → ss.length ≤ 1) := by
  refine ⟨⟨⟨?_, ?_⟩, ?_, ?_, blocked_of (by decide +kernel)⟩, ⟨?_, ?_⟩, ?_, blocked_of (by decide +kernel)⟩
  · unfold EpsilonLast; decide
  · unfold NoEndMarker; decide
  · have h1 : Derives muted.productions [.production 1] [] :=
      .prod (r := ⟨1, [.terminal .epsilon]⟩) (u := []) (by decide) (.eps .nil) .nil
    have h3 : Derives muted.productions [.production 3] [] :=
      .prod (r := ⟨3, [.terminal .epsilon]⟩) (u := []) (by decide) (.eps .nil) .nil
    have h2 : Derives muted.productions [.production 2] [7] :=
      .prod (r := ⟨2, [.production 3, .terminal (.token 7)]⟩) (u := [7]) (by decide)
        (.prod (r := ⟨3, [.terminal .epsilon]⟩) (u := []) (by decide) (.eps .nil) (.tok .nil)) .nil
    have h0 : Derives muted.productions [.production 0] [7] :=
      .prod (r := ⟨0, [.production 1, .production 2]⟩) (u := [7]) (by decide)
        (.prod (r := ⟨1, [.terminal .epsilon]⟩) (u := []) (by decide) (.eps .nil) h2) .nil
    intro r hr
    simp only [muted, List.mem_cons, List.not_mem_nil, or_false] at hr
    rcases hr with rfl | rfl | rfl | rfl | rfl
    · exact ⟨_, h0⟩
    · exact ⟨_, h1⟩
    · exact ⟨_, h2⟩
    · exact ⟨_, h2⟩
    · exact ⟨_, h3⟩
  · exact fun h => h 2 2 ⟨⟨2, [.production 3, .terminal (.token 7), .production 2]⟩, by decide, rfl,
      [.production 3, .terminal (.token 7)], [], by simp, rfl⟩ .refl
  · unfold EpsilonLast; decide
  · unfold NoEndMarker; decide
  · exact fun h => h 2 2 ⟨⟨2, [.terminal (.token 7), .production 2]⟩, by decide, rfl, [.terminal (.token 7)], [],
      by simp, rfl⟩ .refl

end Verif.C86
