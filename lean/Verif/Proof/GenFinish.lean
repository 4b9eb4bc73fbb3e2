import Verif.Proof.GenFacts

/-!
# How runs of generated parsers end, in terms of the user's grammar
-/

set_option linter.unusedSectionVars false
set_option autoImplicit false

namespace Verif
open Spec

/-- Renumbers the rules of a tree. -/
def Spec.Tree.mapRules {A : Type} (ρ : Nat → Nat) : Tree A → Tree A
  | .leaf a => .leaf a
  | .node i c => .node (ρ i) (c.mapRules ρ)

theorem ofTrees_mapRules {A : Type} (ρ : Nat → Nat) (ts : List (Tree A)) :
    (Forest.ofTrees ts).mapRules ρ = Forest.ofTrees (ts.map (Tree.mapRules ρ)) := by
  induction ts with
  | nil => rfl
  | cons t ts ih => cases t <;> simp [Forest.ofTrees, Forest.mapRules, Tree.mapRules, ih]

section
variable {T L A : Type} [DecidableEq T] [DecidableEq L] {g : Grammar T L} {ig : IndexedGrammar T L}

/-- Symbols that have parse trees come from symbols of the user. -/
theorem encNodes_exists (h : ig.Encodes g) {M : A → T → Prop} {f : Forest A} {β : List INode} {w : List A}
    (hp : ParsesM ig.cfg (idMatch ig M) f β w) : ∃ α, IndexedGrammar.Encodes.EncNodes ig α β := by
  induction hp with
  | nil => exact ⟨[], .nil⟩
  | @tok t a f α w hm _ ih =>
    obtain ⟨α', ih⟩ := ih
    obtain ⟨s, hs, -⟩ := hm
    exact ⟨.terminal (.token s) :: α', .cons hs ih⟩
  | eps _ ih =>
    obtain ⟨α', ih⟩ := ih
    exact ⟨.terminal .epsilon :: α', .cons trivial ih⟩
  | @prod i r c f α u w hi _ _ _ ih =>
    obtain ⟨α', ih⟩ := ih
    obtain ⟨q, hq, rfl⟩ := cfg_get.mp hi
    obtain ⟨p, -, hl, -⟩ := h.rule q (List.mem_of_getElem? hq)
    exact ⟨.production p.symbol :: α', .cons hl ih⟩

/-- Trees over ids are trees over the user's symbols. -/
theorem parsesM_user (h : ig.Encodes g) {M : A → T → Prop} {f : Forest A} {β : List INode} {w : List A}
    (hp : ParsesM ig.cfg (idMatch ig M) f β w) : ∃ α, ParsesM g.productions M (f.mapRules ig.orig) α w := by
  obtain ⟨α, hα⟩ := encNodes_exists h hp
  exact ⟨α, parsesM_dec h hp hα⟩

theorem ParsesM.matched {P : List (Rule T L)} {M : A → T → Prop} {f : Forest A} {α : List (Node T L)}
    {w : List A} (h : ParsesM P M f α w) {t : T} (ht : .terminal (.token t) ∈ α) : ∃ a, M a t := by
  induction h with
  | nil => cases ht
  | tok hm _ ih =>
    rcases List.mem_cons.mp ht with e | ht
    · cases e; exact ⟨_, hm⟩
    · exact ih ht
  | eps _ ih =>
    rcases List.mem_cons.mp ht with e | ht
    · cases e
    · exact ih ht
  | prod _ _ _ _ ih =>
    rcases List.mem_cons.mp ht with e | ht
    · cases e
    · exact ih ht

end

section
variable {P V E F' σ : Type} [DecidableEq P] {sem : Sem P V E σ} {lex : Lexer} {o : HashOrder}
  {gi : GrammarInfo} {prog : Program} {F : FirstTable} {kt : KernelTable}

theorem GStk.values {ig : IndexedGrammar Sym String} {tt : TerminalType} {ss : List (Nat × Val P V)}
    {γ : List INode} {vs : List (Val P V)} (h : GStk ig F kt sem tt ss γ vs) :
    ss.map Prod.snd = vs.reverse ++ [.unit] := by
  induction h with
  | nil => rfl
  | snoc _ _ _ ih => simp [ih]

theorem value_eq (f : Forest (Token P)) (w : σ) :
    eval .tok (fun i => construct gi sem (gi.indexedGrammar.orig i)) f w =
      value gi sem (f.mapRules gi.indexedGrammar.orig) w := by
  unfold value
  rw [eval_mapRules]

/-- The end of a run: the configuration, the state, and the last step. -/
structure Finish (debug : Bool) (gi : GrammarInfo) (F : FirstTable) (kt : KernelTable) (sem : Sem P V E σ)
    (into : F' → E) (items : Nat → Option (Item P F')) (prog : Program) (w0 : σ) (W : List (Token P))
    (c : Config Nat Nat (Token P)) (tr : List Nat) (st : PState P V F') (w : σ)
    (res : StepResult P V E F' σ) (run : Run P V E σ) : Prop where
  steps : Steps gi.indexedGrammar.cfg F.NodesFirst (gi.tokMatch sem) (.start W) c tr
  holds : Holds gi F kt sem w0 st.stack w c
  pulled : st.pulled + c.input.length = W.length + 1
  next : st.next = items (W.length - c.input.length)
  peek : (∃ f, st.next = some (.error f)) ∨ st.next = c.input.head?.map .ok
  reach : GenReach debug sem into items prog w0 st w
  step : prog.step debug sem into items st w = .ok res
  gen : GenStep debug gi F kt sem into items w0 c st w res
  done : (∃ v st' w', res = .accept v st' w' ∧ run = ⟨.ok v, w', st'.pulled, st'.stack⟩) ∨
    ∃ e w', res = .fail e w' ∧ run = ⟨.error e, w', st.pulled, st.stack⟩
  total : run.pulled = st.pulled

namespace GenCtx
variable (h : GenCtx o lex gi prog F kt) {debug : Bool} {into : F' → E} {items : Nat → Option (Item P F')}
  {w0 : σ}
include h

theorem finish {fuel : Nat} {run : Run P V E σ}
    (hrun : prog.parseFallible debug sem into items fuel w0 = .ok run)
    {W : List (Token P)} (hW : Begins items W) (hend : run.pulled ≤ W.length ∨ EndsAfter items W) :
    ∃ c tr st w res, Finish debug gi F kt sem into items prog w0 W c tr st w res run := by
  obtain ⟨st, w, hr, he⟩ := parse_ends hrun
  have htot : run.pulled = st.pulled := by
    cases he with
    | accept hs =>
      rcases step_items hs with ⟨st1, e, -⟩ | ⟨⟨-, h1⟩, -⟩
      · cases e
      · exact h1
    | fail hs => rfl
  obtain ⟨c, tr, res, h1, h2, h3, h4, h5, h6, h7⟩ := h.reach_step hr hW (by rw [← htot]; exact hend)
  refine ⟨c, tr, st, w, res, h1, h2, h3, h4, h5, hr, h6, h7, ?_, htot⟩
  cases he with
  | accept hs => rw [hs] at h6; cases h6; exact .inl ⟨_, _, _, rfl, rfl⟩
  | fail hs => rw [hs] at h6; cases h6; exact .inr ⟨_, _, rfl, rfl⟩

theorem finish' {fuel : Nat} {run : Run P V E σ}
    (hrun : prog.parseFallible debug sem into items fuel w0 = .ok run) :
    ∃ W c tr st w res, Begins items W ∧
      Finish debug gi F kt sem into items prog w0 W c tr st w res run := by
  obtain ⟨h1, h2⟩ := begins_tokensOf items run.pulled
  obtain ⟨c, tr, st, w, res, h3⟩ := h.finish hrun h1 h2
  exact ⟨_, c, tr, st, w, res, h1, h3⟩

/-- The tokens read so far and their trees, in terms of the user's grammar. -/
theorem read {W : List (Token P)} {c : Config Nat Nat (Token P)} {tr : List Nat}
    (hs : Steps gi.indexedGrammar.cfg F.NodesFirst (gi.tokMatch sem) (.start W) c tr) :
    ∃ u α, W = u ++ c.input ∧
      ParsesM gi.grammar.productions (Matches sem gi.terminalType)
        ((Forest.ofTrees c.trees).mapRules gi.indexedGrammar.orig) α u := by
  obtain ⟨u, h1, h2⟩ := (Sane.start.steps hs).parses
  obtain ⟨α, h3⟩ := parsesM_user h.enc h1
  exact ⟨u, α, h2, h3⟩

/-- The tree of an accepted input. -/
theorem accepted {W : List (Token P)} {c : Config Nat Nat (Token P)} {tr : List Nat}
    (hs : Steps gi.indexedGrammar.cfg F.NodesFirst (gi.tokMatch sem) (.start W) c tr)
    (ha : Accepting gi.indexedGrammar.cfg F.NodesFirst (gi.tokMatch sem) c) :
    c.input = [] ∧ ParseTreeM gi.grammar (Matches sem gi.terminalType)
      ((Forest.node 0 (Forest.ofTrees c.trees) .nil).mapRules gi.indexedGrammar.orig) W := by
  obtain ⟨hz, r, hr, -, h4⟩ := hs.sound h.good.rootOk ha
  obtain ⟨r', h5, h6⟩ := h.good.root_rule
  rw [hr] at h5
  cases h5
  rw [h6] at h4
  exact ⟨hz, parseTreeM_dec h.enc h4⟩

theorem orig_zero : gi.indexedGrammar.orig 0 = 0 := by
  obtain ⟨r, h1, h2⟩ := h.enc.root
  rw [orig_eq h1, h2]

end GenCtx
end
end Verif
