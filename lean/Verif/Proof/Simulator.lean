import Verif.Model.Simulator
import Verif.Proof.Progress
import Verif.Proof.Conflict

/-!
# The simulator follows the canonical LR(1) parser
-/

set_option linter.unusedSectionVars false
set_option autoImplicit false

namespace Verif
open Spec

section
variable {T L : Type} [DecidableEq T] [DecidableEq L] {ig : IndexedGrammar T L} {F : FirstTable}
  {kt : KernelTable} {table : LRTable}

/-- What is known about a table built from a well-formed grammar. -/
structure Good (ig : IndexedGrammar T L) (F : FirstTable) (kt : KernelTable) (table : LRTable) : Prop where
  wf : ig.WF
  res : F.Result ig
  good : IndexedGrammar.Encodes.IWellFormed ig
  vocab : ig.vocab.WF
  built : Built ig F kt table

theorem good_of_build {g : Grammar T L} {fuel : Nat} {t : LRTable}
    (hg : IndexedGrammar.build g = .ok ig) (hwf : Spec.WellFormed g)
    (hb : LRTable.build fuel ig = .ok t) :
    ∃ F kt, (FirstTable.build ig : Outcome (LRTableError T L) _) = .ok F ∧ Good ig F kt t := by
  have henc := (IndexedGrammar.build_ok hg).1
  obtain ⟨kt, hkt⟩ := build_eq.mp hb
  obtain ⟨F, eF, hres, hB⟩ := built_of_ok henc.wf hkt
  exact ⟨F, kt, eF, henc.wf, hres, henc.wellFormed hwf, henc.vocab, hB⟩

/-- Tokens of the user and token ids. -/
def tokMatch (ig : IndexedGrammar T L) (a : T) (k : Nat) : Prop := ig.vocab.idMap[k]? = some a

theorem rootOnce_of (hw : ig.WF) : RootOnce ig.cfg := by
  intro i r0 r hr0 hr he
  obtain ⟨q0, hq0, rfl⟩ := cfg_get.mp hr0
  obtain ⟨q, hq, rfl⟩ := cfg_get.mp hr
  have : q0.rule.symbol = 0 := (hw.root 0 q0 hq0).mpr rfl
  rw [this] at he
  exact (hw.root i q hq).mp he

theorem rootOk_of (hw : ig.WF) : RootOk ig.cfg := by
  by_cases hd : ∃ r0, ig.cfg[0]? = some r0 ∧ .production r0.symbol ∈ r0.rule
  · exact .inr ⟨rootOnce_of hw, hd⟩
  · refine .inl fun r0 hr0 r hr hm => ?_
    obtain ⟨q0, hq0, rfl⟩ := cfg_get.mp hr0
    obtain ⟨i, hi⟩ := List.mem_iff_getElem?.mp hr
    obtain ⟨q, hq, rfl⟩ := cfg_get.mp hi
    by_cases h0 : i = 0
    · subst h0
      rw [hq0] at hq
      cases hq
      exact hd ⟨_, hr0, hm⟩
    · have : q0.rule.symbol = 0 := (hw.root 0 q0 hq0).mpr rfl
      rw [this] at hm
      exact hw.rootRef i q hq h0 hm

namespace Good
variable (h : Good ig F kt table)
include h

theorem eps : EpsLast ig := h.good.epsilonLast

theorem rootOnce : RootOnce ig.cfg := rootOnce_of h.wf

theorem rootOk : RootOk ig.cfg := rootOk_of h.wf

theorem noEos : NoEos ig.cfg := by
  intro r hr
  obtain ⟨i, hi⟩ := List.mem_iff_getElem?.mp hr
  obtain ⟨q, hq, rfl⟩ := cfg_get.mp hi
  exact h.good.noEndMarker q (List.mem_of_getElem? hq)

theorem noConflict : NoConflict ig.cfg F.NodesFirst := h.built.noConflict h.wf h.res.wf h.eps

theorem unique : Unique (tokMatch ig) := fun _ _ _ h1 h2 => getElem?_inj_of_nodup h.vocab.nodup h1 h2

theorem justified : F.Justified ig.cfg := h.res.just

theorem entries {γ : List INode} {s : Nat} (hs : At ig F kt γ s) : Entries ig F kt table γ s :=
  h.built.entries h.wf h.res.wf h.eps hs

theorem root_rule : ∃ r, ig.cfg[0]? = some r ∧ r.symbol = 0 := by
  obtain ⟨m, hm⟩ : ∃ m, ig.ruleMetadata[0]? = some m := by
    have := h.wf.pos
    exact ⟨ig.ruleMetadata[0], List.getElem?_eq_getElem this⟩
  obtain ⟨h1, h2, -⟩ := h.wf.range 0 m hm
  have h3 : 0 < ig.rules.length := by omega
  refine ⟨ig.rules[0].rule, cfg_get.mpr ⟨_, List.getElem?_eq_getElem h3, rfl⟩, ?_⟩
  exact (h.wf.root 0 _ (List.getElem?_eq_getElem h3)).mpr rfl

end Good

/-- The state stack belongs to the symbols on the stack. -/
inductive Stk (ig : IndexedGrammar T L) (F : FirstTable) (kt : KernelTable) : List Nat → List INode → Prop
  | nil : Stk ig F kt [0] []
  | snoc {ss : List Nat} {γ : List INode} {s : Nat} {X : INode} :
      Stk ig F kt ss γ → At ig F kt (γ ++ [X]) s → Stk ig F kt (s :: ss) (γ ++ [X])

theorem Stk.top (h : Good ig F kt table) {ss : List Nat} {γ : List INode} (hs : Stk ig F kt ss γ) :
    ∃ s ss', ss = s :: ss' ∧ At ig F kt γ s := by
  cases hs with
  | nil => exact ⟨0, [], rfl, h.built.at_nil⟩
  | snoc _ h => exact ⟨_, _, rfl, h⟩

theorem Stk.length {ss : List Nat} {γ : List INode} (hs : Stk ig F kt ss γ) : ss.length = γ.length + 1 := by
  induction hs with
  | nil => rfl
  | snoc _ _ ih => simp [ih]

theorem Stk.dropLast {ss : List Nat} {γ : List INode} {X : INode} (hs : Stk ig F kt ss (γ ++ [X])) :
    Stk ig F kt (ss.drop 1) γ := by
  generalize hγ : γ ++ [X] = γ' at hs
  cases hs with
  | nil => simp at hγ
  | @snoc ss γ1 s Y h1 h2 =>
    obtain ⟨rfl, -⟩ := List.append_inj' hγ rfl
    exact h1

theorem Stk.drop {ss : List Nat} {γ δ : List INode} (hs : Stk ig F kt ss (γ ++ δ)) :
    Stk ig F kt (ss.drop δ.length) γ := by
  induction δ generalizing γ with
  | nil => simpa using hs
  | cons X δ ih =>
    have : Stk ig F kt (ss.drop δ.length) (γ ++ [X]) := ih (by simpa using hs)
    have := this.dropLast
    rw [List.drop_drop] at this
    simpa [Nat.add_comm] using this

/-- What the id of the lookahead says. -/
def LookRes (ig : IndexedGrammar T L) (z : List T) : Option AugTokId → Prop
  | none => ∀ x, ¬ Look (tokMatch ig) z x
  | some x => Look (tokMatch ig) z x ∧ Label.id x < ig.vocab.size

theorem augTokenToId_look (hv : ig.vocab.WF) {z : List T} :
    LookRes ig z (ig.vocab.augTokenToId (match z with | t :: _ => .token t | [] => .eos)) := by
  cases z with
  | nil => exact ⟨.eos, by simp [Label.id, Vocab.size]⟩
  | cons a z =>
    simp only [Vocab.augTokenToId]
    cases ht : ig.vocab.tokenToId a with
    | none =>
      intro x hx
      cases hx with
      | tok hm => rw [hv.tokenToId.mpr hm] at ht; cases ht
    | some k =>
      have hm := hv.tokenToId.mp ht
      refine ⟨.tok hm, ?_⟩
      have := (List.getElem?_eq_some_iff.mp hm).1
      simp only [Label.id, Vocab.size]
      omega

variable {ε : Type}

/-- The rule that the simulator reduces next, if any. -/
def SimParser.reduction (p : SimParser T L) (ss : List Nat) (z : List T) : Option Nat :=
  match ss with
  | [] => none
  | s :: _ =>
    match p.grammar.vocab.augTokenToId (match z with | t :: _ => .token t | [] => .eos) with
    | none => none
    | some id =>
      match (p.lrTable.getAction s id : Outcome Unit _) with
      | .ok (some (.reduce i)) => some i
      | _ => none

/-- One iteration of the simulator is one step of the parser. -/
theorem step_sim (h : Good ig F kt table) {ss : List Nat} {c : Config Nat Nat T}
    (hs : Stk ig F kt ss c.stack) :
    (Accepting ig.cfg F.NodesFirst (tokMatch ig) c ∧
      ((SimParser.mk ig table).step ss c.stack.reverse c.input : Outcome ε _) = .ok (.done true)) ∨
    (Stuck ig.cfg F.NodesFirst (tokMatch ig) c ∧
      ((SimParser.mk ig table).step ss c.stack.reverse c.input : Outcome ε _) = .ok (.done false)) ∨
    ∃ c' o ss', Spec.Step ig.cfg F.NodesFirst (tokMatch ig) c c' o ∧ Stk ig F kt ss' c'.stack ∧
      ((SimParser.mk ig table).step ss c.stack.reverse c.input : Outcome ε _) =
        .ok (.continue ss' c'.stack.reverse c'.input) ∧
      (SimParser.mk ig table).reduction ss c.input = o := by
  obtain ⟨γ, ts, z⟩ := c
  obtain ⟨s, ss', rfl, hat⟩ := hs.top h
  have hE := h.entries hat
  have hlook := augTokenToId_look (z := z) h.vocab
  simp only
  unfold SimParser.step SimParser.reduction
  simp only
  generalize hid : ig.vocab.augTokenToId _ = id
  replace hlook : LookRes ig z id := by rw [← hid]; exact hlook
  clear hid
  cases id with
  | none => exact .inr (.inl ⟨fun x a hx _ => hlook x hx, rfl⟩)
  | some x =>
    obtain ⟨hx, hlt⟩ := hlook
    obtain ⟨o, ho⟩ := hE.actionOk ε x hlt
    simp only [ho, Outcome.ok_bind]
    cases o with
    | none =>
      refine .inr (.inl ⟨fun y a hy hd => ?_, rfl⟩)
      rw [hy.det h.unique hx] at hd
      cases a with
      | shift =>
        have := (hE.shift ε x)
        obtain ⟨s', hs'⟩ : ∃ s', At ig F kt (γ ++ [.terminal x]) s' := by
          cases hd with
          | shift h1 h2 h3 => exact h.built.at_of_valid h.wf h.res.wf h.eps (.move h1 h2 h3)
        rw [(this s' hlt).mpr ⟨hd, hs'⟩] at ho
        cases ho
      | reduce i => rw [(hE.reduce ε x i hlt).mpr hd] at ho; cases ho
      | accept => rw [(hE.accept ε x hlt).mpr hd] at ho; cases ho
    | some a =>
      cases a with
      | accept => exact .inl ⟨⟨x, hx, (hE.accept ε x hlt).mp ho⟩, rfl⟩
      | shift s' =>
        obtain ⟨hd, hat'⟩ := (hE.shift ε x s' hlt).mp ho
        right; right
        cases hx with
        | eos => exact absurd rfl (shift_ne_eos h.noEos hd)
        | @tok a z t hm =>
          exact ⟨⟨γ ++ [.terminal (.token t)], ts ++ [.leaf a], z⟩, none, s' :: s :: ss', .shift hm hd,
            .snoc hs hat', by simp, by rw [(hE.shift Unit _ s' hlt).mpr ⟨hd, hat'⟩]⟩
      | reduce i =>
        have hd := (hE.reduce ε x i hlt).mp ho
        obtain ⟨hi, r, γ', hr, rfl, hv⟩ := hd.reduce_stack
        obtain ⟨q, hq, rfl⟩ := cfg_get.mp hr
        right; right
        obtain ⟨j, d, r', β, h6, h7, h8⟩ := hv.goto hr hi
        have hdrop := hs.drop
        obtain ⟨s1, ss1, e1, hat1⟩ := hdrop.top h
        have hl : q.rule.symbol < ig.labelsCount := h.wf.symbol q (List.mem_of_getElem? hq)
        obtain ⟨s2, hat2⟩ := h.built.at_of_valid h.wf h.res.wf h.eps (.move h6 h7 h8)
        have hgoto := ((h.entries hat1).goto ε _ s2 hl).mpr ⟨⟨j, d, r', β, h6, h7, h8⟩, hat2⟩
        refine ⟨_, some i, s2 :: s1 :: ss1, .reduce hr hx hd, .snoc (e1 ▸ hdrop) hat2, ?_,
          by rw [(hE.reduce Unit x i hlt).mpr hd]⟩
        have hprod : (ig.productionRule i : Outcome ε _) = .ok q := by
          have hlt := (List.getElem?_eq_some_iff.mp hq).1
          unfold IndexedGrammar.productionRule
          rw [Outcome.index_of_lt hlt]
          rw [List.getElem?_eq_getElem hlt] at hq
          cases hq; rfl
        have hex : q.excludingEpsilon = Spec.rhs q.rule := (rhs_eq _).symm
        simp only [hprod, Outcome.ok_bind, hex]
        have a1 : decide ((Spec.rhs q.rule).length ≤ (γ' ++ Spec.rhs q.rule).reverse.length) = true := by
          simp
        have a2 : (((Spec.rhs q.rule).zip
            ((γ' ++ Spec.rhs q.rule).reverse.take (Spec.rhs q.rule).length).reverse).all
              fun (a, b) => a == b) = true := by
          rw [List.reverse_append, List.take_left' (by simp), List.reverse_reverse]
          generalize Spec.rhs q.rule = l
          induction l with
          | nil => rfl
          | cons a l ih => simp [List.zip_cons_cons, ih]
        have a3 : (γ' ++ Spec.rhs q.rule).reverse.drop (Spec.rhs q.rule).length = γ'.reverse := by
          rw [List.reverse_append, List.drop_left' (by simp)]
        have e1' : List.drop (Spec.rhs q.rule).length (s :: ss') = s1 :: ss1 := e1
        simp only [a1, a2, a3, e1', Outcome.assert_true, Outcome.ok_bind, List.isEmpty_cons, Bool.not_false,
          List.head?_cons, Outcome.unwrap, IRule.symbol, hgoto]
        simp

/-- Result of the simulator, for any amount of fuel. -/
theorem loop_sim (h : Good ig F kt table) (fuel : Nat) {ss : List Nat} {c : Config Nat Nat T}
    (hs : Stk ig F kt ss c.stack) :
    ((SimParser.mk ig table).loop fuel ss c.stack.reverse c.input : Outcome ε _) = .timeout ∨
    ∃ c' tr, Steps ig.cfg F.NodesFirst (tokMatch ig) c c' tr ∧
      ((Accepting ig.cfg F.NodesFirst (tokMatch ig) c' ∧
          ((SimParser.mk ig table).loop fuel ss c.stack.reverse c.input : Outcome ε _) = .ok true) ∨
        (Stuck ig.cfg F.NodesFirst (tokMatch ig) c' ∧
          ((SimParser.mk ig table).loop fuel ss c.stack.reverse c.input : Outcome ε _) = .ok false)) := by
  induction fuel generalizing ss c with
  | zero => exact .inl rfl
  | succ fuel ih =>
    unfold SimParser.loop
    rcases step_sim (ε := ε) h hs with ⟨h1, e⟩ | ⟨h1, e⟩ | ⟨c', o, ss', h1, h2, e, -⟩
    · exact .inr ⟨c, [], .refl c, .inl ⟨h1, by rw [e]; rfl⟩⟩
    · exact .inr ⟨c, [], .refl c, .inr ⟨h1, by rw [e]; rfl⟩⟩
    · rw [e, Outcome.ok_bind]
      rcases ih h2 with h3 | ⟨c'', tr, h3, h4⟩
      · exact .inl h3
      · exact .inr ⟨c'', _, .step h1 h3, h4⟩

/-- The simulator finishes, with one iteration for each step of the machine. -/
theorem loop_terminates (h : Good ig F kt table) {c c' : Config Nat Nat T} {tr : List Nat}
    (hst : Steps ig.cfg F.NodesFirst (tokMatch ig) c c' tr)
    (hf : Final ig.cfg F.NodesFirst (tokMatch ig) c') :
    ∀ {ss : List Nat}, Stk ig F kt ss c.stack →
      ∀ fuel ≥ tr.length + c.input.length + 1,
        ((SimParser.mk ig table).loop fuel ss c.stack.reverse c.input : Outcome ε _) ≠ .timeout := by
  induction hst with
  | refl c =>
    intro ss hs fuel hfuel
    obtain ⟨n, rfl⟩ : ∃ n, fuel = n + 1 := ⟨fuel - 1, by omega⟩
    unfold SimParser.loop
    rcases step_sim (ε := ε) h hs with ⟨h1, e⟩ | ⟨h1, e⟩ | ⟨c', o, ss', h1, h2, e, -⟩
    · rw [e]; simp
    · rw [e]; simp
    · exact absurd hf (h1.not_final h.noConflict h.unique)
  | @step c c1 c' o tr h1 h2 ih =>
    intro ss hs
    rcases step_sim (ε := ε) h hs with ⟨h3, e⟩ | ⟨h3, e⟩ | ⟨c2, o', ss', h3, h4, e, -⟩
    · exact absurd h3 (h1.not_accepting h.noConflict h.unique)
    · exact absurd h3 h1.not_stuck
    · obtain ⟨rfl, rfl⟩ := h1.det h.noConflict h.unique h3
      intro fuel hfuel
      obtain ⟨n, rfl⟩ : ∃ n, fuel = n + 1 := ⟨fuel - 1, by omega⟩
      unfold SimParser.loop
      rw [e, Outcome.ok_bind]
      refine ih hf h4 n ?_
      cases h1 <;> simp only [Option.toList_none, Option.toList_some, List.length_append, List.length_cons,
        List.length_nil, List.nil_append] at hfuel ⊢ <;> omega

end
end Verif
