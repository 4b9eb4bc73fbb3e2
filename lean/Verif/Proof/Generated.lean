import Verif.Proof.Arms

/-!
# One iteration of a generated parser is one step of the canonical LR(1) parser
-/

set_option linter.unusedSectionVars false
set_option autoImplicit false

namespace Verif
open Spec

section
variable {P V E F' σ : Type} [DecidableEq P] {sem : Sem P V E σ} {lex : Lexer} {o : HashOrder}
  {gi : GrammarInfo} {prog : Program} {F : FirstTable} {kt : KernelTable}

/-- A parser generated for a grammar whose rules have epsilon alone; it need not compile. -/
structure GenCode (o : HashOrder) (lex : Lexer) (gi : GrammarInfo) (prog : Program) (F : FirstTable)
    (kt : KernelTable) : Prop where
  enc : gi.indexedGrammar.Encodes gi.grammar
  fit : Fit gi.indexedGrammar F kt gi.lrTable
  gen : generateParser o lex gi = .ok prog

/-- A parser generated for a grammar whose rules have epsilon alone. -/
structure GenCtx (o : HashOrder) (lex : Lexer) (gi : GrammarInfo) (prog : Program) (F : FirstTable)
    (kt : KernelTable) : Prop extends GenCode o lex gi prog F kt where
  compiles : prog.Compiles

/-- Tokens and ids of terminals. -/
abbrev GrammarInfo.tokMatch (gi : GrammarInfo) (sem : Sem P V E σ) : Token P → Nat → Prop :=
  genMatch gi.indexedGrammar sem gi.terminalType

/-- Whether the terminal type is an enum. -/
def TerminalType.isEnum : TerminalType → Bool
  | .raw _ => false
  | .enum _ => true

/-- Two terminals that are expected here match the next token. -/
def OverlapAt {T L A : Type} (G : List (Rule T L)) (first : List (Node T L) → AugTok T → Prop)
    (m : A → T → Prop) (c : Config T L A) : Prop :=
  ∃ a z x y, c.input = a :: z ∧ x ≠ y ∧ m a x ∧ m a y ∧
    (∃ act, Demands G first c.stack (.token x) act) ∧ ∃ act, Demands G first c.stack (.token y) act

/-- The values on the stack are those of the trees. -/
def Holds (gi : GrammarInfo) (F : FirstTable) (kt : KernelTable) (sem : Sem P V E σ) (w0 : σ)
    (stack : List (Nat × Val P V)) (w : σ) (c : Config Nat Nat (Token P)) : Prop :=
  ∃ vs, GStk gi.indexedGrammar F kt sem gi.terminalType stack c.stack vs ∧
    eval .tok (fun i => construct gi sem (gi.indexedGrammar.orig i)) (Forest.ofTrees c.trees) w0 = (.ok vs, w)

/-- Debug builds report an overlap here. -/
def Reported (debug : Bool) (gi : GrammarInfo) (F : FirstTable) (sem : Sem P V E σ)
    (c : Config Nat Nat (Token P)) : Prop :=
  debug = true ∧ gi.terminalType.isEnum = true ∧
    OverlapAt gi.indexedGrammar.cfg F.NodesFirst (gi.tokMatch sem) c

/-- What one iteration of the generated parser does, in terms of the values `vs` on the stack. -/
inductive GStep (debug : Bool) (gi : GrammarInfo) (F : FirstTable) (kt : KernelTable)
    (sem : Sem P V E σ) (into : F' → E) (items : Nat → Option (Item P F'))
    (c : Config Nat Nat (Token P)) (vs : List (Val P V)) (st : PState P V F') (w : σ) :
    StepResult P V E F' σ → Prop
  | stream {f : F'} : st.next = some (.error f) →
      GStep debug gi F kt sem into items c vs st w (.fail (.user (into f)) w)
  | overlap : (∀ f, st.next ≠ some (.error f)) → Reported debug gi F sem c →
      GStep debug gi F kt sem into items c vs st w (.fail (.overlapping c.input.head?) w)
  | shift {a : Token P} {z : List (Token P)} {k : Nat} {st' : PState P V F'} :
      (∀ f, st.next ≠ some (.error f)) → ¬ Reported debug gi F sem c → c.input = a :: z →
      Spec.Step gi.indexedGrammar.cfg F.NodesFirst (gi.tokMatch sem) c
        ⟨c.stack ++ [.terminal (.token k)], c.trees ++ [.leaf a], z⟩ none →
      st'.next = items st.pulled → st'.pulled = st.pulled + 1 →
      GStk gi.indexedGrammar F kt sem gi.terminalType st'.stack (c.stack ++ [.terminal (.token k)])
        (vs ++ [.tok a]) →
      GStep debug gi F kt sem into items c vs st w (.next st' w)
  | reduce {γ : List INode} {r : Rule Nat Nat} {i : Nat} {us us' : List (Val P V)} {v : Val P V}
      {st' : PState P V F'} {w' : σ} :
      (∀ f, st.next ≠ some (.error f)) → ¬ Reported debug gi F sem c →
      vs = us' ++ us → us.length = (rhs r).length →
      Spec.Step gi.indexedGrammar.cfg F.NodesFirst (gi.tokMatch sem) c
        ⟨γ ++ [.production r.symbol], reduceTrees i (rhs r).length c.trees, c.input⟩ (some i) →
      construct gi sem (gi.indexedGrammar.orig i) us w = (.ok v, w') →
      st'.next = st.next → st'.pulled = st.pulled →
      GStk gi.indexedGrammar F kt sem gi.terminalType st'.stack (γ ++ [.production r.symbol]) (us' ++ [v]) →
      GStep debug gi F kt sem into items c vs st w (.next st' w')
  | reduceFail {γ : List INode} {r : Rule Nat Nat} {i : Nat} {us us' : List (Val P V)} {w' : σ} {e : E} :
      (∀ f, st.next ≠ some (.error f)) → ¬ Reported debug gi F sem c →
      vs = us' ++ us → us.length = (rhs r).length →
      Spec.Step gi.indexedGrammar.cfg F.NodesFirst (gi.tokMatch sem) c
        ⟨γ ++ [.production r.symbol], reduceTrees i (rhs r).length c.trees, c.input⟩ (some i) →
      construct gi sem (gi.indexedGrammar.orig i) us w = (.error e, w') →
      GStep debug gi F kt sem into items c vs st w (.fail (.user e) w')
  | accept {r : Rule Nat Nat} {v : Val P V} {st' : PState P V F'} {w' : σ} :
      (∀ f, st.next ≠ some (.error f)) → ¬ Reported debug gi F sem c →
      Accepting gi.indexedGrammar.cfg F.NodesFirst (gi.tokMatch sem) c →
      gi.indexedGrammar.cfg[0]? = some r → c.stack = rhs r →
      construct gi sem (gi.indexedGrammar.orig 0) vs w = (.ok v, w') →
      st'.stack = [(0, .unit)] → st'.pulled = st.pulled →
      GStep debug gi F kt sem into items c vs st w (.accept v st' w')
  | acceptFail {r : Rule Nat Nat} {w' : σ} {e : E} :
      (∀ f, st.next ≠ some (.error f)) → ¬ Reported debug gi F sem c →
      Accepting gi.indexedGrammar.cfg F.NodesFirst (gi.tokMatch sem) c →
      gi.indexedGrammar.cfg[0]? = some r → c.stack = rhs r →
      construct gi sem (gi.indexedGrammar.orig 0) vs w = (.error e, w') →
      GStep debug gi F kt sem into items c vs st w (.fail (.user e) w')
  | stuck : (∀ f, st.next ≠ some (.error f)) → ¬ Reported debug gi F sem c →
      Stuck gi.indexedGrammar.cfg F.NodesFirst (gi.tokMatch sem) c →
      GStep debug gi F kt sem into items c vs st w (.fail (.parseError c.input.head?) w)

/-- What one iteration of the generated parser does, in terms of the trees. -/
inductive GenStep (debug : Bool) (gi : GrammarInfo) (F : FirstTable) (kt : KernelTable)
    (sem : Sem P V E σ) (into : F' → E) (items : Nat → Option (Item P F')) (w0 : σ)
    (c : Config Nat Nat (Token P)) (st : PState P V F') (w : σ) : StepResult P V E F' σ → Prop
  | stream {f : F'} : st.next = some (.error f) →
      GenStep debug gi F kt sem into items w0 c st w (.fail (.user (into f)) w)
  | overlap : (∀ f, st.next ≠ some (.error f)) → Reported debug gi F sem c →
      GenStep debug gi F kt sem into items w0 c st w (.fail (.overlapping c.input.head?) w)
  | shift {c' : Config Nat Nat (Token P)} {st' : PState P V F'} :
      (∀ f, st.next ≠ some (.error f)) → ¬ Reported debug gi F sem c →
      Spec.Step gi.indexedGrammar.cfg F.NodesFirst (gi.tokMatch sem) c c' none →
      st'.next = items st.pulled → st'.pulled = st.pulled + 1 →
      Holds gi F kt sem w0 st'.stack w c' →
      GenStep debug gi F kt sem into items w0 c st w (.next st' w)
  | reduce {c' : Config Nat Nat (Token P)} {i : Nat} {st' : PState P V F'} {w' : σ} :
      (∀ f, st.next ≠ some (.error f)) → ¬ Reported debug gi F sem c →
      Spec.Step gi.indexedGrammar.cfg F.NodesFirst (gi.tokMatch sem) c c' (some i) →
      st'.next = st.next → st'.pulled = st.pulled →
      Holds gi F kt sem w0 st'.stack w' c' →
      GenStep debug gi F kt sem into items w0 c st w (.next st' w')
  | reduceFail {c' : Config Nat Nat (Token P)} {i : Nat} {w' : σ} {e : E} :
      (∀ f, st.next ≠ some (.error f)) → ¬ Reported debug gi F sem c →
      Spec.Step gi.indexedGrammar.cfg F.NodesFirst (gi.tokMatch sem) c c' (some i) →
      eval .tok (fun i => construct gi sem (gi.indexedGrammar.orig i)) (Forest.ofTrees c'.trees) w0
        = (.error e, w') →
      GenStep debug gi F kt sem into items w0 c st w (.fail (.user e) w')
  | accept {r : Rule Nat Nat} {v : Val P V} {st' : PState P V F'} {w' : σ} :
      (∀ f, st.next ≠ some (.error f)) → ¬ Reported debug gi F sem c →
      Accepting gi.indexedGrammar.cfg F.NodesFirst (gi.tokMatch sem) c →
      gi.indexedGrammar.cfg[0]? = some r → c.stack = rhs r →
      eval .tok (fun i => construct gi sem (gi.indexedGrammar.orig i))
        (.node 0 (Forest.ofTrees c.trees) .nil) w0 = (.ok [v], w') →
      st'.stack = [(0, .unit)] → st'.pulled = st.pulled →
      GenStep debug gi F kt sem into items w0 c st w (.accept v st' w')
  | acceptFail {r : Rule Nat Nat} {w' : σ} {e : E} :
      (∀ f, st.next ≠ some (.error f)) → ¬ Reported debug gi F sem c →
      Accepting gi.indexedGrammar.cfg F.NodesFirst (gi.tokMatch sem) c →
      gi.indexedGrammar.cfg[0]? = some r → c.stack = rhs r →
      eval .tok (fun i => construct gi sem (gi.indexedGrammar.orig i))
        (.node 0 (Forest.ofTrees c.trees) .nil) w0 = (.error e, w') →
      GenStep debug gi F kt sem into items w0 c st w (.fail (.user e) w')
  | stuck : (∀ f, st.next ≠ some (.error f)) → ¬ Reported debug gi F sem c →
      Stuck gi.indexedGrammar.cfg F.NodesFirst (gi.tokMatch sem) c →
      GenStep debug gi F kt sem into items w0 c st w (.fail (.parseError c.input.head?) w)

theorem genMatch_lt {a : Token P} {k : Nat} (h : gi.tokMatch sem a k) :
    Label.id (.token k : AugTokId) < gi.indexedGrammar.vocab.size := by
  obtain ⟨t, h1, -⟩ := h
  have := (List.getElem?_eq_some_iff.mp h1).1
  simp only [Label.id, Vocab.size]
  omega

theorem look_lt {z : List (Token P)} {x : AugTokId} (h : Look (gi.tokMatch sem) z x) :
    Label.id x < gi.indexedGrammar.vocab.size := by
  cases h with
  | eos => simp [Label.id, Vocab.size]
  | tok h => exact genMatch_lt h

/-- A symbol calls for an action iff the state's row has one. -/
theorem Fit.demands_iff {T L : Type} [DecidableEq T] [DecidableEq L] {ig : IndexedGrammar T L}
    {table : LRTable} (h : Fit ig F kt table) {γ : List INode} {s : Nat} (hs : At ig F kt γ s)
    {x : AugTokId} (hx : Label.id x < ig.vocab.size) :
    (∃ a, table.HasAction ig s x a) ↔ ∃ act, Demands ig.cfg F.NodesFirst γ x act := by
  have hE := h.entries hs
  constructor
  · rintro ⟨a, -, ha⟩
    cases a with
    | shift s' => exact ⟨_, ((hE.shift Unit x s' hx).mp ha).1⟩
    | reduce i => exact ⟨_, (hE.reduce Unit x i hx).mp ha⟩
    | accept => exact ⟨_, (hE.accept Unit x hx).mp ha⟩
  · rintro ⟨act, hd⟩
    cases act with
    | shift =>
      obtain ⟨s', hs'⟩ : ∃ s', At ig F kt (γ ++ [.terminal x]) s' := by
        cases hd with
        | shift h1 h2 h3 => exact h.at_of_valid (.move h1 h2 h3)
      exact ⟨_, hx, (hE.shift Unit x s' hx).mpr ⟨hd, hs'⟩⟩
    | reduce i => exact ⟨_, hx, (hE.reduce Unit x i hx).mpr hd⟩
    | accept => exact ⟨_, hx, (hE.accept Unit x hx).mpr hd⟩

theorem one_lt_filter {α : Type} {p : α → Bool} {l : List α} (h : l.Nodup) :
    1 < (l.filter p).length ↔ ∃ a b, a ≠ b ∧ a ∈ l ∧ b ∈ l ∧ p a = true ∧ p b = true := by
  have hn : (l.filter p).Nodup := h.sublist List.filter_sublist
  constructor
  · intro hl
    match hf : l.filter p, hl with
    | a :: b :: r, _ =>
      rw [hf] at hn
      have ha : a ∈ l.filter p := by rw [hf]; simp
      have hb : b ∈ l.filter p := by rw [hf]; simp
      rw [List.mem_filter] at ha hb
      refine ⟨a, b, ?_, ha.1, hb.1, ha.2, hb.2⟩
      rintro rfl
      rw [List.nodup_cons] at hn
      exact hn.1 (by simp)
  · rintro ⟨a, b, hab, ha, hb, hpa, hpb⟩
    have ha : a ∈ l.filter p := List.mem_filter.mpr ⟨ha, hpa⟩
    have hb : b ∈ l.filter p := List.mem_filter.mpr ⟨hb, hpb⟩
    match hf : l.filter p with
    | [] => rw [hf] at ha; cases ha
    | [c] =>
      rw [hf, List.mem_singleton] at ha hb
      exact absurd (ha.trans hb.symm) hab
    | c :: d :: r => simp

theorem forall₂_filter_length {α β : Type} {R : α → β → Prop} {p : α → Bool} {q : β → Bool}
    (hpq : ∀ a b, R a b → p a = q b) {l : List α} {l' : List β} (h : List.Forall₂ R l l') :
    (l.filter p).length = (l'.filter q).length := by
  induction h with
  | nil => rfl
  | cons h1 _ ih =>
    have := hpq _ _ h1
    rw [List.filter_cons, List.filter_cons, this]
    split <;> simp [ih]

namespace GenCode
variable (h : GenCode o lex gi prog F kt)
include h

/-- The code of a state. -/
theorem code {γ : List INode} {s : Nat} (hs : At gi.indexedGrammar F kt γ s) :
    ∃ smap code, (∀ s < gi.lrTable.numStates, smap.Row gi.indexedGrammar gi.lrTable s) ∧
      prog.states[s]? = some code ∧ generateState o lex gi smap s = .ok code := by
  obtain ⟨m, hm, -, hrow⟩ := h.fit.built.stateMap o h.fit.wf h.fit.res.wf
  have hg := h.gen
  simp only [generateParser, hm, Outcome.mapErr, Outcome.ok_bind, Outcome.bind_eq_ok] at hg
  obtain ⟨lbl, -, ty, -, tys, -, codes, hc, he⟩ := hg
  cases he
  have hlt := (h.fit.entries hs).lt
  have : gi.lrTable.states[s]? = some s := by
    unfold LRTable.states
    rw [List.getElem?_range hlt]
  obtain ⟨code, h1, h2⟩ := forall₂_getElem? (generateStates_spec hc) this
  exact ⟨m, code, hrow, h1, h2⟩

/-- Children of a rule, as seen by its constructor. -/
theorem rule_nodes {i : Nat} {r : IRule} (hr : gi.indexedGrammar.rules[i]? = some r) :
    ∃ ar, gi.productionRules[r.originalIndex]? = some ar ∧
      List.Forall₂ (EncNode gi.indexedGrammar.labels gi.indexedGrammar.vocab.idMap)
        (ar.rule.map ANode.toLrNode) r.nodes := by
  obtain ⟨p, hp, -, hn⟩ := h.enc.rule r (List.mem_of_getElem? hr)
  unfold GrammarInfo.grammar at hp
  rw [List.getElem?_map] at hp
  cases ha : gi.productionRules[r.originalIndex]? with
  | none => rw [ha] at hp; cases hp
  | some ar =>
    rw [ha] at hp
    cases hp
    exact ⟨ar, rfl, hn⟩

/-- Tokens with an action in a state. -/
theorem action_tokens {γ : List INode} {s : Nat} (hs : At gi.indexedGrammar F kt γ s) {a : LikeActions}
    (ha : LikeActions.build gi s = .ok a) :
    ∃ l, a.Collected l ∧ (l.map Prod.fst).Nodup ∧
      ∀ tok act, (tok, act) ∈ l ↔ ∃ id, gi.lrTable.HasAction gi.indexedGrammar s id act ∧
        (gi.indexedGrammar.vocab.idToToken id : Outcome Unit _) = .ok tok := by
  obtain ⟨l, h1, h2⟩ := LikeActions.build_spec ha
  obtain ⟨l', h3, h4, h5⟩ := h.fit.built.stateActions_eq (ε := MacroError) (h.fit.entries hs).lt
  rw [h1] at h3
  cases h3
  exact ⟨l, h2, h5 h.fit.vocab, h4⟩

end GenCode

namespace GenCtx
variable (h : GenCtx o lex gi prog F kt)
include h

/-- Running the generated constructor. -/
theorem ctor_run {i : Nat} {r : IRule} (hr : gi.indexedGrammar.rules[i]? = some r) {ctor : Ctor}
    (hc : buildConstructor gi r.originalIndex = .ok ctor) {pops : List PopStep}
    (hp : pops.map PopStep.node = ((indexedNodesRev r.nodes).filter fun p => !p.2.isEpsilon).map Prod.fst)
    (hk : ctor.Compiles pops) {vs : List (Val P V)} (hl : vs.length = (strip r.nodes).length) (w : σ) :
    ctor.run sem (fun i => (argsR gi.indexedGrammar (indexedNodesRev r.nodes) vs.reverse).lookup i) w =
      .ok (construct gi sem r.originalIndex vs w) := by
  obtain ⟨ar, ha, hn⟩ := h.rule_nodes hr
  rw [lookup_argsR hn hl]
  unfold construct
  simp only [ha, hc]
  cases ctor with
  | provided j body => rfl
  | unit => rfl
  | tryInto j =>
    have hbound : ∃ v, (args 0 ar.rule vs).lookup 0 = some v := by
      obtain ⟨pop, hpop, h0⟩ := hk
      have : 0 ∈ pops.map PopStep.node := List.mem_map.mpr ⟨pop, hpop, h0⟩
      rw [hp, List.mem_map] at this
      obtain ⟨⟨k, n⟩, hm, hk0⟩ := this
      simp only at hk0
      subst hk0
      rw [List.mem_filter, indexedNodesRev_eq, List.mem_reverse] at hm
      obtain ⟨hm, hne⟩ := hm
      cases hns : r.nodes with
      | nil => rw [hns] at hm; cases hm
      | cons m ns =>
        rw [hns, numbered_cons, List.mem_cons] at hm
        have hnum : ∀ (k : Nat) (l : List INode) (q : Nat × INode), q ∈ numbered k l → k ≤ q.1 := by
          intro k l
          induction l generalizing k with
          | nil => intro q hq; cases hq
          | cons x l ih =>
            intro q hq
            rw [numbered_cons, List.mem_cons] at hq
            rcases hq with rfl | hq
            · exact Nat.le_refl _
            · have := ih _ q hq; omega
        rcases hm with hm | hm
        · have hnm : n = m := congrArg Prod.snd hm
          subst hnm
          rw [hns] at hn hl
          cases har : ar.rule with
          | nil => rw [har] at hn; cases hn
          | cons an ans =>
            rw [har] at hn
            cases hn with
            | cons h1 h2 =>
              have he := isEpsilon_enc h1
              have : n.isEpsilon = false := by simpa using hne
              rw [this] at he
              cases vs with
              | nil =>
                have hs : strip (n :: ns) = strip [n] ++ strip ns := strip_append [n] ns
                rw [hs, strip_single this] at hl
                simp at hl
              | cons v vs =>
                rw [args_cons he.symm]
                exact ⟨_, by simp; rfl⟩
        · exact absurd (hnum _ _ _ hm) (by simp)
    obtain ⟨v, hv⟩ := hbound
    simp only [Ctor.run, hv, Outcome.unwrap_some, Outcome.ok_bind, Outcome.pure_eq]

/-- The debug check reports overlapping patterns. -/
theorem overlap_iff {c : Config Nat Nat (Token P)} {s : Nat} (hs : At gi.indexedGrammar F kt c.stack s)
    {a : LikeActions} (ha : LikeActions.build gi s = .ok a) {ms : List Matcher}
    (hm : a.overlapCheck o lex gi s = .ok ms) :
    1 < (ms.filter fun m => m.matches sem c.input.head?).length ↔
      gi.terminalType.isEnum = true ∧
        OverlapAt gi.indexedGrammar.cfg F.NodesFirst (gi.tokMatch sem) c := by
  unfold LikeActions.overlapCheck at hm
  cases htt : gi.terminalType with
  | raw ty =>
    rw [htt] at hm
    cases hm
    simp [TerminalType.isEnum]
  | enum ty =>
    rw [htt] at hm
    simp only at hm
    rw [← htt] at hm ⊢
    have hspec := tokenMatchers_spec hm
    obtain ⟨l, hl, hnd, hact⟩ := h.action_tokens hs ha
    let q : AugTok Sym → Bool := fun tok =>
      match tokenMatcher lex gi.terminalType tok with
      | .ok m => m.matches sem c.input.head?
      | _ => false
    rw [← forall₂_filter_length (p := q) (fun tok m hR => by simp only [q, hR]) hspec]
    have hperm := (LikeActions.allLookahead_perm o s a).trans hl.perm
    have hnd' : (a.allLookahead o s).Nodup := hperm.nodup_iff.mpr hnd
    rw [one_lt_filter (hnd'.sublist List.filter_sublist)]
    have hmem : ∀ tok, tok ∈ (a.allLookahead o s).filter (fun t => t.token?.isSome) ↔
        ∃ sy k, tok = .token sy ∧ gi.indexedGrammar.vocab.idMap[k]? = some sy ∧
          ∃ act, Demands gi.indexedGrammar.cfg F.NodesFirst c.stack (.token k) act := by
      intro tok
      rw [List.mem_filter, hperm.mem_iff, List.mem_map]
      constructor
      · rintro ⟨⟨⟨tok', act⟩, h1, rfl⟩, h2⟩
        obtain ⟨id, h3, h4⟩ := (hact _ _).mp h1
        cases id with
        | epsilon => cases h4; cases h2
        | eos => cases h4; cases h2
        | token k =>
          obtain ⟨sy, h5, h6⟩ := idToToken_token h4
          exact ⟨sy, k, h6, h5, (h.fit.demands_iff hs h3.1).mp ⟨_, h3⟩⟩
      · rintro ⟨sy, k, rfl, h1, h2⟩
        have hlt : Label.id (.token k : AugTokId) < gi.indexedGrammar.vocab.size := by
          have := (List.getElem?_eq_some_iff.mp h1).1
          simp only [Label.id, Vocab.size]; omega
        obtain ⟨act, h3⟩ := (h.fit.demands_iff hs hlt).mpr h2
        refine ⟨⟨(.token sy, act), (hact _ _).mpr ⟨_, h3, ?_⟩, rfl⟩, rfl⟩
        simp only [Vocab.idToToken, Outcome.bind_eq_ok, Outcome.index_eq_ok]
        exact ⟨sy, h1, rfl⟩
    have hq : ∀ sy k, gi.indexedGrammar.vocab.idMap[k]? = some sy →
        (.token sy : AugTok Sym) ∈ (a.allLookahead o s).filter (fun t => t.token?.isSome) →
        (q (.token sy) = true ↔ Look (gi.tokMatch sem) c.input (.token k)) := by
      intro sy k hk hin
      obtain ⟨m, -, hR⟩ := forall₂_mem_left hspec hin
      simp only [q, hR]
      refine tokenMatcher_look (ε := Unit) hR ?_ c.input
      simp only [Vocab.idToToken, Outcome.bind_eq_ok, Outcome.index_eq_ok]
      exact ⟨sy, hk, rfl⟩
    constructor
    · rintro ⟨t1, t2, hne, m1, m2, q1, q2⟩
      obtain ⟨s1, k1, rfl, e1, d1⟩ := (hmem t1).mp m1
      obtain ⟨s2, k2, rfl, e2, d2⟩ := (hmem t2).mp m2
      have l1 := (hq _ _ e1 m1).mp q1
      have l2 := (hq _ _ e2 m2).mp q2
      refine ⟨by rw [htt]; rfl, ?_⟩
      obtain ⟨γ, ts, z⟩ := c
      simp only at l1 l2 d1 d2
      cases l1 with
      | @tok a z' _ g1 =>
        cases l2 with
        | tok g2 =>
          refine ⟨a, z', k1, k2, rfl, ?_, g1, g2, d1, d2⟩
          rintro rfl
          rw [e1] at e2
          cases e2
          exact hne rfl
    · rintro ⟨-, a', z, k1, k2, e, hne, g1, g2, d1, d2⟩
      obtain ⟨s1, e1, -⟩ := id g1
      obtain ⟨s2, e2, -⟩ := id g2
      have m1 := (hmem (.token s1)).mpr ⟨s1, k1, rfl, e1, d1⟩
      have m2 := (hmem (.token s2)).mpr ⟨s2, k2, rfl, e2, d2⟩
      refine ⟨.token s1, .token s2, ?_, m1, m2, (hq _ _ e1 m1).mpr ?_, (hq _ _ e2 m2).mpr ?_⟩
      · intro hs
        cases hs
        exact hne (getElem?_inj_of_nodup h.fit.vocab.nodup e1 e2)
      · rw [e]; exact .tok g1
      · rw [e]; exact .tok g2

/-- Shifting. -/
theorem shift_run {c : Config Nat Nat (Token P)} {s : Nat}
    {st : PState P V F'} {w : σ} {items : Nat → Option (Item P F')} {vs : List (Val P V)}
    (hs : At gi.indexedGrammar F kt c.stack s)
    (hg : GStk gi.indexedGrammar F kt sem gi.terminalType st.stack c.stack vs) (hp : st.next = c.input.head?.map .ok)
    {a : LikeActions} (ha : LikeActions.build gi s = .ok a) {arms : List ShiftArm}
    (harms : LikeActions.shiftArms lex gi a.shiftMap = .ok arms) {arm : ShiftArm} (harm : arm ∈ arms)
    (hm : arm.matcher.matches sem c.input.head? = true) :
    ∃ a z k st', c.input = a :: z ∧ Spec.Step gi.indexedGrammar.cfg F.NodesFirst (gi.tokMatch sem) c
        ⟨c.stack ++ [.terminal (.token k)], c.trees ++ [.leaf a], z⟩ none ∧
      st'.next = items st.pulled ∧ st'.pulled = st.pulled + 1 ∧
      GStk gi.indexedGrammar F kt sem gi.terminalType st'.stack (c.stack ++ [.terminal (.token k)])
        (vs ++ [.tok a]) ∧
      arm.run sem items c.input.head? st w = .ok (.next st' w) := by
  obtain ⟨l, hl, -, hact⟩ := h.action_tokens hs ha
  obtain ⟨⟨tok, next⟩, hin, hfor⟩ := forall₂_mem_right' (shiftArms_spec harms) harm
  obtain ⟨id, h1, h2⟩ := (hact _ _).mp ((hl.shift _ _).mp hin)
  have hlook := (tokenMatcher_look (ε := Unit) hfor.matcher h2 c.input).mp hm
  obtain ⟨hd, hat⟩ := ((h.fit.entries hs).shift Unit id next h1.1).mp h1.2
  obtain ⟨sy, e1, e2⟩ := hfor.value
  simp only at e1
  subst e1
  obtain ⟨γ, ts, z⟩ := c
  simp only at hlook hd hp hat hg ⊢
  cases hlook with
  | eos => exact absurd rfl (shift_ne_eos h.fit.noEos hd)
  | @tok b z k g =>
    obtain ⟨sy', e3, hM⟩ := id g
    obtain ⟨sy'', e4, e5⟩ := idToToken_token h2
    cases e5
    rw [e3] at e4
    cases e4
    refine ⟨b, z, k,
      { next := items st.pulled, pulled := st.pulled + 1, stack := (next, .tok b) :: st.stack },
      rfl, .shift g hd, rfl, rfl, ?_, ?_⟩
    · refine .snoc hg hat ?_
      intro k' hk
      cases hk
      exact ⟨b, rfl, g⟩
    · unfold ShiftArm.run PState.advance
      simp only [List.head?_cons] at hp ⊢
      rw [tryBuildRhs_eval e2 hM]
      simp only [Outcome.ok_bind, hp, Option.map_some, Option.isSome_some, Outcome.assert_true,
        Outcome.pure_eq, PState.push, hfor.next]

/-- Reducing. -/
theorem reduce_run {c : Config Nat Nat (Token P)} {s : Nat} {v0 : Val P V} {rest : List (Nat × Val P V)}
    {st : PState P V F'} {w : σ} {smap : StateMap Sym} {vs0 : List (Val P V)}
    (hrow : ∀ s < gi.lrTable.numStates, smap.Row gi.indexedGrammar gi.lrTable s)
    (hst : st.stack = (s, v0) :: rest) (hs : At gi.indexedGrammar F kt c.stack s)
    (hg : GStk gi.indexedGrammar F kt sem gi.terminalType st.stack c.stack vs0)
    {a : LikeActions} (ha : LikeActions.build gi s = .ok a) {arms : List ReduceArm}
    (harms : reduceArms o lex gi smap s (a.reduces o s) = .ok arms) {arm : ReduceArm} (harm : arm ∈ arms)
    (hk : arm.ctor.Compiles arm.pops)
    (hm : (arm.matchers.any fun m => m.matches sem c.input.head?) = true) :
    ∃ (γ : List INode) (r : Rule Nat Nat) (i : Nat) (us' us : List (Val P V)), vs0 = us' ++ us ∧ us.length = (rhs r).length ∧
      Spec.Step gi.indexedGrammar.cfg F.NodesFirst (gi.tokMatch sem) c
        ⟨γ ++ [.production r.symbol], reduceTrees i (rhs r).length c.trees, c.input⟩ (some i) ∧
      ((∃ st' v w', construct gi sem (gi.indexedGrammar.orig i) us w = (.ok v, w') ∧
          st'.next = st.next ∧ st'.pulled = st.pulled ∧
          GStk gi.indexedGrammar F kt sem gi.terminalType st'.stack (γ ++ [.production r.symbol]) (us' ++ [v]) ∧
          arm.run sem st w = .ok (.next st' w')) ∨
        ∃ e w', construct gi sem (gi.indexedGrammar.orig i) us w = (.error e, w') ∧
          arm.run sem st w = .ok (.fail (.user e) w')) := by
  obtain ⟨l, hl, -, hact⟩ := h.action_tokens hs ha
  obtain ⟨⟨i, toks⟩, hin, hfor⟩ := forall₂_mem_right' (reduceArms_spec harms) harm
  rw [LikeActions.reduces, (o.perm _ _).mem_iff] at hin
  rw [List.any_eq_true] at hm
  obtain ⟨m, hmm, hm⟩ := hm
  obtain ⟨tok, htok, hmat⟩ := forall₂_mem_right' hfor.matchers hmm
  obtain ⟨x, h1, h2⟩ := (hact _ _).mp ((hl.reduce _ _).mp ⟨toks, hin, htok⟩)
  have hlook := (tokenMatcher_look (ε := Unit) hmat h2 c.input).mp hm
  have hd := ((h.fit.entries hs).reduce Unit x i h1.1).mp h1.2
  obtain ⟨rule, states, hr, hbind, hgoto⟩ := hfor.rest
  simp only at hr hbind hgoto
  obtain ⟨hi0, r, γ', hr', hγ, hv⟩ := hd.reduce_stack
  obtain ⟨q, hq, rfl⟩ := cfg_get.mp hr'
  rw [hr] at hq
  cases hq
  obtain ⟨γ, ts, z⟩ := c
  simp only at hγ
  subst hγ
  have hrhs : rhs rule.rule = symbolsRev (indexedNodesRev rule.nodes) := by
    rw [symbolsRev_indexed]; rfl
  have hinside : ∀ s' ∈ [s], Inside gi.indexedGrammar F kt i
      (symbolsRev (indexedNodesRev rule.nodes)).length s' := by
    intro s' hs'
    rw [List.mem_singleton] at hs'
    subst hs'
    refine ⟨_, hs, ?_⟩
    rw [← hrhs]
    have := hv.extend (α := rhs rule.rule) (β := []) hr' (by simp)
    simpa using this
  obtain ⟨g1, g2, -, g3⟩ := bindNodes_run (sem := sem) (tt := gi.terminalType) h.fit hrow hr' _ _ _ _ hbind
    ⟨[], by rw [hrhs, List.append_nil]⟩ hinside
  simp only at hg
  rw [hrhs] at hg
  obtain ⟨us', vs, s', v', rest', rfl, hvl, hgs, hfin, hrun⟩ := g3 γ' vs0 st s v0 rest hg hst (by simp)
  obtain ⟨hctor, hgrun⟩ := applyGoto_run (P := P) (V := V) hgoto
  have hcr := h.ctor_run (sem := sem) hr hctor g2 hk (vs := vs) (by rw [hvl, symbolsRev_indexed]) w
  refine ⟨γ', rule.rule, i, us', vs, rfl, by rw [hvl, hrhs], .reduce hr' hlook hd, ?_⟩
  unfold ReduceArm.run
  simp only [hrun, Outcome.ok_bind, hcr, orig_eq hr]
  rcases hc : construct gi sem rule.originalIndex vs w with ⟨res, w'⟩
  cases res with
  | error e => exact .inr ⟨e, w', rfl, rfl⟩
  | ok v =>
    left
    obtain ⟨g, hg1, hg2⟩ := hgrun { st with stack := (s', v') :: rest' } s' v' rest' v rfl hfin
    refine ⟨{ st with stack := (g, v) :: (s', v') :: rest' }, v, w', rfl, rfl, rfl, ?_, ?_⟩
    rotate_left
    · simp only [hg2, Outcome.ok_bind]
      rfl
    · refine .snoc hgs ?_ ?_
      · obtain ⟨g', e1, e2⟩ := h.fit.goto_of_inside (ε := MacroError) hr' hi0 (g1 s' hfin)
        have e3 : (gi.lrTable.getGoto s' rule.symbol : Outcome MacroError _) = .ok (some g') := e1
        rw [hg1] at e3
        cases e3
        apply e2
        obtain ⟨s1, v1, ss1, e4, hat⟩ := hgs.top h.fit
        cases e4
        exact hat
      · intro k hk'; cases hk'

/-- Accepting. -/
theorem accept_run {c : Config Nat Nat (Token P)} {s : Nat} {v0 : Val P V} {rest : List (Nat × Val P V)}
    {st : PState P V F'} {w : σ} {smap : StateMap Sym} {vs0 : List (Val P V)}
    (hrow : ∀ s < gi.lrTable.numStates, smap.Row gi.indexedGrammar gi.lrTable s)
    (hst : st.stack = (s, v0) :: rest) (hs : At gi.indexedGrammar F kt c.stack s)
    (hg : GStk gi.indexedGrammar F kt sem gi.terminalType st.stack c.stack vs0)
    {a : LikeActions} (ha : LikeActions.build gi s = .ok a) {arm : AcceptArm}
    (harm : acceptArm o lex gi smap s a.accept = .ok (some arm))
    (hk : arm.ctor.Compiles arm.pops)
    (hm : arm.matcher.matches sem c.input.head? = true) :
    Accepting gi.indexedGrammar.cfg F.NodesFirst (gi.tokMatch sem) c ∧
      ∃ r, gi.indexedGrammar.cfg[0]? = some r ∧ c.stack = rhs r ∧
      ((∃ v st' w', st'.stack = [(0, .unit)] ∧ st'.pulled = st.pulled ∧
          construct gi sem (gi.indexedGrammar.orig 0) vs0 w = (.ok v, w') ∧
          arm.run sem st w = .ok (.accept (F := F') v st' w')) ∨
        ∃ e w', construct gi sem (gi.indexedGrammar.orig 0) vs0 w = (.error e, w') ∧
          arm.run sem st w = .ok (.fail (.user e) w')) := by
  obtain ⟨l, hl, -, hact⟩ := h.action_tokens hs ha
  unfold acceptArm at harm
  split at harm
  · cases harm
  rename_i tok htok
  simp only [Outcome.bind_eq_ok] at harm
  obtain ⟨m, hm1, rule, hrule, ⟨pops, states⟩, hbind, u, hassert, ctor, hctor, hfin⟩ := harm
  cases hfin
  have hstates : states = [0] := by
    have := Outcome.assert_eq_ok.mp hassert
    rw [beq_iff_eq] at this
    have hp := o.perm [6, s] states
    rw [this] at hp
    exact (List.perm_singleton.mp hp.symm)
  subst hstates
  obtain ⟨x, h1, h2⟩ := (hact _ _).mp ((hl.accept _).mp htok)
  have hlook := (tokenMatcher_look (ε := Unit) hm1 h2 c.input).mp hm
  have hd := ((h.fit.entries hs).accept Unit x h1.1).mp h1.2
  refine ⟨⟨x, hlook, hd⟩, ?_⟩
  have hr := Outcome.index_eq_ok.mp hrule
  have hr' : gi.indexedGrammar.cfg[0]? = some rule.rule := cfg_get.mpr ⟨rule, hr, rfl⟩
  have hrhs : rhs rule.rule = symbolsRev (indexedNodesRev rule.nodes) := by
    rw [symbolsRev_indexed]; rfl
  have hv : Valid gi.indexedGrammar.cfg c.stack 0 (rhs rule.rule).length := by
    cases hd with
    | accept e1 e2 e3 => rw [hr'] at e1; cases e1; exact e3
  obtain ⟨γ', hγ, hv0⟩ := hv.split hr'
  rw [List.take_length] at hγ
  obtain ⟨γ, ts, z⟩ := c
  simp only at hγ hv
  subst hγ
  obtain ⟨g1, g2, -, g3⟩ := bindNodes_run (sem := sem) (tt := gi.terminalType) h.fit hrow hr' _ _ _ _ hbind
    ⟨[], by rw [hrhs, List.append_nil]⟩
    (by
      intro s' hs'
      rw [List.mem_singleton] at hs'
      subst hs'
      exact ⟨_, hs, hrhs ▸ hv⟩)
  simp only at hg
  rw [hrhs] at hg
  obtain ⟨us', vs, s', v', rest', rfl, hvl, hgs, hfin, hrun⟩ := g3 γ' vs0 st s v0 rest hg hst (by simp)
  rw [List.mem_singleton] at hfin
  subst hfin
  have hγ0 : γ' = [] := by
    obtain ⟨s1, v1, ss1, e4, hat⟩ := hgs.top h.fit
    cases e4
    exact h.fit.at_zero hat
  subst hγ0
  obtain ⟨e1, rfl⟩ := hgs.nil_inv
  cases e1
  refine ⟨rule.rule, hr', rfl, ?_⟩
  have ho : rule.originalIndex = 0 := by
    obtain ⟨r0, h3, h4⟩ := h.enc.root
    rw [show gi.indexedGrammar.rules[0]? = some rule from hr] at h3
    cases h3
    exact h4
  have hcr := h.ctor_run (sem := sem) hr (by rw [ho]; exact hctor) g2 hk (vs := vs)
    (by rw [hvl, symbolsRev_indexed]) w
  unfold AcceptArm.run
  simp only [hrun, Outcome.ok_bind, List.length_singleton, beq_self_eq_true, Outcome.assert_true, hcr,
    orig_eq (show gi.indexedGrammar.rules[0]? = some rule from hr), List.nil_append]
  rcases construct gi sem rule.originalIndex vs w with ⟨res, w'⟩
  cases res with
  | error e => exact .inr ⟨e, w', rfl, rfl⟩
  | ok v => exact .inl ⟨v, { st with stack := [(0, .unit)] }, w', rfl, rfl, rfl, rfl⟩

/-- **One iteration** of the generated parser, in terms of the values on the stack. -/
theorem stepG {debug : Bool} {into : F' → E} {items : Nat → Option (Item P F')}
    {c : Config Nat Nat (Token P)} {st : PState P V F'} {w : σ} {vs : List (Val P V)}
    (hg : GStk gi.indexedGrammar F kt sem gi.terminalType st.stack c.stack vs)
    (hp : (∃ f, st.next = some (.error f)) ∨ st.next = c.input.head?.map .ok) :
    ∃ res, prog.step debug sem into items st w = .ok res ∧
      GStep debug gi F kt sem into items c vs st w res := by
  obtain ⟨s, v0, rest, hst, hs⟩ := hg.top h.fit
  obtain ⟨smap, code, hrow, hcode, hgen⟩ := h.code hs
  have hrun : prog.step debug sem into items st w = code.run debug sem into items st w := by
    unfold Program.step PState.state
    simp only [hst, List.head?_cons, Outcome.unwrapUnchecked_some, Outcome.ok_bind]
    have := (Outcome.index_eq_ok (ε := Unit)).mpr hcode
    rw [this, Outcome.ok_bind]
  rw [hrun]
  unfold StateCode.run
  rcases hp with ⟨f, hf⟩ | hp
  · rw [hf]
    exact ⟨_, rfl, .stream hf⟩
  have hne : ∀ f, st.next ≠ some (.error f) := by
    intro f hf
    rw [hf] at hp
    cases hh : c.input.head? with
    | none => rw [hh] at hp; cases hp
    | some a => rw [hh] at hp; cases hp
  suffices hs' : ∃ res, code.check debug sem items c.input.head? st w = .ok res ∧
      GStep debug gi F kt sem into items c vs st w res by
    rw [hp]
    cases hh : c.input.head? with
    | none => rw [hh] at hs'; exact hs'
    | some a => rw [hh] at hs'; exact hs'
  unfold generateState at hgen
  simp only [Outcome.bind_eq_ok] at hgen
  obtain ⟨acts, hacts, ov, hov, reduces, hreduces, accept, haccept, shifts, hshifts, hfin⟩ := hgen
  cases hfin
  have hmemc := List.mem_of_getElem? hcode
  have hovi := h.overlap_iff (sem := sem) hs hacts hov
  unfold StateCode.check
  by_cases hrep : Reported debug gi F sem c
  · rw [if_pos ⟨hrep.1, hovi.mpr hrep.2⟩]
    exact ⟨_, rfl, .overlap hne hrep⟩
  · rw [if_neg (fun hx => hrep ⟨hx.1, hovi.mp hx.2⟩)]
    unfold StateCode.act
    simp only
    cases hf : shifts.find? fun arm => arm.matcher.matches sem c.input.head? with
    | some arm =>
      obtain ⟨a, z, k, st', h0, h1, h2, h3, h4, h5⟩ := h.shift_run hs hg hp hacts hshifts
        (List.mem_of_find?_eq_some hf) (by simpa using List.find?_some hf) (items := items)
      exact ⟨_, h5, .shift hne hrep h0 h1 h2 h3 h4⟩
    | none =>
      simp only
      cases hf2 : reduces.find? fun arm => arm.matchers.any fun m => m.matches sem c.input.head? with
      | some arm =>
        have harm := List.mem_of_find?_eq_some hf2
        obtain ⟨γ, r, i, us', us, e1, e2, h1, ⟨st', v, w', h2, h3, h4, h5, h6⟩ | ⟨e, w', h2, h3⟩⟩ :=
          h.reduce_run (w := w) hrow hst hs hg hacts hreduces harm (h.compiles.reduce _ hmemc _ harm)
            (by simpa using List.find?_some hf2)
        · exact ⟨_, h6, .reduce hne hrep e1 e2 h1 h2 h3 h4 h5⟩
        · exact ⟨_, h3, .reduceFail hne hrep e1 e2 h1 h2⟩
      | none =>
        simp only
        cases hf3 : accept.filter fun arm => arm.matcher.matches sem c.input.head? with
        | some arm =>
          rw [Option.filter_eq_some_iff] at hf3
          obtain ⟨rfl, hma⟩ := hf3
          obtain ⟨h1, r, h2, h3, ⟨v, st', w', h4, h5, h6, h7⟩ | ⟨e, w', h4, h5⟩⟩ :=
            h.accept_run (w := w) hrow hst hs hg hacts haccept (h.compiles.accept _ hmemc _ rfl) hma
          · exact ⟨_, h7, .accept hne hrep h1 h2 h3 h6 h4 h5⟩
          · exact ⟨_, h5, .acceptFail hne hrep h1 h2 h3 h4⟩
        | none =>
          refine ⟨_, rfl, .stuck hne hrep ?_⟩
          intro x act hx hd
          obtain ⟨l, hl, -, hact⟩ := h.action_tokens hs hacts
          obtain ⟨a, ha⟩ := (h.fit.demands_iff hs (look_lt hx)).mpr ⟨act, hd⟩
          obtain ⟨tok, htok⟩ := Vocab.idToToken_total ha.1
          have hin := (hact tok a).mpr ⟨x, ha, htok Unit⟩
          cases a with
          | shift s' =>
            obtain ⟨arm, h1, h2⟩ := forall₂_mem_left (shiftArms_spec hshifts) ((hl.shift _ _).mpr hin)
            rw [List.find?_eq_none] at hf
            exact hf arm h1 ((tokenMatcher_look (ε := Unit) h2.matcher (htok _) c.input).mpr hx)
          | reduce i =>
            obtain ⟨toks, h3, h4⟩ := (hl.reduce _ _).mpr hin
            obtain ⟨arm, h1, h2⟩ := forall₂_mem_left (reduceArms_spec hreduces)
              ((o.perm _ _).mem_iff.mpr h3 : (i, toks) ∈ acts.reduces o s)
            obtain ⟨m, h5, h6⟩ := forall₂_mem_left h2.matchers h4
            rw [List.find?_eq_none] at hf2
            refine hf2 arm h1 ?_
            rw [List.any_eq_true]
            exact ⟨m, h5, (tokenMatcher_look (ε := Unit) h6 (htok _) c.input).mpr hx⟩
          | accept =>
            have hsome := (hl.accept _).mpr hin
            rw [hsome] at haccept
            simp only [acceptArm, Outcome.bind_eq_ok] at haccept
            obtain ⟨m, hm1, rule, hrule, ⟨pops, states⟩, hbind, u, hassert, ctor, hctor, hfin⟩ := haccept
            cases hfin
            rw [Option.filter_eq_none_iff] at hf3
            exact hf3 _ rfl ((tokenMatcher_look (ε := Unit) hm1 (htok _) c.input).mpr hx)

/-- **One iteration** of the generated parser. -/
theorem step {debug : Bool} {into : F' → E} {items : Nat → Option (Item P F')}
    {c : Config Nat Nat (Token P)} {st : PState P V F'} {w w0 : σ}
    (hh : Holds gi F kt sem w0 st.stack w c)
    (hp : (∃ f, st.next = some (.error f)) ∨ st.next = c.input.head?.map .ok) :
    ∃ res, prog.step debug sem into items st w = .ok res ∧
      GenStep debug gi F kt sem into items w0 c st w res := by
  obtain ⟨vs, hg, hev⟩ := hh
  obtain ⟨res, h1, h2⟩ := h.stepG (debug := debug) (into := into) (items := items) (w := w) hg hp
  refine ⟨res, h1, ?_⟩
  have hnode : ∀ {x : Except E (Val P V)} {w' : σ}, construct gi sem (gi.indexedGrammar.orig 0) vs w = (x, w') →
      eval Val.tok (fun i => construct gi sem (gi.indexedGrammar.orig i))
        (.node 0 (Forest.ofTrees c.trees) .nil) w0 = andThen (x, w') fun v w => (.ok [v], w) := by
    intro x w' hx
    simp only [eval, hev, andThen_ok, hx]
  cases h2 with
  | stream g => exact .stream g
  | overlap g1 g2 => exact .overlap g1 g2
  | shift g1 g2 g3 g4 g5 g6 g7 => exact .shift g1 g2 g4 g5 g6 ⟨_, g7, eval_leaf hev⟩
  | reduce g1 g2 g3 g4 g5 g6 g7 g8 g9 =>
    refine .reduce g1 g2 g5 g7 g8 ⟨_, g9, ?_⟩
    rw [eval_reduce (g3 ▸ hev) g4, g6]
    rfl
  | reduceFail g1 g2 g3 g4 g5 g6 =>
    refine .reduceFail g1 g2 g5 ?_
    rw [eval_reduce (g3 ▸ hev) g4, g6]
    rfl
  | accept g1 g2 g3 g4 g5 g6 g7 g8 => exact .accept g1 g2 g3 g4 g5 (hnode g6) g7 g8
  | acceptFail g1 g2 g3 g4 g5 g6 => exact .acceptFail g1 g2 g3 g4 g5 (hnode g6)
  | stuck g1 g2 g3 => exact .stuck g1 g2 g3

end GenCtx
end
end Verif
