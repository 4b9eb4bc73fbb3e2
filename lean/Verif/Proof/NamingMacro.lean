import Verif.Proof.Naming
import Verif.Model.ParseGrammar

/-!
# Renaming the labels of a file does not change the generated program
-/

set_option linter.unusedSectionVars false
set_option autoImplicit false

namespace Verif
open Spec

theorem renameTok_id {T : Type} (t : AugTok T) : renameTok id t = t := by cases t <;> rfl

theorem Vocab.rename_id {T : Type} (v : Vocab T) : v.rename id = v := by
  simp [Vocab.rename]

section
variable {ε ε' : Type} {E : ε → ε' → Prop} {T L L' : Type} [DecidableEq T] [DecidableEq L] [DecidableEq L']

theorem LRTable.slice_rel {α : Type} (l : List α) (a b : Nat) :
    OutRel E Eq (LRTable.slice l a b : Outcome ε _) (LRTable.slice l a b : Outcome ε' _) := by
  unfold LRTable.slice
  split
  · exact .pure_eq _
  · exact .panic

theorem Vocab.idToToken_rel (v : Vocab T) (t : AugTokId) :
    OutRel E Eq (v.idToToken t : Outcome ε _) (v.idToToken t : Outcome ε' _) := by
  cases t with
  | epsilon => exact rfl
  | eos => exact rfl
  | token i => exact .bind_eq (.index _ _) fun _ => .pure_eq _

theorem LRTable.collectActions_rel (v : Vocab T) (l : List (Option Action × AugTokId)) :
    OutRel E Eq (LRTable.collectActions v l : Outcome ε _) (LRTable.collectActions v l : Outcome ε' _) := by
  induction l with
  | nil => exact .pure_eq _
  | cons p l ih =>
    obtain ⟨a, id⟩ := p
    cases a with
    | none => exact ih
    | some a => exact .bind_eq (v.idToToken_rel id) fun _ => .bind_eq ih fun _ => .pure_eq _

theorem LRTable.stateActions_rel (t : LRTable) (ig : IndexedGrammar T L) (τ : L → L') (s : Nat) :
    OutRel E Eq (t.stateActions ig s : Outcome ε _) (t.stateActions (ig.rename id τ) s : Outcome ε' _) := by
  unfold LRTable.stateActions
  have : (ig.rename id τ).vocab = ig.vocab := Vocab.rename_id _
  rw [this]
  exact .bind_eq (.bind_eq (.assert _) fun _ => .pure_eq _) fun _ => .bind_eq (.assert _) fun _ =>
    .bind_eq (slice_rel _ _ _) fun _ => collectActions_rel _ _

theorem LRTable.gotoActions_rel (t : LRTable) (ig : IndexedGrammar T L) (τ : L → L') (s : Nat) :
    OutRel E Eq (t.gotoActions ig s : Outcome ε _) (t.gotoActions (ig.rename id τ) s : Outcome ε' _) := by
  unfold LRTable.gotoActions
  rw [(ig.rename_shape id τ).labelsCount, (ig.rename_shape id τ).allLabels]
  exact .bind_eq (.bind_eq (.assert _) fun _ => .pure_eq _) fun _ => .bind_eq (.assert _) fun _ =>
    .bind_eq (slice_rel _ _ _) fun _ => .pure_eq _

theorem StateMap.stateType_rel (m : StateMap T) (s : Nat) :
    OutRel E Eq (m.stateType s : Outcome ε _) (m.stateType s : Outcome ε' _) :=
  .bind_eq (.index _ _) fun _ => .pure_eq _

theorem StateMap.backEdges_rel (m : StateMap T) (s : Nat) :
    OutRel E Eq (m.backEdges s : Outcome ε _) (m.backEdges s : Outcome ε' _) :=
  .bind_eq (.index _ _) fun _ => .pure_eq _

variable {σ : T → T} {τ : L → L'}

theorem StateType.verifyCompatible_rel (a b : StateType T) :
    OutRel (SameShape.ErrRel σ τ) Eq (a.verifyCompatible b) (a.verifyCompatible b) := by
  cases a <;> cases b <;> simp only [StateType.verifyCompatible]
  all_goals first | exact rfl | (split <;> exact rfl)

theorem insertStateAndType_rel (s : Nat) (ty : StateType T) (m : List (Nat × StateType T)) :
    OutRel (SameShape.ErrRel σ τ) Eq (insertStateAndType s ty m) (insertStateAndType s ty m) := by
  unfold insertStateAndType
  split
  · exact .bind_eq (StateType.verifyCompatible_rel _ _) fun _ => .pure_eq _
  · exact .pure_eq _

theorem StateInfo.verifyAll_rel (ty : StateType T) (l : List (Nat × StateType T)) :
    OutRel (SameShape.ErrRel σ τ) Eq (StateInfo.verifyAll ty l) (StateInfo.verifyAll ty l) := by
  induction l with
  | nil => exact .pure_eq _
  | cons p l ih =>
    exact .bind_eq (StateType.verifyCompatible_rel _ _) fun _ => .bind_eq ih fun _ => .pure_eq _

theorem StateInfo.build_rel (l : List (Nat × StateType T)) :
    OutRel (SameShape.ErrRel σ τ) Eq (StateInfo.build l) (StateInfo.build l) := by
  cases l with
  | nil => exact rfl
  | cons p l => exact .bind_eq (StateInfo.verifyAll_rel _ _) fun _ => .pure_eq _

namespace StateMap

theorem addEdge_rel (s : Nat) (ty : StateType T) (n : Nat) (maps : List (List (Nat × StateType T))) :
    OutRel (SameShape.ErrRel σ τ) Eq (addEdge s ty n maps) (addEdge s ty n maps) :=
  .bind_eq (.index _ _) fun _ => .bind_eq (insertStateAndType_rel _ _ _) fun _ => .pure_eq _

theorem addShifts_rel (s : Nat) (l : List (AugTok T × Action)) (maps : List (List (Nat × StateType T))) :
    OutRel (SameShape.ErrRel σ τ) Eq (addShifts s l maps) (addShifts s l maps) := by
  induction l generalizing maps with
  | nil => exact .pure_eq _
  | cons p l ih =>
    obtain ⟨t, a⟩ := p
    cases a with
    | shift n => exact .bind_eq (addEdge_rel _ _ _ _) fun _ => ih _
    | reduce r => exact ih _
    | accept => exact ih _

theorem addGotos_rel (s : Nat) (l : List (Nat × Nat)) (maps : List (List (Nat × StateType T))) :
    OutRel (SameShape.ErrRel σ τ) Eq (addGotos s l maps) (addGotos s l maps) := by
  induction l generalizing maps with
  | nil => exact .pure_eq _
  | cons p l ih => exact .bind_eq (addEdge_rel _ _ _ _) fun _ => ih _

theorem addStates_rel (ig : IndexedGrammar T L) (t : LRTable) (l : List Nat) (maps : List (List (Nat × StateType T))) :
    OutRel (SameShape.ErrRel σ τ) Eq (addStates ig t l maps) (addStates (ig.rename id τ) t l maps) := by
  induction l generalizing maps with
  | nil => exact .pure_eq _
  | cons s l ih =>
    exact .bind_eq (t.stateActions_rel ig τ s) fun _ => .bind_eq (addShifts_rel _ _ _) fun _ =>
      .bind_eq (t.gotoActions_rel ig τ s) fun _ => .bind_eq (addGotos_rel _ _ _) fun _ => ih _

theorem buildInfos_rel (o : HashOrder) (i : Nat) (maps : List (List (Nat × StateType T))) :
    OutRel (SameShape.ErrRel σ τ) Eq (buildInfos o i maps) (buildInfos o i maps) := by
  induction maps generalizing i with
  | nil => exact .pure_eq _
  | cons m maps ih => exact .bind_eq (StateInfo.build_rel _) fun _ => .bind_eq (ih _) fun _ => .pure_eq _

theorem build_rel (o : HashOrder) (ig : IndexedGrammar T L) (t : LRTable) :
    OutRel (SameShape.ErrRel σ τ) Eq (build o ig t) (build o (ig.rename id τ) t) :=
  .bind_eq (.assert _) fun _ => .bind_eq (addStates_rel _ _ _ _) fun _ => .bind_eq (.assert _) fun _ =>
    .bind_eq (buildInfos_rel _ _ _) fun _ => .pure_eq _

end StateMap
end

/-! ### The code generator -/

/-- A rule of a file with new names. -/
def renameARule (τ : String → String) (r : ARule) : ARule :=
  ⟨τ r.name, r.returnType, r.rule.map (renameANode τ), r.block.map fun b => (b.1, renameBody τ b.2)⟩

/-- Two grammars of the macro that differ in the names of their labels. -/
structure SameInfo (τ : String → String) (gi gi' : GrammarInfo) : Prop where
  name : gi'.name = gi.name
  terminalType : gi'.terminalType = gi.terminalType
  errorType : gi'.errorType = gi.errorType
  labelTypes : ∀ l, gi'.labelTypes.lookup (τ l) = gi.labelTypes.lookup l
  rules : gi'.productionRules = gi.productionRules.map (renameARule τ)
  indexed : gi'.indexedGrammar = gi.indexedGrammar.rename id τ
  table : gi'.lrTable = gi.lrTable

/-- Errors of the two runs: names in errors of `lr_table` are renamed. -/
def MacroErrRel (τ : String → String) (e e' : MacroError) : Prop :=
  match e with
  | .table e => e' = .table (renameError id τ e)
  | e => e' = e

theorem mapErr_rel {τ : String → String} {α : Type} {x y : Outcome (LRTableError Sym String) α}
    (h : OutRel (SameShape.ErrRel id τ) Eq x y) :
    OutRel (MacroErrRel τ) Eq (x.mapErr MacroError.table) (y.mapErr MacroError.table) := by
  cases x <;> cases y <;> first | exact h.elim | exact h | exact congrArg MacroError.table h

section
variable {τ : String → String} (hτ : Function.Injective τ)

theorem lex_asLiteral_rel (lex : Lexer) (s : Sym) : OutRel (MacroErrRel τ) Eq (s.asLiteral lex) (s.asLiteral lex) := by
  unfold Sym.asLiteral
  split
  · exact rfl
  · split <;> exact rfl

theorem lex_asIdent_rel (lex : Lexer) (s : Sym) : OutRel (MacroErrRel τ) Eq (s.asIdent lex) (s.asIdent lex) :=
  .bind_eq (.assert _) fun _ => .pure_eq _

theorem tryBuildPattern_rel (lex : Lexer) (tt : TerminalType) (s : Sym) :
    OutRel (MacroErrRel τ) Eq (tryBuildPattern lex tt s) (tryBuildPattern lex tt s) := by
  cases tt with
  | raw _ => exact .bind_eq (lex_asLiteral_rel _ _) fun _ => .pure_eq _
  | enum _ =>
    refine .bind_eq (lex_asIdent_rel _ _) fun _ => ?_
    split <;> exact .pure_eq _

theorem tryBuildRhs_rel (lex : Lexer) (tt : TerminalType) (s : Sym) :
    OutRel (MacroErrRel τ) Eq (tryBuildRhs lex tt s) (tryBuildRhs lex tt s) := by
  cases tt with
  | raw _ => exact .bind_eq (lex_asLiteral_rel _ _) fun _ => .pure_eq _
  | enum _ =>
    refine .bind_eq (lex_asIdent_rel _ _) fun _ => ?_
    split <;> exact .pure_eq _

theorem tokenMatcher_rel (lex : Lexer) (tt : TerminalType) (t : AugTok Sym) :
    OutRel (MacroErrRel τ) Eq (tokenMatcher lex tt t) (tokenMatcher lex tt t) := by
  cases t with
  | token s => exact .bind_eq (tryBuildPattern_rel _ _ _) fun _ => .pure_eq _
  | eos => exact .pure_eq _
  | epsilon => exact .panic

theorem tokenMatchers_rel (lex : Lexer) (tt : TerminalType) (ts : List (AugTok Sym)) :
    OutRel (MacroErrRel τ) Eq (tokenMatchers lex tt ts) (tokenMatchers lex tt ts) := by
  induction ts with
  | nil => exact .pure_eq _
  | cons t ts ih => exact .bind_eq (tokenMatcher_rel _ _ _) fun _ => .bind_eq ih fun _ => .pure_eq _

theorem collect_rel (l : List (AugTok Sym × Action)) (a : LikeActions) :
    OutRel (MacroErrRel τ) Eq (LikeActions.collect l a) (LikeActions.collect l a) := by
  induction l generalizing a with
  | nil => exact .pure_eq _
  | cons p l ih =>
    obtain ⟨t, x⟩ := p
    cases x with
    | shift n => exact ih _
    | reduce r => exact ih _
    | accept => exact .bind_eq (.assert _) fun _ => ih _

theorem extractVariant_rel (lex : Lexer) (ty : StateType Sym) :
    OutRel (MacroErrRel τ) Eq (extractVariant lex ty) (extractVariant lex ty) := by
  unfold extractVariant
  split
  · split
    · exact .bind_eq (lex_asIdent_rel _ _) fun _ => .pure_eq _
    · exact .pure_eq _
  · exact .pure_eq _

theorem unionBackEdges_rel (smap : StateMap Sym) (l acc : List Nat) :
    OutRel (MacroErrRel τ) Eq (unionBackEdges smap l acc) (unionBackEdges smap l acc) := by
  induction l generalizing acc with
  | nil => exact .pure_eq _
  | cons s l ih => exact .bind_eq (smap.backEdges_rel s) fun _ => ih _

theorem bindNodes_rel (o : HashOrder) (lex : Lexer) (smap : StateMap Sym) (site : List Nat)
    (ns : List (Nat × INode)) (states : List Nat) :
    OutRel (MacroErrRel τ) Eq (bindNodes o lex smap site ns states) (bindNodes o lex smap site ns states) := by
  induction ns generalizing states with
  | nil => exact .pure_eq _
  | cons p ns ih =>
    obtain ⟨i, n⟩ := p
    simp only [bindNodes]
    split
    · exact ih _
    · exact .bind_eq (.unwrap _) fun _ => .bind_eq (smap.stateType_rel _) fun _ =>
        .bind_eq (extractVariant_rel _ _) fun _ => .bind_eq (unionBackEdges_rel _ _ _) fun _ =>
        .bind_eq (ih _) fun _ => .pure_eq _

theorem literalToIndex_rel (m m' : SubstMap) (h : m'.numNodes = m.numNodes) (text : String) (rule : List ANode) :
    OutRel (MacroErrRel τ) Eq (m.literalToIndex text rule) (m'.literalToIndex text (rule.map (renameANode τ))) := by
  unfold SubstMap.literalToIndex
  rw [h]
  split
  · exact rfl
  · split
    · exact rfl
    · refine .bind (.index_map (renameANode τ) _ _) fun a b e => ?_
      subst e
      cases a <;> exact rfl

theorem substituteVars_punct {m : SubstMap} {rule : List ANode} {ch : Char} {joint : Bool} {rest : TokenStream}
    (h : ¬ (joint = false ∧ ch = '#')) :
    m.substituteVars rule (.punct ch joint rest) =
      (do let rest ← m.substituteVars rule rest; pure (.punct ch joint rest)) := by
  cases rest <;> simp only [SubstMap.substituteVars, h, if_false]

include hτ

theorem setValue_rename (name : String) (v : Option Nat) (m : List (String × Option Nat)) :
    SubstMap.setValue (τ name) v (m.map fun p => (τ p.1, p.2)) =
      (SubstMap.setValue name v m).map fun p => (τ p.1, p.2) := by
  induction m with
  | nil => rfl
  | cons p m ih =>
    obtain ⟨k, x⟩ := p
    simp only [List.map_cons, SubstMap.setValue, hτ.eq_iff, ih]
    split <;> rfl

theorem substMap_rename (i : Nat) (rule : List ANode) (m : List (String × Option Nat)) :
    SubstMap.buildLoop i (rule.map (renameANode τ)) (m.map fun p => (τ p.1, p.2)) =
      (SubstMap.buildLoop i rule m).map fun p => (τ p.1, p.2) := by
  induction rule generalizing i m with
  | nil => rfl
  | cons n rule ih =>
    cases n with
    | production l =>
      simp only [List.map_cons, renameANode, SubstMap.buildLoop, lookup_map_injective hτ]
      cases m.lookup l with
      | none =>
        have := ih (i + 1) (m ++ [(l, some i)])
        simpa using this
      | some x =>
        dsimp only
        rw [setValue_rename hτ]
        exact ih _ _
    | symbol s => exact ih _ _
    | epsilon => exact ih _ _

theorem substituteVars_rename (m m' : SubstMap) (hm : m'.labelMap = m.labelMap.map fun p => (τ p.1, p.2))
    (hn : m'.numNodes = m.numNodes) (rule : List ANode) (b : TokenStream) :
    OutRel (MacroErrRel τ) Eq (m.substituteVars rule b)
      (m'.substituteVars (rule.map (renameANode τ)) (renameBody τ b)) := by
  have hl : ∀ l, OutRel (MacroErrRel τ) Eq (m.lookupLabel l) (m'.lookupLabel (τ l)) := fun l => by
    unfold SubstMap.lookupLabel
    rw [hm, lookup_map_injective hτ]
    split <;> exact rfl
  suffices h : ∀ b : TokenStream, OutRel (MacroErrRel τ) Eq (m.substituteVars rule b)
      (m'.substituteVars (rule.map (renameANode τ)) (renameBody τ b)) ∧
      ∀ text r, b = .literal text r → OutRel (MacroErrRel τ) Eq (m.substituteVars rule r)
        (m'.substituteVars (rule.map (renameANode τ)) (renameBody τ r)) from (h b).1
  intro b
  induction b using renameBody.induct with
  | case1 => exact ⟨.pure_eq _, nofun⟩
  | case2 d inner rest ih1 ih2 =>
    exact ⟨.bind_eq ih1.1 fun _ => .bind_eq ih2.1 fun _ => .pure_eq _, nofun⟩
  | case3 ch joint name rest ih =>
    refine ⟨?_, nofun⟩
    simp only [renameBody, SubstMap.substituteVars]
    by_cases h : joint = false ∧ ch = '#'
    · simp only [h, and_self, if_true]
      exact .bind_eq (hl _) fun _ => .bind_eq ih.1 fun _ => .pure_eq _
    · simp only [h, if_false]
      exact .bind_eq (.bind_eq ih.1 fun _ => .pure_eq _) fun _ => .pure_eq _
  | case4 ch joint rest hne ih =>
    refine ⟨?_, nofun⟩
    have e : renameBody τ (.punct ch joint rest) = .punct ch joint (renameBody τ rest) := by
      cases rest <;> first | rfl | exact absurd rfl (hne _ _)
    rw [e]
    by_cases h : joint = false ∧ ch = '#'
    · cases rest with
      | nil =>
        simp only [renameBody, SubstMap.substituteVars, h, and_self, if_true]
        exact rfl
      | ident name rest => exact absurd rfl (hne _ _)
      | literal text rest =>
        simp only [renameBody, SubstMap.substituteVars, h, and_self, if_true]
        exact .bind_eq (literalToIndex_rel _ _ hn _ _) fun _ => .bind_eq (ih.2 _ _ rfl) fun _ => .pure_eq _
      | group d i r =>
        simp only [renameBody, SubstMap.substituteVars, h, and_self, if_true]
        exact rfl
      | punct ch' j r =>
        simp only [SubstMap.substituteVars, h, and_self, if_true]
        cases r <;> exact rfl
    · rw [substituteVars_punct h, substituteVars_punct h]
      exact .bind_eq ih.1 fun _ => .pure_eq _
  | case5 name rest ih => exact ⟨.bind_eq ih.1 fun _ => .pure_eq _, nofun⟩
  | case6 text rest ih => exact ⟨.bind_eq ih.1 fun _ => .pure_eq _, fun _ _ e => by cases e; exact ih.1⟩

variable {gi gi' : GrammarInfo}

theorem buildConstructor_rename (h : SameInfo τ gi gi') (i : Nat) :
    OutRel (MacroErrRel τ) Eq (buildConstructor gi i) (buildConstructor gi' i) := by
  unfold buildConstructor GrammarInfo.productionRule
  rw [h.rules]
  refine .bind (.index_map (renameARule τ) _ _) fun a b e => ?_
  subst e
  cases hb : a.block with
  | none =>
    simp only [renameARule, hb, Option.map_none, List.length_map]
    split
    · split <;> exact rfl
    · exact rfl
  | some p =>
    obtain ⟨d, body⟩ := p
    simp only [renameARule, hb, Option.map_some, rewriteProvided]
    split
    · exact rfl
    · refine .bind_eq (substituteVars_rename hτ _ _ ?_ ?_ _ _) fun _ => .pure_eq _
      · exact substMap_rename hτ 0 a.rule []
      · simp [SubstMap.build]

omit hτ

theorem labelType_rename (h : SameInfo τ gi gi') (l : Nat) :
    OutRel (MacroErrRel τ) Eq (gi.indexedGrammar.origLabel l >>= fun l => gi.labelType l)
      (gi'.indexedGrammar.origLabel l >>= fun l => gi'.labelType l) := by
  refine .bind (R := fun a b => b = τ a) ?_ fun a b e => ?_
  · unfold IndexedGrammar.origLabel
    rw [h.indexed]
    refine .bind (.index_map (fun m : RuleMetadata String => (⟨m.startIndex, m.endIndex, τ m.originalLabel⟩ : RuleMetadata String)) _ _)
      fun a b e => .pure ?_
    subst e
    rfl
  · subst e
    unfold GrammarInfo.labelType
    rw [h.labelTypes]
    exact .unwrap _

theorem likeActions_rename (h : SameInfo τ gi gi') (s : Nat) :
    OutRel (MacroErrRel τ) Eq (LikeActions.build gi s) (LikeActions.build gi' s) := by
  unfold LikeActions.build
  rw [h.indexed, h.table]
  exact .bind_eq (LRTable.stateActions_rel _ _ _ _) fun _ => collect_rel _ _

theorem overlapCheck_rename (h : SameInfo τ gi gi') (o : HashOrder) (lex : Lexer) (s : Nat) (a : LikeActions) :
    OutRel (MacroErrRel τ) Eq (a.overlapCheck o lex gi s) (a.overlapCheck o lex gi' s) := by
  unfold LikeActions.overlapCheck
  rw [h.terminalType]
  split
  · exact .pure_eq _
  · exact tokenMatchers_rel _ _ _

theorem shiftArms_rename (h : SameInfo τ gi gi') (lex : Lexer) (l : List (AugTok Sym × Nat)) :
    OutRel (MacroErrRel τ) Eq (LikeActions.shiftArms lex gi l) (LikeActions.shiftArms lex gi' l) := by
  induction l with
  | nil => exact .pure_eq _
  | cons p l ih =>
    simp only [LikeActions.shiftArms]
    rw [h.terminalType]
    exact .bind_eq (tokenMatcher_rel _ _ _) fun _ => .bind_eq (.unwrap _) fun _ =>
      .bind_eq (tryBuildRhs_rel _ _ _) fun _ => .bind_eq ih fun _ => .pure_eq _

theorem gotoMap_rename (h : SameInfo τ gi gi') (label : Nat) (l : List Nat) (m : List (Nat × List Nat)) :
    OutRel (MacroErrRel τ) Eq (gotoMap gi label l m) (gotoMap gi' label l m) := by
  induction l generalizing m with
  | nil => exact .pure_eq _
  | cons s l ih =>
    simp only [gotoMap]
    rw [h.table]
    exact .bind_eq (LRTable.getGoto_rel _ _ _) fun _ => .bind_eq (.unwrap _) fun _ => ih _

include hτ

theorem applyGoto_rename (h : SameInfo τ gi gi') (o : HashOrder) (site : List Nat) (i label : Nat) (states : List Nat) :
    OutRel (MacroErrRel τ) Eq (applyGoto o gi site i label states) (applyGoto o gi' site i label states) := by
  refine .bind_eq (gotoMap_rename h _ _ _) fun _ => .bind_eq (buildConstructor_rename hτ h _) fun _ => ?_
  split <;> exact .pure_eq _

theorem reduceArms_rename (h : SameInfo τ gi gi') (o : HashOrder) (lex : Lexer) (smap : StateMap Sym) (s : Nat)
    (l : List (Nat × List (AugTok Sym))) :
    OutRel (MacroErrRel τ) Eq (reduceArms o lex gi smap s l) (reduceArms o lex gi' smap s l) := by
  induction l with
  | nil => exact .pure_eq _
  | cons p l ih =>
    simp only [reduceArms]
    rw [h.terminalType, h.indexed]
    exact .bind_eq (tokenMatchers_rel _ _ _) fun _ =>
      .bind_eq ((gi.indexedGrammar.rename_shape id τ).productionRule _) fun _ =>
      .bind_eq (bindNodes_rel _ _ _ _ _ _) fun _ => .bind_eq (applyGoto_rename hτ h _ _ _ _ _) fun _ =>
      .bind_eq ih fun _ => .pure_eq _

theorem acceptArm_rename (h : SameInfo τ gi gi') (o : HashOrder) (lex : Lexer) (smap : StateMap Sym) (s : Nat)
    (t : Option (AugTok Sym)) :
    OutRel (MacroErrRel τ) Eq (acceptArm o lex gi smap s t) (acceptArm o lex gi' smap s t) := by
  cases t with
  | none => exact .pure_eq _
  | some t =>
    simp only [acceptArm]
    rw [h.terminalType, h.indexed]
    exact .bind_eq (tokenMatcher_rel _ _ _) fun _ =>
      .bind_eq ((gi.indexedGrammar.rename_shape id τ).productionRule _) fun _ =>
      .bind_eq (bindNodes_rel _ _ _ _ _ _) fun _ => .bind_eq (.assert _) fun _ =>
      .bind_eq (buildConstructor_rename hτ h _) fun _ => .pure_eq _

theorem generateStates_rename (h : SameInfo τ gi gi') (o : HashOrder) (lex : Lexer) (smap : StateMap Sym)
    (l : List Nat) :
    OutRel (MacroErrRel τ) Eq (generateStates o lex gi smap l) (generateStates o lex gi' smap l) := by
  induction l with
  | nil => exact .pure_eq _
  | cons s l ih =>
    refine .bind_eq ?_ fun _ => .bind_eq ih fun _ => .pure_eq _
    exact .bind_eq (likeActions_rename h _) fun _ => .bind_eq (overlapCheck_rename h _ _ _ _) fun _ =>
      .bind_eq (reduceArms_rename hτ h _ _ _ _ _) fun _ => .bind_eq (acceptArm_rename hτ h _ _ _ _ _) fun _ =>
      .bind_eq (shiftArms_rename h _ _) fun _ => .pure_eq _

omit hτ

theorem stateDataTypes_rename (h : SameInfo τ gi gi') (smap : StateMap Sym) (l : List Nat) :
    OutRel (MacroErrRel τ) Eq (stateDataTypes gi smap l) (stateDataTypes gi' smap l) := by
  induction l with
  | nil => exact .pure_eq _
  | cons s l ih =>
    refine .bind_eq ?_ fun _ => .bind_eq ih fun _ => .pure_eq _
    unfold stateDataType
    rw [h.terminalType]
    refine .bind_eq (smap.stateType_rel s) fun ty => ?_
    cases ty with
    | reduce l => exact labelType_rename h l
    | terminal t => exact .pure_eq _
    | root => exact .pure_eq _

include hτ

theorem generateParser_rename (h : SameInfo τ gi gi') (o : HashOrder) (lex : Lexer) :
    OutRel (MacroErrRel τ) Eq (generateParser o lex gi) (generateParser o lex gi') := by
  unfold generateParser
  rw [h.table]
  refine .bind_eq (mapErr_rel (h.indexed ▸ StateMap.build_rel o gi.indexedGrammar gi.lrTable)) fun smap => ?_
  have := labelType_rename h IndexedGrammar.rootLabel
  have hk : ∀ {gi : GrammarInfo} {k : Option TokenStream → Outcome MacroError Program},
      (do let l ← gi.indexedGrammar.origLabel IndexedGrammar.rootLabel; let r ← gi.labelType l; k r) =
      ((gi.indexedGrammar.origLabel IndexedGrammar.rootLabel >>= fun l => gi.labelType l) >>= k) := by
    intro gi k
    rw [bind_assoc]
  rw [hk, hk]
  exact .bind_eq this fun _ => .bind_eq (stateDataTypes_rename h _ _) fun _ =>
    .bind_eq (generateStates_rename hτ h _ _ _ _) fun _ => .pure_eq _

end
end Verif
