import Verif.Spec.Naming
import Verif.Model.Simulator

/-!
# Renaming the symbols of a grammar commutes with everything the library computes
-/

set_option linter.unusedSectionVars false
set_option autoImplicit false

namespace Verif
open Spec

/-- Two outcomes of the same kind with related values and errors. -/
def OutRel {ε ε' α β : Type} (E : ε → ε' → Prop) (R : α → β → Prop) : Outcome ε α → Outcome ε' β → Prop
  | .ok a, .ok b => R a b
  | .err e, .err e' => E e e'
  | .panic, .panic => True
  | .ub, .ub => True
  | .timeout, .timeout => True
  | _, _ => False

namespace OutRel
variable {ε ε' α β γ δ : Type} {E : ε → ε' → Prop}

theorem bind {R : α → β → Prop} {S : γ → δ → Prop} {x : Outcome ε α} {y : Outcome ε' β} {f : α → Outcome ε γ}
    {k : β → Outcome ε' δ} (h : OutRel E R x y) (hk : ∀ a b, R a b → OutRel E S (f a) (k b)) :
    OutRel E S (x >>= f) (y >>= k) := by
  cases x <;> cases y <;> first | exact h.elim | exact hk _ _ h | exact h

theorem bind_eq {S : γ → δ → Prop} {x : Outcome ε α} {y : Outcome ε' α} {f : α → Outcome ε γ}
    {k : α → Outcome ε' δ} (h : OutRel E Eq x y) (hk : ∀ a, OutRel E S (f a) (k a)) :
    OutRel E S (x >>= f) (y >>= k) :=
  bind h fun a _ e => e ▸ hk a

theorem pure {R : α → β → Prop} {a : α} {b : β} (h : R a b) :
    OutRel E R (Pure.pure a : Outcome ε α) (Pure.pure b : Outcome ε' β) := h

theorem pure_eq (a : α) : OutRel E Eq (Pure.pure a : Outcome ε α) (Pure.pure a : Outcome ε' α) := rfl

theorem panic {R : α → β → Prop} : OutRel E R (Outcome.panic : Outcome ε α) (Outcome.panic : Outcome ε' β) :=
  True.intro

theorem timeout {R : α → β → Prop} :
    OutRel E R (Outcome.timeout : Outcome ε α) (Outcome.timeout : Outcome ε' β) := True.intro

theorem assert (b : Bool) : OutRel E Eq (Outcome.assert b : Outcome ε Unit) (Outcome.assert b : Outcome ε' Unit) := by
  cases b
  · exact True.intro
  · exact rfl

theorem index (l : List α) (i : Nat) :
    OutRel E Eq (Outcome.index l i : Outcome ε α) (Outcome.index l i : Outcome ε' α) := by
  unfold Outcome.index
  split
  · exact rfl
  · exact True.intro

theorem index_map (f : α → β) (l : List α) (i : Nat) :
    OutRel E (fun a b => b = f a) (Outcome.index l i : Outcome ε α) (Outcome.index (l.map f) i : Outcome ε' β) := by
  unfold Outcome.index
  rw [List.getElem?_map]
  cases l[i]? with
  | none => exact True.intro
  | some a => exact rfl

theorem unwrap (o : Option α) :
    OutRel E Eq (Outcome.unwrap o : Outcome ε α) (Outcome.unwrap o : Outcome ε' α) := by
  cases o
  · exact True.intro
  · exact rfl

theorem mono {R R' : α → β → Prop} (hR : ∀ a b, R a b → R' a b) {x : Outcome ε α} {y : Outcome ε' β}
    (h : OutRel E R x y) : OutRel E R' x y := by
  cases x <;> cases y <;> first | exact h.elim | exact hR _ _ h | exact h

theorem mono' {E' : ε → ε' → Prop} (hE : ∀ e e', E e e' → E' e e') {R : α → β → Prop} {x : Outcome ε α}
    {y : Outcome ε' β} (h : OutRel E R x y) : OutRel E' R x y := by
  cases x <;> cases y <;> first | exact h.elim | exact hE _ _ h | exact h

/-- Related by functions: one outcome is the image of the other. -/
theorem eq_map {fe : ε → ε'} {f : α → β} {x : Outcome ε α} {y : Outcome ε' β}
    (h : OutRel (fun e e' => e' = fe e) (fun a b => b = f a) x y) : y = mapOutcome fe f x := by
  cases x <;> cases y <;> first | exact h.elim | exact congrArg _ h | rfl

end OutRel

/-! ### Functions that do not depend on names -/

section
variable {ε ε' : Type} {E : ε → ε' → Prop}

theorem BitSet.has_rel (s : BitSet) (i : Nat) : OutRel E Eq (s.has i : Outcome ε Bool) (s.has i : Outcome ε' Bool) :=
  .bind_eq (.assert _) fun _ => .bind_eq (.index _ _) fun _ => .pure_eq _

theorem BitSet.set_rel (s : BitSet) (i : Nat) :
    OutRel E Eq (s.set i : Outcome ε BitSet) (s.set i : Outcome ε' BitSet) :=
  .bind_eq (.assert _) fun _ => .bind_eq (.index _ _) fun _ => .pure_eq _

theorem BitSet.clear_rel (s : BitSet) (i : Nat) :
    OutRel E Eq (s.clear i : Outcome ε BitSet) (s.clear i : Outcome ε' BitSet) :=
  .bind_eq (.assert _) fun _ => .bind_eq (.index _ _) fun _ => .pure_eq _

theorem BitSet.full_rel (s : BitSet) : OutRel E Eq (s.full : Outcome ε Bool) (s.full : Outcome ε' Bool) := by
  unfold BitSet.full
  split
  · exact .pure_eq _
  · split
    · exact .pure_eq _
    · exact .panic

theorem VocabSet.has_rel (s : VocabSet) (t : AugTokId) :
    OutRel E Eq (s.has t : Outcome ε Bool) (s.has t : Outcome ε' Bool) := BitSet.has_rel _ _

theorem VocabSet.insert_rel (s : VocabSet) (t : AugTokId) :
    OutRel E Eq (s.insert t : Outcome ε VocabSet) (s.insert t : Outcome ε' VocabSet) :=
  .bind_eq (BitSet.set_rel _ _) fun _ => .pure_eq _

theorem VocabSet.clear_rel (s : VocabSet) (t : AugTokId) :
    OutRel E Eq (s.clear t : Outcome ε VocabSet) (s.clear t : Outcome ε' VocabSet) :=
  .bind_eq (BitSet.clear_rel _ _) fun _ => .pure_eq _

namespace SparseMap
variable {K V : Type} [Label K]

theorem maybeIndex_rel (m : SparseMap K V) (k : K) :
    OutRel E Eq (m.maybeIndex k : Outcome ε _) (m.maybeIndex k : Outcome ε' _) := .index _ _

theorem get_rel (m : SparseMap K V) (k : K) : OutRel E Eq (m.get k : Outcome ε _) (m.get k : Outcome ε' _) := by
  refine .bind_eq (m.maybeIndex_rel k) fun o => ?_
  cases o with
  | none => exact .pure_eq _
  | some i => exact .bind_eq (.index _ _) fun _ => .pure_eq _

theorem insert_rel (m : SparseMap K V) (k : K) (v : V) :
    OutRel E Eq (m.insert k v : Outcome ε _) (m.insert k v : Outcome ε' _) :=
  .bind_eq (.index _ _) fun _ => .bind_eq (.assert _) fun _ => .pure_eq _

theorem tryInsert_rel (m : SparseMap K V) (k : K) (v : V) :
    OutRel E Eq (m.tryInsert k v : Outcome ε _) (m.tryInsert k v : Outcome ε' _) := by
  refine .bind_eq (m.maybeIndex_rel k) fun o => ?_
  cases o with
  | none => exact .bind_eq (m.insert_rel _ _) fun _ => .pure_eq _
  | some i => exact .bind_eq (.index _ _) fun _ => .pure_eq _

theorem modifyOrInsert_rel (m : SparseMap K V) (k : K) (v : V) (f : V → V) :
    OutRel E Eq (m.modifyOrInsert k v f : Outcome ε _) (m.modifyOrInsert k v f : Outcome ε' _) := by
  refine .bind_eq (m.maybeIndex_rel k) fun o => ?_
  cases o with
  | none => exact .bind_eq (m.insert_rel _ _) fun _ => .pure_eq _
  | some i => exact .bind_eq (.index _ _) fun _ => .pure_eq _

theorem getAll_rel (m : SparseMap K V) (ks : List K) :
    OutRel E Eq (m.getAll ks : Outcome ε _) (m.getAll ks : Outcome ε' _) := by
  induction ks with
  | nil => exact .pure_eq _
  | cons k ks ih => exact .bind_eq (m.get_rel k) fun _ => .bind_eq ih fun _ => .pure_eq _

end SparseMap

theorem Position.sliceFrom_rel {α : Type} (l : List α) (i : Nat) :
    OutRel E Eq (Position.sliceFrom l i : Outcome ε _) (Position.sliceFrom l i : Outcome ε' _) := by
  unfold Position.sliceFrom
  split
  · exact .pure_eq _
  · exact .panic

namespace FirstTable

theorem propagateNodes_rel (label : Nat) (ns : List INode) (map : FirstTable) (changed : Bool) :
    OutRel E Eq (propagateNodes label ns map changed : Outcome ε _) (propagateNodes label ns map changed : Outcome ε' _) := by
  induction ns generalizing map changed with
  | nil => exact .pure_eq _
  | cons n ns ih =>
    cases n with
    | production l =>
      refine .bind_eq (.index _ _) fun s => .bind_eq (s.has_rel _) fun b => .bind_eq (s.clear_rel _) fun s' =>
        .bind_eq (.index _ _) fun d => ?_
      dsimp only
      split
      · exact .pure_eq _
      · exact ih _ _
    | terminal t =>
      cases t with
      | epsilon => exact ih _ _
      | token t =>
        refine .bind_eq (.index _ _) fun s => .bind_eq (s.has_rel _) fun b => ?_
        split
        · exact .bind_eq (s.insert_rel _) fun _ => .pure_eq _
        · exact .pure_eq _
      | eos =>
        refine .bind_eq (.index _ _) fun s => .bind_eq (s.has_rel _) fun b => ?_
        split
        · exact .bind_eq (s.insert_rel _) fun _ => .pure_eq _
        · exact .pure_eq _

theorem addEpsilon_rel (label : Nat) (map : FirstTable) :
    OutRel E Eq (addEpsilon label map : Outcome ε _) (addEpsilon label map : Outcome ε' _) :=
  .bind_eq (.index _ _) fun s => .bind_eq (s.insert_rel _) fun _ => .pure_eq _

theorem propagateRules_rel (label : Nat) (rs : List IRule) (map : FirstTable) (changed : Bool) :
    OutRel E Eq (propagateRules label rs map changed : Outcome ε _)
      (propagateRules label rs map changed : Outcome ε' _) := by
  induction rs generalizing map changed with
  | nil => exact .pure_eq _
  | cons r rs ih =>
    refine .bind_eq (propagateNodes_rel _ _ _ _) fun a => ?_
    obtain ⟨map, changed, passed⟩ := a
    cases passed
    · exact ih _ _
    · exact .bind_eq (addEpsilon_rel _ _) fun _ => ih _ _

end FirstTable

theorem followSetLoop_rel (fm : FirstTable) (ns : List INode) (s : VocabSet) :
    OutRel E Eq (followSetLoop fm ns s : Outcome ε _) (followSetLoop fm ns s : Outcome ε' _) := by
  induction ns generalizing s with
  | nil => exact .pure_eq _
  | cons n ns ih =>
    cases n with
    | production l =>
      refine .bind_eq (.index _ _) fun f => .bind_eq (f.has_rel _) fun b => ?_
      split
      · exact .pure_eq _
      · exact .bind_eq (VocabSet.clear_rel _ _) fun _ => ih _
    | terminal t =>
      cases t with
      | epsilon => exact ih _
      | token t => exact .bind_eq (VocabSet.insert_rel _ _) fun _ => .pure_eq _
      | eos => exact .bind_eq (VocabSet.insert_rel _ _) fun _ => .pure_eq _

theorem followSetForRule_rel (ns : List INode) (s : VocabSet) (fm : FirstTable) (n : Nat) :
    OutRel E Eq (followSetForRule ns s fm n : Outcome ε _) (followSetForRule ns s fm n : Outcome ε' _) := by
  refine .bind_eq (followSetLoop_rel _ _ _) fun a => ?_
  dsimp only
  split <;> exact .pure_eq _

namespace Closure

theorem exploreRules_rel (n : Nat) (rs : List IRule) (map : FollowMap) (stack : List Nat) :
    OutRel E Eq (exploreRules n rs map stack : Outcome ε _) (exploreRules n rs map stack : Outcome ε' _) := by
  induction rs generalizing map stack with
  | nil => exact .pure_eq _
  | cons r rs ih =>
    simp only [exploreRules]
    split
    · exact ih _ _
    · exact .bind_eq (SparseMap.modifyOrInsert_rel _ _ _ _) fun _ => ih _ _

theorem mergeAt_rel (map : FollowMap) (label : Nat) (s : VocabSet) :
    OutRel E Eq (mergeAt map label s : Outcome ε _) (mergeAt map label s : Outcome ε' _) := by
  refine .bind_eq (map.maybeIndex_rel label) fun o => ?_
  cases o with
  | none => exact .panic
  | some i => exact .bind_eq (.index _ _) fun _ => .pure_eq _

theorem propagateRules_rel (fm : FirstTable) (n label : Nat) (rs : List IRule) (map : FollowMap) (changed : Bool) :
    OutRel E Eq (propagateRules fm n label rs map changed : Outcome ε _)
      (propagateRules fm n label rs map changed : Outcome ε' _) := by
  induction rs generalizing map changed with
  | nil => exact .pure_eq _
  | cons r rs ih =>
    simp only [propagateRules]
    split
    · exact ih _ _
    · exact .bind_eq (map.get_rel _) fun _ => .bind_eq (.unwrap _) fun _ =>
        .bind_eq (Position.sliceFrom_rel _ _) fun _ => .bind_eq (followSetForRule_rel _ _ _ _) fun _ =>
        .bind_eq (mergeAt_rel _ _ _) fun _ => ih _ _

end Closure

theorem LRTable.topLevel_rel (n : Nat) (rs : List Nat) :
    OutRel E Eq (LRTable.topLevel n rs : Outcome ε _) (LRTable.topLevel n rs : Outcome ε' _) := by
  induction rs with
  | nil => exact .pure_eq _
  | cons r rs ih =>
    refine .bind_eq ?_ fun _ => .bind_eq ih fun _ => .pure_eq _
    exact .bind_eq (VocabSet.insert_rel _ _) fun _ => .pure_eq _

theorem LRTable.getAction_rel (t : LRTable) (s : Nat) (k : AugTokId) :
    OutRel E Eq (t.getAction s k : Outcome ε _) (t.getAction s k : Outcome ε' _) :=
  .bind_eq (.bind_eq (.assert _) fun _ => .pure_eq _) fun _ => .index _ _

theorem LRTable.getGoto_rel (t : LRTable) (s : Nat) (l : Nat) :
    OutRel E Eq (t.getGoto s l : Outcome ε _) (t.getGoto s l : Outcome ε' _) :=
  .bind_eq (.bind_eq (.assert _) fun _ => .pure_eq _) fun _ => .index _ _

end

/-! ### Indexed grammars that differ in their names only -/

section
variable {ε ε' T L T' L' : Type} [DecidableEq T] [DecidableEq L] [DecidableEq T'] [DecidableEq L']

/-- Two indexed grammars with the same rules and numbers. -/
structure SameShape (σ : T → T') (ig : IndexedGrammar T L) (ig' : IndexedGrammar T' L') : Prop where
  rules : ig'.rules = ig.rules
  spans : ig'.ruleMetadata.map (fun m => (m.startIndex, m.endIndex)) =
    ig.ruleMetadata.map fun m => (m.startIndex, m.endIndex)
  idMap : ig'.vocab.idMap = ig.vocab.idMap.map σ

namespace SameShape
variable {σ : T → T'} {ig : IndexedGrammar T L} {ig' : IndexedGrammar T' L'} {E : ε → ε' → Prop}

theorem labelsCount (h : SameShape σ ig ig') : ig'.labelsCount = ig.labelsCount := by
  have := congrArg List.length h.spans
  simpa [IndexedGrammar.labelsCount] using this

theorem vocabSize (h : SameShape σ ig ig') : ig'.vocab.size = ig.vocab.size := by
  simp [Vocab.size, h.idMap]

theorem allLabels (h : SameShape σ ig ig') : ig'.allLabels = ig.allLabels := by
  simp [IndexedGrammar.allLabels, h.labelsCount]

theorem forEachId (h : SameShape σ ig ig') : ig'.vocab.forEachId = ig.vocab.forEachId := by
  simp [Vocab.forEachId, h.vocabSize]

theorem productionRule (h : SameShape σ ig ig') (i : Nat) :
    OutRel E Eq (ig.productionRule i : Outcome ε _) (ig'.productionRule i : Outcome ε' _) := by
  unfold IndexedGrammar.productionRule
  rw [h.rules]
  exact .index _ _

theorem ruleIdsForLabel (h : SameShape σ ig ig') (l : Nat) :
    OutRel E Eq (ig.ruleIdsForLabel l : Outcome ε _) (ig'.ruleIdsForLabel l : Outcome ε' _) := by
  have hs : (ig'.ruleMetadata[l]?).map (fun m => (m.startIndex, m.endIndex)) =
      (ig.ruleMetadata[l]?).map (fun m => (m.startIndex, m.endIndex)) := by
    rw [← List.getElem?_map, ← List.getElem?_map, h.spans]
  refine .bind (R := fun m m' => m'.startIndex = m.startIndex ∧ m'.endIndex = m.endIndex) ?_ ?_
  · have := hs
    unfold Outcome.index
    cases h1 : ig.ruleMetadata[l]? <;> cases h2 : ig'.ruleMetadata[l]? <;> simp [h1, h2] at this ⊢
    · exact True.intro
    · exact this
  · rintro m m' ⟨h1, h2⟩
    rw [h1, h2]
    exact .pure_eq _

theorem productionRules (h : SameShape σ ig ig') (ids : List Nat) :
    OutRel E Eq (ig.productionRules ids : Outcome ε _) (ig'.productionRules ids : Outcome ε' _) := by
  induction ids with
  | nil => exact .pure_eq _
  | cons i ids ih => exact .bind_eq (h.productionRule i) fun _ => .bind_eq ih fun _ => .pure_eq _

theorem rulesForLabel (h : SameShape σ ig ig') (l : Nat) :
    OutRel E Eq (ig.rulesForLabel l : Outcome ε _) (ig'.rulesForLabel l : Outcome ε' _) :=
  .bind_eq (h.ruleIdsForLabel l) fun _ => h.productionRules _

theorem idToToken (h : SameShape σ ig ig') (t : AugTokId) :
    OutRel E (fun x y => y = renameTok σ x) (ig.vocab.idToToken t : Outcome ε _)
      (ig'.vocab.idToToken t : Outcome ε' _) := by
  cases t with
  | epsilon => exact rfl
  | eos => exact rfl
  | token i =>
    simp only [Vocab.idToToken, h.idMap]
    refine .bind (.index_map σ _ _) fun a b e => ?_
    subst e
    exact rfl

theorem propagateLabels (h : SameShape σ ig ig') (ls : List Nat) (map : FirstTable) (changed : Bool) :
    OutRel E Eq (FirstTable.propagateLabels ig ls map changed : Outcome ε _)
      (FirstTable.propagateLabels ig' ls map changed : Outcome ε' _) := by
  induction ls generalizing map changed with
  | nil => exact .pure_eq _
  | cons l ls ih =>
    exact .bind_eq (h.rulesForLabel l) fun _ => .bind_eq (FirstTable.propagateRules_rel _ _ _ _) fun _ => ih _ _

theorem firstLoop (h : SameShape σ ig ig') (fuel : Nat) (map : FirstTable) :
    OutRel E Eq (FirstTable.buildLoop ig fuel map : Outcome ε _) (FirstTable.buildLoop ig' fuel map : Outcome ε' _) := by
  induction fuel generalizing map with
  | zero => exact .timeout
  | succ n ih =>
    refine .bind_eq (y := FirstTable.propagate ig' map) ?_ fun a => ?_
    · unfold FirstTable.propagate
      rw [h.allLabels]
      exact h.propagateLabels _ _ _
    · dsimp only
      split
      · exact ih _
      · exact .pure_eq _

theorem firstBuild (h : SameShape σ ig ig') :
    OutRel E Eq (FirstTable.build ig : Outcome ε _) (FirstTable.build ig' : Outcome ε' _) := by
  unfold FirstTable.build FirstTable.init
  rw [h.labelsCount, h.vocabSize]
  exact h.firstLoop _ _

theorem nextNode (h : SameShape σ ig ig') (p : Position) :
    OutRel E Eq (p.nextNode ig : Outcome ε _) (p.nextNode ig' : Outcome ε' _) :=
  .bind_eq (h.productionRule _) fun _ => .bind_eq (Position.sliceFrom_rel _ _) fun _ => .pure_eq _

theorem atEndOfRule (h : SameShape σ ig ig') (p : Position) :
    OutRel E Eq (p.atEndOfRule ig : Outcome ε _) (p.atEndOfRule ig' : Outcome ε' _) :=
  .bind_eq (h.nextNode p) fun _ => .pure_eq _

theorem advanceAll (h : SameShape σ ig ig') (ps : List Position) :
    OutRel E Eq (Position.advanceAll ig ps : Outcome ε _) (Position.advanceAll ig' ps : Outcome ε' _) := by
  induction ps with
  | nil => exact .pure_eq _
  | cons p ps ih =>
    refine .bind_eq ?_ fun _ => .bind_eq ih fun _ => .pure_eq _
    exact .bind_eq (h.atEndOfRule p) fun _ => .bind_eq (.assert _) fun _ => .pure_eq _

theorem nextProductionLabel (h : SameShape σ ig ig') (fm : FirstTable) (p : Position) :
    OutRel E Eq (p.nextProductionLabel ig fm : Outcome ε _) (p.nextProductionLabel ig' fm : Outcome ε' _) := by
  refine .bind_eq (h.productionRule _) fun _ => .bind_eq (Position.sliceFrom_rel _ _) fun _ => ?_
  split
  · exact .pure_eq _
  · rw [h.vocabSize]
    exact .bind_eq (Position.sliceFrom_rel _ _) fun _ => .bind_eq (followSetForRule_rel _ _ _ _) fun _ => .pure_eq _

theorem kernelLoop (h : SameShape σ ig ig') (fm : FirstTable) (ps : List Position) (map : FollowMap)
    (stack : List Nat) :
    OutRel E Eq (Closure.kernelLoop ig fm ps map stack : Outcome ε _)
      (Closure.kernelLoop ig' fm ps map stack : Outcome ε' _) := by
  induction ps generalizing map stack with
  | nil => exact .pure_eq _
  | cons p ps ih =>
    refine .bind_eq (h.nextProductionLabel fm p) fun o => ?_
    cases o with
    | none => exact ih _ _
    | some q =>
      dsimp only
      rw [h.vocabSize]
      exact .bind_eq (SparseMap.modifyOrInsert_rel _ _ _ _) fun _ => ih _ _

theorem closureExplore (h : SameShape σ ig ig') (fuel : Nat) (map : FollowMap) (stack : List Nat) :
    OutRel E Eq (Closure.exploreLoop ig fuel map stack : Outcome ε _)
      (Closure.exploreLoop ig' fuel map stack : Outcome ε' _) := by
  induction fuel generalizing map stack with
  | zero => exact .timeout
  | succ n ih =>
    cases stack with
    | nil => exact .pure_eq _
    | cons l stack =>
      simp only [Closure.exploreLoop]
      rw [h.vocabSize]
      exact .bind_eq (h.rulesForLabel l) fun _ => .bind_eq (Closure.exploreRules_rel _ _ _ _) fun _ => ih _ _

theorem closurePropagate (h : SameShape σ ig ig') (fm : FirstTable) (ls : List Nat) (map : FollowMap)
    (changed : Bool) :
    OutRel E Eq (Closure.propagateLabels ig fm ls map changed : Outcome ε _)
      (Closure.propagateLabels ig' fm ls map changed : Outcome ε' _) := by
  induction ls generalizing map changed with
  | nil => exact .pure_eq _
  | cons l ls ih =>
    simp only [Closure.propagateLabels]
    rw [h.vocabSize]
    exact .bind_eq (h.rulesForLabel l) fun _ => .bind_eq (Closure.propagateRules_rel _ _ _ _ _ _) fun _ => ih _ _

theorem closureLoop (h : SameShape σ ig ig') (fm : FirstTable) (ls : List Nat) (fuel : Nat) (map : FollowMap) :
    OutRel E Eq (Closure.propagateLoop ig fm ls fuel map : Outcome ε _)
      (Closure.propagateLoop ig' fm ls fuel map : Outcome ε' _) := by
  induction fuel generalizing map with
  | zero => exact .timeout
  | succ n ih =>
    refine .bind_eq (h.closurePropagate fm ls map false) fun a => ?_
    dsimp only
    split
    · exact ih _
    · exact .pure_eq _

theorem followSets (h : SameShape σ ig ig') (fm : FirstTable) (k : Kernel) :
    OutRel E Eq (Closure.followSets k ig fm : Outcome ε _) (Closure.followSets k ig' fm : Outcome ε' _) := by
  unfold Closure.followSets
  rw [h.labelsCount, h.vocabSize]
  exact .bind_eq (h.kernelLoop _ _ _ _) fun _ => .bind_eq (h.closureExplore _ _ _) fun _ => h.closureLoop _ _ _ _

theorem closurePositions (h : SameShape σ ig ig') (l : List (Nat × VocabSet)) :
    OutRel E Eq (Partition.closurePositions ig l : Outcome ε _) (Partition.closurePositions ig' l : Outcome ε' _) := by
  induction l with
  | nil => exact .pure_eq _
  | cons p l ih => exact .bind_eq (h.ruleIdsForLabel _) fun _ => .bind_eq ih fun _ => .pure_eq _

theorem group (h : SameShape σ ig ig') (ps : List Position) (map : PartitionMap) :
    OutRel E Eq (Partition.group ig ps map : Outcome ε _) (Partition.group ig' ps map : Outcome ε' _) := by
  induction ps generalizing map with
  | nil => exact .pure_eq _
  | cons p ps ih =>
    simp only [Partition.group]
    rw [h.vocabSize]
    exact .bind_eq (h.nextNode p) fun _ => .bind_eq (SparseMap.modifyOrInsert_rel _ _ _ _) fun _ => ih _

theorem partitionClosure (h : SameShape σ ig ig') (fm : FirstTable) (k : Kernel) :
    OutRel E Eq (Partition.partitionClosure k ig fm : Outcome ε _)
      (Partition.partitionClosure k ig' fm : Outcome ε' _) := by
  unfold Partition.partitionClosure
  rw [h.labelsCount, h.vocabSize]
  refine .bind_eq (x := Partition.closureItems k ig fm) (y := Partition.closureItems k ig' fm) ?_ fun _ =>
    .bind_eq (h.group _ _) fun _ => .pure_eq _
  exact .bind_eq (h.followSets _ _) fun _ => .bind_eq (h.closurePositions _) fun _ => .pure_eq _

variable {τ : L → L'}

/-- Errors of the two runs. -/
abbrev ErrRel (σ : T → T') (τ : L → L') (e : LRTableError T L) (e' : LRTableError T' L') : Prop :=
  e' = renameError σ τ e

theorem addReduce (h : SameShape σ ig ig') (b : EntryBuilder) (t : AugTokId) (r : Nat) :
    OutRel (ErrRel σ τ) Eq (EntryBuilder.addReduce ig b t r) (EntryBuilder.addReduce ig' b t r) := by
  refine .bind_eq (b.actions.tryInsert_rel _ _) fun a => ?_
  cases a with
  | ok m => exact .pure_eq _
  | error x =>
    refine .bind (h.idToToken t) fun u u' e => ?_
    subst e
    cases x <;> exact rfl

theorem addReduces (h : SameShape σ ig ig') (r : Nat) (ts : List AugTokId) (b : EntryBuilder) :
    OutRel (ErrRel σ τ) Eq (EntryBuilder.addReduces ig r ts b) (EntryBuilder.addReduces ig' r ts b) := by
  induction ts generalizing b with
  | nil => exact .pure_eq _
  | cons t ts ih => exact .bind_eq (h.addReduce _ _ _) fun _ => ih _

theorem addEnds (h : SameShape σ ig ig') (ps : List Position) (b : EntryBuilder) :
    OutRel (ErrRel σ τ) Eq (EntryBuilder.addEnds ig ps b) (EntryBuilder.addEnds ig' ps b) := by
  induction ps generalizing b with
  | nil => exact .pure_eq _
  | cons p ps ih =>
    refine .bind_eq (h.atEndOfRule p) fun _ => .bind_eq (.assert _) fun _ => ?_
    dsimp only
    split
    · refine .bind_eq (.assert _) fun _ => .bind_eq (b.actions.tryInsert_rel _ _) fun a => ?_
      cases a with
      | ok m => exact ih _
      | error x => exact .panic
    · exact .bind_eq (h.addReduces _ _ _) fun _ => ih _

theorem noneAtEnd (h : SameShape σ ig ig') (ps : List Position) :
    OutRel (ErrRel σ τ) Eq (EntryBuilder.noneAtEnd ig ps) (EntryBuilder.noneAtEnd ig' ps) := by
  induction ps with
  | nil => exact .pure_eq _
  | cons p ps ih =>
    refine .bind_eq (h.atEndOfRule p) fun b => ?_
    cases b
    · exact ih
    · exact .pure_eq _

theorem addShift (h : SameShape σ ig ig') (b : EntryBuilder) (t : AugTokId) (s : Nat) :
    OutRel (ErrRel σ τ) Eq (EntryBuilder.addShift ig b t s) (EntryBuilder.addShift ig' b t s) := by
  refine .bind_eq (b.actions.tryInsert_rel _ _) fun a => ?_
  cases a with
  | ok m => exact .pure_eq _
  | error x =>
    refine .bind (h.idToToken t) fun u u' e => ?_
    subst e
    cases x <;> exact rfl

theorem addGoto (b : EntryBuilder) (l s : Nat) :
    OutRel (ErrRel σ τ) Eq (EntryBuilder.addGoto b l s) (EntryBuilder.addGoto b l s) := by
  refine .bind_eq (b.gotos.tryInsert_rel _ _) fun a => ?_
  cases a with
  | ok m => exact .pure_eq _
  | error x => exact .panic

theorem tryBuild (h : SameShape σ ig ig') (ps : List (Category × List Position)) (kt : KernelTable)
    (b : EntryBuilder) :
    OutRel (ErrRel σ τ) Eq (EntryBuilder.tryBuild ig ps kt b) (EntryBuilder.tryBuild ig' ps kt b) := by
  induction ps generalizing kt b with
  | nil => exact .pure_eq _
  | cons p ps ih =>
    obtain ⟨c, qs⟩ := p
    cases c with
    | none => exact .bind_eq (h.addEnds _ _) fun _ => ih _ _
    | some n =>
      refine .bind_eq (h.noneAtEnd _) fun _ => .bind_eq (.assert _) fun _ => .bind_eq (h.advanceAll _) fun _ => ?_
      cases n with
      | production l => exact .bind_eq (addGoto _ _ _) fun _ => ih _ _
      | terminal t => exact .bind_eq (h.addShift _ _ _) fun _ => ih _ _

theorem tableLoop (h : SameShape σ ig ig') (fm : FirstTable) (fuel s : Nat) (kt : KernelTable) (t : LRTable) :
    OutRel (ErrRel σ τ) Eq (LRTable.buildLoop ig fm fuel s kt t) (LRTable.buildLoop ig' fm fuel s kt t) := by
  induction fuel generalizing s kt t with
  | zero => exact .timeout
  | succ n ih =>
    simp only [LRTable.buildLoop]
    split
    · exact .pure_eq _
    · have hn : EntryBuilder.new ig' = EntryBuilder.new ig := by
        simp only [EntryBuilder.new, h.vocabSize, h.labelsCount]
      rw [h.forEachId, h.allLabels, hn]
      exact .bind_eq (h.partitionClosure _ _) fun _ => .bind_eq (h.tryBuild _ _ _) fun _ =>
        .bind_eq (SparseMap.getAll_rel _ _) fun _ => .bind_eq (SparseMap.getAll_rel _ _) fun _ => ih _ _ _

theorem table (h : SameShape σ ig ig') (fuel : Nat) :
    OutRel (ErrRel σ τ) Eq (LRTable.build fuel ig) (LRTable.build fuel ig') := by
  refine .bind_eq ?_ fun _ => .pure_eq _
  refine .bind_eq h.firstBuild fun _ => .bind_eq (x := LRTable.initialTable ig) (y := LRTable.initialTable ig') ?_
    fun _ => h.tableLoop _ _ _ _ _
  unfold LRTable.initialTable
  rw [h.vocabSize]
  exact .bind_eq (h.ruleIdsForLabel _) fun _ => .bind_eq (LRTable.topLevel_rel _ _) fun _ =>
    .bind_eq (.assert _) fun _ => .pure_eq _

end SameShape
end

/-! ### Numbering the symbols of a renamed grammar -/

section
variable {T L T' L' : Type} [DecidableEq T] [DecidableEq L] [DecidableEq T'] [DecidableEq L']

theorem lookup_map_injective {α β γ : Type} [DecidableEq α] [DecidableEq β] {f : α → β} (hf : Function.Injective f)
    (l : List (α × γ)) (a : α) : (l.map fun p => (f p.1, p.2)).lookup (f a) = l.lookup a := by
  induction l with
  | nil => rfl
  | cons p l ih =>
    obtain ⟨b, c⟩ := p
    simp only [List.map_cons, List.lookup_cons, ih]
    by_cases h : a = b
    · subst h
      simp
    · have h' : f a ≠ f b := fun e => h (hf e)
      rw [beq_eq_false_iff_ne.mpr h, beq_eq_false_iff_ne.mpr h']

/-- A label map with new names. -/
def renameMap (τ : L → L') (m : List (L × Nat)) : List (L' × Nat) := m.map fun p => (τ p.1, p.2)

/-- A group of rules with new names. -/
def LabelGroup.rename (σ : T → T') (τ : L → L') (g : LabelGroup T L) : LabelGroup T' L' :=
  ⟨τ g.origLabel, g.rules.map fun p => (renameRule σ τ p.1, p.2)⟩

/-- The state of the grouping loop with new names. -/
def IndexedGrammar.Groups.rename (σ : T → T') (τ : L → L') (st : IndexedGrammar.Groups T L) :
    IndexedGrammar.Groups T' L' :=
  ⟨renameMap τ st.labelMap, st.groups.map (LabelGroup.rename σ τ)⟩

theorem IndexedGrammar.rename_shape (σ : T → T') (τ : L → L') (ig : IndexedGrammar T L) :
    SameShape σ ig (ig.rename σ τ) :=
  ⟨rfl, by simp [IndexedGrammar.rename], rfl⟩

/-- Results of one step of the simulator on an input and on the renamed input. -/
def StepRel (σ : T → T') : SimParser.Step T → SimParser.Step T' → Prop
  | .continue s ns i, .continue s' ns' i' => s' = s ∧ ns' = ns ∧ i' = i.map σ
  | .done b, .done b' => b' = b
  | _, _ => False

variable {σ : T → T'} {τ : L → L'} (hσ : Function.Injective σ) (hτ : Function.Injective τ)
include hσ

theorem Vocab.getIdOrInsert_rename (v : Vocab T) (t : AugTok T) :
    (v.rename σ).getIdOrInsert (renameTok σ t) = ((v.getIdOrInsert t).1.rename σ, (v.getIdOrInsert t).2) := by
  cases t with
  | epsilon => rfl
  | eos => rfl
  | token t =>
    simp only [renameTok, Vocab.getIdOrInsert, Vocab.rename, lookup_map_injective hσ]
    cases v.tokenMap.lookup t with
    | some id => rfl
    | none => simp

theorem Vocab.augTokenToId_rename (v : Vocab T) (t : AugTok T) :
    (v.rename σ).augTokenToId (renameTok σ t) = v.augTokenToId t := by
  cases t with
  | epsilon => rfl
  | eos => rfl
  | token t => simp only [renameTok, Vocab.augTokenToId, Vocab.tokenToId, Vocab.rename, lookup_map_injective hσ]

omit hσ
include hτ

theorem references_rename (l : L) (ns : List (Node T L)) :
    IndexedGrammar.references (τ l) (ns.map (renameNode σ τ)) = IndexedGrammar.references l ns := by
  unfold IndexedGrammar.references
  rw [List.any_map]
  congr 1
  funext n
  cases n with
  | terminal t => rfl
  | production k =>
    show (τ k == τ l) = (k == l)
    by_cases h : k = l
    · subst h
      simp
    · have h' : τ k ≠ τ l := fun e => h (hτ e)
      rw [beq_eq_false_iff_ne.mpr h, beq_eq_false_iff_ne.mpr h']

theorem addProduction_rename (st : IndexedGrammar.Groups T L) (r : Rule T L) (i : Nat) :
    OutRel (SameShape.ErrRel σ τ) (fun a b => b = a.rename σ τ) (IndexedGrammar.addProduction st r i)
      (IndexedGrammar.addProduction (st.rename σ τ) (renameRule σ τ r) i) := by
  have hl : (st.rename σ τ).labelMap.lookup (renameRule σ τ r).symbol = st.labelMap.lookup r.symbol :=
    lookup_map_injective hτ _ _
  have h1 : (st.rename σ τ).labelMap.length = st.labelMap.length := by
    simp [IndexedGrammar.Groups.rename, renameMap]
  have h2 : (st.rename σ τ).groups.length = st.groups.length := by simp [IndexedGrammar.Groups.rename]
  unfold IndexedGrammar.addProduction
  rw [hl, h1, h2]
  cases st.labelMap.lookup r.symbol with
  | none =>
    refine .bind_eq (.assert _) fun _ => .pure ?_
    simp [IndexedGrammar.Groups.rename, renameMap, LabelGroup.rename, renameRule]
  | some l =>
    refine .bind (OutRel.index_map (LabelGroup.rename σ τ) _ _) fun a b e => .pure ?_
    subst e
    simp [IndexedGrammar.Groups.rename, renameMap, LabelGroup.rename, List.map_set]

theorem groupLoop_rename (root : L) (i : Nat) (rs : List (Rule T L)) (st : IndexedGrammar.Groups T L) :
    OutRel (SameShape.ErrRel σ τ) (fun a b => b = a.rename σ τ) (IndexedGrammar.groupLoop root i rs st)
      (IndexedGrammar.groupLoop (τ root) i (rs.map (renameRule σ τ)) (st.rename σ τ)) := by
  induction rs generalizing i st with
  | nil => exact rfl
  | cons r rs ih =>
    simp only [List.map_cons, IndexedGrammar.groupLoop]
    have h1 : ((renameRule σ τ r).symbol = τ root) = (r.symbol = root) :=
      propext ⟨fun e => hτ e, fun e => congrArg τ e⟩
    have h2 : IndexedGrammar.references (τ root) (renameRule σ τ r).rule = IndexedGrammar.references root r.rule :=
      references_rename hτ _ _
    simp only [h1, h2]
    split
    · exact rfl
    · split
      · exact rfl
      · refine .bind (addProduction_rename hτ _ _ _) fun a b e => ?_
        subst e
        exact ih _ _

include hσ

theorem indexNodes_rename (m : List (L × Nat)) (ns : List (Node T L)) (v : Vocab T) :
    OutRel (SameShape.ErrRel σ τ) (fun a b => b = (a.1, a.2.rename σ)) (IndexedGrammar.indexNodes m ns v)
      (IndexedGrammar.indexNodes (renameMap τ m) (ns.map (renameNode σ τ)) (v.rename σ)) := by
  induction ns generalizing v with
  | nil => exact rfl
  | cons n ns ih =>
    cases n with
    | production l =>
      simp only [List.map_cons, renameNode, IndexedGrammar.indexNodes]
      rw [show (renameMap τ m).lookup (τ l) = m.lookup l from lookup_map_injective hτ _ _]
      cases m.lookup l with
      | none => exact rfl
      | some k =>
        refine .bind (ih v) fun a b e => .pure ?_
        subst e
        rfl
    | terminal t =>
      simp only [List.map_cons, renameNode, IndexedGrammar.indexNodes]
      rw [Vocab.getIdOrInsert_rename hσ]
      refine .bind (ih _) fun a b e => .pure ?_
      subst e
      rfl

theorem indexGroup_rename (m : List (L × Nat)) (l : Nat) (rs : List (Rule T L × Nat)) (v : Vocab T) :
    OutRel (SameShape.ErrRel σ τ) (fun a b => b = (a.1, a.2.rename σ)) (IndexedGrammar.indexGroup m l rs v)
      (IndexedGrammar.indexGroup (renameMap τ m) l (rs.map fun p => (renameRule σ τ p.1, p.2)) (v.rename σ)) := by
  induction rs generalizing v with
  | nil => exact rfl
  | cons r rs ih =>
    refine .bind (indexNodes_rename hσ hτ _ _ _) fun a b e => ?_
    subst e
    refine .bind (ih _) fun a b e => .pure ?_
    subst e
    rfl

theorem indexGroups_rename (m : List (L × Nat)) (l : Nat) (gs : List (LabelGroup T L)) (v : Vocab T) :
    OutRel (SameShape.ErrRel σ τ) (fun a b => b = (a.1, a.2.rename σ)) (IndexedGrammar.indexGroups m l gs v)
      (IndexedGrammar.indexGroups (renameMap τ m) l (gs.map (LabelGroup.rename σ τ)) (v.rename σ)) := by
  induction gs generalizing l v with
  | nil => exact rfl
  | cons g gs ih =>
    refine .bind (indexGroup_rename hσ hτ _ _ _ _) fun a b e => ?_
    subst e
    refine .bind (ih _ _) fun a b e => .pure ?_
    subst e
    rfl

omit hσ hτ

theorem metadata_rename (n : Nat) (gs : List (LabelGroup T L)) :
    IndexedGrammar.metadata n (gs.map (LabelGroup.rename σ τ)) =
      (IndexedGrammar.metadata n gs).map fun m => ⟨m.startIndex, m.endIndex, τ m.originalLabel⟩ := by
  induction gs generalizing n with
  | nil => rfl
  | cons g gs ih => simp [IndexedGrammar.metadata, LabelGroup.rename, ih]

section
variable {ε ε' : Type} {E : ε → ε' → Prop}

theorem exploreNodes_rel (ns : List INode) (s : BitSet) (stack : List Nat) :
    OutRel E Eq (IndexedGrammar.exploreNodes ns s stack : Outcome ε _)
      (IndexedGrammar.exploreNodes ns s stack : Outcome ε' _) := by
  induction ns generalizing s stack with
  | nil => exact .pure_eq _
  | cons n ns ih =>
    cases n with
    | terminal t => exact ih _ _
    | production l =>
      refine .bind_eq (s.has_rel l) fun b => ?_
      cases b
      · exact .bind_eq (s.set_rel l) fun _ => ih _ _
      · exact ih _ _

theorem exploreRules_rel (rs : List IRule) (s : BitSet) (stack : List Nat) :
    OutRel E Eq (IndexedGrammar.exploreRules rs s stack : Outcome ε _)
      (IndexedGrammar.exploreRules rs s stack : Outcome ε' _) := by
  induction rs generalizing s stack with
  | nil => exact .pure_eq _
  | cons r rs ih => exact .bind_eq (exploreNodes_rel _ _ _) fun _ => ih _ _

theorem SameShape.exploreLoop {ig : IndexedGrammar T L} {ig' : IndexedGrammar T' L'} (h : SameShape σ ig ig')
    (fuel : Nat) (s : BitSet) (stack : List Nat) :
    OutRel E Eq (ig.exploreLoop fuel s stack : Outcome ε _) (ig'.exploreLoop fuel s stack : Outcome ε' _) := by
  induction fuel generalizing s stack with
  | zero => exact .timeout
  | succ n ih =>
    cases stack with
    | nil => exact .pure_eq _
    | cons l stack =>
      exact .bind_eq (s.has_rel l) fun _ => .bind_eq (.assert _) fun _ => .bind_eq (h.rulesForLabel l) fun _ =>
        .bind_eq (exploreRules_rel _ _ _) fun _ => ih _ _

theorem disconnected_rename (s : BitSet) (m : List (L × Nat)) :
    OutRel E (fun a b => b = a.map τ) (IndexedGrammar.disconnected s m : Outcome ε _)
      (IndexedGrammar.disconnected s (renameMap τ m) : Outcome ε' _) := by
  induction m with
  | nil => exact rfl
  | cons p m ih =>
    refine .bind_eq (s.has_rel _) fun b => .bind ih fun a c e => .pure ?_
    subst e
    cases b <;> rfl

end

theorem verifyConnected_rename (ig : IndexedGrammar T L) (m : List (L × Nat)) :
    OutRel (SameShape.ErrRel σ τ) Eq (ig.verifyConnected m) ((ig.rename σ τ).verifyConnected (renameMap τ m)) := by
  have h := ig.rename_shape σ τ
  unfold IndexedGrammar.verifyConnected
  rw [h.labelsCount]
  refine .bind_eq (BitSet.set_rel _ _) fun _ => .bind_eq (h.exploreLoop _ _ _) fun s =>
    .bind_eq s.full_rel fun b => ?_
  cases b
  · refine .bind (disconnected_rename _ _) fun a c e => ?_
    subst e
    exact rfl
  · exact .pure_eq _

include hσ hτ

theorem build_rename (g : Grammar T L) :
    OutRel (SameShape.ErrRel σ τ) (fun a b => b = a.rename σ τ) (IndexedGrammar.build g)
      (IndexedGrammar.build (renameGrammar σ τ g)) := by
  refine .bind (R := fun a b => b = (a.1.rename σ τ, renameMap τ a.2)) ?_ fun a b e => ?_
  · unfold IndexedGrammar.buildFromGrammar
    cases hg : g.productions with
    | nil =>
      simp only [renameGrammar, hg, List.map_nil]
      exact rfl
    | cons root rest =>
      simp only [renameGrammar, hg, List.map_cons]
      refine .bind (groupLoop_rename hτ root.symbol 1 rest
        ⟨[(root.symbol, IndexedGrammar.rootLabel)], [⟨root.symbol, [(root, 0)]⟩]⟩) fun st st' e => ?_
      subst e
      refine .bind (indexGroups_rename hσ hτ st.labelMap 0 st.groups Vocab.new) fun a b e => ?_
      subst e
      have := verifyConnected_rename (σ := σ) (τ := τ) ⟨a.1, IndexedGrammar.metadata 0 st.groups, a.2⟩ st.labelMap
      have hm : IndexedGrammar.metadata 0 (st.rename σ τ).groups =
          (IndexedGrammar.metadata 0 st.groups).map fun m => ⟨m.startIndex, m.endIndex, τ m.originalLabel⟩ :=
        metadata_rename 0 st.groups
      dsimp only
      rw [hm]
      exact .bind this fun _ _ _ => .pure rfl
  · subst e
    exact .pure rfl

theorem simulator_rename (fuel : Nat) (g : Grammar T L) :
    OutRel (SameShape.ErrRel σ τ) (fun p p' => p' = ⟨p.grammar.rename σ τ, p.lrTable⟩) (SimParser.new fuel g)
      (SimParser.new fuel (renameGrammar σ τ g)) := by
  refine .bind (build_rename hσ hτ g) fun ig ig' e => ?_
  subst e
  exact .bind_eq ((ig.rename_shape σ τ).table fuel) fun _ => .pure rfl

omit hτ

theorem step_rename {ε ε' : Type} {E : ε → ε' → Prop} (p : SimParser T L) (states : List Nat) (nodes : List INode)
    (w : List T) :
    OutRel E (StepRel σ) (p.step states nodes w : Outcome ε _)
      ((⟨p.grammar.rename σ τ, p.lrTable⟩ : SimParser T' L').step states nodes (w.map σ) : Outcome ε' _) := by
  cases states with
  | nil => exact .panic
  | cons s states =>
    have hs : SameShape σ p.grammar (p.grammar.rename σ τ) := IndexedGrammar.rename_shape σ τ _
    have h1 : (p.grammar.rename σ τ).vocab.augTokenToId .eos = p.grammar.vocab.augTokenToId .eos := rfl
    have h2 : ∀ t, (p.grammar.rename σ τ).vocab.augTokenToId (.token (σ t)) =
        p.grammar.vocab.augTokenToId (.token t) := fun t => Vocab.augTokenToId_rename hσ _ (.token t)
    cases w with
    | nil =>
      simp only [SimParser.step, List.map_nil, h1]
      cases p.grammar.vocab.augTokenToId .eos with
      | none => exact .pure rfl
      | some k =>
        refine .bind_eq (LRTable.getAction_rel _ _ _) fun a => ?_
        cases a with
        | none => exact .pure rfl
        | some a =>
          cases a with
          | shift n => exact .pure ⟨rfl, rfl, by simp⟩
          | accept => exact .pure rfl
          | reduce r =>
            refine .bind_eq (hs.productionRule r) fun q => .bind_eq (.assert _) fun _ =>
              .bind_eq (.assert _) fun _ => .bind_eq (.assert _) fun _ => .bind_eq (.unwrap _) fun top =>
              .bind_eq (LRTable.getGoto_rel _ _ _) fun o => ?_
            cases o with
            | none => exact .pure rfl
            | some o => exact .pure ⟨rfl, rfl, rfl⟩
    | cons t w =>
      simp only [SimParser.step, List.map_cons, h2]
      cases p.grammar.vocab.augTokenToId (.token t) with
      | none => exact .pure rfl
      | some k =>
        refine .bind_eq (LRTable.getAction_rel _ _ _) fun a => ?_
        cases a with
        | none => exact .pure rfl
        | some a =>
          cases a with
          | shift n => exact .pure ⟨rfl, rfl, by simp⟩
          | accept => exact .pure rfl
          | reduce r =>
            refine .bind_eq (hs.productionRule r) fun q => .bind_eq (.assert _) fun _ =>
              .bind_eq (.assert _) fun _ => .bind_eq (.assert _) fun _ => .bind_eq (.unwrap _) fun top =>
              .bind_eq (LRTable.getGoto_rel _ _ _) fun o => ?_
            cases o with
            | none => exact .pure rfl
            | some o => exact .pure ⟨rfl, rfl, rfl⟩

theorem parse_rename {ε ε' : Type} {E : ε → ε' → Prop} (p : SimParser T L) (fuel : Nat) (w : List T) :
    OutRel E Eq (p.parseStream fuel w : Outcome ε _)
      ((⟨p.grammar.rename σ τ, p.lrTable⟩ : SimParser T' L').parseStream fuel (w.map σ) : Outcome ε' _) := by
  unfold SimParser.parseStream
  generalize [LRTable.rootState] = states
  generalize ([] : List INode) = nodes
  induction fuel generalizing states nodes w with
  | zero => exact .timeout
  | succ n ih =>
    refine .bind (step_rename hσ p states nodes w) ?_
    intro a b h
    cases a <;> cases b
    · obtain ⟨rfl, rfl, rfl⟩ := h
      exact ih _ _ _
    · exact h.elim
    · exact h.elim
    · have h : _ = _ := h
      subst h
      exact .pure_eq _

end
end Verif
