import Verif.Spec.Order
import Verif.Props.Results
import Verif.Props.Macro

/-!
# C62: the order of the rules
-/

set_option linter.unusedSectionVars false
set_option autoImplicit false

namespace Verif
open Spec

section
variable {α β : Type} {π : Equiv.Perm Nat} {rs rs' : List α}

theorem Spec.Reordered.symm (h : Reordered π rs rs') : Reordered π.symm rs' rs where
  root := by rw [Equiv.symm_apply_eq, h.root]
  get i := by rw [← h.get, Equiv.apply_symm_apply]

theorem Spec.Reordered.map (h : Reordered π rs rs') (f : α → β) : Reordered π (rs.map f) (rs'.map f) where
  root := h.root
  get i := by rw [List.getElem?_map, List.getElem?_map, h.get]

theorem Spec.Reordered.mem (h : Reordered π rs rs') {a : α} (ha : a ∈ rs) : a ∈ rs' := by
  obtain ⟨i, hi⟩ := List.mem_iff_getElem?.mp ha
  exact List.mem_of_getElem? ((h.get i).trans hi)

theorem Spec.Reordered.mem_iff (h : Reordered π rs rs') {a : α} : a ∈ rs ↔ a ∈ rs' := ⟨h.mem, h.symm.mem⟩

theorem Spec.Reordered.moved {T L : Type} {P P' : List (Rule T L)} (h : Reordered π P P') : Moved π P P' :=
  ⟨h.root, h.get⟩

/-- The first one stays where it is. -/
theorem Spec.Reordered.cons {a : α} (h : Reordered π (a :: rs) rs') : ∃ rs1, rs' = a :: rs1 := by
  have := h.get 0
  rw [h.root] at this
  cases rs' with
  | nil => cases this
  | cons b rs1 => cases this; exact ⟨_, rfl⟩

/-- Lists with the same entries, with a first one in front. -/
theorem reordered_of_perm (a : α) (h : rs.Perm rs') : ∃ π, Reordered π (a :: rs) (a :: rs') := by
  obtain ⟨π, hπ⟩ := exists_positions h
  refine ⟨shiftPerm π, rfl, fun i => ?_⟩
  cases i with
  | zero => rfl
  | succ i => simpa [shiftPerm] using hπ i

end

namespace C62

section
variable {T L : Type} [DecidableEq T] [DecidableEq L] {π : Equiv.Perm Nat} {g g' : Grammar T L}

/-- The code records the same FIRST sets for both. -/
def SameFirstSets (g g' : Grammar T L) : Prop := ∀ l t, Recorded g l t ↔ Recorded g' l t

theorem seqFirst_congr {f f' : L → AugTok T → Prop} (h : ∀ l t, f l t ↔ f' l t) : seqFirst f = seqFirst f' := by
  have : f = f' := by funext l t; exact propext (h l t)
  rw [this]

theorem SameFirstSets.symm (h : SameFirstSets g g') : SameFirstSets g' g := fun l t => (h l t).symm

theorem SameFirstSets.iff (h : SameFirstSets g g') (α : List (Node T L)) (t : AugTok T) :
    seqFirst (Recorded g) α t ↔ seqFirst (Recorded g') α t := by rw [seqFirst_congr h]

/-- Complete FIRST sets do not depend on the order. -/
theorem sameFirstSets_of_complete (h : Reordered π g.productions g'.productions) (hc : C07.FirstComplete g)
    (hc' : C07.FirstComplete g') : SameFirstSets g g' := by
  have sub : ∀ {π : Equiv.Perm Nat} {g g' : Grammar T L}, Reordered π g.productions g'.productions →
      C07.FirstComplete g' → ∀ l t, Recorded g l t → Recorded g' l t :=
    fun h hc l t hr => hc l t (h.moved.inFirst (C06.first_sound _ l t hr))
  exact fun l t => ⟨sub h hc' l t, sub h.symm hc l t⟩

/-- The code finds the same actions for both, after any sequence of symbols and for any lookahead. -/
def SameActions (π : Equiv.Perm Nat) (g g' : Grammar T L) : Prop :=
  ∀ γ t, (Demands g.productions (seqFirst (Recorded g)) γ t .shift ↔
      Demands g'.productions (seqFirst (Recorded g')) γ t .shift) ∧
    (Demands g.productions (seqFirst (Recorded g)) γ t .accept ↔
      Demands g'.productions (seqFirst (Recorded g')) γ t .accept) ∧
    ∀ i, Demands g.productions (seqFirst (Recorded g)) γ t (.reduce i) ↔
      Demands g'.productions (seqFirst (Recorded g')) γ t (.reduce (π i))

theorem sameActions_iff : SameActions π g g' ↔ ∀ γ t a, Demands g.productions (seqFirst (Recorded g)) γ t a ↔
    Demands g'.productions (seqFirst (Recorded g')) γ t (a.map π) := by
  constructor
  · intro h γ t a
    obtain ⟨h1, h2, h3⟩ := h γ t
    cases a
    exacts [h1, h3 _, h2]
  · exact fun h γ t => ⟨h γ t .shift, h γ t .accept, fun i => h γ t (.reduce i)⟩

theorem SameActions.iff (h : SameActions π g g') (γ : List (Node T L)) (t : AugTok T) (a : Act) :
    Demands g.productions (seqFirst (Recorded g)) γ t a ↔
      Demands g'.productions (seqFirst (Recorded g')) γ t (a.map π) := sameActions_iff.mp h γ t a

theorem SameActions.symm (h : SameActions π g g') : SameActions π.symm g' g := by
  rw [sameActions_iff] at h ⊢
  intro γ t a
  rw [h, act_map_symm]

/-- The same FIRST sets are enough. -/
theorem SameFirstSets.actions (hF : SameFirstSets g g') (h : Reordered π g.productions g'.productions) :
    SameActions π g g' := sameActions_iff.mpr (h.moved.demands_iff hF.iff)

/-- It is enough, too, that no action is missing for either. -/
theorem sameActions_of_complete (h : Reordered π g.productions g'.productions) (hc : C07.ActionsComplete g)
    (hc' : C07.ActionsComplete g') : SameActions π g g' := by
  rw [sameActions_iff, hc.eq, hc'.eq]
  exact h.moved.demands_iff fun α t => h.moved.inFirst_iff

theorem build_order' {π : Equiv.Perm Nat} {g g' : Grammar T L} (h : Reordered π g.productions g'.productions)
    (hb : ∃ ig, IndexedGrammar.build g = .ok ig) : ∃ ig, IndexedGrammar.build g' = .ok ig := by
  obtain ⟨P⟩ := g
  obtain ⟨P'⟩ := g'
  cases P with
  | nil => obtain ⟨ig, hb⟩ := hb; cases hb
  | cons root rest =>
    obtain ⟨rest', e⟩ := h.cons
    dsimp only at e
    subst e
    have hm := h.moved
    obtain ⟨h1, h2, h3⟩ := (C10.build_succeeds_iff root rest).mp hb
    refine (C10.build_succeeds_iff root rest').mpr ⟨?_, ?_, ?_⟩
    · intro r hr
      obtain ⟨i, hi⟩ := List.mem_iff_getElem?.mp hr
      have h4 := hm.symm.at' (i := i + 1) (r := r) hi
      have h5 : π.symm (i + 1) ≠ 0 := by
        intro e
        rw [Equiv.symm_apply_eq, hm.root] at e
        cases e
      obtain ⟨j, hj⟩ := Nat.exists_eq_succ_of_ne_zero h5
      rw [hj] at h4
      exact h1 r (List.mem_of_getElem? h4)
    · intro p hp l hl
      obtain ⟨q, hq, e⟩ := h2 p (hm.symm.mem hp) l hl
      exact ⟨q, hm.mem hq, e⟩
    · intro p hp
      exact hm.reachable (h3 p (hm.symm.mem hp))

/-- **C62 (labels).** Whether labels are used correctly does not depend on the order of the rules. -/
theorem build_order (h : Reordered π g.productions g'.productions) :
    (∃ ig, IndexedGrammar.build g = .ok ig) ↔ ∃ ig, IndexedGrammar.build g' = .ok ig :=
  ⟨build_order' h, build_order' h.symm⟩

/-- **C62 (FIRST sets), partial.** If every label that derives the empty sequence has an empty rule of its own, and some
rule begins with a token, then the FIRST sets do not depend on the order of the rules. (Missing: the other grammars,
for which this is false.) -/
theorem first_order_partial (h : Reordered π g.productions g'.productions)
    (hn : ∀ l, InFirst g.productions [.production l] .epsilon → ∃ r ∈ g.productions, r.symbol = l ∧ AllEpsilon r.rule)
    (ht : ∃ r ∈ g.productions, ∃ t : T, BeginsWith r.rule (.token t)) : SameFirstSets g g' := by
  by_cases hb : ∃ ig, IndexedGrammar.build g = .ok ig
  · obtain ⟨ig', hb'⟩ := (build_order h).mp hb
    obtain ⟨ig, hb⟩ := hb
    refine sameFirstSets_of_complete h (C07.first_complete_if_directly_nullable_partial g ig hb hn ht)
      (C07.first_complete_if_directly_nullable_partial g' ig' hb' ?_ ?_)
    · intro l hl
      obtain ⟨r, hr, h1⟩ := hn l (h.moved.symm.inFirst hl)
      exact ⟨r, h.mem hr, h1⟩
    · obtain ⟨r, hr, h1⟩ := ht
      exact ⟨r, h.mem hr, h1⟩
  · have hb' := mt (build_order h).mpr hb
    intro l t
    constructor
    · rintro ⟨ig, F, i, k, s, h1, -⟩
      exact absurd ⟨ig, h1⟩ hb
    · rintro ⟨ig, F, i, k, s, h1, -⟩
      exact absurd ⟨ig, h1⟩ hb'

theorem noConflict_order' {π : Equiv.Perm Nat} {g g' : Grammar T L} (hF : SameActions π g g')
    (h : NoConflict g'.productions (seqFirst (Recorded g'))) : NoConflict g.productions (seqFirst (Recorded g)) := by
  intro γ t a a' h1 h2
  have := h γ t _ _ ((hF.iff _ _ _).mp h1) ((hF.iff _ _ _).mp h2)
  cases a <;> cases a' <;> simp_all [Act.map]

theorem noConflict_order (hF : SameActions π g g') :
    NoConflict g.productions (seqFirst (Recorded g)) ↔ NoConflict g'.productions (seqFirst (Recorded g')) :=
  ⟨noConflict_order' hF.symm, noConflict_order' hF⟩

theorem epsilonLast_order (h : Reordered π g.productions g'.productions) (he : EpsilonLast g) : EpsilonLast g' :=
  fun r hr => he r (h.symm.mem hr)

theorem rootNotRecursive_order (h : Reordered π g.productions g'.productions) (hr : RootNotRecursive g) :
    RootNotRecursive g' := by
  intro root rest e
  rw [e] at h
  obtain ⟨rest1, e1⟩ := h.symm.cons
  exact hr root rest1 e1

/-- **C62 (conflicts), partial.** With the same actions, the table of the reordered grammar is built or refused like
that of the grammar. -/
theorem table_order_partial {ig ig' : IndexedGrammar T L} (h : Reordered π g.productions g'.productions)
    (hF : SameActions π g g') (he : EpsilonLast g) (hr : RootNotRecursive g) (hg : IndexedGrammar.build g = .ok ig)
    (hg' : IndexedGrammar.build g' = .ok ig') :
    ∃ N, ∀ fuel ≥ N, ((∃ t, LRTable.build fuel ig = .ok t) ↔ ∃ t, LRTable.build fuel ig' = .ok t) ∧
      ((∃ e, LRTable.build fuel ig = .err e) ↔ ∃ e, LRTable.build fuel ig' = .err e) := by
  obtain ⟨N, hN⟩ := C13.conflict_error_iff_user hg he hr
  obtain ⟨N', hN'⟩ := C13.conflict_error_iff_user hg' (epsilonLast_order h he) (rootNotRecursive_order h hr)
  refine ⟨max N N', fun fuel hf => ⟨?_, ?_⟩⟩
  · rw [(hN fuel (by omega)).2, (hN' fuel (by omega)).2, noConflict_order hF]
  · rw [(hN fuel (by omega)).1, (hN' fuel (by omega)).1, noConflict_order hF]

theorem accepts_order {π : Equiv.Perm Nat} {g g' : Grammar T L} (h : Reordered π g.productions g'.productions)
    (hF : SameActions π g g') {w : List T} (ha : C61.Accepts g (seqFirst (Recorded g)) w) :
    C61.Accepts g' (seqFirst (Recorded g')) w := by
  obtain ⟨c, tr, h1, h2⟩ := ha
  exact ⟨_, _, h.moved.steps hF.iff h1, h.moved.accepting hF.iff h2⟩

/-- **C62 (simulator), partial.** With the same actions, the parsers of both grammars accept the same sequences. -/
theorem simulator_order_partial {p p' : SimParser T L} (h : Reordered π g.productions g'.productions)
    (hF : SameActions π g g') (hg : WellFormed g) {n n' : Nat} (hp : SimParser.new n g = .ok p)
    (hp' : SimParser.new n' g' = .ok p') (w : List T) :
    ∃ N b, ∀ fuel ≥ N, (p.parseStream fuel w : Outcome (LRTableError T L) _) = .ok b ∧
      (p'.parseStream fuel w : Outcome (LRTableError T L) _) = .ok b := by
  have hg' : WellFormed g' := ⟨epsilonLast_order h hg.epsilonLast, fun r hr => hg.noEndMarker r (h.symm.mem hr)⟩
  obtain ⟨N, hN⟩ := C61.simulator_is_lr1 hg hp w
  obtain ⟨N', hN'⟩ := C61.simulator_is_lr1 hg' hp' w
  have hiff : C61.Accepts g (seqFirst (Recorded g)) w ↔ C61.Accepts g' (seqFirst (Recorded g')) w :=
    ⟨accepts_order h hF, accepts_order h.symm hF.symm⟩
  by_cases ha : C61.Accepts g (seqFirst (Recorded g)) w
  · exact ⟨max N N', true, fun fuel hf => ⟨(hN fuel (by omega)).1.mpr ha, (hN' fuel (by omega)).1.mpr (hiff.mp ha)⟩⟩
  · exact ⟨max N N', false, fun fuel hf =>
      ⟨(hN fuel (by omega)).2.mpr ha, (hN' fuel (by omega)).2.mpr (mt hiff.mpr ha)⟩⟩

end

section
variable {P V E F' σ : Type} [DecidableEq P] {lex : Lexer} {o o' : HashOrder} {gi gi' : GrammarInfo}
  {prog prog' : Program} {π : Equiv.Perm Nat} {sem sem' : Sem P V E σ}

theorem construct_order (h : Reordered π gi.productionRules gi'.productionRules) (hs : SameMeaning π sem sem') (i : Nat) :
    construct gi' sem' (π i) = construct gi sem i := by
  funext vs w
  unfold construct
  rw [h.get]
  cases hr : gi.productionRules[i]? with
  | none => rfl
  | some r =>
    have h1 : (gi.productionRule i : Outcome MacroError _) = .ok r := Outcome.index_eq_ok.mpr hr
    have h2 : (gi'.productionRule (π i) : Outcome MacroError _) = .ok r := Outcome.index_eq_ok.mpr ((h.get i).trans hr)
    dsimp only
    unfold buildConstructor
    rw [h1, h2]
    simp only [Outcome.ok_bind]
    cases hb : r.block with
    | some b =>
      obtain ⟨d, body⟩ := b
      simp only [rewriteProvided]
      by_cases hd : d ≠ .brace
      · simp only [if_pos hd]
      · simp only [if_neg hd]
        cases (SubstMap.build r.rule).substituteVars r.rule body <;> simp [hs.body]
    | none =>
      dsimp only
      by_cases h1 : r.returnType.isSome = true
      · simp only [if_pos h1]
        by_cases h2 : r.rule.length ≠ 1
        · simp only [if_pos h2]
        · simp only [if_neg h2, Outcome.pure_eq, hs.conv]
      · simp only [if_neg h1, Outcome.pure_eq]

theorem matches_order (hs : SameMeaning π sem sem') {tt : TerminalType} {a : Token P} {s : Sym}
    (hm : Matches sem tt a s) : Matches sem' tt a s := by
  cases hm with
  | lit => rw [← hs.litVal]; exact .lit
  | unit => exact .unit
  | any => exact .any
  | data h => exact .data (by rw [hs.pat]; exact h)

theorem _root_.Verif.Spec.SameMeaning.symm (hs : SameMeaning π sem sem') : SameMeaning π.symm sem' sem where
  litVal := hs.litVal.symm
  pat := hs.pat.symm
  body i := by rw [← hs.body, Equiv.apply_symm_apply]
  conv i := by rw [← hs.conv, Equiv.apply_symm_apply]

theorem terminal_order (h : Reordered π gi.productionRules gi'.productionRules) {s : Sym} :
    gi.Terminal s ↔ gi'.Terminal s := by
  unfold GrammarInfo.Terminal
  exact ⟨fun ⟨r, hr, hs⟩ => ⟨r, h.mem hr, hs⟩, fun ⟨r, hr, hs⟩ => ⟨r, h.symm.mem hr, hs⟩⟩

theorem means_order (h : Reordered π gi.productionRules gi'.productionRules) (ht : gi'.terminalType = gi.terminalType)
    (hs : SameMeaning π sem sem') : gi.Means sem = gi'.Means sem' := by
  funext a s
  refine propext ⟨fun ⟨h1, h2⟩ => ⟨(terminal_order h).mp h1, ?_⟩, fun ⟨h1, h2⟩ => ⟨(terminal_order h).mpr h1, ?_⟩⟩
  · rw [ht]; exact matches_order hs h2
  · rw [← ht]; exact matches_order hs.symm h2

/-- **C62 (generated parsers), partial.** With the same actions, parsers that are generated for the same rules in
different orders do the same: on every finite stream of tokens they return the same value or the same error, after the
same effects of the constructors, and read the same number of tokens. -/
theorem generated_order_partial (hG : Generated o lex gi prog) (hG' : Generated o' lex gi' prog')
    (h : Reordered π gi.productionRules gi'.productionRules) (ht : gi'.terminalType = gi.terminalType)
    (hF : SameActions π gi.grammar gi'.grammar) (debug debug' : Bool) (hs : SameMeaning π sem sem') (hD : gi.Disjoint sem)
    (into : F' → E) (items : Nat → Option (Item P F')) (W : List (Token P)) (w0 : σ)
    (hW : ∀ i a, W[i]? = some a → items i = some (.ok a)) (hend : items W.length = none) :
    ∃ N run run', (∀ fuel ≥ N, prog.parseFallible debug sem into items fuel w0 = .ok run ∧
        prog'.parseFallible debug' sem' into items fuel w0 = .ok run') ∧
      run'.result = run.result ∧ run'.world = run.world ∧ run'.pulled = run.pulled := by
  have hM := means_order h ht hs
  have hD' : gi'.Disjoint sem' := by
    intro a s s' h1 h2 h3 h4
    rw [ht] at h3 h4
    exact hD a s s' ((terminal_order h).mpr h1) ((terminal_order h).mpr h2) (matches_order hs.symm h3)
      (matches_order hs.symm h4)
  obtain ⟨N, run, r, z, h1, h2, h3, h4, -⟩ := C61.generated_is_lr1 hG debug sem into items W w0 hD hW hend
  obtain ⟨N', run', r', z', h1', h2', h3', -, h5'⟩ :=
    C61.generated_is_lr1 hG' debug' sem' into items W w0 hD' hW hend
  refine ⟨max N N', run, run', fun fuel hf => ⟨h1 fuel (by omega), h1' fuel (by omega)⟩, ?_⟩
  have hm : Reordered π gi.grammar.productions gi'.grammar.productions := h.map ARule.toLr
  have := hm.moved.ends hF.iff (apply' := construct gi' sem') (construct_order h hs) h4
  rw [hM] at this
  obtain ⟨rfl, hw, rfl⟩ := h5' _ _ _ this
  exact ⟨h2'.trans h2.symm, hw.symm, by omega⟩

end

section
variable {lex : Lexer} {tx : Text} {o o' : HashOrder} {π : Equiv.Perm Nat} {f f' : GrammarFile}

/-- Every declaration has a rule. -/
theorem rule_of_file {ss : List Symbol} (hs : FileSyntax tx ss f) {d : Declaration} (hd : d ∈ f.declarations) :
    ∃ r ∈ f.rules, r.name = d.label ∧ r.returnType = d.type := by
  obtain ⟨ds, hds⟩ := declarations_of_file hs
  have key : ∀ {ss : List Symbol} {ds : List Declaration}, DeclarationsSyntax tx ss ds → ∀ d ∈ ds, d.alternatives ≠ [] := by
    intro ss ds h
    induction h with
    | nil => intro d hd; cases hd
    | cons h1 _ ih =>
      intro d hd
      rcases List.mem_cons.mp hd with rfl | hd
      · cases h1 with
        | mk _ _ _ _ _ hr _ => cases hr <;> simp
      · exact ih d hd
  obtain ⟨a, as, ha⟩ := List.exists_cons_of_ne_nil (key hds d hd)
  refine ⟨⟨d.label, d.type, a.1, a.2⟩, ?_, rfl, rfl⟩
  exact List.mem_flatMap.mpr ⟨d, hd, List.mem_map.mpr ⟨a, by simp [ha], rfl⟩⟩

theorem good_order {ss ss' : List Symbol} (hs : FileSyntax tx ss f) (hs' : FileSyntax tx ss' f')
    (ht : f'.terminal = f.terminal) (h : Reordered π f.rules f'.rules) (hF : SameActions π f.grammar f'.grammar)
    (hG : C47.Good lex tx f) : C47.Good lex tx f' := by
  have hm : Reordered π f.grammar.productions f'.grammar.productions := h.map ARule.toLr
  refine ⟨?_, ?_, ?_, ?_, ?_⟩
  · have key : ∀ d ∈ f'.declarations, ∃ d0 ∈ f.declarations, d0.label = d.label ∧ d0.type = d.type := by
      intro d hd
      obtain ⟨r, hr, h1, h2⟩ := rule_of_file hs' hd
      obtain ⟨ds, hds⟩ := declarations_of_file hs
      obtain ⟨d0, h3, h4, h5, -⟩ := rule_of_declaration hds (h.symm.mem hr)
      exact ⟨d0, h3, h4.trans h1, h5.trans h2⟩
    intro d hd d' hd' e
    obtain ⟨d0, h1, h2, h3⟩ := key d hd
    obtain ⟨d1, h4, h5, h6⟩ := key d' hd'
    have := hG.types d0 h1 d1 h4 (by rw [h2, h5, e])
    rwa [h3, h6] at this
  · obtain ⟨root, rest, e, h1, h2, h3, h4⟩ := hG.labels
    have hb := (C10.build_succeeds_iff root rest).mpr ⟨h1, by rwa [C10.gr, ← e], h3⟩
    rw [e] at hm
    obtain ⟨rest', e'⟩ := hm.cons
    obtain ⟨h5, h6, h7⟩ := (C10.build_succeeds_iff root rest').mp
      (build_order' (g := C10.gr root rest) (g' := C10.gr root rest') (by rwa [e'] at hm) hb)
    refine ⟨root, rest', e', h5, ?_, h7, h4⟩
    rwa [C10.gr, ← e'] at h6
  · exact (noConflict_order hF).mp hG.conflicts
  · rintro s ⟨r, hr, hs⟩
    have := hG.terminals s ⟨r, h.symm.mem hr, hs⟩
    unfold C47.Written at this ⊢
    rwa [ht]
  · intro k r hk hu
    have hk' : f.rules[π.symm k]? = some r := (h.symm.get k).trans hk
    refine hG.constructors _ r hk' ?_
    rcases hu with rfl | ⟨γ, tok, hd⟩
    · exact .inl h.symm.root
    · exact .inr ⟨γ, tok, (hF.symm.iff _ _ _).mp hd⟩

/-- **C62 (macro), partial.** With the same actions, the macro accepts a file with the same rules in another order (in
one or several declarations of a label) if it accepts the file. -/
theorem macro_order_partial {t t' : TokenStream} (hj : JointOk t) (hj' : JointOk t') {ss ss' : List Symbol}
    (hl : Lexes tx t ss) (hl' : Lexes tx t' ss') (hs : FileSyntax tx ss f) (hs' : FileSyntax tx ss' f')
    (ht : f'.terminal = f.terminal) (h : Reordered π f.rules f'.rules) (hF : SameActions π f.grammar f'.grammar) :
    ∃ N, ∀ fuel ≥ N, (∃ gi prog, buildGrammar o lex tx fuel t = .ok (gi, prog)) ↔
      ∃ gi prog, buildGrammar o' lex tx fuel t' = .ok (gi, prog) := by
  obtain ⟨N, hN⟩ := C47.macro_succeeds_iff (o := o) (lex := lex) (tx := tx) hj
  obtain ⟨N', hN'⟩ := C47.macro_succeeds_iff (o := o') (lex := lex) (tx := tx) hj'
  refine ⟨max N N', fun fuel hf => ?_⟩
  rw [hN fuel (by omega), hN' fuel (by omega)]
  constructor
  · rintro ⟨ss1, f1, h1, h2, h3⟩
    cases C36.unambiguous hl h1
    cases C37.unambiguous hs h2
    exact ⟨ss', f', hl', hs', good_order hs hs' ht h hF h3⟩
  · rintro ⟨ss1, f1, h1, h2, h3⟩
    cases C36.unambiguous hl' h1
    cases C37.unambiguous hs' h2
    exact ⟨ss, f, hl, hs, good_order hs' hs ht.symm h.symm hF.symm h3⟩

/-- **C62 (macro), partial.** The parsers that the macro returns for the two files do the same. -/
theorem macro_parsers_order_partial {P V E σ : Type} [DecidableEq P] {t t' : TokenStream} (hj : JointOk t)
    (hj' : JointOk t') {ss ss' : List Symbol} (hl : Lexes tx t ss) (hl' : Lexes tx t' ss') (hs : FileSyntax tx ss f)
    (hs' : FileSyntax tx ss' f') (ht : f'.terminal = f.terminal) (h : Reordered π f.rules f'.rules)
    (hF : SameActions π f.grammar f'.grammar) {fuel fuel' : Nat} {gi gi' : GrammarInfo} {prog prog' : Program}
    (hb : buildGrammar o lex tx fuel t = .ok (gi, prog)) (hb' : buildGrammar o' lex tx fuel' t' = .ok (gi', prog'))
    (hn : ∀ r ∈ f.rules, r.rule = [.epsilon] → r.block = none → r.returnType = none)
    (debug debug' : Bool) {sem sem' : Sem P V E σ} (hm : SameMeaning π sem sem')
    (hD : ∀ a s s', f.Terminal s → f.Terminal s' → Matches sem f.terminal a s → Matches sem f.terminal a s' → s = s')
    (W : List (Token P)) (w0 : σ) :
    ∃ N run run', (∀ fuel ≥ N, prog.parse debug sem (fun i => W[i]?) fuel w0 = .ok run ∧
        prog'.parse debug' sem' (fun i => W[i]?) fuel w0 = .ok run') ∧
      run'.result = run.result ∧ run'.world = run.world ∧ run'.pulled = run.pulled := by
  have hr := C49.reads hj hl hs hb
  have hr' := C49.reads hj' hl' hs' hb'
  obtain ⟨-, -, -, -, -, hG⟩ := C49.macro_generated hj hb (by rw [hr.rules]; exact hn)
  obtain ⟨-, -, -, -, -, hG'⟩ := C49.macro_generated hj' hb'
    (by rw [hr'.rules]; exact fun r hr => hn r (h.symm.mem hr))
  rw [← hr.rules, ← hr'.rules] at h
  rw [← hr.grammar_eq, ← hr'.grammar_eq] at hF
  rw [← hr.terminal, ← hr'.terminal] at ht
  exact generated_order_partial hG hG' h ht hF debug debug' hm (hr.disjoint hD) (fun e : Empty => nomatch e) _ W w0
    (fun i a hi => by simp [hi]) (by simp)

end

/-! ### Refutations -/

/-- **C62 is false in general: conflicts.** The grammar `missed` has a table; with its rules in another order it is
refused. -/
theorem table_order_refuted : ∃ (π : Equiv.Perm Nat) (g g' : Grammar Nat Nat) (ig ig' : IndexedGrammar Nat Nat),
    Reordered π g.productions g'.productions ∧ WellFormed g ∧ RootNotRecursive g ∧
      IndexedGrammar.build g = .ok ig ∧ IndexedGrammar.build g' = .ok ig' ∧
      (∃ t, LRTable.build 20 ig = .ok t) ∧ ∃ e, LRTable.build 20 ig' = .err e := by
  obtain ⟨π, hπ⟩ := reordered_of_perm (⟨0, [.terminal (.token 1), .production 1, .production 2, .terminal (.token 3)]⟩ :
    Rule Nat Nat) (List.reverse_perm (C13.missed.productions.drop 1)).symm
  obtain ⟨h1, h2, ig, h3, h4, -⟩ := C13.conflict_missed
  have h : (match IndexedGrammar.build (⟨⟨0, [.terminal (.token 1), .production 1, .production 2, .terminal (.token 3)]⟩ ::
      (C13.missed.productions.drop 1).reverse⟩ : Grammar Nat Nat) with
    | .ok ig' => (match LRTable.build 20 ig' with | .err _ => true | _ => false)
    | _ => false) = true := by decide +kernel
  split at h
  · rename_i ig' hi
    split at h
    · rename_i e he
      exact ⟨π, C13.missed, _, ig, ig', hπ, h1, h2, h3, hi, h4, e, he⟩
    · cases h
  · cases h

end C62
end Verif
