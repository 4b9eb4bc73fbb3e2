import Verif.Proof.Forms
import Verif.Props.Dispatch

/-!
# C96: alternatives whose labels are each followed by a token of their own
-/

set_option linter.unusedSectionVars false
set_option autoImplicit false

namespace Verif.C96

open Spec

section
variable {T L : Type} [DecidableEq T] [DecidableEq L] {g g' : Grammar T L} {ig : IndexedGrammar T L} {S M : L}

theorem nonempty (h : Forms S M g.productions) : ∃ rest, g.productions = ⟨S, [.production M]⟩ :: rest := by
  have := h.root
  cases e : g.productions with
  | nil => rw [e] at this; cases this
  | cons r rest => rw [e] at this; cases this; exact ⟨rest, rfl⟩

theorem reachable (h : Forms S M g.productions) {r : Rule T L} (hr : r ∈ g.productions) (hs : r.symbol = M) {l : L}
    (hl : .production l ∈ r.rule) : Reachable g.productions S l :=
  .step (r := r) (by
    rw [hs]
    exact .step (r := ⟨S, [.production M]⟩) .root (List.mem_of_getElem? h.root) (by simp)) hr hl

/-- **C96.** The grammar is LR(1) if and only if the grammars for the labels in its alternatives are. -/
theorem lr1_iff (hp : Productive g.productions) (hne : NoEndMarker g) (hi : IndexedGrammar.build g = .ok ig)
    (h : Forms S M g.productions)
    (hr : ∀ r ∈ g.productions, r.symbol = M → ∀ l, .production l ∈ r.rule → ∃ ρ s P', RootedAt ρ s l g.productions P') :
    ¬ NotLR1 g.productions ↔ ∀ r ∈ g.productions, r.symbol = M → ∀ l, .production l ∈ r.rule →
      ∀ ρ s P', RootedAt ρ s l g.productions P' → ¬ NotLR1 P' := by
  constructor
  · intro hl r hr hs l hm ρ s P' hr' hn
    obtain ⟨rest, e⟩ := nonempty h
    have hre := reachable h hr hs hm
    obtain ⟨is, δ, z, hform⟩ := reachable_form (C81.nodesProductive hi hne hp) hre
    exact hl (hr'.notLR1 (C82.new_ne (g' := ⟨P'⟩) hi e hre hr') (C81.rootUnused hi hp) h.root hform hn)
  · intro hl
    refine h.lr1 (C81.rootOnce hi) (C81.rootUnused hi hp) fun r hr' hs l hm => ?_
    obtain ⟨ρ, s, P', hr''⟩ := hr r hr' hs l hm
    exact ⟨ρ, s, P', hr'', hl r hr' hs l hm ρ s P' hr''⟩

/-- **C96, partial.** If the grammars for the labels in the alternatives get parsers, then the whole grammar gets one.
(Missing: grammars with missing actions, for which this is false.) -/
theorem forms_accepted_partial (hg : WellFormed g) (hp : Productive g.productions)
    (hi : IndexedGrammar.build g = .ok ig) (h : Forms S M g.productions)
    (hl : ∀ r ∈ g.productions, r.symbol = M → ∀ l, .production l ∈ r.rule →
      ∃ ρ s g' n p', RootedAt ρ s l g.productions g'.productions ∧ C07.ActionsComplete g' ∧ SimParser.new n g' = .ok p') :
    ∃ N, ∀ fuel ≥ N, ∃ p, SimParser.new fuel g = .ok p := by
  obtain ⟨rest, e⟩ := nonempty h
  obtain ⟨N, hN⟩ := C81.lr1_gets_table hg hp hi (h.lr1 (C81.rootOnce hi) (C81.rootUnused hi hp) fun r hr' hs l hm => by
    obtain ⟨ρ, s, g', n, p', hr, hc, hn⟩ := hl r hr' hs l hm
    obtain ⟨hi', ht'⟩ := new_ok hn
    exact ⟨ρ, s, g'.productions, hr, C81.table_is_lr1_partial (C82.wellFormed hg hr)
      (C82.productive hi hp e (reachable h hr' hs hm) hr) hi' hc ht'⟩)
  refine ⟨N, fun fuel hf => ?_⟩
  obtain ⟨t, ht⟩ := hN fuel hf
  exact ⟨⟨ig, t⟩, by simp [SimParser.new, hi, ht]⟩

/-- **C96 with the change of C88.** If the grammars for the labels in the alternatives get parsers, then the whole grammar
gets a parser that decides its language. -/
theorem forms_repaired (hg : WellFormed g) (hp : Productive g.productions)
    (hi : IndexedGrammar.build g = .ok ig) (h : Forms S M g.productions)
    (hl : ∀ r ∈ g.productions, r.symbol = M → ∀ l, .production l ∈ r.rule →
      ∃ ρ s g' n p', RootedAt ρ s l g.productions g'.productions ∧ SimParser.newRepaired n g' = .ok p') :
    ∃ N, ∀ fuel ≥ N, ∃ p, SimParser.newRepaired fuel g = .ok p ∧ C88.Decides g p := by
  obtain ⟨rest, e⟩ := nonempty h
  refine C88.lr1_parser hg hp hi (h.lr1 (C81.rootOnce hi) (C81.rootUnused hi hp) fun r hr' hs l hm => ?_)
  obtain ⟨ρ, s, g', n, p', hr, hn⟩ := hl r hr' hs l hm
  exact ⟨ρ, s, g'.productions, hr, C95.repaired_is_lr1 (C82.wellFormed hg hr)
    (C82.productive hi hp e (reachable h hr' hs hm) hr) hn⟩

/-- The alternatives of C95 are of this form. -/
theorem forms_of_dispatch (hS : S ≠ M) (h : Dispatch S M g.productions) : Forms S M g.productions where
  ne := hS
  root := h.root
  once := h.once
  apart i j r r' hr hr' hs hs' hij := by
    obtain ⟨k, l, e⟩ := h.alt r (List.mem_of_getElem? hr) hs
    obtain ⟨k', l', e'⟩ := h.alt r' (List.mem_of_getElem? hr') hs'
    refine ⟨k, k', by simp [rhs, e], by simp [rhs, e'], ?_⟩
    rintro rfl
    obtain ⟨a, b⟩ := r
    obtain ⟨a', b'⟩ := r'
    simp only at hs hs' e e'
    subst hs hs' e e'
    exact hij (h.apart i j k l l' hr hr')
  closed r hr hs pre l post e := by
    obtain ⟨k, l', e'⟩ := h.alt r hr hs
    have e : [.terminal (.token k), .production l'] = pre ++ .production l :: post := by rw [← e]; simp [rhs, e']
    left
    rcases pre with _ | ⟨a, _ | ⟨b, pre⟩⟩
    · simp at e
    · simp at e; exact e.2.2.symm ▸ rfl
    · simp at e

end

/-- **C96 is false in general**: the counterexample is that of C95. -/
theorem forms_accepted_refuted : ∃ g : Grammar Nat Nat, WellFormed g ∧ Productive g.productions ∧
    (∃ ig, IndexedGrammar.build g = .ok ig) ∧ Forms 0 1 g.productions ∧
    (∀ r ∈ g.productions, r.symbol = 1 → ∀ l, .production l ∈ r.rule →
      ∃ ρ s g' n p', RootedAt ρ s l g.productions g'.productions ∧ SimParser.new n g' = .ok p') ∧
    ∃ e, SimParser.new 30 g = .err e := by
  obtain ⟨h1, h2, h3, h4, h5, h6⟩ := C95.alternatives_accepted_refuted
  refine ⟨C95.lone, h1, h2, h3, forms_of_dispatch (by decide) h4, ?_, h6⟩
  intro r hr hs l hl
  obtain ⟨k, l', e⟩ := h4.alt r hr hs
  rw [e] at hl
  simp at hl
  subst hl
  refine h5 k l ?_
  obtain ⟨a, b⟩ := r
  simp only at hs e
  subst hs e
  exact hr

/-! ## Concrete cases -/

/-- `S -> M; M -> let X = E ; | do E end; X -> i; E -> E + i | i`. -/
def stmt : Grammar Nat Nat :=
  ⟨[⟨0, [.production 1]⟩,
    ⟨1, [.terminal (.token 1), .production 2, .terminal (.token 2), .production 3, .terminal (.token 3)]⟩,
    ⟨1, [.terminal (.token 4), .production 3, .terminal (.token 5)]⟩,
    ⟨2, [.terminal (.token 6)]⟩,
    ⟨3, [.production 3, .terminal (.token 7), .terminal (.token 6)]⟩,
    ⟨3, [.terminal (.token 6)]⟩]⟩

/-- `S -> X; X -> i`. -/
def stmtX : Grammar Nat Nat := ⟨[⟨0, [.production 2]⟩, ⟨2, [.terminal (.token 6)]⟩]⟩

/-- `S -> E; E -> E + i | i`. -/
def stmtE : Grammar Nat Nat :=
  ⟨[⟨0, [.production 3]⟩, ⟨3, [.production 3, .terminal (.token 7), .terminal (.token 6)]⟩, ⟨3, [.terminal (.token 6)]⟩]⟩

theorem stmtX_rooted : RootedAt (C95.numbering stmt.productions [3]) 0 2 stmt.productions stmtX.productions :=
  C95.rooted [3] [2] rfl (by decide) (by decide) (by decide) (by
    intro r hr
    simp only [stmtX, List.tail_cons, List.mem_cons, List.not_mem_nil, or_false] at hr
    subst hr
    exact .root) (by decide) (by
    intro r hr hl n hn a e
    subst e
    simp only [stmt, List.mem_cons, List.not_mem_nil, or_false] at hr
    rcases hr with rfl | rfl | rfl | rfl | rfl | rfl <;> simp_all) (by
    intro j r hr hl
    match j with
    | 0 | 1 | 2 | 4 | 5 => cases hr; simp at hl
    | 3 => simp
    | j + 6 => cases hr)

theorem stmtE_rooted : RootedAt (C95.numbering stmt.productions [4, 5]) 0 3 stmt.productions stmtE.productions :=
  C95.rooted [4, 5] [3] rfl (by decide) (by decide) (by decide) (by
    intro r hr
    simp only [stmtE, List.tail_cons, List.mem_cons, List.not_mem_nil, or_false] at hr
    rcases hr with rfl | rfl <;> exact .root) (by decide) (by
    intro r hr hl n hn a e
    subst e
    simp only [stmt, List.mem_cons, List.not_mem_nil, or_false] at hr
    rcases hr with rfl | rfl | rfl | rfl | rfl | rfl <;> simp_all) (by
    intro j r hr hl
    match j with
    | 0 | 1 | 2 | 3 => cases hr; simp at hl
    | 4 | 5 => simp
    | j + 6 => cases hr)

theorem reach_X {a : Nat} (h : Reachable stmt.productions 2 a) : a = 2 := by
  induction h with
  | root => rfl
  | @step r a _ hr ha ih =>
    simp only [stmt, List.mem_cons, List.not_mem_nil, or_false] at hr
    rcases hr with rfl | rfl | rfl | rfl | rfl | rfl <;> simp_all

theorem reach_E {a : Nat} (h : Reachable stmt.productions 3 a) : a = 3 := by
  induction h with
  | root => rfl
  | @step r a _ hr ha ih =>
    simp only [stmt, List.mem_cons, List.not_mem_nil, or_false] at hr
    rcases hr with rfl | rfl | rfl | rfl | rfl | rfl <;> simp_all

theorem stmt_notBelow_X : NotBelow stmt.productions 2 2 := by
  intro r hr hl
  have := reach_X hl
  simp only [stmt, List.mem_cons, List.not_mem_nil, or_false] at hr
  rcases hr with rfl | rfl | rfl | rfl | rfl | rfl <;> simp_all

theorem stmt_notBelow_E {k : Nat} (hk : k = 3 ∨ k = 5) : NotBelow stmt.productions 3 k := by
  intro r hr hl
  have := reach_E hl
  simp only [stmt, List.mem_cons, List.not_mem_nil, or_false] at hr
  rcases hr with rfl | rfl | rfl | rfl | rfl | rfl <;> simp_all
  all_goals omega

theorem stmt_forms : Forms 0 1 stmt.productions where
  ne := by decide
  root := rfl
  once := by
    intro i r h0 hr
    match i with
    | 0 => exact absurd rfl h0
    | 1 | 2 | 3 | 4 | 5 => cases hr; simp
    | i + 6 => cases hr
  apart := by
    intro i j r r' hr hr' hs hs' hij
    match i, j with
    | 1, 1 | 2, 2 => exact absurd rfl hij
    | 1, 2 => cases hr; cases hr'; exact ⟨1, 4, by simp [rhs], by simp [rhs], by decide⟩
    | 2, 1 => cases hr; cases hr'; exact ⟨4, 1, by simp [rhs], by simp [rhs], by decide⟩
    | 0, _ | 3, _ | 4, _ | 5, _ => cases hr; cases hs
    | i + 6, _ => cases hr
    | _, 0 | _, 3 | _, 4 | _, 5 => cases hr'; cases hs'
    | _, j + 6 => cases hr'
  closed := by
    intro r hr hs pre l post e
    simp only [stmt, List.mem_cons, List.not_mem_nil, or_false] at hr
    rcases hr with rfl | rfl | rfl | rfl | rfl | rfl
    · cases hs
    · rcases pre with _ | ⟨a, _ | ⟨b, _ | ⟨c, _ | ⟨d, _ | ⟨f, pre⟩⟩⟩⟩⟩ <;> simp [rhs] at e
      · obtain ⟨-, rfl, rfl⟩ := e
        exact .inr ⟨_, _, rfl, stmt_notBelow_X⟩
      · obtain ⟨-, -, -, rfl, rfl⟩ := e
        exact .inr ⟨_, _, rfl, stmt_notBelow_E (.inl rfl)⟩
    · rcases pre with _ | ⟨a, _ | ⟨b, _ | ⟨c, pre⟩⟩⟩ <;> simp [rhs] at e
      obtain ⟨-, rfl, rfl⟩ := e
      exact .inr ⟨_, _, rfl, stmt_notBelow_E (.inr rfl)⟩
    · cases hs
    · cases hs
    · cases hs

theorem stmt_productive : Productive stmt.productions := by
  have hX : Derives stmt.productions [.production 2] [6] :=
    .prod (r := ⟨2, [.terminal (.token 6)]⟩) (u := [6]) (w := []) (by decide) (.tok .nil) .nil
  have hE : Derives stmt.productions [.production 3] [6] :=
    .prod (r := ⟨3, [.terminal (.token 6)]⟩) (u := [6]) (w := []) (by decide) (.tok .nil) .nil
  have hM : Derives stmt.productions [.production 1] [4, 6, 5] :=
    .prod (r := ⟨1, [.terminal (.token 4), .production 3, .terminal (.token 5)]⟩) (u := [4, 6, 5]) (w := []) (by decide)
      (.tok (hE.append (.tok .nil))) .nil
  have hS : Derives stmt.productions [.production 0] [4, 6, 5] :=
    .prod (r := ⟨0, [.production 1]⟩) (u := [4, 6, 5]) (w := []) (by decide) hM .nil
  intro r hr
  simp only [stmt, List.mem_cons, List.not_mem_nil, or_false] at hr
  rcases hr with rfl | rfl | rfl | rfl | rfl | rfl
  exacts [⟨_, hS⟩, ⟨_, hM⟩, ⟨_, hM⟩, ⟨_, hX⟩, ⟨_, hE⟩, ⟨_, hE⟩]

/-- The hypotheses are met by `stmt`. -/
example : ∃ N, ∀ fuel ≥ N, ∃ p, SimParser.new fuel stmt = .ok p := by
  refine forms_accepted_partial ⟨by unfold EpsilonLast; decide, by unfold NoEndMarker; decide⟩ stmt_productive rfl
    stmt_forms fun r hr hs l hl => ?_
  have : l = 2 ∨ l = 3 := by
    simp only [stmt, List.mem_cons, List.not_mem_nil, or_false] at hr
    rcases hr with rfl | rfl | rfl | rfl | rfl | rfl <;> simp_all
  rcases this with rfl | rfl
  · obtain ⟨p, hp⟩ := C95.parser_of_builds (g := stmtX) (n := 20) (by decide +kernel)
    exact ⟨_, _, _, _, p, stmtX_rooted, (C95.complete_of_stable (by decide +kernel)).actions, hp⟩
  · obtain ⟨p, hp⟩ := C95.parser_of_builds (g := stmtE) (n := 20) (by decide +kernel)
    exact ⟨_, _, _, _, p, stmtE_rooted, (C95.complete_of_stable (by decide +kernel)).actions, hp⟩

/-- `S -> M; M -> X a; X -> a X | a`: the token after the label is used below it. -/
def shared : Grammar Nat Nat :=
  ⟨[⟨0, [.production 1]⟩, ⟨1, [.production 2, .terminal (.token 1)]⟩, ⟨2, [.terminal (.token 1), .production 2]⟩,
    ⟨2, [.terminal (.token 1)]⟩]⟩

/-- That the token is not used below the label matters: `S -> X; X -> a X | a` gets a parser, `shared` does not. -/
example : (∃ p, SimParser.new 20 (⟨⟨0, [.production 2]⟩ :: shared.productions.drop 2⟩ : Grammar Nat Nat) = .ok p) ∧
    SimParser.new 20 shared = .err (.shiftReduceConflict 3 (.token 1)) := by
  refine ⟨C95.parser_of_builds (by decide +kernel), ?_⟩
  decide +kernel

end Verif.C96
