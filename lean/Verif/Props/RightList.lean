import Verif.Proof.RightList
import Verif.Props.SepList

/-!
# C101: lists with a separating token, with the label of the list on the right
-/

set_option linter.unusedSectionVars false
set_option autoImplicit false

namespace Verif.C101

open Spec

section
variable {T L : Type} [DecidableEq T] [DecidableEq L] {g g' : Grammar T L} {ig : IndexedGrammar T L} {S X l : L} {k : T}

theorem nonempty (h : RightList S X l k g.productions) : ∃ rest, g.productions = ⟨S, [.production X]⟩ :: rest := by
  have := h.root
  cases e : g.productions with
  | nil => rw [e] at this; cases this
  | cons r rest => rw [e] at this; cases this; exact ⟨rest, rfl⟩

theorem reachable (h : RightList S X l k g.productions) : Reachable g.productions S l :=
  .step (r := ⟨X, [.production l, .terminal (.token k), .production X]⟩)
    (.step (r := ⟨S, [.production X]⟩) .root (List.mem_of_getElem? h.root) (by simp)) h.more (by simp)

theorem language_iff (h : RightList S X l k g.productions) (hi : IndexedGrammar.build g = .ok ig) (w : List T) :
    Language g w ↔ SepItems g.productions l k w := by
  obtain ⟨rest, e⟩ := nonempty h
  rw [← h.derives_iff (C81.rootOnce hi)]
  constructor
  · rintro ⟨root, rest', e', hd⟩
    rw [e] at e'
    cases e'
    exact hd
  · exact fun hd => ⟨_, _, e, hd⟩

/-- **C101.** The grammar of the lists is LR(1) if and only if the grammar of the items is. -/
theorem lr1_iff {ρ : Nat → Nat} {s : L} {P' : List (Rule T L)} (hp : Productive g.productions) (hne : NoEndMarker g)
    (hi : IndexedGrammar.build g = .ok ig) (h : RightList S X l k g.productions) (hr : RootedAt ρ s l g.productions P') :
    ¬ NotLR1 g.productions ↔ ¬ NotLR1 P' := by
  constructor
  · intro hl hn
    obtain ⟨rest, e⟩ := nonempty h
    obtain ⟨is, δ, z, hform⟩ := reachable_form (C81.nodesProductive hi hne hp) (reachable h)
    exact hl (hr.notLR1 (C82.new_ne (g' := ⟨P'⟩) hi e (reachable h) hr) (C81.rootUnused hi hp) h.root hform hn)
  · exact fun hn => h.lr1 (C81.rootOnce hi) hr hn

/-- **C101, partial.** If the grammar of the items gets a parser, then so does the grammar of the lists. (Missing: grammars
with missing actions, for which this is false.) -/
theorem list_accepted_partial {ρ : Nat → Nat} {s : L} {n : Nat} {p' : SimParser T L} (hg : WellFormed g)
    (hp : Productive g.productions) (hi : IndexedGrammar.build g = .ok ig) (h : RightList S X l k g.productions)
    (hr : RootedAt ρ s l g.productions g'.productions) (hc : C07.ActionsComplete g') (hn : SimParser.new n g' = .ok p') :
    ∃ N, ∀ fuel ≥ N, ∃ p, SimParser.new fuel g = .ok p := by
  obtain ⟨rest, e⟩ := nonempty h
  obtain ⟨hi', ht'⟩ := new_ok hn
  obtain ⟨N, hN⟩ := C81.lr1_gets_table hg hp hi (h.lr1 (C81.rootOnce hi) hr
    (C81.table_is_lr1_partial (C82.wellFormed hg hr) (C82.productive hi hp e (reachable h) hr) hi' hc ht'))
  refine ⟨N, fun fuel hf => ?_⟩
  obtain ⟨t, ht⟩ := hN fuel hf
  exact ⟨⟨ig, t⟩, by simp [SimParser.new, hi, ht]⟩

/-- **C101.** What a parser for lists accepts is a sequence of items with the separating token between them. -/
theorem accepts_only {p : SimParser T L} {n m : Nat} (hg : WellFormed g) (h : RightList S X l k g.productions)
    (hn : SimParser.new n g = .ok p) (w : List T) (ha : (p.parseStream m w : Outcome (LRTableError T L) _) = .ok true) :
    SepItems g.productions l k w :=
  (language_iff h (new_ok hn).1 w).mp (C01.accepts_only_sentences g p n m w hg hn ha)

/-- **C101, partial.** A parser for lists accepts just the sequences of items with the separating token between them. (Missing:
grammars with missing actions.) -/
theorem list_decides_partial {p : SimParser T L} {n : Nat} (hg : WellFormed g) (h : RightList S X l k g.productions)
    (hc : C07.ActionsComplete g) (hn : SimParser.new n g = .ok p) (w : List T) :
    ∃ b N, (b = true ↔ SepItems g.productions l k w) ∧
      ∀ fuel ≥ N, (p.parseStream fuel w : Outcome (LRTableError T L) _) = .ok b := by
  obtain ⟨b, N, h1, h2⟩ := C44.trailing_epsilon_partial g p n w hg hc hn
  exact ⟨b, N, h1.trans (language_iff h (new_ok hn).1 w), h2⟩

/-- **C101, partial.** If a parser for lists accepts two inputs, then it accepts one after the other with
the separating token between them. -/
theorem accepts_append_partial {p : SimParser T L} {n m m' : Nat} (hg : WellFormed g) (h : RightList S X l k g.productions)
    (hc : C07.ActionsComplete g) (hn : SimParser.new n g = .ok p) (v w : List T)
    (hv : (p.parseStream m v : Outcome (LRTableError T L) _) = .ok true)
    (hw : (p.parseStream m' w : Outcome (LRTableError T L) _) = .ok true) :
    ∃ N, ∀ fuel ≥ N, (p.parseStream fuel (v ++ k :: w) : Outcome (LRTableError T L) _) = .ok true := by
  obtain ⟨b, N, h1, h2⟩ := list_decides_partial hg h hc hn (v ++ k :: w)
  cases h1.mpr (C99.items_append (accepts_only hg h hn v hv) (accepts_only hg h hn w hw))
  exact ⟨N, h2⟩

/-- **C101 with the change of C88.** If the grammar of the items gets a parser, then the grammar of the lists gets a parser
that accepts just the sequences of items with the separating token between them. -/
theorem list_repaired {ρ : Nat → Nat} {s : L} {n : Nat} {p' : SimParser T L} (hg : WellFormed g)
    (hp : Productive g.productions) (hi : IndexedGrammar.build g = .ok ig) (h : RightList S X l k g.productions)
    (hr : RootedAt ρ s l g.productions g'.productions) (hn : SimParser.newRepaired n g' = .ok p') :
    ∃ N, ∀ fuel ≥ N, ∃ p, SimParser.newRepaired fuel g = .ok p ∧
      ∀ w, ∃ b N', (∀ m ≥ N', (p.parseStream m w : Outcome (LRTableError T L) _) = .ok b) ∧
        (b = true ↔ SepItems g.productions l k w) := by
  obtain ⟨rest, e⟩ := nonempty h
  obtain ⟨N, hN⟩ := C88.lr1_parser hg hp hi (h.lr1 (C81.rootOnce hi) hr
    (C95.repaired_is_lr1 (C82.wellFormed hg hr) (C82.productive hi hp e (reachable h) hr) hn))
  refine ⟨N, fun fuel hf => ?_⟩
  obtain ⟨p, h1, h2⟩ := hN fuel hf
  refine ⟨p, h1, fun w => ?_⟩
  obtain ⟨b, N', h3, h4⟩ := h2 w
  exact ⟨b, N', h3, h4.trans (language_iff h hi w)⟩

end

/-! ## Concrete cases -/

/-- `S -> X; X -> E | E , X; E -> E + i | i`. -/
def calls : Grammar Nat Nat :=
  ⟨[⟨0, [.production 1]⟩, ⟨1, [.production 3]⟩,
    ⟨1, [.production 3, .terminal (.token 3), .production 1]⟩,
    ⟨3, [.production 3, .terminal (.token 7), .terminal (.token 6)]⟩,
    ⟨3, [.terminal (.token 6)]⟩]⟩

theorem calls_rooted : RootedAt (C95.numbering calls.productions [3, 4]) 0 3 calls.productions C96.stmtE.productions :=
  C95.rooted [3, 4] [3] rfl (by decide) (by decide) (by decide) (by
    intro r hr
    simp only [C96.stmtE, List.tail_cons, List.mem_cons, List.not_mem_nil, or_false] at hr
    rcases hr with rfl | rfl <;> exact .root) (by decide) (by
    intro r hr hl n hn a e
    subst e
    simp only [calls, List.mem_cons, List.not_mem_nil, or_false] at hr
    rcases hr with rfl | rfl | rfl | rfl | rfl <;> simp_all) (by
    intro j r hr hl
    match j with
    | 0 | 1 | 2 => cases hr; simp at hl
    | 3 | 4 => simp
    | j + 5 => cases hr)

theorem calls_right : RightList 0 1 3 3 calls.productions where
  ne := by decide
  root := rfl
  one := by decide
  more := by decide
  only := by
    intro r hr hs
    simp only [calls, List.mem_cons, List.not_mem_nil, or_false] at hr
    rcases hr with rfl | rfl | rfl | rfl | rfl <;> simp_all
  once := by
    intro i j r hi hj hs
    match i, j with
    | 1, 1 | 2, 2 => rfl
    | 1, 2 | 2, 1 => cases hi; cases hj
    | 0, _ | 3, _ | 4, _ => cases hi; cases hs
    | i + 5, _ => cases hi
    | _, 0 | _, 3 | _, 4 => cases hj; cases hs
    | _, j + 5 => cases hj
  own := by
    intro r hr hl
    have : r.symbol = 3 := by
      generalize r.symbol = a at hl
      induction hl with
      | root => rfl
      | @step r a _ hr ha ih =>
        simp only [calls, List.mem_cons, List.not_mem_nil, or_false] at hr
        rcases hr with rfl | rfl | rfl | rfl | rfl <;> simp_all
    simp only [calls, List.mem_cons, List.not_mem_nil, or_false] at hr
    rcases hr with rfl | rfl | rfl | rfl | rfl <;> simp_all

theorem calls_productive : Productive calls.productions := by
  have hE : Derives calls.productions [.production 3] [6] :=
    .prod (r := ⟨3, [.terminal (.token 6)]⟩) (u := [6]) (w := []) (by decide) (.tok .nil) .nil
  have hX : Derives calls.productions [.production 1] [6] :=
    .prod (r := ⟨1, [.production 3]⟩) (u := [6]) (w := []) (by decide) hE .nil
  have hS : Derives calls.productions [.production 0] [6] :=
    .prod (r := ⟨0, [.production 1]⟩) (u := [6]) (w := []) (by decide) hX .nil
  intro r hr
  simp only [calls, List.mem_cons, List.not_mem_nil, or_false] at hr
  rcases hr with rfl | rfl | rfl | rfl | rfl
  exacts [⟨_, hS⟩, ⟨_, hX⟩, ⟨_, hX⟩, ⟨_, hE⟩, ⟨_, hE⟩]

theorem calls_wellFormed : WellFormed calls := ⟨by unfold EpsilonLast; decide, by unfold NoEndMarker; decide⟩

/-- The hypotheses are met by `calls`. -/
example : ∃ N, ∀ fuel ≥ N, ∃ p, SimParser.new fuel calls = .ok p := by
  obtain ⟨p, hp⟩ := C95.parser_of_builds (g := C96.stmtE) (n := 20) (by decide +kernel)
  exact list_accepted_partial calls_wellFormed calls_productive rfl calls_right calls_rooted
    (C95.complete_of_stable (by decide +kernel)).actions hp

/-- The parser for `calls` accepts `i + i , i`. -/
example : ∃ p N, SimParser.new 20 calls = .ok p ∧
    ∀ fuel ≥ N, (p.parseStream fuel [6, 7, 6, 3, 6] : Outcome (LRTableError Nat Nat) _) = .ok true := by
  obtain ⟨p, hp⟩ := C95.parser_of_builds (g := calls) (n := 20) (by decide +kernel)
  have h6 : Derives calls.productions [.production 3] [6] :=
    .prod (r := ⟨3, [.terminal (.token 6)]⟩) (u := [6]) (w := []) (by decide) (.tok .nil) .nil
  have h676 : Derives calls.productions [.production 3] [6, 7, 6] :=
    .prod (r := ⟨3, [.production 3, .terminal (.token 7), .terminal (.token 6)]⟩) (u := [6, 7, 6]) (w := []) (by decide)
      (h6.append (.tok (.tok .nil))) .nil
  obtain ⟨b, N, h1, h2⟩ := list_decides_partial calls_wellFormed calls_right
    (C95.complete_of_stable (by decide +kernel)).actions hp [6, 7, 6, 3, 6]
  cases h1.mpr (.snoc (v := [6, 7, 6]) (.one h676) h6)
  exact ⟨p, N, hp, h2⟩

/-- `S -> X; X -> E | E + X; E -> E + i | i`: the separating token is used below the item. -/
def overlapRight : Grammar Nat Nat :=
  ⟨[⟨0, [.production 1]⟩, ⟨1, [.production 3]⟩,
    ⟨1, [.production 3, .terminal (.token 7), .production 1]⟩,
    ⟨3, [.production 3, .terminal (.token 7), .terminal (.token 6)]⟩,
    ⟨3, [.terminal (.token 6)]⟩]⟩

/-- That the separating token is not used below the item matters: `S -> E; E -> E + i | i` gets a parser, `overlapRight` does not. -/
example : (∃ p, SimParser.new 20 C96.stmtE = .ok p) ∧ ∃ e, SimParser.new 20 overlapRight = .err e := by
  refine ⟨C95.parser_of_builds (by decide +kernel), ?_⟩
  have h : (match SimParser.new 20 overlapRight with | .err _ => true | _ => false) = true := by decide +kernel
  cases hx : SimParser.new 20 overlapRight with
  | err e => exact ⟨e, rfl⟩
  | ok p => rw [hx] at h; cases h
  | panic => rw [hx] at h; cases h
  | ub => rw [hx] at h; cases h
  | timeout => rw [hx] at h; cases h

/-- `S -> X; X -> A | A y X; E -> !; D -> E; C' -> D; C -> C'; A -> x B C c; B -> b; B -> Q; Q -> b`. -/
def loneRight : Grammar Nat Nat :=
  ⟨[⟨0, [.production 1]⟩, ⟨1, [.production 2]⟩, ⟨1, [.production 2, .terminal (.token 9), .production 1]⟩,
    ⟨7, [.terminal .epsilon]⟩, ⟨6, [.production 7]⟩, ⟨5, [.production 6]⟩, ⟨4, [.production 5]⟩,
    ⟨2, [.terminal (.token 1), .production 3, .production 4, .terminal (.token 3)]⟩,
    ⟨3, [.terminal (.token 2)]⟩, ⟨3, [.production 8]⟩, ⟨8, [.terminal (.token 2)]⟩]⟩

theorem loneRight_rooted : RootedAt (C95.numbering loneRight.productions [7, 8, 9, 10, 6, 5, 4, 3]) 0 2 loneRight.productions
    C95.loneA.productions :=
  C95.rooted [7, 8, 9, 10, 6, 5, 4, 3] [2, 3, 4, 5, 6, 7, 8] rfl (by decide) (by decide) (by decide) (by
    have h3 : Reachable loneRight.productions 2 3 := .step (r :=
      ⟨2, [.terminal (.token 1), .production 3, .production 4, .terminal (.token 3)]⟩) .root (by decide) (by simp)
    have h4 : Reachable loneRight.productions 2 4 := .step (r :=
      ⟨2, [.terminal (.token 1), .production 3, .production 4, .terminal (.token 3)]⟩) .root (by decide) (by simp)
    have h8 : Reachable loneRight.productions 2 8 := .step (r := ⟨3, [.production 8]⟩) h3 (by decide) (by simp)
    have h5 : Reachable loneRight.productions 2 5 := .step (r := ⟨4, [.production 5]⟩) h4 (by decide) (by simp)
    have h6 : Reachable loneRight.productions 2 6 := .step (r := ⟨5, [.production 6]⟩) h5 (by decide) (by simp)
    have h7 : Reachable loneRight.productions 2 7 := .step (r := ⟨6, [.production 7]⟩) h6 (by decide) (by simp)
    intro r hr
    simp only [C95.loneA, List.tail_cons, List.mem_cons, List.not_mem_nil, or_false] at hr
    rcases hr with rfl | rfl | rfl | rfl | rfl | rfl | rfl | rfl
    exacts [.root, h3, h3, h8, h4, h5, h6, h7]) (by decide) (by
    intro r hr hl n hn a e
    subst e
    simp only [loneRight, List.mem_cons, List.not_mem_nil, or_false] at hr
    rcases hr with rfl | rfl | rfl | rfl | rfl | rfl | rfl | rfl | rfl | rfl | rfl <;> simp_all
    rcases hn with rfl | rfl <;> simp) (by
    intro j r hr hl
    match j with
    | 0 | 1 | 2 => cases hr; simp at hl
    | 3 | 4 | 5 | 6 | 7 | 8 | 9 | 10 => simp
    | j + 11 => cases hr)

theorem loneRight_right : RightList 0 1 2 9 loneRight.productions where
  ne := by decide
  root := rfl
  one := by decide
  more := by decide
  only := by
    intro r hr hs
    simp only [loneRight, List.mem_cons, List.not_mem_nil, or_false] at hr
    rcases hr with rfl | rfl | rfl | rfl | rfl | rfl | rfl | rfl | rfl | rfl | rfl <;> simp_all
  once := by
    intro i j r hi hj hs
    match i, j with
    | 1, 1 | 2, 2 => rfl
    | 1, 2 | 2, 1 => cases hi; cases hj
    | 0, _ | 3, _ | 4, _ | 5, _ | 6, _ | 7, _ | 8, _ | 9, _ | 10, _ => cases hi; cases hs
    | i + 11, _ => cases hi
    | _, 0 | _, 3 | _, 4 | _, 5 | _, 6 | _, 7 | _, 8 | _, 9 | _, 10 => cases hj; cases hs
    | _, j + 11 => cases hj
  own := by
    intro r hr hl
    have : r.symbol ≠ 1 ∧ r.symbol ≠ 0 := by
      generalize r.symbol = a at hl
      induction hl with
      | root => decide
      | @step r a _ hr ha ih =>
        simp only [loneRight, List.mem_cons, List.not_mem_nil, or_false] at hr
        rcases hr with rfl | rfl | rfl | rfl | rfl | rfl | rfl | rfl | rfl | rfl | rfl <;> simp_all
        rcases ha with rfl | rfl <;> simp
    simp only [loneRight, List.mem_cons, List.not_mem_nil, or_false] at hr
    rcases hr with rfl | rfl | rfl | rfl | rfl | rfl | rfl | rfl | rfl | rfl | rfl <;> simp_all

theorem loneRight_productive : Productive loneRight.productions := by
  have h7 : Derives loneRight.productions [.production 7] [] :=
    .prod (r := ⟨7, [.terminal .epsilon]⟩) (u := []) (w := []) (by decide) (.eps .nil) .nil
  have h6 : Derives loneRight.productions [.production 6] [] :=
    .prod (r := ⟨6, [.production 7]⟩) (u := []) (w := []) (by decide) h7 .nil
  have h5 : Derives loneRight.productions [.production 5] [] :=
    .prod (r := ⟨5, [.production 6]⟩) (u := []) (w := []) (by decide) h6 .nil
  have h4 : Derives loneRight.productions [.production 4] [] :=
    .prod (r := ⟨4, [.production 5]⟩) (u := []) (w := []) (by decide) h5 .nil
  have h8 : Derives loneRight.productions [.production 8] [2] :=
    .prod (r := ⟨8, [.terminal (.token 2)]⟩) (u := [2]) (w := []) (by decide) (.tok .nil) .nil
  have h3 : Derives loneRight.productions [.production 3] [2] :=
    .prod (r := ⟨3, [.terminal (.token 2)]⟩) (u := [2]) (w := []) (by decide) (.tok .nil) .nil
  have h2 : Derives loneRight.productions [.production 2] [1, 2, 3] :=
    .prod (r := ⟨2, [.terminal (.token 1), .production 3, .production 4, .terminal (.token 3)]⟩) (u := [1, 2, 3]) (w := [])
      (by decide) (.tok (h3.append (h4.append (.tok .nil)))) .nil
  have h1 : Derives loneRight.productions [.production 1] [1, 2, 3] :=
    .prod (r := ⟨1, [.production 2]⟩) (u := [1, 2, 3]) (w := []) (by decide) h2 .nil
  have h0 : Derives loneRight.productions [.production 0] [1, 2, 3] :=
    .prod (r := ⟨0, [.production 1]⟩) (u := [1, 2, 3]) (w := []) (by decide) h1 .nil
  intro r hr
  simp only [loneRight, List.mem_cons, List.not_mem_nil, or_false] at hr
  rcases hr with rfl | rfl | rfl | rfl | rfl | rfl | rfl | rfl | rfl | rfl | rfl
  exacts [⟨_, h0⟩, ⟨_, h1⟩, ⟨_, h1⟩, ⟨_, h7⟩, ⟨_, h6⟩, ⟨_, h5⟩, ⟨_, h4⟩, ⟨_, h2⟩, ⟨_, h3⟩, ⟨_, h3⟩, ⟨_, h8⟩]

/-- **C101 is false in general.** The grammar of the items of `loneRight` gets a parser, but for `loneRight` itself a conflict
is reported. -/
theorem list_accepted_refuted : WellFormed loneRight ∧ Productive loneRight.productions ∧
    (∃ ig, IndexedGrammar.build loneRight = .ok ig) ∧ RightList 0 1 2 9 loneRight.productions ∧
    (∃ ρ s g' n p', RootedAt ρ s 2 loneRight.productions g'.productions ∧ SimParser.new n g' = .ok p') ∧
    ∃ e, SimParser.new 30 loneRight = .err e := by
  refine ⟨⟨by unfold EpsilonLast; decide, by unfold NoEndMarker; decide⟩, loneRight_productive, ⟨_, rfl⟩, loneRight_right, ?_,
    ?_⟩
  · obtain ⟨p, hp⟩ := C95.parser_of_builds (g := C95.loneA) (n := 30) (by decide +kernel)
    exact ⟨_, _, _, _, p, loneRight_rooted, hp⟩
  · have h : (match SimParser.new 30 loneRight with | .err _ => true | _ => false) = true := by decide +kernel
    cases hx : SimParser.new 30 loneRight with
    | err e => exact ⟨e, rfl⟩
    | ok p => rw [hx] at h; cases h
    | panic => rw [hx] at h; cases h
    | ub => rw [hx] at h; cases h
    | timeout => rw [hx] at h; cases h

end Verif.C101
