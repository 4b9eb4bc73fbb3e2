import Verif.Proof.ListOf
import Verif.Props.Forms

/-!
# C97: lists of items that are each closed by a token of their own
-/

set_option linter.unusedSectionVars false
set_option autoImplicit false

namespace Verif.C97

open Spec

section
variable {T L : Type} [DecidableEq T] [DecidableEq L] {g g' : Grammar T L} {ig : IndexedGrammar T L} {S X l : L} {k : T}

theorem nonempty (h : ListOf S X l k g.productions) : ∃ rest, g.productions = ⟨S, [.production X]⟩ :: rest := by
  have := h.root
  cases e : g.productions with
  | nil => rw [e] at this; cases this
  | cons r rest => rw [e] at this; cases this; exact ⟨rest, rfl⟩

theorem reachable (h : ListOf S X l k g.productions) : Reachable g.productions S l :=
  .step (r := ⟨X, [.production X, .production l, .terminal (.token k)]⟩)
    (.step (r := ⟨S, [.production X]⟩) .root (List.mem_of_getElem? h.root) (by simp)) h.more (by simp)

theorem language_iff (h : ListOf S X l k g.productions) (hi : IndexedGrammar.build g = .ok ig) (w : List T) :
    Language g w ↔ Items g.productions l k w := by
  obtain ⟨rest, e⟩ := nonempty h
  rw [← h.derives_iff (C81.rootOnce hi)]
  constructor
  · rintro ⟨root, rest', e', hd⟩
    rw [e] at e'
    cases e'
    exact hd
  · exact fun hd => ⟨_, _, e, hd⟩

/-- **C97.** The grammar of the lists is LR(1) if and only if the grammar of the items is. -/
theorem lr1_iff {ρ : Nat → Nat} {s : L} {P' : List (Rule T L)} (hp : Productive g.productions) (hne : NoEndMarker g)
    (hi : IndexedGrammar.build g = .ok ig) (h : ListOf S X l k g.productions) (hr : RootedAt ρ s l g.productions P') :
    ¬ NotLR1 g.productions ↔ ¬ NotLR1 P' := by
  constructor
  · intro hl hn
    obtain ⟨rest, e⟩ := nonempty h
    obtain ⟨is, δ, z, hform⟩ := reachable_form (C81.nodesProductive hi hne hp) (reachable h)
    exact hl (hr.notLR1 (C82.new_ne (g' := ⟨P'⟩) hi e (reachable h) hr) (C81.rootUnused hi hp) h.root hform hn)
  · exact fun hn => h.lr1 (C81.rootOnce hi) hr hn

/-- **C97, partial.** If the grammar of the items gets a parser, then so does the grammar of the lists. (Missing: grammars
with missing actions, for which this is false.) -/
theorem list_accepted_partial {ρ : Nat → Nat} {s : L} {n : Nat} {p' : SimParser T L} (hg : WellFormed g)
    (hp : Productive g.productions) (hi : IndexedGrammar.build g = .ok ig) (h : ListOf S X l k g.productions)
    (hr : RootedAt ρ s l g.productions g'.productions) (hc : C07.ActionsComplete g') (hn : SimParser.new n g' = .ok p') :
    ∃ N, ∀ fuel ≥ N, ∃ p, SimParser.new fuel g = .ok p := by
  obtain ⟨rest, e⟩ := nonempty h
  obtain ⟨hi', ht'⟩ := new_ok hn
  obtain ⟨N, hN⟩ := C81.lr1_gets_table hg hp hi (h.lr1 (C81.rootOnce hi) hr
    (C81.table_is_lr1_partial (C82.wellFormed hg hr) (C82.productive hi hp e (reachable h) hr) hi' hc ht'))
  refine ⟨N, fun fuel hf => ?_⟩
  obtain ⟨t, ht⟩ := hN fuel hf
  exact ⟨⟨ig, t⟩, by simp [SimParser.new, hi, ht]⟩

/-- **C97.** What a parser for lists accepts is a sequence of items, each followed by the closing token. -/
theorem accepts_only {p : SimParser T L} {n m : Nat} (hg : WellFormed g) (h : ListOf S X l k g.productions)
    (hn : SimParser.new n g = .ok p) (w : List T) (ha : (p.parseStream m w : Outcome (LRTableError T L) _) = .ok true) :
    Items g.productions l k w :=
  (language_iff h (new_ok hn).1 w).mp (C01.accepts_only_sentences g p n m w hg hn ha)

/-- **C97, partial.** A parser for lists accepts just the sequences of items, each followed by the closing token. (Missing:
grammars with missing actions.) -/
theorem list_decides_partial {p : SimParser T L} {n : Nat} (hg : WellFormed g) (h : ListOf S X l k g.productions)
    (hc : C07.ActionsComplete g) (hn : SimParser.new n g = .ok p) (w : List T) :
    ∃ b N, (b = true ↔ Items g.productions l k w) ∧
      ∀ fuel ≥ N, (p.parseStream fuel w : Outcome (LRTableError T L) _) = .ok b := by
  obtain ⟨b, N, h1, h2⟩ := C44.trailing_epsilon_partial g p n w hg hc hn
  exact ⟨b, N, h1.trans (language_iff h (new_ok hn).1 w), h2⟩

theorem items_append {P : List (Rule T L)} {v w : List T} (hv : Items P l k v) (hw : Items P l k w) :
    Items P l k (v ++ w) := by
  induction hw with
  | nil => simpa using hv
  | snoc _ hu ih => simpa using Items.snoc ih hu

/-- **C97, partial.** If a parser for lists accepts two inputs, then it accepts one after the other. -/
theorem accepts_append_partial {p : SimParser T L} {n m m' : Nat} (hg : WellFormed g) (h : ListOf S X l k g.productions)
    (hc : C07.ActionsComplete g) (hn : SimParser.new n g = .ok p) (v w : List T)
    (hv : (p.parseStream m v : Outcome (LRTableError T L) _) = .ok true)
    (hw : (p.parseStream m' w : Outcome (LRTableError T L) _) = .ok true) :
    ∃ N, ∀ fuel ≥ N, (p.parseStream fuel (v ++ w) : Outcome (LRTableError T L) _) = .ok true := by
  obtain ⟨b, N, h1, h2⟩ := list_decides_partial hg h hc hn (v ++ w)
  cases h1.mpr (items_append (accepts_only hg h hn v hv) (accepts_only hg h hn w hw))
  exact ⟨N, h2⟩

/-- **C97 with the change of C88.** If the grammar of the items gets a parser, then the grammar of the lists gets a parser
that accepts just the sequences of items, each followed by the closing token. -/
theorem list_repaired {ρ : Nat → Nat} {s : L} {n : Nat} {p' : SimParser T L} (hg : WellFormed g)
    (hp : Productive g.productions) (hi : IndexedGrammar.build g = .ok ig) (h : ListOf S X l k g.productions)
    (hr : RootedAt ρ s l g.productions g'.productions) (hn : SimParser.newRepaired n g' = .ok p') :
    ∃ N, ∀ fuel ≥ N, ∃ p, SimParser.newRepaired fuel g = .ok p ∧
      ∀ w, ∃ b N', (∀ m ≥ N', (p.parseStream m w : Outcome (LRTableError T L) _) = .ok b) ∧
        (b = true ↔ Items g.productions l k w) := by
  obtain ⟨rest, e⟩ := nonempty h
  obtain ⟨N, hN⟩ := C88.lr1_parser hg hp hi (h.lr1 (C81.rootOnce hi) hr
    (C95.repaired_is_lr1 (C82.wellFormed hg hr) (C82.productive hi hp e (reachable h) hr) hn))
  refine ⟨N, fun fuel hf => ?_⟩
  obtain ⟨p, h1, h2⟩ := hN fuel hf
  refine ⟨p, h1, fun w => ?_⟩
  obtain ⟨b, N', h3, h4⟩ := h2 w
  exact ⟨b, N', h3, h4.trans (language_iff h hi w)⟩

end

/-! ## Concrete cases -/

/-- `S -> X; X -> ! | X E ;; E -> E + i | i`. -/
def lines : Grammar Nat Nat :=
  ⟨[⟨0, [.production 1]⟩, ⟨1, [.terminal .epsilon]⟩,
    ⟨1, [.production 1, .production 3, .terminal (.token 3)]⟩,
    ⟨3, [.production 3, .terminal (.token 7), .terminal (.token 6)]⟩,
    ⟨3, [.terminal (.token 6)]⟩]⟩

theorem lines_rooted : RootedAt (C95.numbering lines.productions [3, 4]) 0 3 lines.productions C96.stmtE.productions :=
  C95.rooted [3, 4] [3] rfl (by decide) (by decide) (by decide) (by
    intro r hr
    simp only [C96.stmtE, List.tail_cons, List.mem_cons, List.not_mem_nil, or_false] at hr
    rcases hr with rfl | rfl <;> exact .root) (by decide) (by
    intro r hr hl n hn a e
    subst e
    simp only [lines, List.mem_cons, List.not_mem_nil, or_false] at hr
    rcases hr with rfl | rfl | rfl | rfl | rfl <;> simp_all) (by
    intro j r hr hl
    match j with
    | 0 | 1 | 2 => cases hr; simp at hl
    | 3 | 4 => simp
    | j + 5 => cases hr)

theorem lines_list : ListOf 0 1 3 3 lines.productions where
  ne := by decide
  root := rfl
  empty := by decide
  more := by decide
  only := by
    intro r hr hs
    simp only [lines, List.mem_cons, List.not_mem_nil, or_false] at hr
    rcases hr with rfl | rfl | rfl | rfl | rfl <;> simp_all
  once := by
    intro i j r hi hj hs
    match i, j with
    | 1, 1 | 2, 2 => rfl
    | 1, 2 | 2, 1 => cases hi; cases hj
    | 0, _ | 3, _ | 4, _ => cases hi; cases hs
    | i + 5, _ => cases hi
    | _, 0 | _, 3 | _, 4 => cases hj; cases hs
    | _, j + 5 => cases hj
  own := by
    intro r hr hl
    have : r.symbol = 3 := by
      generalize r.symbol = a at hl
      induction hl with
      | root => rfl
      | @step r a _ hr ha ih =>
        simp only [lines, List.mem_cons, List.not_mem_nil, or_false] at hr
        rcases hr with rfl | rfl | rfl | rfl | rfl <;> simp_all
    simp only [lines, List.mem_cons, List.not_mem_nil, or_false] at hr
    rcases hr with rfl | rfl | rfl | rfl | rfl <;> simp_all

theorem lines_productive : Productive lines.productions := by
  have hE : Derives lines.productions [.production 3] [6] :=
    .prod (r := ⟨3, [.terminal (.token 6)]⟩) (u := [6]) (w := []) (by decide) (.tok .nil) .nil
  have hX : Derives lines.productions [.production 1] [] :=
    .prod (r := ⟨1, [.terminal .epsilon]⟩) (u := []) (w := []) (by decide) (.eps .nil) .nil
  have hS : Derives lines.productions [.production 0] [] :=
    .prod (r := ⟨0, [.production 1]⟩) (u := []) (w := []) (by decide) hX .nil
  intro r hr
  simp only [lines, List.mem_cons, List.not_mem_nil, or_false] at hr
  rcases hr with rfl | rfl | rfl | rfl | rfl
  exacts [⟨_, hS⟩, ⟨_, hX⟩, ⟨_, hX⟩, ⟨_, hE⟩, ⟨_, hE⟩]

theorem lines_wellFormed : WellFormed lines := ⟨by unfold EpsilonLast; decide, by unfold NoEndMarker; decide⟩

/-- The hypotheses are met by `lines`. -/
example : ∃ N, ∀ fuel ≥ N, ∃ p, SimParser.new fuel lines = .ok p := by
  obtain ⟨p, hp⟩ := C95.parser_of_builds (g := C96.stmtE) (n := 20) (by decide +kernel)
  exact list_accepted_partial lines_wellFormed lines_productive rfl lines_list lines_rooted
    (C95.complete_of_stable (by decide +kernel)).actions hp

/-- The parser for `lines` accepts `i + i ; i ;`. -/
example : ∃ p N, SimParser.new 20 lines = .ok p ∧
    ∀ fuel ≥ N, (p.parseStream fuel [6, 7, 6, 3, 6, 3] : Outcome (LRTableError Nat Nat) _) = .ok true := by
  obtain ⟨p, hp⟩ := C95.parser_of_builds (g := lines) (n := 20) (by decide +kernel)
  have h6 : Derives lines.productions [.production 3] [6] :=
    .prod (r := ⟨3, [.terminal (.token 6)]⟩) (u := [6]) (w := []) (by decide) (.tok .nil) .nil
  have h676 : Derives lines.productions [.production 3] [6, 7, 6] :=
    .prod (r := ⟨3, [.production 3, .terminal (.token 7), .terminal (.token 6)]⟩) (u := [6, 7, 6]) (w := []) (by decide)
      (h6.append (.tok (.tok .nil))) .nil
  obtain ⟨b, N, h1, h2⟩ := list_decides_partial lines_wellFormed lines_list
    (C95.complete_of_stable (by decide +kernel)).actions hp [6, 7, 6, 3, 6, 3]
  cases h1.mpr (.snoc (v := [6, 7, 6, 3]) (.snoc (v := []) .nil h676) h6)
  exact ⟨p, N, hp, h2⟩

/-- `S -> X; X -> ! | X E +; E -> E + i | i`: the closing token is used below the item. -/
def clash : Grammar Nat Nat :=
  ⟨[⟨0, [.production 1]⟩, ⟨1, [.terminal .epsilon]⟩,
    ⟨1, [.production 1, .production 3, .terminal (.token 7)]⟩,
    ⟨3, [.production 3, .terminal (.token 7), .terminal (.token 6)]⟩,
    ⟨3, [.terminal (.token 6)]⟩]⟩

/-- That the closing token is not used below the item matters: `S -> E; E -> E + i | i` gets a parser, `clash` does not. -/
example : (∃ p, SimParser.new 20 C96.stmtE = .ok p) ∧ ∃ e, SimParser.new 20 clash = .err e := by
  refine ⟨C95.parser_of_builds (by decide +kernel), ?_⟩
  have h : (match SimParser.new 20 clash with | .err _ => true | _ => false) = true := by decide +kernel
  cases hx : SimParser.new 20 clash with
  | err e => exact ⟨e, rfl⟩
  | ok p => rw [hx] at h; cases h
  | panic => rw [hx] at h; cases h
  | ub => rw [hx] at h; cases h
  | timeout => rw [hx] at h; cases h

/-- `S -> X; X -> ! | X A y; E -> !; D -> E; C' -> D; C -> C'; A -> x B C c; B -> b; B -> Q; Q -> b`. -/
def loneList : Grammar Nat Nat :=
  ⟨[⟨0, [.production 1]⟩, ⟨1, [.terminal .epsilon]⟩, ⟨1, [.production 1, .production 2, .terminal (.token 9)]⟩,
    ⟨7, [.terminal .epsilon]⟩, ⟨6, [.production 7]⟩, ⟨5, [.production 6]⟩, ⟨4, [.production 5]⟩,
    ⟨2, [.terminal (.token 1), .production 3, .production 4, .terminal (.token 3)]⟩,
    ⟨3, [.terminal (.token 2)]⟩, ⟨3, [.production 8]⟩, ⟨8, [.terminal (.token 2)]⟩]⟩

theorem loneList_rooted : RootedAt (C95.numbering loneList.productions [7, 8, 9, 10, 6, 5, 4, 3]) 0 2 loneList.productions
    C95.loneA.productions :=
  C95.rooted [7, 8, 9, 10, 6, 5, 4, 3] [2, 3, 4, 5, 6, 7, 8] rfl (by decide) (by decide) (by decide) (by
    have h3 : Reachable loneList.productions 2 3 := .step (r :=
      ⟨2, [.terminal (.token 1), .production 3, .production 4, .terminal (.token 3)]⟩) .root (by decide) (by simp)
    have h4 : Reachable loneList.productions 2 4 := .step (r :=
      ⟨2, [.terminal (.token 1), .production 3, .production 4, .terminal (.token 3)]⟩) .root (by decide) (by simp)
    have h8 : Reachable loneList.productions 2 8 := .step (r := ⟨3, [.production 8]⟩) h3 (by decide) (by simp)
    have h5 : Reachable loneList.productions 2 5 := .step (r := ⟨4, [.production 5]⟩) h4 (by decide) (by simp)
    have h6 : Reachable loneList.productions 2 6 := .step (r := ⟨5, [.production 6]⟩) h5 (by decide) (by simp)
    have h7 : Reachable loneList.productions 2 7 := .step (r := ⟨6, [.production 7]⟩) h6 (by decide) (by simp)
    intro r hr
    simp only [C95.loneA, List.tail_cons, List.mem_cons, List.not_mem_nil, or_false] at hr
    rcases hr with rfl | rfl | rfl | rfl | rfl | rfl | rfl | rfl
    exacts [.root, h3, h3, h8, h4, h5, h6, h7]) (by decide) (by
    intro r hr hl n hn a e
    subst e
    simp only [loneList, List.mem_cons, List.not_mem_nil, or_false] at hr
    rcases hr with rfl | rfl | rfl | rfl | rfl | rfl | rfl | rfl | rfl | rfl | rfl <;> simp_all
    rcases hn with rfl | rfl <;> simp) (by
    intro j r hr hl
    match j with
    | 0 | 1 | 2 => cases hr; simp at hl
    | 3 | 4 | 5 | 6 | 7 | 8 | 9 | 10 => simp
    | j + 11 => cases hr)

theorem loneList_list : ListOf 0 1 2 9 loneList.productions where
  ne := by decide
  root := rfl
  empty := by decide
  more := by decide
  only := by
    intro r hr hs
    simp only [loneList, List.mem_cons, List.not_mem_nil, or_false] at hr
    rcases hr with rfl | rfl | rfl | rfl | rfl | rfl | rfl | rfl | rfl | rfl | rfl <;> simp_all
  once := by
    intro i j r hi hj hs
    match i, j with
    | 1, 1 | 2, 2 => rfl
    | 1, 2 | 2, 1 => cases hi; cases hj
    | 0, _ | 3, _ | 4, _ | 5, _ | 6, _ | 7, _ | 8, _ | 9, _ | 10, _ => cases hi; cases hs
    | i + 11, _ => cases hi
    | _, 0 | _, 3 | _, 4 | _, 5 | _, 6 | _, 7 | _, 8 | _, 9 | _, 10 => cases hj; cases hs
    | _, j + 11 => cases hj
  own := by
    intro r hr hl
    have : r.symbol ≠ 1 ∧ r.symbol ≠ 0 := by
      generalize r.symbol = a at hl
      induction hl with
      | root => decide
      | @step r a _ hr ha ih =>
        simp only [loneList, List.mem_cons, List.not_mem_nil, or_false] at hr
        rcases hr with rfl | rfl | rfl | rfl | rfl | rfl | rfl | rfl | rfl | rfl | rfl <;> simp_all
        rcases ha with rfl | rfl <;> simp
    simp only [loneList, List.mem_cons, List.not_mem_nil, or_false] at hr
    rcases hr with rfl | rfl | rfl | rfl | rfl | rfl | rfl | rfl | rfl | rfl | rfl <;> simp_all

theorem loneList_productive : Productive loneList.productions := by
  have h7 : Derives loneList.productions [.production 7] [] :=
    .prod (r := ⟨7, [.terminal .epsilon]⟩) (u := []) (w := []) (by decide) (.eps .nil) .nil
  have h6 : Derives loneList.productions [.production 6] [] :=
    .prod (r := ⟨6, [.production 7]⟩) (u := []) (w := []) (by decide) h7 .nil
  have h5 : Derives loneList.productions [.production 5] [] :=
    .prod (r := ⟨5, [.production 6]⟩) (u := []) (w := []) (by decide) h6 .nil
  have h4 : Derives loneList.productions [.production 4] [] :=
    .prod (r := ⟨4, [.production 5]⟩) (u := []) (w := []) (by decide) h5 .nil
  have h8 : Derives loneList.productions [.production 8] [2] :=
    .prod (r := ⟨8, [.terminal (.token 2)]⟩) (u := [2]) (w := []) (by decide) (.tok .nil) .nil
  have h3 : Derives loneList.productions [.production 3] [2] :=
    .prod (r := ⟨3, [.terminal (.token 2)]⟩) (u := [2]) (w := []) (by decide) (.tok .nil) .nil
  have h2 : Derives loneList.productions [.production 2] [1, 2, 3] :=
    .prod (r := ⟨2, [.terminal (.token 1), .production 3, .production 4, .terminal (.token 3)]⟩) (u := [1, 2, 3]) (w := [])
      (by decide) (.tok (h3.append (h4.append (.tok .nil)))) .nil
  have h1 : Derives loneList.productions [.production 1] [] :=
    .prod (r := ⟨1, [.terminal .epsilon]⟩) (u := []) (w := []) (by decide) (.eps .nil) .nil
  have h0 : Derives loneList.productions [.production 0] [] :=
    .prod (r := ⟨0, [.production 1]⟩) (u := []) (w := []) (by decide) h1 .nil
  intro r hr
  simp only [loneList, List.mem_cons, List.not_mem_nil, or_false] at hr
  rcases hr with rfl | rfl | rfl | rfl | rfl | rfl | rfl | rfl | rfl | rfl | rfl
  exacts [⟨_, h0⟩, ⟨_, h1⟩, ⟨_, h1⟩, ⟨_, h7⟩, ⟨_, h6⟩, ⟨_, h5⟩, ⟨_, h4⟩, ⟨_, h2⟩, ⟨_, h3⟩, ⟨_, h3⟩, ⟨_, h8⟩]

/-- **C97 is false in general.** The grammar of the items of `loneList` gets a parser, but for `loneList` itself a conflict
is reported. -/
theorem list_accepted_refuted : WellFormed loneList ∧ Productive loneList.productions ∧
    (∃ ig, IndexedGrammar.build loneList = .ok ig) ∧ ListOf 0 1 2 9 loneList.productions ∧
    (∃ ρ s g' n p', RootedAt ρ s 2 loneList.productions g'.productions ∧ SimParser.new n g' = .ok p') ∧
    ∃ e, SimParser.new 30 loneList = .err e := by
  refine ⟨⟨by unfold EpsilonLast; decide, by unfold NoEndMarker; decide⟩, loneList_productive, ⟨_, rfl⟩, loneList_list, ?_,
    ?_⟩
  · obtain ⟨p, hp⟩ := C95.parser_of_builds (g := C95.loneA) (n := 30) (by decide +kernel)
    exact ⟨_, _, _, _, p, loneList_rooted, hp⟩
  · have h : (match SimParser.new 30 loneList with | .err _ => true | _ => false) = true := by decide +kernel
    cases hx : SimParser.new 30 loneList with
    | err e => exact ⟨e, rfl⟩
    | ok p => rw [hx] at h; cases h
    | panic => rw [hx] at h; cases h
    | ub => rw [hx] at h; cases h
    | timeout => rw [hx] at h; cases h

end Verif.C97
