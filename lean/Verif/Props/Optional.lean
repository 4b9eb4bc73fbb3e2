import Verif.Proof.Optional
import Verif.Props.RightList

/-!
# C103: making something optional
-/

set_option linter.unusedSectionVars false
set_option autoImplicit false

namespace Verif.C103

open Spec

section
variable {T L : Type} [DecidableEq T] [DecidableEq L] {g g' : Grammar T L} {ig : IndexedGrammar T L} {S X l : L}

theorem nonempty (h : Optional S X l g.productions) : ∃ rest, g.productions = ⟨S, [.production X]⟩ :: rest := by
  have := h.root
  cases e : g.productions with
  | nil => rw [e] at this; cases this
  | cons r rest => rw [e] at this; cases this; exact ⟨rest, rfl⟩

theorem reachable (h : Optional S X l g.productions) : Reachable g.productions S l :=
  .step (r := ⟨X, [.production l]⟩)
    (.step (r := ⟨S, [.production X]⟩) .root (List.mem_of_getElem? h.root) (by simp)) h.one (by simp)

/-- **C103.** The language is that of the label, and the empty sequence. -/
theorem language_iff (h : Optional S X l g.productions) (hi : IndexedGrammar.build g = .ok ig) (w : List T) :
    Language g w ↔ w = [] ∨ Derives g.productions [.production l] w := by
  obtain ⟨rest, e⟩ := nonempty h
  rw [← h.derives_iff (C81.rootOnce hi)]
  constructor
  · rintro ⟨root, rest', e', hd⟩
    rw [e] at e'
    cases e'
    exact hd
  · exact fun hd => ⟨_, _, e, hd⟩

/-- **C103.** The grammar in which the label is optional is LR(1) if and only if the grammar of the label is and the label
does not derive the empty sequence. -/
theorem lr1_iff {ρ : Nat → Nat} {s : L} {P' : List (Rule T L)} (hp : Productive g.productions) (hne : NoEndMarker g)
    (hi : IndexedGrammar.build g = .ok ig) (h : Optional S X l g.productions) (hr : RootedAt ρ s l g.productions P') :
    ¬ NotLR1 g.productions ↔ ¬ NotLR1 P' ∧ ¬ Derives g.productions [.production l] [] := by
  constructor
  · intro hl
    refine ⟨fun hn => ?_, fun h0 => hl (h.nullable h0)⟩
    obtain ⟨rest, e⟩ := nonempty h
    obtain ⟨is, δ, z, hform⟩ := reachable_form (C81.nodesProductive hi hne hp) (reachable h)
    exact hl (hr.notLR1 (C82.new_ne (g' := ⟨P'⟩) hi e (reachable h) hr) (C81.rootUnused hi hp) h.root hform hn)
  · exact fun hn => h.lr1 (C81.rootOnce hi) hr hn.1 hn.2

/-- **C103, partial.** If the grammar of the label gets a parser and the label does not derive the empty sequence, then the
grammar in which it is optional gets a parser. (Missing: grammars with missing actions, for which this is false.) -/
theorem optional_accepted_partial {ρ : Nat → Nat} {s : L} {n : Nat} {p' : SimParser T L} (hg : WellFormed g)
    (hp : Productive g.productions) (hi : IndexedGrammar.build g = .ok ig) (h : Optional S X l g.productions)
    (hr : RootedAt ρ s l g.productions g'.productions) (hc : C07.ActionsComplete g') (hn : SimParser.new n g' = .ok p')
    (h0 : ¬ Derives g.productions [.production l] []) : ∃ N, ∀ fuel ≥ N, ∃ p, SimParser.new fuel g = .ok p := by
  obtain ⟨rest, e⟩ := nonempty h
  obtain ⟨hi', ht'⟩ := new_ok hn
  obtain ⟨N, hN⟩ := C81.lr1_gets_table hg hp hi (h.lr1 (C81.rootOnce hi) hr
    (C81.table_is_lr1_partial (C82.wellFormed hg hr) (C82.productive hi hp e (reachable h) hr) hi' hc ht') h0)
  refine ⟨N, fun fuel hf => ?_⟩
  obtain ⟨t, ht⟩ := hN fuel hf
  exact ⟨⟨ig, t⟩, by simp [SimParser.new, hi, ht]⟩

/-- **C103, partial.** If the label derives the empty sequence, then the grammar in which it is optional gets no parser.
(Missing: grammars with missing actions, for which this is false.) -/
theorem nullable_refused_partial (hg : WellFormed g) (hp : Productive g.productions) (h : Optional S X l g.productions)
    (hc : C07.ActionsComplete g) (h0 : Derives g.productions [.production l] []) (n : Nat) (p : SimParser T L) :
    SimParser.new n g ≠ .ok p := by
  intro hn
  obtain ⟨hi, ht⟩ := new_ok hn
  exact C81.table_is_lr1_partial hg hp hi hc ht (h.nullable h0)

/-- **C103.** What the parser accepts is the empty sequence or derived from the label. -/
theorem accepts_only {p : SimParser T L} {n m : Nat} (hg : WellFormed g) (h : Optional S X l g.productions)
    (hn : SimParser.new n g = .ok p) (w : List T) (ha : (p.parseStream m w : Outcome (LRTableError T L) _) = .ok true) :
    w = [] ∨ Derives g.productions [.production l] w :=
  (language_iff h (new_ok hn).1 w).mp (C01.accepts_only_sentences g p n m w hg hn ha)

/-- **C103, partial.** The parser accepts just the empty sequence and what is derived from the label. (Missing: grammars with
missing actions.) -/
theorem optional_decides_partial {p : SimParser T L} {n : Nat} (hg : WellFormed g) (h : Optional S X l g.productions)
    (hc : C07.ActionsComplete g) (hn : SimParser.new n g = .ok p) (w : List T) :
    ∃ b N, (b = true ↔ w = [] ∨ Derives g.productions [.production l] w) ∧
      ∀ fuel ≥ N, (p.parseStream fuel w : Outcome (LRTableError T L) _) = .ok b := by
  obtain ⟨b, N, h1, h2⟩ := C44.trailing_epsilon_partial g p n w hg hc hn
  exact ⟨b, N, h1.trans (language_iff h (new_ok hn).1 w), h2⟩

/-- **C103 with the change of C88.** If the grammar of the label gets a parser, then the grammar in which it is optional gets
one if and only if the label does not derive the empty sequence, and this parser accepts just the empty sequence and what is
derived from the label. -/
theorem optional_repaired {ρ : Nat → Nat} {s : L} {n : Nat} {p' : SimParser T L} (hg : WellFormed g)
    (hp : Productive g.productions) (hi : IndexedGrammar.build g = .ok ig) (h : Optional S X l g.productions)
    (hr : RootedAt ρ s l g.productions g'.productions) (hn : SimParser.newRepaired n g' = .ok p') :
    (Derives g.productions [.production l] [] → ∀ m p, SimParser.newRepaired m g ≠ .ok p) ∧
    (¬ Derives g.productions [.production l] [] → ∃ N, ∀ fuel ≥ N, ∃ p, SimParser.newRepaired fuel g = .ok p ∧
      ∀ w, ∃ b N', (∀ m ≥ N', (p.parseStream m w : Outcome (LRTableError T L) _) = .ok b) ∧
        (b = true ↔ w = [] ∨ Derives g.productions [.production l] w)) := by
  obtain ⟨rest, e⟩ := nonempty h
  refine ⟨fun h0 m p hm => C95.repaired_is_lr1 hg hp hm (h.nullable h0), fun h0 => ?_⟩
  obtain ⟨N, hN⟩ := C88.lr1_parser hg hp hi (h.lr1 (C81.rootOnce hi) hr
    (C95.repaired_is_lr1 (C82.wellFormed hg hr) (C82.productive hi hp e (reachable h) hr) hn) h0)
  refine ⟨N, fun fuel hf => ?_⟩
  obtain ⟨p, h1, h2⟩ := hN fuel hf
  refine ⟨p, h1, fun w => ?_⟩
  obtain ⟨b, N', h3, h4⟩ := h2 w
  exact ⟨b, N', h3, h4.trans (language_iff h hi w)⟩

end

/-! ## Concrete cases -/

/-- `S -> X; X -> ! | E; E -> E + i | i`. -/
def maybe : Grammar Nat Nat :=
  ⟨[⟨0, [.production 1]⟩, ⟨1, [.terminal .epsilon]⟩, ⟨1, [.production 3]⟩,
    ⟨3, [.production 3, .terminal (.token 7), .terminal (.token 6)]⟩,
    ⟨3, [.terminal (.token 6)]⟩]⟩

theorem maybe_rooted : RootedAt (C95.numbering maybe.productions [3, 4]) 0 3 maybe.productions C96.stmtE.productions :=
  C95.rooted [3, 4] [3] rfl (by decide) (by decide) (by decide) (by
    intro r hr
    simp only [C96.stmtE, List.tail_cons, List.mem_cons, List.not_mem_nil, or_false] at hr
    rcases hr with rfl | rfl <;> exact .root) (by decide) (by
    intro r hr hl n hn a e
    subst e
    simp only [maybe, List.mem_cons, List.not_mem_nil, or_false] at hr
    rcases hr with rfl | rfl | rfl | rfl | rfl <;> simp_all) (by
    intro j r hr hl
    match j with
    | 0 | 1 | 2 => cases hr; simp at hl
    | 3 | 4 => simp
    | j + 5 => cases hr)

theorem maybe_optional : Optional 0 1 3 maybe.productions where
  ne := by decide
  root := rfl
  empty := by decide
  one := by decide
  only := by
    intro r hr hs
    simp only [maybe, List.mem_cons, List.not_mem_nil, or_false] at hr
    rcases hr with rfl | rfl | rfl | rfl | rfl <;> simp_all
  once := by
    intro i j r hi hj hs
    match i, j with
    | 1, 1 | 2, 2 => rfl
    | 1, 2 | 2, 1 => cases hi; cases hj
    | 0, _ | 3, _ | 4, _ => cases hi; cases hs
    | i + 5, _ => cases hi
    | _, 0 | _, 3 | _, 4 => cases hj; cases hs
    | _, j + 5 => cases hj
  own := by
    intro hl
    have : ∀ a, Reachable maybe.productions 3 a → a = 3 := by
      intro a hl
      induction hl with
      | root => rfl
      | @step r a _ hr ha ih =>
        simp only [maybe, List.mem_cons, List.not_mem_nil, or_false] at hr
        rcases hr with rfl | rfl | rfl | rfl | rfl <;> simp_all
    cases this 1 hl

theorem maybe_productive : Productive maybe.productions := by
  have hE : Derives maybe.productions [.production 3] [6] :=
    .prod (r := ⟨3, [.terminal (.token 6)]⟩) (u := [6]) (w := []) (by decide) (.tok .nil) .nil
  have hX : Derives maybe.productions [.production 1] [6] :=
    .prod (r := ⟨1, [.production 3]⟩) (u := [6]) (w := []) (by decide) hE .nil
  have hS : Derives maybe.productions [.production 0] [6] :=
    .prod (r := ⟨0, [.production 1]⟩) (u := [6]) (w := []) (by decide) hX .nil
  intro r hr
  simp only [maybe, List.mem_cons, List.not_mem_nil, or_false] at hr
  rcases hr with rfl | rfl | rfl | rfl | rfl
  exacts [⟨_, hS⟩, ⟨_, hX⟩, ⟨_, hX⟩, ⟨_, hE⟩, ⟨_, hE⟩]

theorem maybe_wellFormed : WellFormed maybe := ⟨by unfold EpsilonLast; decide, by unfold NoEndMarker; decide⟩

theorem maybe_not_null : ¬ Derives maybe.productions [.production 3] [] := by
  have key : ∀ {α w}, Derives maybe.productions α w → .production 3 ∈ α → w ≠ [] := by
    intro α w h
    induction h with
    | nil => simp
    | tok => simp
    | eps _ ih => intro hm; exact ih (by simpa using hm)
    | @prod r α u w hr h1 h2 ih1 ih2 =>
      intro hm e
      obtain ⟨rfl, rfl⟩ := List.append_eq_nil_iff.mp e
      rcases List.mem_cons.mp hm with hm | hm
      · simp only [Node.production.injEq] at hm
        simp only [maybe, List.mem_cons, List.not_mem_nil, or_false] at hr
        rcases hr with rfl | rfl | rfl | rfl | rfl <;> simp at hm
        · exact ih1 (by simp) rfl
        · cases h1
      · exact ih2 hm rfl
  exact fun h => key h (by simp) rfl

/-- The hypotheses are met by `maybe`. -/
example : ∃ N, ∀ fuel ≥ N, ∃ p, SimParser.new fuel maybe = .ok p := by
  obtain ⟨p, hp⟩ := C95.parser_of_builds (g := C96.stmtE) (n := 20) (by decide +kernel)
  exact optional_accepted_partial maybe_wellFormed maybe_productive rfl maybe_optional maybe_rooted
    (C95.complete_of_stable (by decide +kernel)).actions hp maybe_not_null

/-- The parser for `maybe` accepts `i` and nothing. -/
example : ∃ p N, SimParser.new 20 maybe = .ok p ∧
    ∀ fuel ≥ N, (p.parseStream fuel [6] : Outcome (LRTableError Nat Nat) _) = .ok true ∧
      (p.parseStream fuel [] : Outcome (LRTableError Nat Nat) _) = .ok true := by
  obtain ⟨p, hp⟩ := C95.parser_of_builds (g := maybe) (n := 20) (by decide +kernel)
  have h6 : Derives maybe.productions [.production 3] [6] :=
    .prod (r := ⟨3, [.terminal (.token 6)]⟩) (u := [6]) (w := []) (by decide) (.tok .nil) .nil
  have hc : C07.ActionsComplete maybe := (C95.complete_of_stable (by decide +kernel)).actions
  obtain ⟨b, N, h1, h2⟩ := optional_decides_partial maybe_wellFormed maybe_optional hc hp [6]
  obtain ⟨b', N', h1', h2'⟩ := optional_decides_partial maybe_wellFormed maybe_optional hc hp []
  cases h1.mpr (.inr h6)
  cases h1'.mpr (.inl rfl)
  exact ⟨p, max N N', hp, fun fuel hf => ⟨h2 fuel (by omega), h2' fuel (by omega)⟩⟩

/-- `S -> X; X -> ! | A; A -> B C; B -> !; C -> D; D -> E; E -> !`. -/
def hidden : Grammar Nat Nat :=
  ⟨[⟨0, [.production 1]⟩, ⟨1, [.terminal .epsilon]⟩, ⟨1, [.production 2]⟩, ⟨2, [.production 3, .production 4]⟩,
    ⟨3, [.terminal .epsilon]⟩, ⟨4, [.production 5]⟩, ⟨5, [.production 6]⟩, ⟨6, [.terminal .epsilon]⟩]⟩

theorem hidden_optional : Optional 0 1 2 hidden.productions where
  ne := by decide
  root := rfl
  empty := by decide
  one := by decide
  only := by
    intro r hr hs
    simp only [hidden, List.mem_cons, List.not_mem_nil, or_false] at hr
    rcases hr with rfl | rfl | rfl | rfl | rfl | rfl | rfl | rfl <;> simp_all
  once := by
    intro i j r hi hj hs
    match i, j with
    | 1, 1 | 2, 2 => rfl
    | 1, 2 | 2, 1 => cases hi; cases hj
    | 0, _ | 3, _ | 4, _ | 5, _ | 6, _ | 7, _ => cases hi; cases hs
    | i + 8, _ => cases hi
    | _, 0 | _, 3 | _, 4 | _, 5 | _, 6 | _, 7 => cases hj; cases hs
    | _, j + 8 => cases hj
  own := by
    intro hl
    have : ∀ a, Reachable hidden.productions 2 a → a ≠ 1 ∧ a ≠ 0 := by
      intro a hl
      induction hl with
      | root => decide
      | @step r a _ hr ha ih =>
        simp only [hidden, List.mem_cons, List.not_mem_nil, or_false] at hr
        rcases hr with rfl | rfl | rfl | rfl | rfl | rfl | rfl | rfl <;> simp_all
        rcases ha with rfl | rfl <;> simp
    exact (this 1 hl).1 rfl

theorem hidden_derives : Derives hidden.productions [.production 2] [] ∧ Productive hidden.productions := by
  have h6 : Derives hidden.productions [.production 6] [] :=
    .prod (r := ⟨6, [.terminal .epsilon]⟩) (u := []) (w := []) (by decide) (.eps .nil) .nil
  have h5 : Derives hidden.productions [.production 5] [] :=
    .prod (r := ⟨5, [.production 6]⟩) (u := []) (w := []) (by decide) h6 .nil
  have h4 : Derives hidden.productions [.production 4] [] :=
    .prod (r := ⟨4, [.production 5]⟩) (u := []) (w := []) (by decide) h5 .nil
  have h3 : Derives hidden.productions [.production 3] [] :=
    .prod (r := ⟨3, [.terminal .epsilon]⟩) (u := []) (w := []) (by decide) (.eps .nil) .nil
  have h2 : Derives hidden.productions [.production 2] [] :=
    .prod (r := ⟨2, [.production 3, .production 4]⟩) (u := []) (w := []) (by decide) (h3.append h4) .nil
  have h1 : Derives hidden.productions [.production 1] [] :=
    .prod (r := ⟨1, [.terminal .epsilon]⟩) (u := []) (w := []) (by decide) (.eps .nil) .nil
  have h0 : Derives hidden.productions [.production 0] [] :=
    .prod (r := ⟨0, [.production 1]⟩) (u := []) (w := []) (by decide) h1 .nil
  refine ⟨h2, fun r hr => ?_⟩
  simp only [hidden, List.mem_cons, List.not_mem_nil, or_false] at hr
  rcases hr with rfl | rfl | rfl | rfl | rfl | rfl | rfl | rfl
  exacts [⟨_, h0⟩, ⟨_, h1⟩, ⟨_, h1⟩, ⟨_, h2⟩, ⟨_, h3⟩, ⟨_, h4⟩, ⟨_, h5⟩, ⟨_, h6⟩]

/-- **C103 is false in general, first part.** In `hidden` something that may be empty is made optional, and the grammar gets a
parser all the same. -/
theorem nullable_refused_refuted : WellFormed hidden ∧ Productive hidden.productions ∧ Optional 0 1 2 hidden.productions ∧
    Derives hidden.productions [.production 2] [] ∧ ∃ p, SimParser.new 20 hidden = .ok p :=
  ⟨⟨by unfold EpsilonLast; decide, by unfold NoEndMarker; decide⟩, hidden_derives.2, hidden_optional, hidden_derives.1,
    C95.parser_of_builds (by decide +kernel)⟩

/-- `S -> X; X -> ! | A; A -> ! | a`. -/
def twice : Grammar Nat Nat :=
  ⟨[⟨0, [.production 1]⟩, ⟨1, [.terminal .epsilon]⟩, ⟨1, [.production 2]⟩, ⟨2, [.terminal .epsilon]⟩,
    ⟨2, [.terminal (.token 5)]⟩]⟩

theorem twice_optional : Optional 0 1 2 twice.productions where
  ne := by decide
  root := rfl
  empty := by decide
  one := by decide
  only := by
    intro r hr hs
    simp only [twice, List.mem_cons, List.not_mem_nil, or_false] at hr
    rcases hr with rfl | rfl | rfl | rfl | rfl <;> simp_all
  once := by
    intro i j r hi hj hs
    match i, j with
    | 1, 1 | 2, 2 => rfl
    | 1, 2 | 2, 1 => cases hi; cases hj
    | 0, _ | 3, _ | 4, _ => cases hi; cases hs
    | i + 5, _ => cases hi
    | _, 0 | _, 3 | _, 4 => cases hj; cases hs
    | _, j + 5 => cases hj
  own := by
    intro hl
    have : ∀ a, Reachable twice.productions 2 a → a = 2 := by
      intro a hl
      induction hl with
      | root => rfl
      | @step r a _ hr ha ih =>
        simp only [twice, List.mem_cons, List.not_mem_nil, or_false] at hr
        rcases hr with rfl | rfl | rfl | rfl | rfl <;> simp_all
    cases this 1 hl

/-- The hypotheses of `nullable_refused_partial` are met by `twice`. -/
example : ∀ n p, SimParser.new n twice ≠ .ok p := by
  have h2 : Derives twice.productions [.production 2] [] :=
    .prod (r := ⟨2, [.terminal .epsilon]⟩) (u := []) (w := []) (by decide) (.eps .nil) .nil
  have h1 : Derives twice.productions [.production 1] [] :=
    .prod (r := ⟨1, [.terminal .epsilon]⟩) (u := []) (w := []) (by decide) (.eps .nil) .nil
  have h0 : Derives twice.productions [.production 0] [] :=
    .prod (r := ⟨0, [.production 1]⟩) (u := []) (w := []) (by decide) h1 .nil
  refine fun n p => nullable_refused_partial ⟨by unfold EpsilonLast; decide, by unfold NoEndMarker; decide⟩ ?_ twice_optional
    (C95.complete_of_stable (by decide +kernel)).actions h2 n p
  intro r hr
  simp only [twice, List.mem_cons, List.not_mem_nil, or_false] at hr
  rcases hr with rfl | rfl | rfl | rfl | rfl
  exacts [⟨_, h0⟩, ⟨_, h1⟩, ⟨_, h1⟩, ⟨_, h2⟩, ⟨_, h2⟩]

/-- `S -> X; X -> ! | A; E -> !; D -> E; C' -> D; C -> C'; A -> x B C c; B -> b; B -> Q; Q -> b`. -/
def loneOpt : Grammar Nat Nat :=
  ⟨[⟨0, [.production 1]⟩, ⟨1, [.terminal .epsilon]⟩, ⟨1, [.production 2]⟩,
    ⟨7, [.terminal .epsilon]⟩, ⟨6, [.production 7]⟩, ⟨5, [.production 6]⟩, ⟨4, [.production 5]⟩,
    ⟨2, [.terminal (.token 1), .production 3, .production 4, .terminal (.token 3)]⟩,
    ⟨3, [.terminal (.token 2)]⟩, ⟨3, [.production 8]⟩, ⟨8, [.terminal (.token 2)]⟩]⟩

theorem loneOpt_rooted : RootedAt (C95.numbering loneOpt.productions [7, 8, 9, 10, 6, 5, 4, 3]) 0 2 loneOpt.productions
    C95.loneA.productions :=
  C95.rooted [7, 8, 9, 10, 6, 5, 4, 3] [2, 3, 4, 5, 6, 7, 8] rfl (by decide) (by decide) (by decide) (by
    have h3 : Reachable loneOpt.productions 2 3 := .step (r :=
      ⟨2, [.terminal (.token 1), .production 3, .production 4, .terminal (.token 3)]⟩) .root (by decide) (by simp)
    have h4 : Reachable loneOpt.productions 2 4 := .step (r :=
      ⟨2, [.terminal (.token 1), .production 3, .production 4, .terminal (.token 3)]⟩) .root (by decide) (by simp)
    have h8 : Reachable loneOpt.productions 2 8 := .step (r := ⟨3, [.production 8]⟩) h3 (by decide) (by simp)
    have h5 : Reachable loneOpt.productions 2 5 := .step (r := ⟨4, [.production 5]⟩) h4 (by decide) (by simp)
    have h6 : Reachable loneOpt.productions 2 6 := .step (r := ⟨5, [.production 6]⟩) h5 (by decide) (by simp)
    have h7 : Reachable loneOpt.productions 2 7 := .step (r := ⟨6, [.production 7]⟩) h6 (by decide) (by simp)
    intro r hr
    simp only [C95.loneA, List.tail_cons, List.mem_cons, List.not_mem_nil, or_false] at hr
    rcases hr with rfl | rfl | rfl | rfl | rfl | rfl | rfl | rfl
    exacts [.root, h3, h3, h8, h4, h5, h6, h7]) (by decide) (by
    intro r hr hl n hn a e
    subst e
    simp only [loneOpt, List.mem_cons, List.not_mem_nil, or_false] at hr
    rcases hr with rfl | rfl | rfl | rfl | rfl | rfl | rfl | rfl | rfl | rfl | rfl <;> simp_all
    rcases hn with rfl | rfl <;> simp) (by
    intro j r hr hl
    match j with
    | 0 | 1 | 2 => cases hr; simp at hl
    | 3 | 4 | 5 | 6 | 7 | 8 | 9 | 10 => simp
    | j + 11 => cases hr)

theorem loneOpt_optional : Optional 0 1 2 loneOpt.productions where
  ne := by decide
  root := rfl
  empty := by decide
  one := by decide
  only := by
    intro r hr hs
    simp only [loneOpt, List.mem_cons, List.not_mem_nil, or_false] at hr
    rcases hr with rfl | rfl | rfl | rfl | rfl | rfl | rfl | rfl | rfl | rfl | rfl <;> simp_all
  once := by
    intro i j r hi hj hs
    match i, j with
    | 1, 1 | 2, 2 => rfl
    | 1, 2 | 2, 1 => cases hi; cases hj
    | 0, _ | 3, _ | 4, _ | 5, _ | 6, _ | 7, _ | 8, _ | 9, _ | 10, _ => cases hi; cases hs
    | i + 11, _ => cases hi
    | _, 0 | _, 3 | _, 4 | _, 5 | _, 6 | _, 7 | _, 8 | _, 9 | _, 10 => cases hj; cases hs
    | _, j + 11 => cases hj
  own := by
    intro hl
    have : ∀ a, Reachable loneOpt.productions 2 a → a ≠ 1 ∧ a ≠ 0 := by
      intro a hl
      induction hl with
      | root => decide
      | @step r a _ hr ha ih =>
        simp only [loneOpt, List.mem_cons, List.not_mem_nil, or_false] at hr
        rcases hr with rfl | rfl | rfl | rfl | rfl | rfl | rfl | rfl | rfl | rfl | rfl <;> simp_all
        rcases ha with rfl | rfl <;> simp
    exact (this 1 hl).1 rfl

theorem loneOpt_productive : Productive loneOpt.productions := by
  have h7 : Derives loneOpt.productions [.production 7] [] :=
    .prod (r := ⟨7, [.terminal .epsilon]⟩) (u := []) (w := []) (by decide) (.eps .nil) .nil
  have h6 : Derives loneOpt.productions [.production 6] [] :=
    .prod (r := ⟨6, [.production 7]⟩) (u := []) (w := []) (by decide) h7 .nil
  have h5 : Derives loneOpt.productions [.production 5] [] :=
    .prod (r := ⟨5, [.production 6]⟩) (u := []) (w := []) (by decide) h6 .nil
  have h4 : Derives loneOpt.productions [.production 4] [] :=
    .prod (r := ⟨4, [.production 5]⟩) (u := []) (w := []) (by decide) h5 .nil
  have h8 : Derives loneOpt.productions [.production 8] [2] :=
    .prod (r := ⟨8, [.terminal (.token 2)]⟩) (u := [2]) (w := []) (by decide) (.tok .nil) .nil
  have h3 : Derives loneOpt.productions [.production 3] [2] :=
    .prod (r := ⟨3, [.terminal (.token 2)]⟩) (u := [2]) (w := []) (by decide) (.tok .nil) .nil
  have h2 : Derives loneOpt.productions [.production 2] [1, 2, 3] :=
    .prod (r := ⟨2, [.terminal (.token 1), .production 3, .production 4, .terminal (.token 3)]⟩) (u := [1, 2, 3]) (w := [])
      (by decide) (.tok (h3.append (h4.append (.tok .nil)))) .nil
  have h1 : Derives loneOpt.productions [.production 1] [1, 2, 3] :=
    .prod (r := ⟨1, [.production 2]⟩) (u := [1, 2, 3]) (w := []) (by decide) h2 .nil
  have h0 : Derives loneOpt.productions [.production 0] [1, 2, 3] :=
    .prod (r := ⟨0, [.production 1]⟩) (u := [1, 2, 3]) (w := []) (by decide) h1 .nil
  intro r hr
  simp only [loneOpt, List.mem_cons, List.not_mem_nil, or_false] at hr
  rcases hr with rfl | rfl | rfl | rfl | rfl | rfl | rfl | rfl | rfl | rfl | rfl
  exacts [⟨_, h0⟩, ⟨_, h1⟩, ⟨_, h1⟩, ⟨_, h7⟩, ⟨_, h6⟩, ⟨_, h5⟩, ⟨_, h4⟩, ⟨_, h2⟩, ⟨_, h3⟩, ⟨_, h3⟩, ⟨_, h8⟩]

theorem loneOpt_not_null : ¬ Derives loneOpt.productions [.production 2] [] := by
  intro h
  obtain ⟨r, u, v, hr, hs, e, h1, -⟩ := derives_prod_inv h
  obtain ⟨rfl, -⟩ := List.append_eq_nil_iff.mp e.symm
  simp only [loneOpt, List.mem_cons, List.not_mem_nil, or_false] at hr
  rcases hr with rfl | rfl | rfl | rfl | rfl | rfl | rfl | rfl | rfl | rfl | rfl <;> simp at hs
  cases h1

/-- **C103 is false in general, second part.** The grammar of `A` gets a parser and `A` does not derive the empty sequence,
but for `loneOpt` a conflict is reported. -/
theorem optional_accepted_refuted : WellFormed loneOpt ∧ Productive loneOpt.productions ∧
    (∃ ig, IndexedGrammar.build loneOpt = .ok ig) ∧ Optional 0 1 2 loneOpt.productions ∧
    ¬ Derives loneOpt.productions [.production 2] [] ∧
    (∃ ρ s g' n p', RootedAt ρ s 2 loneOpt.productions g'.productions ∧ SimParser.new n g' = .ok p') ∧
    ∃ e, SimParser.new 30 loneOpt = .err e := by
  refine ⟨⟨by unfold EpsilonLast; decide, by unfold NoEndMarker; decide⟩, loneOpt_productive, ⟨_, rfl⟩, loneOpt_optional,
    loneOpt_not_null, ?_, ?_⟩
  · obtain ⟨p, hp⟩ := C95.parser_of_builds (g := C95.loneA) (n := 30) (by decide +kernel)
    exact ⟨_, _, _, _, p, loneOpt_rooted, hp⟩
  · have h : (match SimParser.new 30 loneOpt with | .err _ => true | _ => false) = true := by decide +kernel
    cases hx : SimParser.new 30 loneOpt with
    | err e => exact ⟨e, rfl⟩
    | ok p => rw [hx] at h; cases h
    | panic => rw [hx] at h; cases h
    | ub => rw [hx] at h; cases h
    | timeout => rw [hx] at h; cases h

end Verif.C103
