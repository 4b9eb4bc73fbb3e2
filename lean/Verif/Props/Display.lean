import Verif.Proof.Display
import Verif.Props.Table

/-!
# C57: printed tables
-/

set_option linter.unusedSectionVars false
set_option autoImplicit false

namespace Verif.C57
open Spec.TableText

variable {T L : Type} [DecidableEq T] [DecidableEq L] {g : Grammar T L} {ig : IndexedGrammar T L} {fuel : Nat}
  {t : LRTable} {ε : Type}

/-- The sizes of a built table. -/
theorem sizes (hg : IndexedGrammar.build g = .ok ig) (hb : LRTable.build fuel ig = .ok t) :
    0 < t.numStates ∧ 0 < ig.vocab.size ∧ 0 < ig.labelsCount ∧
    t.actionTable.length = ig.vocab.size * t.numStates ∧ t.gotoTable.length = ig.labelsCount * t.numStates := by
  obtain ⟨h1, h2, h3, -⟩ := C14.table_well_formed g ig fuel t hg hb
  exact ⟨h3, by simp [Vocab.size], (IndexedGrammar.build_ok hg).1.wf.pos, by rw [h1, Nat.mul_comm],
    by rw [h2, Nat.mul_comm]⟩

/-- **C57.** Printing a built table does not panic, and the table can be read from the text. -/
theorem print_read (hg : IndexedGrammar.build g = .ok ig) (hb : LRTable.build fuel ig = .ok t) :
    ∃ text, (Display.table t : Outcome ε _) = .ok text ∧ readTable ig.vocab.size text = some t := by
  obtain ⟨h1, h2, h3, h4, h5⟩ := sizes hg hb
  exact Display.read_table h1 h2 h3 h4 h5

/-- **C57.** Tables for vocabularies of the same size are equal if they are printed alike. -/
theorem print_injective {g' : Grammar T L} {ig' : IndexedGrammar T L} {fuel' : Nat} {t' : LRTable}
    (hg : IndexedGrammar.build g = .ok ig) (hb : LRTable.build fuel ig = .ok t)
    (hg' : IndexedGrammar.build g' = .ok ig') (hb' : LRTable.build fuel' ig' = .ok t')
    (hv : ig.vocab.size = ig'.vocab.size) (h : (Display.table t : Outcome ε _) = Display.table t') : t = t' := by
  obtain ⟨text, h1, h2⟩ := print_read (ε := ε) hg hb
  obtain ⟨text', h3, h4⟩ := print_read (ε := ε) hg' hb'
  rw [h, h3] at h1
  cases h1
  rw [hv, h4] at h2
  cases h2
  rfl

/-- The part of a line with given offset and width. -/
def field (line : List Char) (start width : Nat) : List Char := (line.drop start).take width

/-- **C57.** The columns of a printed table are the tokens for which some state has an action. Each column has a fixed
place in the lines of all states, and in the header if there are at most 1000 tokens and the table has an accept
action. So have the targets of gotos. -/
theorem print_aligned (hg : IndexedGrammar.build g = .ok ig) (hb : LRTable.build fuel ig = .ok t) :
    ∃ text header lines columns start width gstart gwidth, (Display.table t : Outcome ε _) = .ok text ∧
      split '\n' text = header :: lines ∧ lines.length = t.numStates ∧
      (words header).mapM column = some columns ∧ columns.Pairwise (· < ·) ∧
      (∀ tok, Label.id tok ∈ columns ↔ Label.id tok < ig.vocab.size ∧
        ∃ s < t.numStates, ∃ a, (t.getAction s tok : Outcome ε _) = .ok (some a)) ∧
      (∀ s line, lines[s]? = some line →
        (∀ k tok, columns[k]? = some (Label.id tok) → ∃ word o, words (field line (start + k * (width + 1)) width) = [word] ∧
          entry word = some o ∧ (t.getAction s tok : Outcome ε _) = .ok o) ∧
        ∀ l < ig.labelsCount, ∃ word o, words (field line (gstart + l * (gwidth + 1)) gwidth) = [word] ∧
          target word = some o ∧ (t.getGoto s l : Outcome ε _) = .ok o) ∧
      (ig.vocab.size ≤ 1002 → some Action.accept ∈ t.actionTable →
        ∀ k id, columns[k]? = some id → ∃ word, words (field header (start + k * (width + 1)) width) = [word] ∧
          column word = some id) := by
  obtain ⟨h1, h2, h3, h4, h5⟩ := sizes hg hb
  obtain ⟨text, columns, width, gw, sw, e1, e2, hp, hcol, hw1, hwa, hwg, rfl⟩ :=
    Display.table_ok (ε := ε) h1 h2 h3 h4 h5
  have hv : (t.vocabSize : Outcome ε _) = .ok ig.vocab.size := by
    simp only [LRTable.vocabSize, h4, Nat.mul_mod_left, beq_self_eq_true, Bool.and_true, bne_iff_ne.mpr
      (show t.numStates ≠ 0 by omega), Outcome.assert_true, Outcome.ok_bind, Outcome.pure_eq, Nat.mul_div_cancel _ h1]
  have hl : (t.numLabels : Outcome ε _) = .ok ig.labelsCount := by
    simp only [LRTable.numLabels, h5, Nat.mul_mod_left, beq_self_eq_true, Bool.and_true, bne_iff_ne.mpr
      (show t.numStates ≠ 0 by omega), Outcome.assert_true, Outcome.ok_bind, Outcome.pure_eq, Nat.mul_div_cancel _ h1]
  have hact : ∀ s tok o, (t.getAction s tok : Outcome ε _) = .ok o ↔
      t.actionTable[ig.vocab.size * s + Label.id tok]? = some o := by
    intro s tok o
    simp only [LRTable.getAction, hv, Outcome.ok_bind, Outcome.index_eq_ok]
  have hgo : ∀ s l o, (t.getGoto s l : Outcome ε _) = .ok o ↔ t.gotoTable[ig.labelsCount * s + l]? = some o := by
    intro s l o
    simp only [LRTable.getGoto, hl, Outcome.ok_bind, Outcome.index_eq_ok]
  have hcell : ∀ a : Option Action, (a = none ∨ a ∈ t.actionTable) → (Display.actionCell width a).length = width := by
    intro a ha
    rw [Display.actionCell_eq]
    refine Display.padRight_length ?_
    cases a with
    | none => exact hw1
    | some a => exact hwa a (ha.resolve_left (by simp))
  have hgcell : ∀ a : Option Nat, a ∈ t.gotoTable → (Display.gotoCell gw a).length = max gw 1 := by
    intro a ha
    rw [Display.gotoCell_eq]
    cases a with
    | none =>
      simp only [Display.padRight, Display.gotoWord, List.length_append, List.length_replicate, List.length_singleton]
      omega
    | some a =>
      have h := hwg a ha
      have h' : 1 ≤ (Display.goto a).length := by simp [Display.goto]
      rw [Display.gotoWord, Display.padRight_length h]
      omega
  refine ⟨text, _, _, columns, (Display.decimal t.numStates).length + 2, width,
    (Display.decimal t.numStates).length + 2 + (columns.length * (width + 1) - 1) + 3, max gw 1, e1, e2, ?_, ?_, hp, ?_, ?_, ?_⟩
  · rw [Display.bodyLines_length (by simp), List.length_map, List.length_range]
  · rw [Display.words_header]
    simpa using Display.mapM_map (f := column) (g := fun i => Display.tokenId (AugTok.ofId i)) (h := id) (l := columns)
      fun i _ => Display.column_tokenId i
  · intro tok
    rw [hcol]
    simp only [hact]
  · intro s line hline
    have hs : s < t.numStates := by
      have := (List.getElem?_eq_some_iff.mp hline).1
      rwa [Display.bodyLines_length (by simp), List.length_map, List.length_range] at this
    rw [Display.bodyLines_getElem? (a := (t.actionTable.drop (ig.vocab.size * s)).take ig.vocab.size)
      (g := (t.gotoTable.drop (ig.labelsCount * s)).take ig.labelsCount) (by simp [hs]) (by simp [hs]),
      Option.some.injEq, Nat.zero_add] at hline
    subst hline
    have hst : (Display.padLeft (Display.decimal t.numStates).length (Display.decimal s)).length =
        (Display.decimal t.numStates).length := by
      have := Display.decimal_length_le hs
      simp only [Display.padLeft, List.length_append, List.length_replicate]
      omega
    have hcells : ∀ x ∈ (columns.map fun j =>
        (((t.actionTable.drop (ig.vocab.size * s)).take ig.vocab.size)[j]?).join).map (Display.actionCell width),
        x.length = width := by
      intro x hx
      obtain ⟨a, ha, rfl⟩ := List.mem_map.mp hx
      obtain ⟨j, -, rfl⟩ := List.mem_map.mp ha
      refine hcell _ ?_
      cases hj : ((t.actionTable.drop (ig.vocab.size * s)).take ig.vocab.size)[j]? with
      | none => exact .inl rfl
      | some a =>
        refine .inr ?_
        exact List.mem_of_mem_drop (List.mem_of_mem_take (List.mem_of_getElem? hj))
    have hgcells : ∀ x ∈ ((t.gotoTable.drop (ig.labelsCount * s)).take ig.labelsCount).map (Display.gotoCell gw),
        x.length = max gw 1 := by
      intro x hx
      obtain ⟨a, ha, rfl⟩ := List.mem_map.mp hx
      exact hgcell a (List.mem_of_mem_drop (List.mem_of_mem_take ha))
    refine ⟨fun k tok hk => ?_, fun l hlt => ?_⟩
    · obtain ⟨hc, -⟩ := (hcol _).mp (List.mem_of_getElem? hk)
      have hlt : ig.vocab.size * s + Label.id tok < t.actionTable.length := by
        have : ig.vocab.size * s + ig.vocab.size ≤ ig.vocab.size * t.numStates := Nat.mul_le_mul_left _ hs
        omega
      refine ⟨_, _, ?_, Display.entry_actionWord (t.actionTable[ig.vocab.size * s + Label.id tok]), (hact ..).mpr
        (List.getElem?_eq_getElem hlt)⟩
      rw [field, Display.line, Nat.add_assoc, ← List.drop_drop, List.drop_left' hst, Nat.add_comm 2, ← List.drop_drop,
        List.drop_drop, Nat.add_comm _ 2, ← List.drop_drop]
      simp only [List.drop_succ_cons, List.drop_zero]
      rw [Display.field_join (c := Display.actionCell width t.actionTable[ig.vocab.size * s + Label.id tok]) hcells]
      · rw [Display.actionCell_eq, Display.words_padRight (Display.word_actionWord _)]
      · simp only [List.getElem?_map, hk, Option.map_some]
        rw [List.getElem?_take_of_lt hc, List.getElem?_drop, List.getElem?_eq_getElem hlt, Option.join_some]
    · have hlt' : ig.labelsCount * s + l < t.gotoTable.length := by
        have : ig.labelsCount * s + ig.labelsCount ≤ ig.labelsCount * t.numStates := Nat.mul_le_mul_left _ hs
        omega
      refine ⟨_, _, ?_, Display.target_gotoWord (t.gotoTable[ig.labelsCount * s + l]), (hgo ..).mpr
        (List.getElem?_eq_getElem hlt')⟩
      have hj := Display.joinSpace_length hcells
      simp only [List.length_map] at hj
      rw [field, Display.line, ← List.drop_drop, ← List.drop_drop, ← List.drop_drop, ← List.drop_drop,
        List.drop_left' hst]
      simp only [List.drop_succ_cons, List.drop_zero]
      rw [List.drop_left' hj]
      simp only [List.drop_succ_cons, List.drop_zero]
      have := Display.field_join (k := l) (c := Display.gotoCell gw t.gotoTable[ig.labelsCount * s + l]) hgcells ?_ []
      · rw [List.append_nil] at this
        rw [this, Display.gotoCell_eq, Display.words_padRight (Display.word_gotoWord _)]
      · simp only [List.getElem?_map]
        rw [List.getElem?_take_of_lt hlt, List.getElem?_drop, List.getElem?_eq_getElem hlt', Option.map_some]
  · intro hsz hacc k id hk
    refine ⟨Display.tokenId (AugTok.ofId id), ?_, Display.column_tokenId id⟩
    have hw3 : 3 ≤ width := by simpa [Display.action] using hwa _ hacc
    have hlen : ∀ x ∈ columns, (Display.tokenId (AugTok.ofId x)).length ≤ width := by
      intro x hx
      obtain ⟨hx, -⟩ := (hcol x).mp hx
      refine Nat.le_trans ?_ hw3
      unfold AugTok.ofId
      split
      · decide
      · split
        · decide
        · exact (Nat.length_toDigits_le_iff (by decide) (by decide)).mpr (show x - 2 < 10 ^ 3 by omega)
    rw [field, Display.header, ← List.drop_drop, ← List.drop_drop, List.drop_left' (Display.padRight_length (by simp))]
    simp only [List.drop_succ_cons, List.drop_zero]
    rw [Display.field_header hlen hk, Display.words_padRight (Display.word_tokenId _)]

/-- The table for `S -> A; A -> A a | b` as it is printed. -/
example : (match ((do
    let ig ← IndexedGrammar.build (⟨[⟨0, [.production 1]⟩, ⟨1, [.production 1, .terminal (.token 7)]⟩,
      ⟨1, [.terminal (.token 8)]⟩]⟩ : Grammar Nat Nat)
    LRTable.build 20 ig) : Outcome (LRTableError Nat Nat) _) with
    | .ok t => (Display.table t : Outcome Empty _)
    | _ => .panic) = .ok ("   $   0   1   \n" ++
      "0: _   _   s2  : _     GO(1)\n" ++
      "1: acc s3  _   : _     _    \n" ++
      "2: r2  r2  _   : _     _    \n" ++
      "3: r1  r1  _   : _     _    ").toList := by decide +kernel

end Verif.C57
