import Verif.Model.Display
import Verif.Spec.TableText
import Verif.Proof.BitSet

/-!
# Printed tables are read back
-/

set_option linter.unusedSectionVars false
set_option autoImplicit false

namespace Verif.Display
open Spec.TableText

/-! ## Splitting -/

theorem split_ne_nil (sep : Char) (s : List Char) : split sep s ≠ [] := by
  cases s with
  | nil => simp [split]
  | cons c s =>
    unfold split
    split
    · simp
    · split <;> simp

theorem split_append (sep : Char) (a b : List Char) : split sep (a ++ sep :: b) = split sep a ++ split sep b := by
  induction a with
  | nil => simp [split]
  | cons c a ih =>
    simp only [List.cons_append, split]
    split
    · simp [ih]
    · rw [ih]
      cases h : split sep a with
      | nil => exact absurd h (split_ne_nil _ _)
      | cons w ws => simp

theorem split_eq {sep : Char} {w : List Char} (h : sep ∉ w) : split sep w = [w] := by
  induction w with
  | nil => rfl
  | cons c w ih =>
    simp only [List.mem_cons, not_or] at h
    simp [split, Ne.symm h.1, ih h.2]

theorem words_append (a b : List Char) : words (a ++ ' ' :: b) = words a ++ words b := by
  simp [words, split_append]

theorem words_spaces (n : Nat) : words (List.replicate n ' ') = [] := by
  induction n with
  | zero => rfl
  | succ n ih =>
    have := words_append [] (List.replicate n ' ')
    rw [ih] at this
    simpa [List.replicate_succ, show words [] = [] from rfl] using this

theorem words_cons_space (s : List Char) : words (' ' :: s) = words s := by
  have := words_append [] s
  simpa [show words [] = [] from rfl] using this

theorem words_spaces_append (n : Nat) (s : List Char) : words (List.replicate n ' ' ++ s) = words s := by
  induction n with
  | zero => rfl
  | succ n ih => simp [List.replicate_succ, words_cons_space, ih]

/-- A nonempty text without spaces and line ends. -/
structure Word (w : List Char) : Prop where
  ne : w ≠ []
  space : ' ' ∉ w
  line : '\n' ∉ w

theorem words_word {w : List Char} (h : Word w) : words w = [w] := by
  simp [words, split_eq h.space, h.ne]

theorem words_padRight {k : Nat} {w : List Char} (h : Word w) : words (padRight k w) = [w] := by
  unfold padRight
  cases hk : k - w.length with
  | zero => simp [words_word h]
  | succ n => rw [List.replicate_succ, words_append, words_word h, words_spaces, List.append_nil]

theorem words_joinSpace {l : List (List Char)} : words (joinSpace l) = l.flatMap words := by
  induction l with
  | nil => rfl
  | cons a l ih =>
    cases l with
    | nil => simp [joinSpace]
    | cons b l => simp only [joinSpace, words_append, ih, List.flatMap_cons]

/-! ## Words -/

theorem digit_decimal {n : Nat} {c : Char} (h : c ∈ decimal n) : c.isDigit = true :=
  Nat.isDigit_of_mem_toDigits (by decide) (by decide) h

theorem number_decimal (n : Nat) : number (decimal n) = some n := by
  unfold number
  rw [if_pos]
  · simp [decimal]
  · exact ⟨Nat.toDigits_ne_nil, List.all_eq_true.mpr fun _ h => digit_decimal h⟩

theorem not_mem_decimal {n : Nat} {c : Char} (h : c.isDigit = false) : c ∉ decimal n := fun hc => by
  rw [digit_decimal hc] at h
  cases h

theorem word_decimal (n : Nat) : Word (decimal n) :=
  ⟨Nat.toDigits_ne_nil, not_mem_decimal (by decide), not_mem_decimal (by decide)⟩

theorem word_action (a : Action) : Word (action a) := by
  cases a with
  | accept => exact ⟨by simp [action], by decide, by decide⟩
  | shift n => exact ⟨by simp [action], by simp [action, (word_decimal n).space], by simp [action, (word_decimal n).line]⟩
  | reduce n => exact ⟨by simp [action], by simp [action, (word_decimal n).space], by simp [action, (word_decimal n).line]⟩

theorem word_goto (n : Nat) : Word (goto n) :=
  ⟨by simp [goto], by simp [goto, (word_decimal n).space], by simp [goto, (word_decimal n).line]⟩

theorem word_none : Word ['_'] := ⟨by simp, by decide, by decide⟩

theorem word_tokenId (t : AugTokId) : Word (tokenId t) := by
  cases t with
  | token n => exact word_decimal n
  | epsilon => exact ⟨by simp [tokenId], by decide, by decide⟩
  | eos => exact ⟨by simp [tokenId], by decide, by decide⟩

/-- The word in a cell. -/
def actionWord : Option Action → List Char
  | some a => action a
  | none => ['_']

@[inherit_doc actionWord]
def gotoWord : Option Nat → List Char
  | some g => goto g
  | none => ['_']

theorem word_actionWord (a : Option Action) : Word (actionWord a) := by
  cases a
  · exact word_none
  · exact word_action _

theorem word_gotoWord (a : Option Nat) : Word (gotoWord a) := by
  cases a
  · exact word_none
  · exact word_goto _

theorem actionCell_eq (width : Nat) (a : Option Action) : actionCell width a = padRight width (actionWord a) := by
  cases a <;> rfl

theorem gotoCell_eq (width : Nat) (a : Option Nat) : gotoCell width a = padRight width (gotoWord a) := by
  cases a <;> rfl

theorem entry_actionWord (a : Option Action) : entry (actionWord a) = some a := by
  cases a with
  | none => rfl
  | some a =>
    cases a with
    | accept => rfl
    | shift n =>
      have : decimal n ≠ ['c', 'c'] := fun h => not_mem_decimal (n := n) (c := 'c') (by decide) (by simp [h])
      simp [actionWord, action, entry, number_decimal]
    | reduce n => simp [actionWord, action, entry, number_decimal]

theorem target_gotoWord (a : Option Nat) : target (gotoWord a) = some a := by
  cases a with
  | none => rfl
  | some n => simp [gotoWord, goto, target, number_decimal, List.getLast?_cons]

theorem column_tokenId (i : Nat) : column (tokenId (AugTok.ofId i)) = some i := by
  unfold AugTok.ofId
  split
  · subst i; rfl
  · split
    · subst i; rfl
    · have h1 : decimal (i - 2) ≠ ['ε'] := fun h => not_mem_decimal (n := i - 2) (c := 'ε') (by decide) (by simp [h])
      have h2 : decimal (i - 2) ≠ ['$'] := fun h => not_mem_decimal (n := i - 2) (c := '$') (by decide) (by simp [h])
      simp only [tokenId, column, h1, h2, if_false, number_decimal, Option.map_some, Option.some.injEq]
      omega

theorem mapM_map {α β : Type} {f : List Char → Option β} {g : α → List Char} {h : α → β} {l : List α}
    (hf : ∀ a ∈ l, f (g a) = some (h a)) : (l.map g).mapM f = some (l.map h) := by
  induction l with
  | nil => rfl
  | cons a l ih =>
    simp only [List.map_cons, List.mapM_cons, hf a (List.mem_cons_self ..),
      ih fun b hb => hf b (List.mem_cons_of_mem _ hb), Option.bind_eq_bind, Option.bind_some, Option.pure_def]

/-! ## Lines -/

theorem words_header (sw width : Nat) (columns : List Nat) :
    words (header sw width columns) = columns.map fun i => tokenId (AugTok.ofId i) := by
  have h : ∀ l : List Nat, words (l.flatMap fun i => padRight width (tokenId (AugTok.ofId i)) ++ [' ']) =
      l.map fun i => tokenId (AugTok.ofId i) := by
    intro l
    induction l with
    | nil => rfl
    | cons i l ih =>
      rw [List.flatMap_cons, List.append_assoc, List.singleton_append, words_append, ih,
        words_padRight (word_tokenId _)]
      rfl
  rw [header, words_append, words_cons_space, h]
  simp [padRight, words_spaces]

theorem flatMap_words {α : Type} {k : Nat} {g : α → List Char} (hg : ∀ a, Word (g a)) (l : List α) :
    (l.map fun a => padRight k (g a)).flatMap words = l.map g := by
  induction l with
  | nil => rfl
  | cons a l ih => simp only [List.map_cons, List.flatMap_cons, words_padRight (hg a), ih, List.singleton_append]

/-- The line of a state, given the actions in the columns that are printed. -/
def line (width gotoWidth stateWidth state : Nat) (actions : List (Option Action)) (gotos : List (Option Nat)) :
    List Char :=
  padLeft stateWidth (decimal state) ++ ':' :: ' ' :: (joinSpace (actions.map (actionCell width)) ++ ' ' :: ':' :: ' ' ::
    joinSpace (gotos.map (gotoCell gotoWidth)))

theorem words_line (width gw sw state : Nat) (actions : List (Option Action)) (gotos : List (Option Nat)) :
    words (line width gw sw state actions gotos) =
      (decimal state ++ [':']) :: (actions.map actionWord ++ [':'] :: gotos.map gotoWord) := by
  have hfirst : Word (decimal state ++ [':']) :=
    ⟨by simp, by simp [(word_decimal state).space], by simp [(word_decimal state).line]⟩
  have h1 : actionCell width = fun a => padRight width (actionWord a) := funext fun a => actionCell_eq width a
  have h2 : gotoCell gw = fun a => padRight gw (gotoWord a) := funext fun a => gotoCell_eq gw a
  have hcolon : Word [':'] := ⟨by simp, by decide, by decide⟩
  rw [line, h1, h2, padLeft, List.append_assoc, words_spaces_append,
    show ∀ r : List Char, decimal state ++ ':' :: ' ' :: r = (decimal state ++ [':']) ++ ' ' :: r from fun r => by simp,
    words_append, words_word hfirst, words_append,
    show ∀ r : List Char, ':' :: ' ' :: r = [':'] ++ ' ' :: r from fun _ => rfl, words_append, words_word hcolon,
    words_joinSpace, words_joinSpace, flatMap_words word_actionWord, flatMap_words word_gotoWord]
  simp

theorem not_mem_pad {c : Char} {k : Nat} {w : List Char} (hc : c ≠ ' ') (h : c ∉ w) : c ∉ padRight k w := by
  simp [padRight, h, hc]

theorem not_mem_join {c : Char} {l : List (List Char)} (hc : c ≠ ' ') (h : ∀ w ∈ l, c ∉ w) : c ∉ joinSpace l := by
  induction l with
  | nil => simp [joinSpace]
  | cons a l ih =>
    cases l with
    | nil => exact h a (by simp)
    | cons b l =>
      simp only [joinSpace, List.mem_append, List.mem_cons, not_or]
      exact ⟨h a (by simp), hc, ih fun w hw => h w (List.mem_cons_of_mem _ hw)⟩

theorem line_no_end (width gw sw state : Nat) (actions : List (Option Action)) (gotos : List (Option Nat)) :
    '\n' ∉ line width gw sw state actions gotos := by
  have h1 : '\n' ∉ joinSpace (actions.map (actionCell width)) := not_mem_join (by decide) fun w hw => by
    obtain ⟨a, -, rfl⟩ := List.mem_map.mp hw
    rw [actionCell_eq]
    exact not_mem_pad (by decide) (word_actionWord a).line
  have h2 : '\n' ∉ joinSpace (gotos.map (gotoCell gw)) := not_mem_join (by decide) fun w hw => by
    obtain ⟨a, -, rfl⟩ := List.mem_map.mp hw
    rw [gotoCell_eq]
    exact not_mem_pad (by decide) (word_gotoWord a).line
  simp [line, padLeft, h1, h2, (word_decimal state).line]

theorem header_no_end (width sw : Nat) (columns : List Nat) : '\n' ∉ header sw width columns := by
  have h : ∀ i, '\n' ∉ padRight width (tokenId (AugTok.ofId i)) := fun i =>
    not_mem_pad (by decide) (word_tokenId _).line
  simp [header, padRight] at h ⊢
  intro i _
  simpa [and_assoc] using h i

/-- Finding the actions of all columns again. -/
theorem lookup_columns {α : Type} {row : List (Option α)} {columns : List Nat} {n : Nat} (hn : row.length = n)
    (hall : ∀ i a, row[i]? = some (some a) → i ∈ columns) :
    (List.range n).map (fun id => ((columns.zip (columns.map fun i => (row[i]?).join)).lookup id).join) = row := by
  have hl : ∀ id, (columns.zip (columns.map fun i => (row[i]?).join)).lookup id =
      if id ∈ columns then some (row[id]?).join else none := by
    intro id
    clear hall
    induction columns with
    | nil => simp
    | cons c cs ih =>
      simp only [List.map_cons, List.zip_cons_cons, List.lookup_cons, ih, List.mem_cons]
      by_cases h : id = c
      · simp [h]
      · simp [h, beq_eq_false_iff_ne.mpr h]
  subst hn
  refine List.ext_getElem? fun i => ?_
  by_cases hi : i < row.length
  · simp only [List.getElem?_map, List.getElem?_range hi, Option.map_some, hl]
    split
    · simp [hi]
    · rename_i h
      cases ha : row[i] with
      | none => simp [List.getElem?_eq_getElem hi, ha]
      | some a => exact absurd (hall i a (by rw [List.getElem?_eq_getElem hi, ha])) h
  · simp [hi]

theorem readRow_line {size width gw sw state : Nat} {columns : List Nat} {actions : List (Option Action)}
    {gotos : List (Option Nat)} (hn : actions.length = size)
    (hall : ∀ i a, actions[i]? = some (some a) → i ∈ columns) :
    readRow size columns state (line width gw sw state (columns.map fun i => (actions[i]?).join) gotos) =
      some (actions, gotos) := by
  have h1 : ((columns.map fun i => (actions[i]?).join).map actionWord).mapM entry =
      some (columns.map fun i => (actions[i]?).join) := by
    have := mapM_map (f := entry) (g := actionWord) (h := id) (l := columns.map fun i => (actions[i]?).join)
      fun a _ => entry_actionWord a
    simpa using this
  have h2 : (gotos.map gotoWord).mapM target = some gotos := by
    have := mapM_map (f := target) (g := gotoWord) (h := id) (l := gotos) fun a _ => target_gotoWord a
    simpa using this
  have hlen : ((columns.map fun i => (actions[i]?).join).map actionWord).length = columns.length := by simp
  simp only [readRow, words_line]
  have e1 : (((columns.map fun i => (actions[i]?).join).map actionWord ++ [':'] :: gotos.map gotoWord).take
      columns.length) = (columns.map fun i => (actions[i]?).join).map actionWord := by
    rw [← hlen, List.take_left']
    rfl
  have e2 : ((columns.map fun i => (actions[i]?).join).map actionWord ++ [':'] :: gotos.map gotoWord)[columns.length]? =
      some [':'] := by
    rw [List.getElem?_append_right (by omega), hlen]
    simp
  have e3 : (((columns.map fun i => (actions[i]?).join).map actionWord ++ [':'] :: gotos.map gotoWord).drop
      (columns.length + 1)) = gotos.map gotoWord := by
    rw [← List.drop_drop, ← hlen, List.drop_left' rfl]
    rfl
  rw [e1, e2, e3, h1, h2]
  simp [number_decimal, lookup_columns hn hall, guard]

/-! ## Chunks and widths -/

theorem chunksUpTo_eq {α : Type} {size : Nat} (hs : 0 < size) {n f : Nat} {l : List α} (hl : l.length = size * n)
    (hf : n ≤ f) : chunksUpTo size f l = (List.range n).map fun i => (l.drop (size * i)).take size := by
  induction n generalizing f l with
  | zero =>
    have : l = [] := List.length_eq_zero_iff.mp (by simpa using hl)
    subst this
    cases f <;> rfl
  | succ n ih =>
    obtain ⟨f, rfl⟩ : ∃ g, f = g + 1 := ⟨f - 1, by omega⟩
    cases l with
    | nil =>
      rw [List.length_nil, Nat.mul_succ] at hl
      omega
    | cons a l =>
      rw [chunksUpTo, ih (by rw [List.length_drop, hl, Nat.mul_succ]; omega) (by omega), List.range_succ_eq_map]
      simp [List.drop_drop, Nat.mul_succ, Nat.add_comm]

section
variable {ε : Type}

theorem chunks_eq {α : Type} {size : Nat} (hs : 0 < size) {n : Nat} {l : List α} (hl : l.length = size * n) :
    (chunks size l : Outcome ε _) = .ok ((List.range n).map fun i => (l.drop (size * i)).take size) := by
  rw [chunks, if_neg (by omega), chunksUpTo_eq hs hl]
  · rfl
  · rw [hl]
    exact Nat.le_mul_of_pos_left _ hs

/-- `columns` are the columns with an action, and no action is longer than `width`. -/
structure Marked (rs : List (List (Option Action))) (vocab vocab' : BitSet) (width width' : Nat) : Prop where
  wf : vocab'.WF
  len : vocab'.len = vocab.len
  mem : ∀ c, vocab'.mem c = true ↔ vocab.mem c = true ∨ ∃ r ∈ rs, ∃ a, r[c]? = some (some a)
  le : width ≤ width'
  action : ∀ r ∈ rs, ∀ a, some a ∈ r → (action a).length ≤ width'

theorem markRow_ok {r : List (Option Action)} {vocab : BitSet} (h : vocab.WF) {width i : Nat}
    (hi : i + r.length ≤ vocab.len) :
    ∃ vocab' width', (markRow i r (vocab, width) : Outcome ε _) = .ok (vocab', width') ∧
      vocab'.WF ∧ vocab'.len = vocab.len ∧
      (∀ c, vocab'.mem c = true ↔ vocab.mem c = true ∨ ∃ j a, c = i + j ∧ r[j]? = some (some a)) ∧
      width ≤ width' ∧ ∀ a, some a ∈ r → (action a).length ≤ width' := by
  induction r generalizing vocab width i with
  | nil => exact ⟨vocab, width, rfl, h, rfl, by simp, Nat.le_refl _, by simp⟩
  | cons x r ih =>
    rw [List.length_cons] at hi
    cases x with
    | none =>
      obtain ⟨v, w, h1, h2, h3, h4, h5, h6⟩ := ih h (width := width) (i := i + 1) (by omega)
      refine ⟨v, w, h1, h2, h3, fun c => (h4 c).trans (or_congr_right ?_), h5, by simpa using h6⟩
      constructor
      · rintro ⟨j, a, rfl, ha⟩
        exact ⟨j + 1, a, by omega, by simpa using ha⟩
      · rintro ⟨j, a, rfl, ha⟩
        cases j with
        | zero => simp at ha
        | succ j => exact ⟨j, a, by omega, by simpa using ha⟩
    | some x =>
      obtain ⟨v0, e0, hv0, hl0, hm0⟩ := BitSet.set_eq (ε := ε) h (b := i) (by omega)
      obtain ⟨v, w, h1, h2, h3, h4, h5, h6⟩ := ih hv0 (width := max width (action x).length) (i := i + 1) (by omega)
      refine ⟨v, w, ?_, h2, h3.trans hl0, fun c => (h4 c).trans ?_, by omega, ?_⟩
      · simp only [markRow, e0, Outcome.ok_bind]
        exact h1
      · rw [hm0]
        simp only [Bool.or_eq_true, beq_iff_eq, or_assoc]
        refine or_congr_right ?_
        constructor
        · rintro (rfl | ⟨j, a, rfl, ha⟩)
          · exact ⟨0, x, by omega, by simp⟩
          · exact ⟨j + 1, a, by omega, by simpa using ha⟩
        · rintro ⟨j, a, rfl, ha⟩
          cases j with
          | zero => exact .inl (by omega)
          | succ j => exact .inr ⟨j, a, by omega, by simpa using ha⟩
      · intro a ha
        rcases List.mem_cons.mp ha with ha | ha
        · cases ha
          omega
        · exact h6 a ha

theorem markRows_ok {rs : List (List (Option Action))} {vocab : BitSet} (h : vocab.WF) {width : Nat}
    (hr : ∀ r ∈ rs, r.length ≤ vocab.len) :
    ∃ vocab' width', (markRows rs (vocab, width) : Outcome ε _) = .ok (vocab', width') ∧
      Marked rs vocab vocab' width width' := by
  induction rs generalizing vocab width with
  | nil => exact ⟨vocab, width, rfl, h, rfl, by simp, Nat.le_refl _, by simp⟩
  | cons r rs ih =>
    obtain ⟨v, w, h1, h2, h3, h4, h5, h6⟩ := markRow_ok (ε := ε) h (width := width) (i := 0)
      (by simpa using hr r (List.mem_cons_self ..))
    obtain ⟨v', w', h7, h8⟩ := ih h2 (width := w) fun r hr' => by
      rw [h3]
      exact hr r (List.mem_cons_of_mem _ hr')
    refine ⟨v', w', ?_, h8.wf, h8.len.trans h3, fun c => (h8.mem c).trans ?_, Nat.le_trans h5 h8.le, ?_⟩
    · simp only [markRows, h1, Outcome.ok_bind]
      exact h7
    · rw [h4]
      simp only [Nat.zero_add, List.mem_cons, exists_eq_or_imp, or_assoc]
      refine or_congr_right (or_congr_left ?_)
      constructor
      · rintro ⟨j, a, rfl, ha⟩
        exact ⟨a, ha⟩
      · rintro ⟨a, ha⟩
        exact ⟨c, a, rfl, ha⟩
    · intro r' hr' a ha
      rcases List.mem_cons.mp hr' with rfl | hr'
      · exact Nat.le_trans (h6 a ha) h8.le
      · exact h8.action r' hr' a ha

theorem actionCells_ok {width : Nat} {actions : List (Option Action)} {columns : List Nat}
    (h : ∀ i ∈ columns, i < actions.length) :
    (actionCells width actions columns : Outcome ε _) =
      .ok ((columns.map fun i => (actions[i]?).join).map (actionCell width)) := by
  induction columns with
  | nil => rfl
  | cons i is ih =>
    have hi := h i (List.mem_cons_self ..)
    simp only [actionCells, (Outcome.index_eq_ok (ε := ε)).mpr (List.getElem?_eq_getElem hi), Outcome.ok_bind,
      ih fun j hj => h j (List.mem_cons_of_mem _ hj), Outcome.pure_eq, List.map_cons, List.getElem?_eq_getElem hi,
      Option.join_some]

theorem row_ok {columns : List Nat} {width gw sw state : Nat} {actions : List (Option Action)}
    {gotos : List (Option Nat)} (h : ∀ i ∈ columns, i < actions.length) :
    (row columns width gw sw state actions gotos : Outcome ε _) =
      .ok (line width gw sw state (columns.map fun i => (actions[i]?).join) gotos) := by
  simp only [row, actionCells_ok h, Outcome.ok_bind, Outcome.pure_eq, line]

/-- The lines of the states. -/
def bodyLines (columns : List Nat) (width gw sw : Nat) : Nat → List (List (Option Action)) → List (List (Option Nat)) →
    List (List Char)
  | k, a :: as, g :: gs =>
    line width gw sw k (columns.map fun i => (a[i]?).join) g :: bodyLines columns width gw sw (k + 1) as gs
  | _, _, _ => []

theorem rows_ok {columns : List Nat} {size width gw sw numStates m k : Nat} {as : List (List (Option Action))}
    {gs : List (List (Option Nat))} (hcol : ∀ i ∈ columns, i < size) (ha : ∀ a ∈ as, a.length = size)
    (hla : as.length = m + 1) (hlg : gs.length = m + 1) (hk : k + m + 1 = numStates) :
    ∃ body, (rows columns width gw sw numStates (List.range' k (m + 1)) as gs : Outcome ε _) = .ok body ∧
      split '\n' body = bodyLines columns width gw sw k as gs := by
  induction m generalizing k as gs with
  | zero =>
    obtain ⟨a, rfl⟩ := List.length_eq_one_iff.mp hla
    obtain ⟨g, rfl⟩ := List.length_eq_one_iff.mp hlg
    refine ⟨line width gw sw k (columns.map fun i => (a[i]?).join) g, ?_, ?_⟩
    · simp only [List.range'_succ, List.range'_zero, rows, row_ok fun i hi => ha a (by simp) ▸ hcol i hi,
        Outcome.ok_bind, Outcome.pure_eq, show ¬ k < numStates - 1 by omega, if_false, List.append_nil]
    · rw [split_eq (line_no_end _ _ _ _ _ _)]
      rfl
  | succ m ih =>
    cases as with
    | nil => cases hla
    | cons a as =>
      cases gs with
      | nil => cases hlg
      | cons g gs =>
        obtain ⟨body, h1, h2⟩ := ih (k := k + 1) (as := as) (gs := gs)
          (fun b hb => ha b (List.mem_cons_of_mem _ hb)) (by simpa using hla) (by simpa using hlg) (by omega)
        refine ⟨line width gw sw k (columns.map fun i => (a[i]?).join) g ++ '\n' :: body, ?_, ?_⟩
        · simp only [List.range'_succ (n := m + 1), rows, row_ok fun i hi => ha a (by simp) ▸ hcol i hi, h1,
            Outcome.ok_bind, Outcome.pure_eq, show k < numStates - 1 by omega, if_true, List.append_assoc,
            List.singleton_append]
        · rw [split_append, split_eq (line_no_end _ _ _ _ _ _), h2]
          rfl

theorem readRows_bodyLines {columns : List Nat} {size width gw sw k : Nat} {as : List (List (Option Action))}
    {gs : List (List (Option Nat))} (ha : ∀ a ∈ as, a.length = size)
    (hall : ∀ a ∈ as, ∀ i x, a[i]? = some (some x) → i ∈ columns) (hl : as.length = gs.length) :
    readRows size columns k (bodyLines columns width gw sw k as gs) = some (as.flatten, gs.flatten) := by
  induction as generalizing gs k with
  | nil =>
    cases gs with
    | nil => rfl
    | cons g gs => cases hl
  | cons a as ih =>
    cases gs with
    | nil => cases hl
    | cons g gs =>
      simp only [bodyLines, readRows, readRow_line (ha a (List.mem_cons_self ..)) (hall a (List.mem_cons_self ..)),
        ih (fun b hb => ha b (List.mem_cons_of_mem _ hb)) (fun b hb => hall b (List.mem_cons_of_mem _ hb))
          (by simpa using hl), Option.bind_eq_bind, Option.bind_some, Option.pure_def, List.flatten_cons]

theorem bodyLines_length {columns : List Nat} {width gw sw k : Nat} {as : List (List (Option Action))}
    {gs : List (List (Option Nat))} (hl : as.length = gs.length) :
    (bodyLines columns width gw sw k as gs).length = as.length := by
  induction as generalizing gs k with
  | nil => rfl
  | cons a as ih =>
    cases gs with
    | nil => cases hl
    | cons g gs =>
      simp only [bodyLines, List.length_cons, ih (gs := gs) (by simpa using hl)]

theorem flatten_chunks {α : Type} {size n : Nat} {l : List α} (hl : l.length = size * n) :
    ((List.range n).map fun i => (l.drop (size * i)).take size).flatten = l := by
  induction n generalizing l with
  | zero => exact (List.length_eq_zero_iff.mp (by simpa using hl)).symm
  | succ n ih =>
    have := ih (l := l.drop size) (by rw [List.length_drop, hl, Nat.mul_succ]; omega)
    rw [List.range_succ_eq_map]
    simp only [List.map_cons, Nat.mul_zero, List.drop_zero, List.map_map, List.flatten_cons, Function.comp_def,
      Nat.mul_succ]
    simp only [List.drop_drop, Nat.add_comm size] at this
    rw [this, List.take_append_drop]

/-- What is printed for a table. -/
theorem table_ok {t : LRTable} {size labels : Nat} (hn : 0 < t.numStates) (hs : 0 < size) (hg : 0 < labels)
    (ha : t.actionTable.length = size * t.numStates) (hgt : t.gotoTable.length = labels * t.numStates) :
    ∃ text columns width gw sw, (table t : Outcome ε _) = .ok text ∧
      split '\n' text = header sw width columns :: bodyLines columns width gw sw 0
        ((List.range t.numStates).map fun i => (t.actionTable.drop (size * i)).take size)
        ((List.range t.numStates).map fun i => (t.gotoTable.drop (labels * i)).take labels) ∧
      columns.Pairwise (· < ·) ∧
      (∀ c, c ∈ columns ↔ c < size ∧ ∃ i < t.numStates, ∃ a, t.actionTable[size * i + c]? = some (some a)) ∧
      1 ≤ width ∧ (∀ a, some a ∈ t.actionTable → (action a).length ≤ width) ∧
      (∀ g, some g ∈ t.gotoTable → (goto g).length ≤ gw) ∧ sw = (decimal t.numStates).length := by
  obtain ⟨n, hn'⟩ : ∃ n, t.numStates = n + 1 := ⟨t.numStates - 1, by omega⟩
  have hv : (t.vocabSize : Outcome ε _) = .ok size := by
    simp only [LRTable.vocabSize, ha, Nat.mul_mod_left, beq_self_eq_true, Bool.and_true, bne_iff_ne.mpr
      (show t.numStates ≠ 0 by omega), Outcome.assert_true, Outcome.ok_bind, Outcome.pure_eq, Nat.mul_div_cancel _ hn]
  have hl : (t.numLabels : Outcome ε _) = .ok labels := by
    simp only [LRTable.numLabels, hgt, Nat.mul_mod_left, beq_self_eq_true, Bool.and_true, bne_iff_ne.mpr
      (show t.numStates ≠ 0 by omega), Outcome.assert_true, Outcome.ok_bind, Outcome.pure_eq, Nat.mul_div_cancel _ hn]
  let as := (List.range t.numStates).map fun i => (t.actionTable.drop (size * i)).take size
  let gs := (List.range t.numStates).map fun i => (t.gotoTable.drop (labels * i)).take labels
  have hlen : ∀ a ∈ as, a.length = size := by
    intro a ha'
    obtain ⟨i, hi, rfl⟩ := List.mem_map.mp ha'
    rw [List.mem_range] at hi
    have : size * i + size ≤ size * t.numStates := Nat.mul_le_mul_left size hi
    rw [List.length_take, List.length_drop, ha]
    omega
  have hsome : ∀ c, (∃ r ∈ as, ∃ a, r[c]? = some (some a)) ↔
      c < size ∧ ∃ i < t.numStates, ∃ a, t.actionTable[size * i + c]? = some (some a) := by
    intro c
    constructor
    · rintro ⟨r, hr, a, hra⟩
      have hc : c < size := hlen r hr ▸ (List.getElem?_eq_some_iff.mp hra).1
      obtain ⟨i, hi, rfl⟩ := List.mem_map.mp hr
      rw [List.getElem?_take_of_lt hc, List.getElem?_drop] at hra
      exact ⟨hc, i, List.mem_range.mp hi, a, hra⟩
    · rintro ⟨hc, i, hi, a, hra⟩
      refine ⟨_, List.mem_map.mpr ⟨i, List.mem_range.mpr hi, rfl⟩, a, ?_⟩
      rw [List.getElem?_take_of_lt hc, List.getElem?_drop]
      exact hra
  obtain ⟨vocab, width, hm, hmk⟩ := markRows_ok (ε := ε) (BitSet.new_WF size) (width := 1) (rs := as)
    fun r hr => by rw [hlen r hr]; exact Nat.le_refl _
  have hcol : ∀ c, c ∈ vocab.forEach ↔
      c < size ∧ ∃ i < t.numStates, ∃ a, t.actionTable[size * i + c]? = some (some a) := by
    intro c
    rw [BitSet.mem_forEach hmk.wf, hmk.mem, ← hsome]
    simp [BitSet.mem_new]
  obtain ⟨body, hb, hbl⟩ := rows_ok (ε := ε) (columns := vocab.forEach) (size := size) (width := width)
    (gw := gotoWidth gs) (sw := (decimal t.numStates).length) (numStates := t.numStates) (m := n) (k := 0) (as := as)
    (gs := gs) (fun i hi => ((hcol i).mp hi).1) hlen (by simp [as, hn']) (by simp [gs, hn']) (by omega)
  refine ⟨header (decimal t.numStates).length width vocab.forEach ++ '\n' :: body, vocab.forEach, width, gotoWidth gs,
    (decimal t.numStates).length, ?_, ?_, ?_, hcol, hmk.le, ?_, ?_, rfl⟩
  · have hr : List.range t.numStates = List.range' 0 (n + 1) := by rw [hn', List.range_eq_range']
    simp only [table, hv, hl, Outcome.ok_bind, chunks_eq hs ha, chunks_eq hg hgt]
    simp only [as, gs] at hm hb
    rw [hr] at hm hb ⊢
    simp only [hm, Outcome.ok_bind, hb, Outcome.pure_eq]
  · rw [split_append, split_eq (header_no_end _ _ _), hbl]
    rfl
  · rw [BitSet.forEach_eq hmk.wf]
    exact List.Pairwise.filter _ List.pairwise_lt_range
  · intro a ha'
    have : some a ∈ as.flatten := by rw [flatten_chunks ha]; exact ha'
    obtain ⟨r, hr, har⟩ := List.mem_flatten.mp this
    exact hmk.action r hr a har
  · intro g hg'
    have : some g ∈ gs.flatten := by rw [flatten_chunks hgt]; exact hg'
    obtain ⟨r, hr, har⟩ := List.mem_flatten.mp this
    unfold gotoWidth
    refine Nat.le_trans ?_ (List.le_max?_getD_of_mem (List.mem_map.mpr ⟨r, hr, rfl⟩))
    exact List.le_max?_getD_of_mem (List.mem_map.mpr ⟨some g, har, rfl⟩)

/-- The printed table is read back. -/
theorem read_table {t : LRTable} {size labels : Nat} (hn : 0 < t.numStates) (hs : 0 < size) (hg : 0 < labels)
    (ha : t.actionTable.length = size * t.numStates) (hgt : t.gotoTable.length = labels * t.numStates) :
    ∃ text, (table t : Outcome ε _) = .ok text ∧ readTable size text = some t := by
  obtain ⟨text, columns, width, gw, sw, h1, h2, -, h3, -⟩ := table_ok (ε := ε) hn hs hg ha hgt
  refine ⟨text, h1, ?_⟩
  have hcols : (words (header sw width columns)).mapM column = some columns := by
    rw [words_header]
    simpa using mapM_map (f := column) (g := fun i => tokenId (AugTok.ofId i)) (h := id) (l := columns)
      fun i _ => column_tokenId i
  have hrows := readRows_bodyLines (columns := columns) (size := size) (width := width) (gw := gw) (sw := sw) (k := 0)
    (as := (List.range t.numStates).map fun i => (t.actionTable.drop (size * i)).take size)
    (gs := (List.range t.numStates).map fun i => (t.gotoTable.drop (labels * i)).take labels) ?_ ?_ (by simp)
  · simp only [readTable, h2, hcols, hrows, Option.bind_eq_bind, Option.bind_some, Option.pure_def, flatten_chunks ha,
      flatten_chunks hgt]
    rw [bodyLines_length (by simp), List.length_map, List.length_range]
  · intro a ha'
    obtain ⟨i, hi, rfl⟩ := List.mem_map.mp ha'
    rw [List.mem_range] at hi
    have : size * i + size ≤ size * t.numStates := Nat.mul_le_mul_left size hi
    rw [List.length_take, List.length_drop, ha]
    omega
  · intro a ha' c x hx
    obtain ⟨i, hi, rfl⟩ := List.mem_map.mp ha'
    have hc : c < size := by
      have := (List.getElem?_eq_some_iff.mp hx).1
      rw [List.length_take] at this
      omega
    rw [List.getElem?_take_of_lt hc, List.getElem?_drop] at hx
    exact (h3 c).mpr ⟨hc, i, List.mem_range.mp hi, x, hx⟩

/-! ## Alignment -/

theorem padRight_length {k : Nat} {w : List Char} (h : w.length ≤ k) : (padRight k w).length = k := by
  simp only [padRight, List.length_append, List.length_replicate]
  omega

/-- The cells of a line at their offsets. -/
theorem field_join {w k : Nat} {l : List (List Char)} {c : List Char} (hl : ∀ x ∈ l, x.length = w) (hk : l[k]? = some c)
    (rest : List Char) : ((joinSpace l ++ rest).drop (k * (w + 1))).take w = c := by
  induction l generalizing k with
  | nil => simp at hk
  | cons a l ih =>
    have ha := hl a (List.mem_cons_self ..)
    cases k with
    | zero =>
      simp only [List.getElem?_cons_zero, Option.some.injEq] at hk
      subst hk
      rw [Nat.zero_mul, List.drop_zero]
      cases l with
      | nil => simp [joinSpace, ← ha]
      | cons b l => simp [joinSpace, ← ha]
    | succ k =>
      simp only [List.getElem?_cons_succ] at hk
      cases l with
      | nil => simp at hk
      | cons b l =>
        rw [joinSpace, Nat.succ_mul, Nat.add_comm, ← List.drop_drop, List.append_assoc, ← ha, ← List.drop_drop,
          List.drop_left, List.cons_append, List.drop_one, List.tail_cons, ha]
        exact ih (fun x hx => hl x (List.mem_cons_of_mem _ hx)) hk
        simp

theorem joinSpace_length {w : Nat} {l : List (List Char)} (hl : ∀ x ∈ l, x.length = w) :
    (joinSpace l).length = l.length * (w + 1) - 1 := by
  induction l with
  | nil => simp [joinSpace]
  | cons a l ih =>
    have ha := hl a (List.mem_cons_self ..)
    cases l with
    | nil => simp [joinSpace, ha]
    | cons b l =>
      rw [joinSpace, List.length_append, List.length_cons, ih fun x hx => hl x (List.mem_cons_of_mem _ hx), ha]
      · simp only [List.length_cons, Nat.succ_mul]
        omega
      · simp

theorem field_header {w k : Nat} {l : List Nat} {c : Nat} (hl : ∀ x ∈ l, (tokenId (AugTok.ofId x)).length ≤ w)
    (hk : l[k]? = some c) :
    ((l.flatMap fun i => padRight w (tokenId (AugTok.ofId i)) ++ [' ']).drop (k * (w + 1))).take w =
      padRight w (tokenId (AugTok.ofId c)) := by
  induction l generalizing k with
  | nil => simp at hk
  | cons a l ih =>
    have ha := padRight_length (hl a (List.mem_cons_self ..))
    cases k with
    | zero =>
      simp only [List.getElem?_cons_zero, Option.some.injEq] at hk
      subst hk
      rw [Nat.zero_mul, List.drop_zero, List.flatMap_cons, List.append_assoc, List.take_left' ha]
    | succ k =>
      simp only [List.getElem?_cons_succ] at hk
      rw [Nat.succ_mul, Nat.add_comm, ← List.drop_drop, List.flatMap_cons,
        List.drop_left' (by rw [List.length_append, ha]; rfl)]
      exact ih (fun x hx => hl x (List.mem_cons_of_mem _ hx)) hk

theorem decimal_length_le {m n : Nat} (h : m < n) : (decimal m).length ≤ (decimal n).length := by
  have hpos : 0 < (decimal n).length := List.length_pos_iff.mpr Nat.toDigits_ne_nil
  unfold decimal at *
  rw [Nat.length_toDigits_le_iff (by decide) hpos]
  have := (Nat.length_toDigits_le_iff (b := 10) (n := n) (by decide) hpos).mp (Nat.le_refl _)
  omega

theorem bodyLines_getElem? {columns : List Nat} {width gw sw k i : Nat} {as : List (List (Option Action))}
    {gs : List (List (Option Nat))} {a : List (Option Action)} {g : List (Option Nat)} (ha : as[i]? = some a)
    (hg : gs[i]? = some g) :
    (bodyLines columns width gw sw k as gs)[i]? =
      some (line width gw sw (k + i) (columns.map fun j => (a[j]?).join) g) := by
  induction i generalizing k as gs with
  | zero =>
    cases as with
    | nil => simp at ha
    | cons a' as =>
      cases gs with
      | nil => simp at hg
      | cons g' gs =>
        simp only [List.getElem?_cons_zero, Option.some.injEq] at ha hg
        subst ha
        subst hg
        rfl
  | succ i ih =>
    cases as with
    | nil => simp at ha
    | cons a' as =>
      cases gs with
      | nil => simp at hg
      | cons g' gs =>
        simp only [List.getElem?_cons_succ] at ha hg
        rw [bodyLines, List.getElem?_cons_succ, ih ha hg, show k + 1 + i = k + (i + 1) by omega]

end

end Verif.Display
