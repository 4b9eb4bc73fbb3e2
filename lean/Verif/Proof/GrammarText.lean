import Verif.Model.GrammarText
import Verif.Spec.GrammarText
import Mathlib.Data.List.Basic
import Mathlib.Tactic.ByContra

/-!
# The parser of grammar texts reads exactly the texts of the specification
-/

set_option autoImplicit false

namespace Verif

open Outcome

theorem isSpace_iff (c : Char) : isSpace c = true ↔ c.toNat ∈ Spec.whiteSpace := by
  unfold isSpace Spec.whiteSpace
  simp only [List.mem_cons, List.not_mem_nil, or_false, Bool.or_eq_true, Bool.and_eq_true, decide_eq_true_eq,
    beq_iff_eq]
  omega

theorem char_eq_iff (c d : Char) : c = d ↔ c.toNat = d.toNat := by
  constructor
  · rintro rfl; rfl
  · intro h
    apply Char.ext
    exact UInt32.toNat_inj.mp h

theorem isAsciiSpace_iff (c : Char) : isAsciiSpace c = true ↔ c.toNat ∈ [0x9, 0xa, 0xc, 0xd, 0x20] := by
  unfold isAsciiSpace
  simp only [List.mem_cons, List.not_mem_nil, or_false, Bool.or_eq_true, beq_iff_eq, char_eq_iff]
  rw [show ' '.toNat = 32 from rfl, show '\t'.toNat = 9 from rfl, show '\n'.toNat = 10 from rfl,
    show '\x0c'.toNat = 12 from rfl, show '\r'.toNat = 13 from rfl]
  omega

theorem isAsciiUpper_iff (c : Char) : isAsciiUpper c = true ↔ 65 ≤ c.toNat ∧ c.toNat ≤ 90 := by
  unfold isAsciiUpper
  simp only [Bool.and_eq_true, decide_eq_true_eq, Char.le_def, UInt32.le_iff_toNat_le]
  rfl

theorem isSpace_of_ascii {c : Char} (h : isAsciiSpace c = true) : isSpace c = true := by
  rw [isSpace_iff]
  rw [isAsciiSpace_iff] at h
  revert h
  simp only [Spec.whiteSpace, List.mem_cons, List.not_mem_nil, or_false]
  omega

theorem upper_not_space {c : Char} (h : 65 ≤ c.toNat ∧ c.toNat ≤ 90) : c.toNat ∉ Spec.whiteSpace := by
  simp only [Spec.whiteSpace, List.mem_cons, List.not_mem_nil, or_false]
  omega

theorem all_upper_iff (s : List Char) : s.all isAsciiUpper = true ↔ Spec.Capitals s := by
  simp only [List.all_eq_true, isAsciiUpper_iff, Spec.Capitals]

namespace GrammarText

/-! ## Trimming -/

theorem trimStart_blank {s : List Char} (hs : Spec.Blank s) (t : List Char) :
    trimStart (s ++ t) = trimStart t := by
  induction s with
  | nil => rfl
  | cons c s ih =>
    have hc : isSpace c = true := (isSpace_iff c).mpr (hs c (by simp))
    simp only [List.cons_append, trimStart, hc, if_true]
    exact ih fun d hd => hs d (by simp [hd])

theorem trimStart_eq {t : List Char} (h : ∀ c, t.head? = some c → c.toNat ∉ Spec.whiteSpace) :
    trimStart t = t := by
  cases t with
  | nil => rfl
  | cons c t =>
    have hc : ¬ isSpace c = true := by
      rw [isSpace_iff]
      exact h c rfl
    simp only [trimStart, hc, Bool.false_eq_true, if_false]

theorem trimStart_split (t : List Char) :
    ∃ s, t = s ++ trimStart t ∧ Spec.Blank s ∧
      ∀ c, (trimStart t).head? = some c → c.toNat ∉ Spec.whiteSpace := by
  induction t with
  | nil => exact ⟨[], rfl, by simp [Spec.Blank], by simp [trimStart]⟩
  | cons c t ih =>
    by_cases hc : isSpace c = true
    · obtain ⟨s, hs, hb, hh⟩ := ih
      refine ⟨c :: s, ?_, ?_, ?_⟩
      · simp only [trimStart, hc, if_true, List.cons_append]
        rw [← hs]
      · intro d hd
        rcases List.mem_cons.mp hd with rfl | hd
        · exact (isSpace_iff _).mp hc
        · exact hb d hd
      · simpa only [trimStart, hc, if_true] using hh
    · refine ⟨[], ?_, by simp [Spec.Blank], ?_⟩
      · simp only [trimStart, hc, Bool.false_eq_true, if_false, List.nil_append]
      · simp only [trimStart, hc, Bool.false_eq_true, if_false, List.head?_cons]
        intro d hd
        injection hd with hd
        subst hd
        rwa [isSpace_iff] at hc

theorem blank_reverse {s : List Char} (hs : Spec.Blank s) : Spec.Blank s.reverse := by
  intro c hc
  exact hs c (by simpa using hc)

theorem trim_blank {s : List Char} (hs : Spec.Blank s) : trim s = [] := by
  unfold trim
  have h := trimStart_blank hs []
  rw [List.append_nil] at h
  rw [h]
  rfl

theorem trim_eq {s t u : List Char} (hs : Spec.Blank s) (ht : Spec.Trimmed t) (hu : Spec.Blank u) :
    trim (s ++ t ++ u) = t := by
  rcases t.eq_nil_or_concat with rfl | ⟨t', d, rfl⟩
  · rw [List.append_nil]
    apply trim_blank
    intro c hc
    rcases List.mem_append.mp hc with h | h
    · exact hs c h
    · exact hu c h
  · rw [List.concat_eq_append] at *
    unfold trim
    rw [List.append_assoc, trimStart_blank hs, trimStart_eq (t := t' ++ [d] ++ u)]
    · rw [List.reverse_append, trimStart_blank (blank_reverse hu), trimStart_eq, List.reverse_reverse]
      intro c hc
      apply ht.2 c
      simpa using hc
    · intro c hc
      apply ht.1 c
      rw [← hc]
      cases t' <;> rfl

theorem trim_split (t : List Char) :
    ∃ s u, t = s ++ trim t ++ u ∧ Spec.Blank s ∧ Spec.Blank u ∧ Spec.Trimmed (trim t) := by
  obtain ⟨s, hs, hb, hh⟩ := trimStart_split t
  obtain ⟨u, hu, hbu, hhu⟩ := trimStart_split (trimStart t).reverse
  have e : trimStart t = trim t ++ u.reverse := by
    have := congrArg List.reverse hu
    rw [List.reverse_reverse, List.reverse_append] at this
    exact this
  refine ⟨s, u.reverse, ?_, hb, blank_reverse hbu, ?_, ?_⟩
  · rw [List.append_assoc, ← e]
    exact hs
  · intro c hc
    apply hh c
    rw [e]
    revert hc
    cases trim t with
    | nil => simp
    | cons a l => simp
  · intro c hc
    apply hhu c
    unfold trim at hc
    simpa using hc

/-! ## The arrow -/

theorem splitArrow_sound : ∀ {l a b : List Char}, splitArrow l = some (a, b) → l = a ++ ['-', '>'] ++ b := by
  intro l
  induction l with
  | nil => intro a b h; simp [splitArrow] at h
  | cons c s ih =>
    intro a b h
    rw [splitArrow.eq_def] at h
    simp only at h
    split at h
    · injection h with h
      injection h with h1 h2
      subst h1 h2
      rfl
    · simp only [Option.map_eq_some_iff] at h
      obtain ⟨⟨a', b'⟩, hab, h⟩ := h
      injection h with h1 h2
      subst h1 h2
      rw [ih hab]
      rfl

theorem splitArrow_complete {a : List Char} (ha : '-' ∉ a) (b : List Char) :
    splitArrow (a ++ ['-', '>'] ++ b) = some (a, b) := by
  induction a with
  | nil => rfl
  | cons c a ih =>
    have hc : c ≠ '-' := fun h => ha (by simp [h])
    have := ih fun h => ha (by simp [h])
    rw [List.cons_append, List.cons_append, splitArrow.eq_def]
    simp only
    split
    · exact absurd rfl hc
    · rw [this]
      rfl

/-! ## Nodes -/

theorem parseNode_sound {s : List Char} {n : Node Nat String} (hne : s ≠ [])
    (hs : ∀ c ∈ s, ¬ isAsciiSpace c = true) (h : parseNode s = .ok n) : Spec.NodeText s n := by
  unfold parseNode at h
  split at h
  · rename_i e
    subst e
    injection h with h
    subst h
    exact .epsilon
  · rename_i e
    split at h
    · rename_i hu
      injection h with h
      subst h
      exact .label hne ((all_upper_iff s).mp hu)
    · rename_i hu
      split at h
      · rename_i c
        split at h
        · rename_i hc
          injection h with h
          subst h
          refine .terminal hc ?_ ?_ ?_
          · rintro rfl
            exact e rfl
          · intro h
            apply hu
            simpa [isAsciiUpper_iff] using h
          · rw [← isAsciiSpace_iff]
            exact hs c (by simp)
        · cases h
      · cases h

theorem parseNode_complete {s : List Char} {n : Node Nat String} (h : Spec.NodeText s n) :
    parseNode s = .ok n := by
  unfold parseNode
  cases h with
  | epsilon => rfl
  | label hne hs =>
    rw [if_neg, if_pos ((all_upper_iff s).mpr hs)]
    · rfl
    · rintro rfl
      have := hs '!' (by simp)
      revert this
      decide
  | @terminal c h1 h2 h3 h4 =>
    rw [if_neg (by simpa using h2), if_neg]
    · simp only [h1, if_true]
      rfl
    · simpa [isAsciiUpper_iff] using h3

theorem nodeText_ne {s : List Char} {n : Node Nat String} (h : Spec.NodeText s n) : s ≠ [] := by
  cases h with
  | epsilon => simp
  | label h _ => exact h
  | terminal => simp

theorem nodeText_noSpace {s : List Char} {n : Node Nat String} (h : Spec.NodeText s n) :
    ∀ c ∈ s, ¬ isAsciiSpace c = true := by
  cases h with
  | epsilon =>
    intro c hc
    rw [List.mem_singleton] at hc
    subst hc
    decide
  | label _ hs =>
    intro c hc h
    exact upper_not_space (hs c hc) ((isSpace_iff c).mp (isSpace_of_ascii h))
  | terminal h1 h2 h3 h4 =>
    intro c hc
    rw [List.mem_singleton] at hc
    subst hc
    rwa [isAsciiSpace_iff]

/-! ## Splitting at white space -/

theorem splitSpaces_piece {s : List Char} (hs : ∀ c ∈ s, ¬ isAsciiSpace c = true) (cur rest : List Char) :
    splitSpaces cur (s ++ rest) = splitSpaces (s.reverse ++ cur) rest := by
  induction s generalizing cur with
  | nil => rfl
  | cons c s ih =>
    have hc : ¬ isAsciiSpace c = true := hs c (by simp)
    rw [List.cons_append, splitSpaces.eq_def]
    simp only [hc, Bool.false_eq_true, if_false]
    rw [ih fun d hd => hs d (by simp [hd])]
    simp

theorem splitSpaces_spaces {g : List Char} (hg : ∀ c ∈ g, isAsciiSpace c = true) (rest : List Char) :
    splitSpaces [] (g ++ rest) = splitSpaces [] rest := by
  induction g with
  | nil => rfl
  | cons c g ih =>
    have hc : isAsciiSpace c = true := hg c (by simp)
    rw [List.cons_append, splitSpaces.eq_def]
    simp only [hc, if_true]
    exact ih fun d hd => hg d (by simp [hd])

theorem splitSpaces_gap {g cur : List Char} (hcur : cur ≠ []) (hg : Spec.Gap g) (rest : List Char) :
    splitSpaces cur (g ++ rest) = cur.reverse :: splitSpaces [] rest := by
  obtain ⟨hne, hg⟩ := hg
  cases g with
  | nil => exact absurd rfl hne
  | cons c g =>
    have hc : isAsciiSpace c = true := (isAsciiSpace_iff c).mpr (hg c (by simp))
    rw [List.cons_append, splitSpaces.eq_def]
    simp only [hc, if_true]
    cases cur with
    | nil => exact absurd rfl hcur
    | cons d cur =>
      rw [splitSpaces_spaces fun d hd => (isAsciiSpace_iff d).mpr (hg d (by simp [hd]))]

theorem splitSpaces_end {cur : List Char} (hcur : cur ≠ []) : splitSpaces cur [] = [cur.reverse] := by
  cases cur with
  | nil => exact absurd rfl hcur
  | cons c cur => rfl

theorem nodes_complete {t : List Char} {ns : List (Node Nat String)} (h : Spec.NodesText t ns) :
    parseNodes (splitSpaces [] t) = .ok ns := by
  induction h with
  | @one s n hn =>
    have h := splitSpaces_piece (nodeText_noSpace hn) [] []
    rw [List.append_nil] at h
    rw [h, List.append_nil, splitSpaces_end (by simpa using nodeText_ne hn), List.reverse_reverse]
    simp only [parseNodes, parseNode_complete hn, ok_bind, pure_eq]
  | @more s gap rest n ns hn hg hr ih =>
    rw [List.append_assoc, splitSpaces_piece (nodeText_noSpace hn), List.append_nil,
      splitSpaces_gap (by simpa using nodeText_ne hn) hg, List.reverse_reverse]
    simp only [parseNodes, parseNode_complete hn, ih, ok_bind, pure_eq]

/-- What splitting found: white space, the nodes, white space. -/
theorem nodes_sound : ∀ (s cur : List Char) (ns : List (Node Nat String)),
    (∀ c ∈ cur, ¬ isAsciiSpace c = true) → parseNodes (splitSpaces cur s) = .ok ns →
      ∃ lead t trail, cur.reverse ++ s = lead ++ t ++ trail ∧ (∀ c ∈ lead, isAsciiSpace c = true) ∧
        (∀ c ∈ trail, isAsciiSpace c = true) ∧ (cur ≠ [] → lead = []) ∧
        (ns = [] ∧ t = [] ∨ Spec.NodesText t ns) := by
  intro s
  induction s with
  | nil =>
    intro cur ns hcur h
    by_cases he : cur = []
    · subst he
      simp only [splitSpaces, parseNodes, pure_eq] at h
      injection h with h
      subst h
      exact ⟨[], [], [], rfl, by simp, by simp, by simp, .inl ⟨rfl, rfl⟩⟩
    · rw [splitSpaces_end he] at h
      simp only [parseNodes, pure_eq, ok_bind, bind_eq_ok] at h
      obtain ⟨n, hn, h⟩ := h
      injection h with h
      subst h
      refine ⟨[], cur.reverse, [], by simp, by simp, by simp, by simp, .inr (.one ?_)⟩
      exact parseNode_sound (by simpa using he) (fun c hc => hcur c (by simpa using hc)) hn
  | cons c s ih =>
    intro cur ns hcur h
    by_cases hc : isAsciiSpace c = true
    · by_cases he : cur = []
      · subst he
        rw [splitSpaces.eq_def] at h
        simp only [hc, if_true] at h
        obtain ⟨lead, t, trail, e, hl, ht, -, hn⟩ := ih [] ns (by simp) h
        refine ⟨c :: lead, t, trail, ?_, ?_, ht, by simp, hn⟩
        · simp only [List.reverse_nil, List.nil_append] at e
          simp [e]
        · intro d hd
          rcases List.mem_cons.mp hd with rfl | hd
          · exact hc
          · exact hl d hd
      · have h1 : splitSpaces cur (c :: s) = cur.reverse :: splitSpaces [] s := by
          have := splitSpaces_gap (g := [c]) he
            ⟨by simp, fun d hd => by
              rw [List.mem_singleton] at hd
              subst hd
              exact (isAsciiSpace_iff _).mp hc⟩ s
          exact this
        rw [h1] at h
        simp only [parseNodes, pure_eq, bind_eq_ok] at h
        obtain ⟨n, hn, ns', hns, h⟩ := h
        injection h with h
        subst h
        have hnt : Spec.NodeText cur.reverse n :=
          parseNode_sound (by simpa using he) (fun c hc => hcur c (by simpa using hc)) hn
        obtain ⟨lead, t, trail, e, hl, ht, -, hn'⟩ := ih [] ns' (by simp) hns
        simp only [List.reverse_nil, List.nil_append] at e
        rcases hn' with ⟨rfl, rfl⟩ | hn'
        · refine ⟨[], cur.reverse, c :: (lead ++ trail), by simp [e], by simp, ?_, by simp, .inr (.one hnt)⟩
          intro d hd
          rcases List.mem_cons.mp hd with rfl | hd
          · exact hc
          · rcases List.mem_append.mp hd with hd | hd
            · exact hl d hd
            · exact ht d hd
        · refine ⟨[], cur.reverse ++ (c :: lead) ++ t, trail, by simp [e], by simp, ht, by simp,
            .inr (.more hnt ⟨by simp, ?_⟩ hn')⟩
          intro d hd
          rw [← isAsciiSpace_iff]
          rcases List.mem_cons.mp hd with rfl | hd
          · exact hc
          · exact hl d hd
    · rw [splitSpaces.eq_def] at h
      simp only [hc, Bool.false_eq_true, if_false] at h
      obtain ⟨lead, t, trail, e, hl, ht, hle, hn⟩ := ih (c :: cur) ns (by
        intro d hd
        rcases List.mem_cons.mp hd with rfl | hd
        · exact hc
        · exact hcur d hd) h
      refine ⟨lead, t, trail, ?_, hl, ht, fun _ => hle (by simp), hn⟩
      simpa using e

/-! ## Lines -/

theorem body_complete {b : List Char} {ns : List (Node Nat String)} (h : Spec.BodyText b ns) :
    parseNodes (splitSpaces [] (trim b)) = .ok ns := by
  cases h with
  | empty hb => rw [trim_blank hb]; rfl
  | nodes hs hn ht hu => rw [trim_eq hs ht hu]; exact nodes_complete hn

theorem body_sound {b : List Char} {ns : List (Node Nat String)}
    (h : parseNodes (splitSpaces [] (trim b)) = .ok ns) : Spec.BodyText b ns := by
  obtain ⟨s, u, e, hs, hu, ht⟩ := trim_split b
  obtain ⟨lead, t, trail, e', hl, htr, -, hn⟩ := nodes_sound _ _ _ (by simp) h
  simp only [List.reverse_nil, List.nil_append] at e'
  have hlead : lead = [] := by
    cases lead with
    | nil => rfl
    | cons c l =>
      exfalso
      apply ht.1 c
      · rw [e']; rfl
      · exact (isSpace_iff c).mp (isSpace_of_ascii (hl c (by simp)))
  have htrail : trail = [] := by
    rcases trail.eq_nil_or_concat with h | ⟨l, c, rfl⟩
    · exact h
    · exfalso
      apply ht.2 c
      · rw [e']; simp
      · exact (isSpace_iff c).mp (isSpace_of_ascii (htr c (by simp)))
  subst hlead htrail
  simp only [List.nil_append, List.append_nil] at e'
  rw [e'] at e ht
  rw [e]
  rcases hn with ⟨rfl, rfl⟩ | hn
  · rw [List.append_nil]
    apply Spec.BodyText.empty
    intro c hc
    rcases List.mem_append.mp hc with h | h
    · exact hs c h
    · exact hu c h
  · exact .nodes hs hn ht hu

theorem line_sound {l : List Char} {r : Rule Nat String} (h : parseLine l = .ok r) : Spec.LineText l r := by
  unfold parseLine at h
  split at h
  · cases h
  · rename_i a b hab
    simp only at h
    split at h
    · cases h
    · rename_i hu
      simp only [bind_eq_ok, pure_eq] at h
      obtain ⟨ns, hns, h⟩ := h
      injection h with h
      subst h
      obtain ⟨s, u, e, hs, hu', -⟩ := trim_split a
      have hl : l = s ++ trim a ++ u ++ ['-', '>'] ++ b := by rw [← e]; exact splitArrow_sound hab
      rw [hl]
      refine .mk hs ?_ hu' (body_sound hns)
      rw [← all_upper_iff]
      simpa using hu

theorem line_complete {l : List Char} {r : Rule Nat String} (h : Spec.LineText l r) : parseLine l = .ok r := by
  cases h with
  | @mk s label t body ns hs hl ht hb =>
    have hd : '-' ∉ s ++ label ++ t := by
      intro h
      simp only [List.mem_append] at h
      rcases h with (h | h) | h
      · exact absurd (hs _ h) (by decide)
      · exact absurd (hl _ h) (by decide)
      · exact absurd (ht _ h) (by decide)
    unfold parseLine
    rw [splitArrow_complete hd]
    have htr : Spec.Trimmed label := by
      constructor
      · intro c hc
        exact upper_not_space (hl c (List.mem_of_mem_head? hc))
      · intro c hc
        exact upper_not_space (hl c (List.mem_of_getLast? hc))
    simp only [trim_eq hs htr ht, (all_upper_iff label).mpr hl, Bool.not_true, Bool.false_eq_true, if_false,
      body_complete hb, ok_bind, pure_eq]

theorem line_iff (l : List Char) (r : Rule Nat String) : parseLine l = .ok r ↔ Spec.LineText l r :=
  ⟨line_sound, line_complete⟩

/-! ## The end of a line -/

theorem trim_append_space (b : List Char) {c : Char} (hc : isSpace c = true) : trim (b ++ [c]) = trim b := by
  obtain ⟨s, u, e, hs, hu, ht⟩ := trim_split b
  have hu' : Spec.Blank (u ++ [c]) := by
    intro d hd
    rcases List.mem_append.mp hd with h | h
    · exact hu d h
    · rw [List.mem_singleton] at h
      subst h
      exact (isSpace_iff _).mp hc
  rw [show b ++ [c] = s ++ trim b ++ (u ++ [c]) by rw [← List.append_assoc, ← e]]
  exact trim_eq hs ht hu'

theorem splitArrow_append (l : List Char) {c : Char} (hc : c ≠ '>') :
    splitArrow (l ++ [c]) = (splitArrow l).map fun p => (p.1, p.2 ++ [c]) := by
  induction l with
  | nil =>
    simp [splitArrow]
  | cons d l ih =>
    rw [List.cons_append, splitArrow.eq_def, splitArrow.eq_def]
    simp only
    split
    · rename_i rest h
      cases l with
      | nil =>
        simp only [List.nil_append, List.cons.injEq] at h
        exact absurd h.1 hc
      | cons x l =>
        simp only [List.cons_append, List.cons.injEq] at h
        obtain ⟨rfl, rfl⟩ := h
        rfl
    · rename_i hno
      rw [ih]
      split
      · rename_i rest
        exact absurd rfl (hno (rest ++ [c]) rfl)
      · cases splitArrow l <;> rfl

theorem parseLine_cr (l : List Char) (r : Rule Nat String) :
    parseLine (l ++ ['\r']) = .ok r ↔ parseLine l = .ok r := by
  unfold parseLine
  rw [splitArrow_append l (by decide)]
  cases splitArrow l with
  | none => simp
  | some p => simp only [Option.map_some, trim_append_space _ (show isSpace '\r' = true by decide)]

theorem splitInclusive_last {l : List Char} (hl : '\n' ∉ l) (hne : l ≠ []) : splitInclusive l = [l] := by
  induction l with
  | nil => exact absurd rfl hne
  | cons c l ih =>
    have hc : c ≠ '\n' := fun h => hl (by simp [h])
    rw [splitInclusive]
    simp only [hc, if_false]
    cases l with
    | nil => rfl
    | cons d l => rw [ih (fun h => hl (by simp [h])) (by simp)]

theorem splitInclusive_line {l : List Char} (hl : '\n' ∉ l) (rest : List Char) :
    splitInclusive (l ++ '\n' :: rest) = (l ++ ['\n']) :: splitInclusive rest := by
  induction l with
  | nil => rw [List.nil_append, splitInclusive]; simp
  | cons c l ih =>
    have hc : c ≠ '\n' := fun h => hl (by simp [h])
    rw [List.cons_append, splitInclusive]
    simp only [hc, if_false]
    rw [ih fun h => hl (by simp [h])]
    rfl

theorem stripEnding_last {l : List Char} (hl : '\n' ∉ l) : stripEnding l = l := by
  unfold stripEnding
  split
  · rename_i r h
    exact absurd (List.mem_reverse.mp (by rw [h]; simp)) hl
  · rename_i r h1 h
    exact absurd (List.mem_reverse.mp (by rw [h]; simp)) hl
  · rfl

theorem parseLine_stripEnding (l : List Char) (r : Rule Nat String) :
    parseLine (stripEnding (l ++ ['\n'])) = .ok r ↔ parseLine l = .ok r := by
  unfold stripEnding
  rw [List.reverse_append]
  rcases l.eq_nil_or_concat with rfl | ⟨l', c, rfl⟩
  · rfl
  · rw [List.concat_eq_append]
    simp only [List.reverse_cons, List.reverse_nil, List.nil_append, List.reverse_append, List.cons_append]
    split
    · rename_i r' h
      simp only [List.cons.injEq, true_and] at h
      obtain ⟨rfl, rfl⟩ := h
      rw [List.reverse_reverse, parseLine_cr]
    · rename_i r' h1 h
      simp only [List.cons.injEq, true_and] at h
      subst h
      simp
    · rename_i h1 h2
      exact absurd rfl (h2 _)

theorem text_cases (s : List Char) :
    s = [] ∨ (s ≠ [] ∧ '\n' ∉ s) ∨ ∃ l rest, s = l ++ '\n' :: rest ∧ '\n' ∉ l := by
  induction s with
  | nil => exact .inl rfl
  | cons c s ih =>
    right
    by_cases hc : c = '\n'
    · subst hc
      exact .inr ⟨[], s, rfl, by simp⟩
    · rcases ih with rfl | ⟨-, h⟩ | ⟨l, rest, rfl, h⟩
      · exact .inl ⟨by simp, by simpa using Ne.symm hc⟩
      · exact .inl ⟨by simp, by simpa using ⟨Ne.symm hc, h⟩⟩
      · exact .inr ⟨c :: l, rest, rfl, by simpa using ⟨Ne.symm hc, h⟩⟩

theorem lines_sound : ∀ (n : Nat) (s : List Char) (rs : List (Rule Nat String)), s.length ≤ n →
    parseLines (lines s) = .ok rs → Spec.GrammarText s rs := by
  intro n
  induction n with
  | zero =>
    intro s rs hn h
    have : s = [] := List.length_eq_zero_iff.mp (by omega)
    subst this
    injection h with h
    subst h
    exact .nil
  | succ n ih =>
    intro s rs hn h
    rcases text_cases s with rfl | ⟨hne, hs⟩ | ⟨l, rest, rfl, hl⟩
    · injection h with h
      subst h
      exact .nil
    · rw [lines, splitInclusive_last hs hne] at h
      simp only [List.map_cons, List.map_nil, parseLines, bind_eq_ok, pure_eq, stripEnding_last hs] at h
      obtain ⟨r, hr, rs', h', h⟩ := h
      injection h' with h'
      subst h'
      injection h with h
      subst h
      exact .last hs (line_sound hr)
    · rw [lines, splitInclusive_line hl] at h
      simp only [List.map_cons, parseLines, bind_eq_ok, pure_eq] at h
      obtain ⟨r, hr, rs', h', h⟩ := h
      injection h with h
      subst h
      refine .line hl (line_sound ((parseLine_stripEnding l r).mp hr)) (ih rest rs' ?_ h')
      simp only [List.length_append, List.length_cons] at hn
      omega

theorem lines_complete {s : List Char} {rs : List (Rule Nat String)} (h : Spec.GrammarText s rs) :
    parseLines (lines s) = .ok rs := by
  induction h with
  | nil => rfl
  | @last line r hl hr =>
    have hne : line ≠ [] := by
      rintro rfl
      have := line_complete hr
      cases this
    rw [lines, splitInclusive_last hl hne]
    simp only [List.map_cons, List.map_nil, parseLines, pure_eq, stripEnding_last hl, line_complete hr, ok_bind]
  | @line line rest r rs hl hr _ ih =>
    rw [lines, splitInclusive_line hl]
    have := (parseLine_stripEnding line r).mpr (line_complete hr)
    rw [lines] at ih
    simp only [List.map_cons, parseLines, pure_eq, this, ih, ok_bind]

/-! ## No panics -/

theorem parseNode_safe (s : List Char) :
    parseNode s ≠ .panic ∧ parseNode s ≠ .ub ∧ parseNode s ≠ .timeout := by
  unfold parseNode
  repeat' split
  all_goals simp

theorem parseNodes_safe (l : List (List Char)) :
    parseNodes l ≠ .panic ∧ parseNodes l ≠ .ub ∧ parseNodes l ≠ .timeout := by
  induction l with
  | nil => simp [parseNodes]
  | cons s l ih =>
    have h := parseNode_safe s
    rw [parseNodes]
    revert h ih
    cases parseNode s <;> cases parseNodes l <;> simp

theorem parseLine_safe (s : List Char) :
    parseLine s ≠ .panic ∧ parseLine s ≠ .ub ∧ parseLine s ≠ .timeout := by
  unfold parseLine
  split
  · simp
  · rename_i a b _
    simp only
    split
    · simp
    · have h := parseNodes_safe (splitSpaces [] (trim b))
      revert h
      cases parseNodes (splitSpaces [] (trim b)) <;> simp

theorem parseLines_safe (l : List (List Char)) :
    parseLines l ≠ .panic ∧ parseLines l ≠ .ub ∧ parseLines l ≠ .timeout := by
  induction l with
  | nil => simp [parseLines]
  | cons s l ih =>
    have h := parseLine_safe s
    rw [parseLines]
    revert h ih
    cases parseLine s <;> cases parseLines l <;> simp

theorem fromGrammarStr_iff (s : String) (g : Grammar Nat String) :
    fromGrammarStr s = .ok g ↔ Spec.GrammarText s.toList g.productions := by
  unfold fromGrammarStr
  simp only [bind_eq_ok, pure_eq]
  constructor
  · rintro ⟨rs, h, e⟩
    injection e with e
    subst e
    exact lines_sound _ _ _ (Nat.le_refl _) h
  · intro h
    exact ⟨_, lines_complete h, rfl⟩

end GrammarText
end Verif
