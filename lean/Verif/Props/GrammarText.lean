import Verif.Proof.GrammarText

/-!
# C35: grammar texts
-/

set_option autoImplicit false

namespace Verif.C35

open Outcome Verif.GrammarText

/-- `from_grammar_str` accepts exactly the texts of the specification and returns the rules that are written
there. -/
theorem parses_exactly (s : String) (g : Grammar Nat String) :
    fromGrammarStr s = .ok g ↔ Spec.GrammarText s.toList g.productions :=
  fromGrammarStr_iff s g

/-- It returns a grammar or an error. -/
theorem ok_or_error (s : String) : (∃ g, fromGrammarStr s = .ok g) ∨ ∃ e, fromGrammarStr s = .err e := by
  have h := parseLines_safe (lines s.toList)
  unfold fromGrammarStr
  revert h
  cases parseLines (lines s.toList) <;> simp

/-- What is not the text of a grammar is rejected. -/
theorem rejects_exactly (s : String) :
    (∃ e, fromGrammarStr s = .err e) ↔ ¬ ∃ rs, Spec.GrammarText s.toList rs := by
  constructor
  · rintro ⟨e, he⟩ ⟨rs, hrs⟩
    have := (parses_exactly s ⟨rs⟩).mpr hrs
    rw [this] at he
    cases he
  · intro h
    rcases ok_or_error s with ⟨g, hg⟩ | h'
    · exact absurd ⟨_, (parses_exactly s g).mp hg⟩ h
    · exact h'

/-- A text has at most one meaning. -/
theorem unambiguous {s : List Char} {rs rs' : List (Rule Nat String)} (h : Spec.GrammarText s rs)
    (h' : Spec.GrammarText s rs') : rs = rs' := by
  have h1 := (parses_exactly (String.ofList s) ⟨rs⟩).mpr (by simpa using h)
  have h2 := (parses_exactly (String.ofList s) ⟨rs'⟩).mpr (by simpa using h')
  rw [h1] at h2
  injection h2 with h2
  injection h2

/-! ## Bad lines -/

/-- `line` is one of the lines of `text`. -/
inductive IsLine : List Char → List Char → Prop
  | last {line : List Char} : '\n' ∉ line → line ≠ [] → IsLine line line
  | first {line : List Char} (rest : List Char) : '\n' ∉ line → IsLine (line ++ '\n' :: rest) line
  | later {rest line : List Char} (other : List Char) : '\n' ∉ other → IsLine rest line →
      IsLine (other ++ '\n' :: rest) line

theorem line_unique {rest rest' : List Char} : ∀ (l l' : List Char), '\n' ∉ l → '\n' ∉ l' →
    l ++ '\n' :: rest = l' ++ '\n' :: rest' → l = l' ∧ rest = rest' := by
  intro l
  induction l with
  | nil =>
    intro l' _ h2 e
    cases l' with
    | nil => simpa using e
    | cons c l' =>
      simp only [List.nil_append, List.cons_append, List.cons.injEq] at e
      rw [← e.1] at h2
      simp at h2
  | cons c l ih =>
    intro l' h1 h2 e
    cases l' with
    | nil =>
      simp only [List.nil_append, List.cons_append, List.cons.injEq] at e
      rw [e.1] at h1
      simp at h1
    | cons d l' =>
      simp only [List.cons_append, List.cons.injEq] at e
      obtain ⟨rfl, e⟩ := e
      obtain ⟨rfl, h⟩ := ih l' (fun h => h1 (by simp [h])) (fun h => h2 (by simp [h])) e
      exact ⟨rfl, h⟩

theorem isLine_text {text line : List Char} {rs : List (Rule Nat String)} (ht : Spec.GrammarText text rs)
    (h : IsLine text line) : ∃ r ∈ rs, Spec.LineText line r := by
  induction ht with
  | nil =>
    generalize hx : ([] : List Char) = x at h
    cases h with
    | last _ h => exact absurd hx.symm h
    | first => simp at hx
    | later => simp at hx
  | @last l r hl hr =>
    cases h with
    | last => exact ⟨r, by simp, hr⟩
    | first => simp at hl
    | later => simp at hl
  | @line l rest r rs hl hr _ ih =>
    generalize hx : l ++ '\n' :: rest = x at h
    cases h with
    | last h _ =>
      subst hx
      simp at h
    | first rest' h =>
      obtain ⟨rfl, -⟩ := line_unique _ _ hl h hx
      exact ⟨r, by simp, hr⟩
    | later other ho h =>
      obtain ⟨-, rfl⟩ := line_unique _ _ hl ho hx
      obtain ⟨r', hr', hl'⟩ := ih h
      exact ⟨r', by simp [hr'], hl'⟩

/-- One line that is not the text of a rule, wherever it is, is enough for the whole text to be rejected. -/
theorem bad_line_rejected (s : String) {line : List Char} (h : IsLine s.toList line)
    (hbad : ∀ r, ¬ Spec.LineText line r) : ∃ e, fromGrammarStr s = .err e := by
  rw [rejects_exactly]
  rintro ⟨rs, hrs⟩
  obtain ⟨r, -, hr⟩ := isLine_text hrs h
  exact hbad r hr

/-- In particular a line without an arrow. -/
theorem missing_arrow_rejected (s : String) {line : List Char} (h : IsLine s.toList line)
    (hbad : ¬ ['-', '>'] <:+: line) : ∃ e, fromGrammarStr s = .err e := by
  refine bad_line_rejected s h fun r hr => hbad ?_
  cases hr with
  | mk => exact ⟨_, _, rfl⟩

/-- A line with something else than capital letters and white space before the first arrow. -/
theorem bad_label_rejected (s : String) {line a b : List Char} {c : Char} (h : IsLine s.toList line)
    (hl : line = a ++ ['-', '>'] ++ b) (ha : ¬ ['-', '>'] <:+: a) (hc : c ∈ a) (h1 : c.toNat ∉ Spec.whiteSpace)
    (h2 : ¬ (65 ≤ c.toNat ∧ c.toNat ≤ 90)) : ∃ e, fromGrammarStr s = .err e := by
  refine bad_line_rejected s h fun r hr => ?_
  cases hr with
  | @mk s label t body ns hs hlab ht hb =>
    have hmem : ∀ d ∈ s ++ label ++ t, d.toNat ∈ Spec.whiteSpace ∨ (65 ≤ d.toNat ∧ d.toNat ≤ 90) := by
      intro d hd
      simp only [List.mem_append] at hd
      rcases hd with (hd | hd) | hd
      · exact .inl (hs d hd)
      · exact .inr (hlab d hd)
      · exact .inl (ht d hd)
    rw [List.append_assoc (s ++ label ++ t), List.append_assoc a, List.append_eq_append_iff] at hl
    have hin : c ∈ s ++ label ++ t := by
      rcases hl with ⟨m, hm, e⟩ | ⟨m, hm, -⟩
      · match m with
        | [] =>
          rw [List.append_nil] at hm
          rwa [← hm]
        | [x] =>
          simp only [List.cons_append, List.nil_append, List.cons.injEq] at e
          exact absurd e.2.1 (by decide)
        | x :: y :: m =>
          simp only [List.cons_append, List.nil_append, List.cons.injEq] at e
          obtain ⟨rfl, rfl, -⟩ := e
          exact absurd ⟨s ++ label ++ t, m, by rw [hm]; simp⟩ ha
      · rw [hm]
        simp [hc]
    rcases hmem c hin with h | h
    · exact h1 h
    · exact h2 h

/-! ## Printing -/

/-- How a node is printed. -/
def printNode : Node Nat String → List Char
  | .terminal .epsilon => ['!']
  | .terminal .eos => []
  | .terminal (.token n) => [Char.ofNat n]
  | .production l => l.toList

/-- Nodes with a space between them. -/
def printNodes : List (Node Nat String) → List Char
  | [] => []
  | [n] => printNode n
  | n :: ns => printNode n ++ [' '] ++ printNodes ns

/-- How a rule is printed. -/
def printRule (r : Rule Nat String) : List Char :=
  r.symbol.toList ++ [' '] ++ ['-', '>'] ++ ([' '] ++ printNodes r.rule)

/-- How a grammar is printed. -/
def print : List (Rule Nat String) → List Char
  | [] => []
  | r :: rs => printRule r ++ '\n' :: print rs

/-- Nodes that can be written down. -/
def NodeOk : Node Nat String → Prop
  | .terminal .epsilon => True
  | .terminal .eos => False
  | .terminal (.token n) => n < 128 ∧ n ≠ 33 ∧ ¬ (65 ≤ n ∧ n ≤ 90) ∧ n ∉ Spec.whiteSpace
  | .production l => l ≠ "" ∧ Spec.Capitals l.toList

/-- Rules that can be written down. -/
def RuleOk (r : Rule Nat String) : Prop := Spec.Capitals r.symbol.toList ∧ ∀ n ∈ r.rule, NodeOk n

theorem ofNat_toNat {n : Nat} (h : n < 128) : (Char.ofNat n).toNat = n := by
  have hv : n.isValidChar := .inl (by omega)
  unfold Char.ofNat
  rw [dif_pos hv]
  rfl

theorem node_printed {n : Node Nat String} (h : NodeOk n) :
    Spec.NodeText (printNode n) n ∧ ∀ c ∈ printNode n, c.toNat ∉ Spec.whiteSpace := by
  match n, h with
  | .terminal .epsilon, _ =>
    refine ⟨.epsilon, ?_⟩
    intro c hc
    rw [printNode, List.mem_singleton] at hc
    subst hc
    decide
  | .terminal (.token n), ⟨h1, h2, h3, h4⟩ =>
    have e := ofNat_toNat h1
    constructor
    · have := Spec.NodeText.terminal (c := Char.ofNat n) (by omega) ?_ (by omega) ?_
      · rwa [e] at this
      · intro h
        rw [char_eq_iff, e] at h
        exact h2 h
      · rw [e]
        intro h
        apply h4
        revert h
        simp only [Spec.whiteSpace, List.mem_cons, List.not_mem_nil, or_false]
        omega
    · intro c hc
      rw [printNode, List.mem_singleton] at hc
      subst hc
      rwa [e]
  | .production l, ⟨h1, h2⟩ =>
    refine ⟨?_, fun c hc => upper_not_space (h2 c hc)⟩
    have := Spec.NodeText.label (s := l.toList) ?_ h2
    · rwa [String.ofList_toList] at this
    · intro h
      exact h1 (String.toList_eq_nil_iff.mp h)

theorem nodes_printed {ns : List (Node Nat String)} (hne : ns ≠ []) (h : ∀ n ∈ ns, NodeOk n) :
    Spec.NodesText (printNodes ns) ns ∧ Spec.Trimmed (printNodes ns) ∧ printNodes ns ≠ [] ∧
      '\n' ∉ printNodes ns := by
  induction ns with
  | nil => exact absurd rfl hne
  | cons n ns ih =>
    obtain ⟨hn, hsp⟩ := node_printed (h n (by simp))
    have hnn : printNode n ≠ [] := nodeText_ne hn
    have hnl : '\n' ∉ printNode n := fun h => hsp _ h (by decide)
    cases ns with
    | nil =>
      refine ⟨.one hn, ⟨?_, ?_⟩, hnn, hnl⟩
      · intro c hc
        exact hsp c (List.mem_of_mem_head? hc)
      · intro c hc
        exact hsp c (List.mem_of_getLast? hc)
    | cons m ns =>
      obtain ⟨i1, i2, i3, i4⟩ := ih (by simp) fun n hn => h n (by simp [hn])
      rw [printNodes]
      · refine ⟨.more hn ⟨by simp, by simp⟩ i1, ⟨?_, ?_⟩, by simp, ?_⟩
        · intro c hc
          apply hsp c
          cases hp : printNode n with
          | nil => exact absurd hp hnn
          | cons d l =>
            rw [hp] at hc
            simp only [List.cons_append, List.head?_cons, Option.some.injEq] at hc
            simp [hc]
        · intro c hc
          apply i2.2 c
          rw [List.getLast?_append_of_ne_nil _ i3] at hc
          exact hc
        · simp only [List.mem_append, not_or]
          exact ⟨⟨hnl, by decide⟩, i4⟩
      · simp

theorem rule_printed {r : Rule Nat String} (h : RuleOk r) :
    Spec.LineText (printRule r) r ∧ '\n' ∉ printRule r := by
  obtain ⟨hl, hn⟩ := h
  obtain ⟨l, ns⟩ := r
  have hb : Spec.BodyText ([' '] ++ printNodes ns) ns ∧ '\n' ∉ printNodes ns := by
    by_cases hne : ns = []
    · subst hne
      refine ⟨.empty ?_, by simp [printNodes]⟩
      intro c hc
      have : c = ' ' := by simpa [printNodes] using hc
      subst this
      decide
    · obtain ⟨i1, i2, i3, i4⟩ := nodes_printed hne hn
      have := Spec.BodyText.nodes (s := [' ']) (u := []) (fun c hc => by
        rw [List.mem_singleton] at hc
        subst hc
        decide) i1 i2 (by simp [Spec.Blank])
      rw [List.append_nil] at this
      exact ⟨this, i4⟩
  constructor
  · have := Spec.LineText.mk (s := []) (label := l.toList) (t := [' ']) (by simp [Spec.Blank]) hl
      (fun c hc => by
        rw [List.mem_singleton] at hc
        subst hc
        decide) hb.1
    rw [String.ofList_toList, List.nil_append] at this
    exact this
  · simp only [printRule, List.mem_append, not_or]
    refine ⟨⟨⟨fun h => absurd (hl _ h) (by decide), by decide⟩, by decide⟩, by decide, hb.2⟩

/-- The printed form of any grammar that can be written down is read back as this grammar. -/
theorem round_trip (g : Grammar Nat String) (h : ∀ r ∈ g.productions, RuleOk r) :
    fromGrammarStr (String.ofList (print g.productions)) = .ok g := by
  rw [parses_exactly, String.toList_ofList]
  obtain ⟨rs⟩ := g
  simp only at h ⊢
  induction rs with
  | nil => exact .nil
  | cons r rs ih =>
    obtain ⟨h1, h2⟩ := rule_printed (h r (by simp))
    exact .line h2 h1 (ih fun r hr => h r (by simp [hr]))

/-- A grammar that can be written down, its text, and what is read. -/
example : (∀ r ∈ [(⟨"S", [.production "A", .terminal (.token 43)]⟩ : Rule Nat String), ⟨"A", [.terminal .epsilon]⟩],
    RuleOk r) ∧
    print [⟨"S", [.production "A", .terminal (.token 43)]⟩, ⟨"A", [.terminal .epsilon]⟩] =
      "S -> A +\nA -> !\n".toList := by
  constructor
  · simp only [List.mem_cons, List.not_mem_nil, or_false, RuleOk, NodeOk, Spec.Capitals]
    rintro r (rfl | rfl) <;> simp [Spec.whiteSpace]
  · decide

/-- Lines that are rejected. -/
example : ∃ e, fromGrammarStr "S -> a\nA = b\n" = .err e :=
  missing_arrow_rejected _ (line := "A = b".toList)
    (.later (rest := "A = b\n".toList) "S -> a".toList (by decide)
      (.first (line := "A = b".toList) [] (by decide))) (by decide)

example : ∃ e, fromGrammarStr "S -> a\nb -> b" = .err e :=
  bad_label_rejected _ (line := "b -> b".toList) (a := "b ".toList) (b := " b".toList) (c := 'b')
    (.later "S -> a".toList (by decide) (.last (by decide) (by decide)))
    (by decide) (by decide) (by decide) (by decide) (by decide)

/-- Texts that are not of the form of the specification exist because of their nodes, too. -/
example : fromGrammarStr "S -> ab" = .err (.badNode ['a', 'b']) := by decide

/-- A text with all kinds of white space. -/
example : fromGrammarStr "  S\t->  A \t b\r\n A->\r\n" =
    .ok ⟨[⟨"S", [.production "A", .terminal (.token 98)]⟩, ⟨"A", []⟩]⟩ := by decide +kernel

end Verif.C35
