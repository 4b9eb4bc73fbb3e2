import Verif.Model.DebugText
import Verif.Proof.ErrorText
import Verif.Proof.Display
import Verif.Proof.Automaton
import Verif.Props.Table

/-!
# C80: what is printed for items and kernels
-/

set_option linter.unusedSectionVars false
set_option autoImplicit false

namespace Verif

namespace DebugText
open Display ErrorText

theorem joinSlash_inj : ∀ {l l' : List (List Char)}, (∀ s ∈ l, '/' ∉ s ∧ s ≠ []) → (∀ s ∈ l', '/' ∉ s ∧ s ≠ []) →
    joinSlash l = joinSlash l' → l = l'
  | [], [], _, _, _ => rfl
  | [], [b], _, h2, h => absurd h.symm (h2 b (by simp)).2
  | [], b :: d :: l', _, _, h => by simp [joinSlash] at h
  | [a], [], h1, _, h => absurd h (h1 a (by simp)).2
  | a :: c :: l, [], _, _, h => by simp [joinSlash] at h
  | [a], [b], _, _, h => by simpa [joinSlash] using h
  | [a], b :: c :: l, h1, _, h => by
    simp only [joinSlash] at h
    exact absurd (show '/' ∈ a by rw [h]; simp) (h1 a (by simp)).1
  | a :: c :: l, [b], _, h2, h => by
    simp only [joinSlash] at h
    exact absurd (show '/' ∈ b by rw [← h]; simp) (h2 b (by simp)).1
  | a :: c :: l, b :: d :: l', h1, h2, h => by
    simp only [joinSlash] at h
    obtain ⟨h3, h4⟩ := append_cons_inj (h1 a (by simp)).1 (h2 b (by simp)).1 h
    rw [h3, joinSlash_inj (fun s hs => h1 s (List.mem_cons_of_mem _ hs))
      (fun s hs => h2 s (List.mem_cons_of_mem _ hs)) h4]

theorem mem_joinSlash {c : Char} : ∀ {l : List (List Char)}, c ∈ joinSlash l → c = '/' ∨ ∃ s ∈ l, c ∈ s
  | [], h => by cases h
  | [a], h => .inr ⟨a, by simp, h⟩
  | a :: b :: l, h => by
    simp only [joinSlash, List.mem_append, List.mem_cons] at h
    rcases h with h | h | h
    · exact .inr ⟨a, by simp, h⟩
    · exact .inl h
    · rcases mem_joinSlash h with h | ⟨s, hs, h⟩
      · exact .inl h
      · exact .inr ⟨s, List.mem_cons_of_mem _ hs, h⟩

theorem decimal_ne_nil (n : Nat) : decimal n ≠ [] := (word_decimal n).ne

theorem forEach_inj {s t : BitSet} (hs : s.WF) (ht : t.WF) (hl : s.len = t.len) (h : s.forEach = t.forEach) : s = t :=
  BitSet.ext hs ht hl fun b => by rw [Bool.eq_iff_iff, ← BitSet.mem_forEach hs, ← BitSet.mem_forEach ht, h]

theorem vocabSet_inj {n : Nat} {s t : VocabSet} (hs : s.WF n) (ht : t.WF n) (h : vocabSet s = vocabSet t) : s = t := by
  have hw : ∀ l : List Nat, ∀ x ∈ l.map decimal, '/' ∉ x ∧ x ≠ [] := by
    intro l x hx
    obtain ⟨m, -, rfl⟩ := List.mem_map.mp hx
    exact ⟨not_mem_decimal (by decide), decimal_ne_nil m⟩
  have h1 := joinSlash_inj (hw _) (hw _) h
  have h2 := (List.map_inj_right fun _ _ => decimal_inj).mp h1
  have := forEach_inj hs.wf ht.wf (by rw [hs.len, ht.len]) h2
  cases s; cases t
  exact congrArg _ this

theorem vocabSet_chars {s : VocabSet} {c : Char} (h : c ∈ vocabSet s) : c = '/' ∨ c.isDigit = true := by
  rcases mem_joinSlash h with h | ⟨x, hx, h⟩
  · exact .inl h
  · obtain ⟨m, -, rfl⟩ := List.mem_map.mp hx
    exact .inr (digit_decimal h)

/-- The text of an item and the rest of a text determine the item and the rest. -/
theorem position_inj {n : Nat} {p q : Position} {x y : List Char} (hp : p.followSet.WF n) (hq : q.followSet.WF n)
    (h : position p ++ x = position q ++ y) : p = q ∧ x = y := by
  simp only [position, List.append_assoc, List.cons_append, List.nil_append] at h
  obtain ⟨h1, h2⟩ := ruleId_inj h
  obtain ⟨h3, h4⟩ := append_cons_inj (not_mem_decimal (by decide)) (not_mem_decimal (by decide)) (List.append_cancel_left h2)
  obtain ⟨-, h5⟩ := List.cons.inj h4
  have hb : ∀ s : VocabSet, ']' ∉ vocabSet s := by
    intro s hm
    rcases vocabSet_chars hm with h | h <;> revert h <;> decide
  obtain ⟨h6, h7⟩ := append_cons_inj (hb _) (hb _) h5
  have h8 := vocabSet_inj hp hq h6
  have h9 := decimal_inj h3
  cases p; cases q
  simp_all

theorem not_mem_position (p : Position) : ',' ∉ position p := by
  have hv : ',' ∉ vocabSet p.followSet := by
    intro hm
    rcases vocabSet_chars hm with h | h <;> revert h <;> decide
  have hd : ∀ n, ',' ∉ decimal n := fun n => not_mem_decimal (by decide)
  have happ : ∀ {x y : List Char}, ',' ∉ x → ',' ∉ y → ',' ∉ x ++ y := fun hx hy h =>
    (List.mem_append.mp h).elim hx hy
  have hcons : ∀ {c : Char} {y : List Char}, ',' ≠ c → ',' ∉ y → ',' ∉ c :: y := fun hc hy h =>
    (List.mem_cons.mp h).elim hc hy
  exact happ (happ (by decide +kernel) (happ (hd _) (by decide))) (happ (by decide +kernel)
    (happ (hd _) (hcons (by decide) (hcons (by decide) (happ hv (by decide))))))

theorem position_ne_nil (p : Position) : position p ≠ [] := by
  intro h
  have := congrArg List.length h
  simp only [position, List.length_append, List.length_cons, List.length_nil] at this
  omega

theorem positions_inj {n : Nat} : ∀ {l l' : List Position}, (∀ p ∈ l, p.followSet.WF n) → (∀ p ∈ l', p.followSet.WF n) →
    joinComma (l.map position) = joinComma (l'.map position) → l = l' := by
  intro l l' h1 h2 h
  have hc : ∀ l : List Position, ∀ s ∈ l.map position, ',' ∉ s := by
    intro l s hs
    obtain ⟨p, -, rfl⟩ := List.mem_map.mp hs
    exact not_mem_position p
  have hn : ∀ {l : List Position}, l ≠ [] → joinComma (l.map position) ≠ [] := by
    intro l hl
    match l, hl with
    | [p], _ => exact position_ne_nil p
    | p :: q :: l, _ => simp [joinComma]
  have key : ∀ {l l' : List Position}, (∀ p ∈ l, p.followSet.WF n) → (∀ p ∈ l', p.followSet.WF n) →
      l.map position = l'.map position → l = l' := by
    intro l
    induction l with
    | nil => intro l' _ _ h; exact (List.map_eq_nil_iff.mp h.symm).symm
    | cons p l ih =>
      intro l' h1 h2 h
      cases l' with
      | nil => cases h
      | cons q l' =>
        obtain ⟨h3, h4⟩ := List.cons.inj h
        have h5 := (position_inj (x := []) (y := []) (h1 p (by simp)) (h2 q (by simp)) (by rw [h3])).1
        rw [h5, ih (fun r hr => h1 r (List.mem_cons_of_mem _ hr)) (fun r hr => h2 r (List.mem_cons_of_mem _ hr)) h4]
  by_cases hl : l = []
  · by_cases hl' : l' = []
    · rw [hl, hl']
    · subst hl
      exact absurd h.symm (hn hl')
  · by_cases hl' : l' = []
    · subst hl'
      exact absurd h (hn hl)
    · exact key h1 h2 (joinComma_inj (by simpa using hl) (by simpa using hl') (hc l) (hc l') h)

end DebugText

namespace C80
open DebugText

/-! ### Reading the texts -/

/-- The longest pieces of a text that consist of digits; `cur` are the digits read last. -/
def runs : List Char → List Char → List (List Char)
  | [], cur => [cur]
  | c :: cs, cur => if c.isDigit then runs cs (cur ++ [c]) else cur :: runs cs []

/-- The numbers in a text, from left to right. -/
def numbers (s : List Char) : List Nat := (runs s []).filterMap Spec.TableText.number

theorem runs_digits : ∀ (ds : List Char) (rest cur : List Char), (∀ c ∈ ds, c.isDigit = true) →
    runs (ds ++ rest) cur = runs rest (cur ++ ds)
  | [], rest, cur, _ => by simp
  | c :: ds, rest, cur, h => by
    rw [List.cons_append, runs, if_pos (h c (by simp)), runs_digits ds rest _ fun d hd => h d (List.mem_cons_of_mem _ hd)]
    simp

theorem numbers_skip {c : Char} (h : c.isDigit = false) (rest : List Char) : numbers (c :: rest) = numbers rest := by
  rw [numbers, runs, if_neg (by simp [h])]
  rfl

theorem numbers_decimal {c : Char} (h : c.isDigit = false) (n : Nat) (rest : List Char) :
    numbers (Display.decimal n ++ c :: rest) = n :: numbers rest := by
  rw [numbers, runs_digits _ _ _ fun _ => Display.digit_decimal, runs, if_neg (by simp [h]), List.nil_append,
    List.filterMap_cons, Display.number_decimal]
  rfl

theorem numbers_skips : ∀ (s rest : List Char), (∀ c ∈ s, c.isDigit = false) → numbers (s ++ rest) = numbers rest
  | [], _, _ => rfl
  | c :: s, rest, h => by
    rw [List.cons_append, numbers_skip (h c (by simp)), numbers_skips s rest fun d hd => h d (List.mem_cons_of_mem _ hd)]

theorem numbers_joinSlash {c : Char} (h : c.isDigit = false) (rest : List Char) : ∀ l : List Nat,
    numbers (joinSlash (l.map Display.decimal) ++ c :: rest) = l ++ numbers rest
  | [] => numbers_skip h rest
  | [n] => numbers_decimal h n rest
  | n :: m :: l => by
    have := numbers_joinSlash h rest (m :: l)
    rw [List.map_cons] at this
    rw [List.map_cons, List.map_cons, joinSlash, List.append_assoc, List.cons_append, numbers_decimal (by decide), this]
    · rfl
    · simp

theorem numbers_position (p : Position) (rest : List Char) :
    numbers (position p ++ rest) = p.rule :: p.position :: (p.followSet.set.forEach ++ numbers rest) := by
  have key : ∀ r a : List Char, (∀ c ∈ r, c.isDigit = false) → (∀ c ∈ a, c.isDigit = false) →
      numbers (((r ++ (Display.decimal p.rule ++ [')'])) ++ (a ++ (Display.decimal p.position ++
        (' ' :: '[' :: (vocabSet p.followSet ++ [']']))))) ++ rest) =
      p.rule :: p.position :: (p.followSet.set.forEach ++ numbers rest) := by
    intro r a h1 h2
    simp only [List.append_assoc, List.cons_append, List.nil_append]
    rw [numbers_skips _ _ h1, numbers_decimal (by decide), numbers_skips _ _ h2, numbers_decimal (by decide),
      numbers_skip (by decide), vocabSet, numbers_joinSlash (by decide)]
  exact key _ _ (by decide +kernel) (by decide +kernel)

theorem numbers_positions (rest : List Char) : ∀ l : List Position,
    numbers (ErrorText.joinComma (l.map position) ++ '}' :: rest) =
      l.flatMap (fun p => p.rule :: p.position :: p.followSet.set.forEach) ++ numbers rest
  | [] => numbers_skip (by decide) rest
  | [p] => by
    simp only [List.map_cons, List.map_nil, ErrorText.joinComma, List.flatMap_cons, List.flatMap_nil, List.append_nil]
    rw [numbers_position, numbers_skip (by decide)]
    rfl
  | p :: q :: l => by
    have := numbers_positions rest (q :: l)
    rw [List.map_cons] at this
    rw [List.map_cons, List.map_cons, ErrorText.joinComma, List.append_assoc, List.cons_append, List.cons_append,
      numbers_position, numbers_skip (by decide), numbers_skip (by decide), this]
    · simp
    · simp

variable {T L : Type} [DecidableEq T] [DecidableEq L]

/-- **C80.** While a table is built for a grammar, every state has a text of its own, and so has every item of the
states: the text of a kernel determines the state, that of an item the rule, the place of the dot and the follow set. -/
theorem state_text_unique (g : Grammar T L) (ig : IndexedGrammar T L) (fuel : Nat) (t : LRTable) (kt : KernelTable)
    (hg : IndexedGrammar.build g = .ok ig) (hb : LRTable.buildWithKernels fuel ig = .ok (t, kt))
    (s s' : Nat) (k k' : Kernel) (hk : kt.states[s]? = some k) (hk' : kt.states[s']? = some k') :
    (kernel k = kernel k' → s = s') ∧ ∀ p ∈ k.positions, ∀ q ∈ k'.positions, position p = position q → p = q := by
  have hw := (IndexedGrammar.build_ok hg).1.wf
  obtain ⟨F, -, hF, hB⟩ := built_of_ok hw hb
  have h1 : ∀ p ∈ k.positions, p.followSet.WF ig.vocab.size := fun p hp =>
    ((hB.reach k (List.mem_of_getElem? hk)).ok hw hF.wf p hp).follow
  have h2 : ∀ p ∈ k'.positions, p.followSet.WF ig.vocab.size := fun p hp =>
    ((hB.reach k' (List.mem_of_getElem? hk')).ok hw hF.wf p hp).follow
  refine ⟨fun h => ?_, fun p hp q hq h => (position_inj (x := []) (y := []) (h1 p hp) (h2 q hq) (by rw [h])).1⟩
  have h3 := positions_inj h1 h2 (List.append_cancel_right (List.cons.inj h).2)
  have h4 : k = k' := by
    cases k; cases k'
    exact congrArg _ h3
  subst h4
  exact getElem?_inj_of_nodup hB.wf.nodup hk hk'

/-- **C80.** What the texts say. The numbers in the text of an item are its rule, the place of the dot, and then the
numbers of the tokens of the follow set, in increasing order; the text of a kernel says this of its items in turn. -/
theorem state_text_says (g : Grammar T L) (ig : IndexedGrammar T L) (fuel : Nat) (t : LRTable) (kt : KernelTable)
    (hg : IndexedGrammar.build g = .ok ig) (hb : LRTable.buildWithKernels fuel ig = .ok (t, kt))
    (s : Nat) (k : Kernel) (hk : kt.states[s]? = some k) :
    ∃ follow : Position → List Nat,
      (∀ p ∈ k.positions, numbers (position p) = p.rule :: p.position :: follow p ∧ (follow p).Pairwise (· < ·) ∧
        ∀ a : AugTokId, Label.id a < ig.vocab.size →
          (p.followSet.has a : Outcome Unit Bool) = .ok (decide (Label.id a ∈ follow p))) ∧
      numbers (kernel k) = k.positions.flatMap fun p => p.rule :: p.position :: follow p := by
  have hw := (IndexedGrammar.build_ok hg).1.wf
  obtain ⟨F, -, hF, hB⟩ := built_of_ok hw hb
  refine ⟨fun p => p.followSet.set.forEach, fun p hp => ?_, ?_⟩
  · have hf := ((hB.reach k (List.mem_of_getElem? hk)).ok hw hF.wf p hp).follow
    refine ⟨?_, ?_, fun a ha => ?_⟩
    · have := numbers_position p []
      rw [List.append_nil] at this
      rw [this, show numbers [] = [] from rfl, List.append_nil]
    · show (p.followSet.set.forEach).Pairwise (· < ·)
      rw [BitSet.forEach_eq hf.wf]
      exact List.Pairwise.filter _ List.pairwise_lt_range
    · rw [hf.has_eq ha, Outcome.ok.injEq, Bool.eq_iff_iff, decide_eq_true_eq, BitSet.mem_forEach hf.wf]
      rfl
  · have := numbers_positions [] k.positions
    rw [show numbers [] = [] from rfl, List.append_nil] at this
    rw [kernel, numbers_skip (by decide), this]

/-- The states of `sampleLR` (the tokens in the brackets by their numbers in the sets: 1 is the end, 3 the token `c`). -/
example : ((do
    let ig ← IndexedGrammar.build sampleLR
    let (_, kt) ← LRTable.buildWithKernels 20 ig
    pure (kt.states.map fun k => String.ofList (kernel k))) : Outcome (LRTableError Nat Nat) _) =
    .ok ["{RuleId(0) at 0 [1]}", "{RuleId(0) at 1 [1]}", "{RuleId(1) at 1 [3]}", "{RuleId(0) at 2 [1]}",
      "{RuleId(3) at 1 [1]}", "{RuleId(1) at 2 [3]}", "{RuleId(3) at 2 [1]}"] := by decide +kernel

end C80
end Verif
