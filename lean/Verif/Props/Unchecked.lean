import Verif.Props.Parse
import Verif.Props.GrammarText

/-!
# C78: parsers of grammars in text form

`from_grammar_str` (grammar.rs:68-106) lets `!` stand anywhere in a rule and nothing behind it objects
(`Position::advance`, position.rs:97-108, does not count the epsilons that `next_node` skips). So the parser
of a text can accept what is no sentence, panic or never return.
-/

set_option linter.unusedSectionVars false
set_option autoImplicit false

namespace Verif

namespace GrammarText

theorem noEndMarker_nodes {s : List Char} {ns : List (Node Nat String)} (h : Spec.NodesText s ns) :
    .terminal .eos ∉ ns := by
  have hn : ∀ {s : List Char} {n : Node Nat String}, Spec.NodeText s n → n ≠ .terminal .eos := by
    intro s n h
    cases h <;> simp
  induction h with
  | one h => exact fun hm => hn h (List.mem_singleton.mp hm).symm
  | more h _ _ ih =>
    intro hm
    rcases List.mem_cons.mp hm with he | hm
    · exact hn h he.symm
    · exact ih hm

/-- There is no way to write the end marker. -/
theorem noEndMarker_of_text {s : List Char} {rs : List (Rule Nat String)} (h : Spec.GrammarText s rs) :
    ∀ r ∈ rs, .terminal .eos ∉ r.rule := by
  have hl : ∀ {s : List Char} {r : Rule Nat String}, Spec.LineText s r → .terminal .eos ∉ r.rule := by
    intro s r h
    cases h with
    | mk _ _ _ hb =>
      cases hb with
      | empty => simp
      | nodes _ hn => exact noEndMarker_nodes hn
  induction h with
  | nil => simp
  | last _ h => simpa using hl h
  | line _ h _ ih =>
    intro r hr
    rcases List.mem_cons.mp hr with rfl | hr
    · exact hl h
    · exact ih r hr

end GrammarText

/-- A state that is on top of itself after each round: the loop does not end. -/
theorem loop_diverges {T L ε : Type} [DecidableEq T] [DecidableEq L] (p : SimParser T L) (s : Nat) (w : List T)
    (h : ∀ (ss : List Nat) (ns : List INode), ∃ (ns' : List INode) (ss' : List Nat),
      (p.step (s :: ss) ns w : Outcome ε _) = .ok (.continue (s :: ss') ns' w)) :
    ∀ (fuel : Nat) (ss : List Nat) (ns : List INode), (p.loop fuel (s :: ss) ns w : Outcome ε _) = .timeout := by
  intro fuel
  induction fuel with
  | zero => intros; rfl
  | succ n ih =>
    intro ss ns
    obtain ⟨ns', ss', h⟩ := h ss ns
    unfold SimParser.loop
    rw [h]
    exact ih ss' ns'

namespace C78

open GrammarText Spec

/-- **C78, partial.** The parser of a text in which only epsilons follow an epsilon always returns, without a
panic, and accepts only sentences of the grammar that is written there. -/
theorem text_parser_partial (s : String) (g : Grammar Nat String) (p : SimParser Nat String) (fuel : Nat)
    (w : List Nat) (hs : fromGrammarStr s = .ok g) (he : Spec.EpsilonLast g)
    (hp : SimParser.new fuel g = .ok p) :
    Spec.GrammarText s.toList g.productions ∧
      ∃ b N, (b = true → Language g w) ∧
        ∀ fuel' ≥ N, (p.parseStream fuel' w : Outcome (LRTableError Nat String) _) = .ok b := by
  have ht := (C35.parses_exactly s g).mp hs
  have hg : WellFormed g := ⟨he, noEndMarker_of_text ht⟩
  obtain ⟨b, N, hN⟩ := C03.parse_terminates g p fuel w hg hp
  refine ⟨ht, b, N, ?_, hN⟩
  rintro rfl
  exact C01.accepts_only_sentences g p fuel N w hg hp (hN N (Nat.le_refl _))

/-- The hypotheses are met by a text with a rule that ends with an epsilon. -/
example : ∃ g p, fromGrammarStr "S -> A b\nA -> a A !\nA -> !" = .ok g ∧ Spec.EpsilonLast g ∧
    SimParser.new 20 g = .ok p ∧
    (p.parseStream 30 [97, 97, 98] : Outcome (LRTableError Nat String) _) = .ok true := by
  obtain ⟨g, hg, he⟩ : ∃ g, fromGrammarStr "S -> A b\nA -> a A !\nA -> !" = .ok g ∧ g =
      ⟨[⟨"S", [.production "A", .terminal (.token 98)]⟩,
        ⟨"A", [.terminal (.token 97), .production "A", .terminal .epsilon]⟩,
        ⟨"A", [.terminal .epsilon]⟩]⟩ := ⟨_, by decide +kernel, rfl⟩
  subst he
  have h : (do
      let p ← SimParser.new 20 (⟨[⟨"S", [.production "A", .terminal (.token 98)]⟩,
        ⟨"A", [.terminal (.token 97), .production "A", .terminal .epsilon]⟩,
        ⟨"A", [.terminal .epsilon]⟩]⟩ : Grammar Nat String)
      p.parseStream 30 [97, 97, 98]) = Outcome.ok true := by decide +kernel
  rw [Outcome.bind_eq_ok] at h
  obtain ⟨p, h1, h⟩ := h
  exact ⟨_, p, hg, by unfold Spec.EpsilonLast; decide, h1, h⟩

/-- `S -> ! a` -/
def doubled : Grammar Nat String := ⟨[⟨"S", [.terminal .epsilon, .terminal (.token 97)]⟩]⟩

/-- **C78 is false: soundness.** The only sentence of `S -> ! a` is `a`. Its parser accepts `aa`. -/
theorem accepts_nonsentence_refuted :
    fromGrammarStr "S -> ! a" = .ok doubled ∧ (∀ w, Language doubled w ↔ w = [97]) ∧
    ∃ p, SimParser.new 20 doubled = .ok p ∧
      ∀ fuel ≥ 20, (p.parseStream fuel [97, 97] : Outcome (LRTableError Nat String) _) = .ok true := by
  refine ⟨by decide +kernel, fun w => ⟨?_, ?_⟩, ?_⟩
  · rintro ⟨root, rest, hr, hw⟩
    injection hr with hr hrest
    subst hr
    generalize hx : [Node.production _] = x at hw
    cases hw with
    | nil | eps | tok => cases hx
    | @prod r ns u w hm hu hw =>
      injection hx with hx hns
      subst hns
      rw [doubled, List.mem_singleton] at hm
      subst hm
      cases hw
      cases hu with
      | eps hu =>
        cases hu with
        | tok hu => cases hu; rfl
  · rintro rfl
    exact ⟨_, _, rfl, .prod (r := ⟨"S", [.terminal .epsilon, .terminal (.token 97)]⟩) (u := [97]) (w := [])
      (by decide) (.eps (.tok .nil)) .nil⟩
  · have h : (do
        let p ← SimParser.new 20 doubled
        p.parseStream 20 [97, 97]) = Outcome.ok true := by decide +kernel
    rw [Outcome.bind_eq_ok] at h
    obtain ⟨p, h1, h⟩ := h
    exact ⟨p, h1, fun fuel hf => loop_mono hf h⟩

/-- `S -> A; A -> x ! a` -/
def mismatched : Grammar Nat String :=
  ⟨[⟨"S", [.production "A"]⟩, ⟨"A", [.terminal (.token 120), .terminal .epsilon, .terminal (.token 97)]⟩]⟩

/-- **C78 is false: panics.** Given `xaa`, the parser of `S -> A; A -> x ! a` panics (in a debug build). -/
theorem panics_refuted :
    fromGrammarStr "S -> A\nA -> x ! a" = .ok mismatched ∧
    ∃ p, SimParser.new 20 mismatched = .ok p ∧
      (p.parseStream 20 [120, 97, 97] : Outcome (LRTableError Nat String) _) = .panic := by
  refine ⟨by decide +kernel, ?_⟩
  have h : (do
      let p ← SimParser.new 20 mismatched
      pure (decide ((p.parseStream 20 [120, 97, 97] : Outcome (LRTableError Nat String) _) = .panic))) =
      (Outcome.ok true : Outcome (LRTableError Nat String) Bool) := by decide +kernel
  rw [Outcome.bind_eq_ok] at h
  obtain ⟨p, h1, h⟩ := h
  injection h with h
  exact ⟨p, h1, of_decide_eq_true h⟩

/-- `S -> A; A -> A A ! B; A -> !; B -> b` -/
def endless : Grammar Nat String :=
  ⟨[⟨"S", [.production "A"]⟩,
    ⟨"A", [.production "A", .production "A", .terminal .epsilon, .production "B"]⟩,
    ⟨"A", [.terminal .epsilon]⟩, ⟨"B", [.terminal (.token 98)]⟩]⟩

/-- **C78 is false: termination.** Given `b`, the parser of `S -> A; A -> A A ! B; A -> !; B -> b` reduces
`A -> !` for ever. -/
theorem never_returns_refuted :
    fromGrammarStr "S -> A\nA -> A A ! B\nA -> !\nB -> b" = .ok endless ∧
    ∃ p, SimParser.new 20 endless = .ok p ∧
      ∀ fuel, (p.parseStream fuel [98] : Outcome (LRTableError Nat String) _) = .timeout := by
  refine ⟨by decide +kernel, ?_⟩
  have h : (do
      let p ← SimParser.new 20 endless
      pure (decide ((p.step [0] [] [98] : Outcome (LRTableError Nat String) _) =
          .ok (.continue [1, 0] [.production 1] [98]) ∧
        (p.step [1, 0] [.production 1] [98] : Outcome (LRTableError Nat String) _) =
          .ok (.continue [2, 1, 0] [.production 1, .production 1] [98]) ∧
        (p.step [2, 1, 0] [.production 1, .production 1] [98] : Outcome (LRTableError Nat String) _) =
          .ok (.continue [3, 2, 1, 0] [.production 1, .production 1, .production 1] [98]) ∧
        p.grammar.vocab.augTokenToId (.token 98) = some (.token 0) ∧
        (p.lrTable.getAction 3 (.token 0) : Outcome (LRTableError Nat String) _) = .ok (some (.reduce 2)) ∧
        (p.grammar.productionRule 2 : Outcome (LRTableError Nat String) _) =
          .ok ⟨⟨1, [.terminal .epsilon]⟩, 2⟩ ∧
        (p.lrTable.getGoto 3 1 : Outcome (LRTableError Nat String) _) = .ok (some 3)))) =
      (Outcome.ok true : Outcome (LRTableError Nat String) Bool) := by decide +kernel
  rw [Outcome.bind_eq_ok] at h
  obtain ⟨p, h1, h⟩ := h
  injection h with h
  obtain ⟨s0, s1, s2, hv, ha, hr, hgo⟩ := of_decide_eq_true h
  refine ⟨p, h1, fun fuel => ?_⟩
  have key := loop_diverges (ε := LRTableError Nat String) p 3 [98] fun ss ns =>
    ⟨.production 1 :: ns, 3 :: ss, by
      unfold SimParser.step
      simp only [hv]
      rw [ha]
      simp only [Outcome.ok_bind]
      rw [hr]
      have he : (⟨⟨1, [.terminal .epsilon]⟩, 2⟩ : IRule).excludingEpsilon = [] := rfl
      simp only [Outcome.ok_bind, he, List.length_nil, List.drop_zero]
      change (p.lrTable.getGoto 3 1 >>= _) = _
      rw [hgo]
      rfl⟩
  match fuel with
  | 0 => rfl
  | 1 =>
    simp only [SimParser.parseStream, SimParser.loop, LRTable.rootState, s0, Outcome.ok_bind]
  | 2 =>
    simp only [SimParser.parseStream, SimParser.loop, LRTable.rootState, s0, s1, Outcome.ok_bind]
  | n + 3 =>
    simp only [SimParser.parseStream, SimParser.loop, LRTable.rootState, s0, s1, s2, Outcome.ok_bind]
    exact key n _ _

/-- `S -> A; A -> $ A; A -> b` with the end marker `$`. This is no text, but `Grammar::new` takes it. -/
def marker : Grammar Nat Nat :=
  ⟨[⟨0, [.production 1]⟩, ⟨1, [.terminal .eos, .production 1]⟩, ⟨1, [.terminal (.token 8)]⟩]⟩

/-- With an end marker in a rule, termination fails too: given nothing, the parser of `S -> A; A -> $ A;
A -> b` shifts the end of the input for ever. -/
theorem end_marker_refuted :
    ∃ p, SimParser.new 20 marker = .ok p ∧
      ∀ fuel, (p.parseStream fuel [] : Outcome (LRTableError Nat Nat) _) = .timeout := by
  have h : (do
      let p ← SimParser.new 20 marker
      pure (decide ((p.step [0] [] [] : Outcome (LRTableError Nat Nat) _) =
          .ok (.continue [2, 0] [.terminal .eos] []) ∧
        p.grammar.vocab.augTokenToId .eos = some .eos ∧
        (p.lrTable.getAction 2 .eos : Outcome (LRTableError Nat Nat) _) = .ok (some (.shift 2))))) =
      (Outcome.ok true : Outcome (LRTableError Nat Nat) Bool) := by decide +kernel
  rw [Outcome.bind_eq_ok] at h
  obtain ⟨p, h1, h⟩ := h
  injection h with h
  obtain ⟨s0, hv, ha⟩ := of_decide_eq_true h
  refine ⟨p, h1, fun fuel => ?_⟩
  have key := loop_diverges (ε := LRTableError Nat Nat) p 2 [] fun ss ns =>
    ⟨.terminal .eos :: ns, 2 :: ss, by
      unfold SimParser.step
      simp only [hv]
      rw [ha]
      rfl⟩
  match fuel with
  | 0 => rfl
  | n + 1 =>
    simp only [SimParser.parseStream, SimParser.loop, LRTable.rootState, s0, Outcome.ok_bind]
    exact key n _ _

end C78
end Verif
