import Verif.Props.RightFold

/-!
# C98, C100, C102 are false in general

Generated parsers that refuse lists: the FIRST sets of the items are incomplete (C07).
-/

set_option linter.unusedSectionVars false
set_option autoImplicit false

namespace Verif.FoldRefuted

open Spec

/-- `S => X; X => a; X => b; L => Y B; Y => !; B => A Plus; A => !`. -/
def file (a b : List ANode) : List ARule :=
  [⟨"S", none, [.production "X"], none⟩, ⟨"X", none, a, none⟩, ⟨"X", none, b, none⟩,
   ⟨"L", none, [.production "Y", .production "B"], none⟩, ⟨"Y", none, [.epsilon], none⟩,
   ⟨"B", none, [.production "A", .symbol ⟨"Plus", .none⟩], none⟩, ⟨"A", none, [.epsilon], none⟩]

/-- Its rules. -/
def rules (a b : List (Node Sym String)) : List (Rule Sym String) :=
  [⟨"S", [.production "X"]⟩, ⟨"X", a⟩, ⟨"X", b⟩, ⟨"L", [.production "Y", .production "B"]⟩,
   ⟨"Y", [.terminal .epsilon]⟩, ⟨"B", [.production "A", .terminal (.token ⟨"Plus", .none⟩)]⟩,
   ⟨"A", [.terminal .epsilon]⟩]

theorem only {a b : List (Node Sym String)} : ∀ r ∈ rules a b, r.symbol = "X" → r.rule = a ∨ r.rule = b := by
  intro r hr hs
  simp only [rules, List.mem_cons, List.not_mem_nil, or_false] at hr
  rcases hr with rfl | rfl | rfl | rfl | rfl | rfl | rfl <;> simp_all

theorem once {a b : List (Node Sym String)} (hab : a ≠ b) (i j : Nat) (r : Rule Sym String)
    (hi : (rules a b)[i]? = some r) (hj : (rules a b)[j]? = some r) (hs : r.symbol = "X") : i = j := by
  match i, j with
  | 1, 1 | 2, 2 => rfl
  | 1, 2 => rw [← hj] at hi; simp [rules] at hi; exact absurd hi hab
  | 2, 1 => rw [← hj] at hi; simp [rules] at hi; exact absurd hi.symm hab
  | 0, _ | 3, _ | 4, _ | 5, _ | 6, _ => cases hi; simp at hs
  | i + 7, _ => simp [rules] at hi
  | _, 0 | _, 3 | _, 4 | _, 5 | _, 6 => cases hj; simp at hs
  | _, j + 7 => simp [rules] at hj

theorem own {a b : List (Node Sym String)} : NotBelow (rules a b) "L" ⟨"Minus", .none⟩ := by
  intro r hr hl
  have : r.symbol ≠ "X" ∧ r.symbol ≠ "S" := by
    clear hr
    generalize r.symbol = c at hl
    induction hl with
    | root => decide
    | @step r c _ hr ha ih =>
      simp only [rules, List.mem_cons, List.not_mem_nil, or_false] at hr
      rcases hr with rfl | rfl | rfl | rfl | rfl | rfl | rfl <;> simp_all
      rcases ha with rfl | rfl <;> simp
  simp only [rules, List.mem_cons, List.not_mem_nil, or_false] at hr
  rcases hr with rfl | rfl | rfl | rfl | rfl | rfl | rfl <;> simp_all

/-- The tree of `Plus`, the only item. -/
def item : Forest (Token Nat) := .node 3 (.node 4 .nil (.node 5 (.node 6 .nil (.tok (.unit "Plus") .nil)) .nil)) .nil

theorem item_parses {a b : List (Node Sym String)} {mt : Token Nat → Sym → Prop}
    (h : mt (.unit "Plus") ⟨"Plus", .none⟩) :
    ParsesM (rules a b) mt item [.production "L"] [.unit "Plus"] := by
  have hA := ParsesM.prod (P := rules a b) (m := mt) (i := 6) (r := ⟨"A", [.terminal .epsilon]⟩) rfl (.eps .nil)
    (.tok (a := .unit "Plus") h .nil)
  have hB := ParsesM.prod (P := rules a b) (m := mt) (i := 5)
    (r := ⟨"B", [.production "A", .terminal (.token ⟨"Plus", .none⟩)]⟩) rfl hA .nil
  have hY := ParsesM.prod (P := rules a b) (m := mt) (i := 4) (r := ⟨"Y", [.terminal .epsilon]⟩) rfl (.eps .nil) hB
  exact .prod (P := rules a b) (m := mt) (i := 3) (r := ⟨"L", [.production "Y", .production "B"]⟩) rfl hY .nil

theorem disjoint {gi : GrammarInfo} {a b : List ANode} (h1 : gi.productionRules = file a b)
    (h2 : gi.terminalType = .enum (.ident "Tok" .nil))
    (hab : ∀ s, .symbol s ∈ a ++ b → s = ⟨"Minus", .none⟩) : gi.Disjoint Sample.sem1 := by
  have key : ∀ s, gi.Terminal s → s = ⟨"Minus", .none⟩ ∨ s = ⟨"Plus", .none⟩ := by
    rintro s ⟨r, hr, hs⟩
    rw [h1] at hr
    simp only [file, List.mem_cons, List.not_mem_nil, or_false] at hr
    rcases hr with rfl | rfl | rfl | rfl | rfl | rfl | rfl
    · simp at hs
    · exact .inl (hab s (List.mem_append_left _ hs))
    · exact .inl (hab s (List.mem_append_right _ hs))
    · simp at hs
    · simp at hs
    · simp at hs; exact .inr hs
    · simp at hs
  intro t s s' hs hs' m1 m2
  rw [h2] at m1 m2
  rcases key s hs with rfl | rfl <;> rcases key s' hs' with rfl | rfl <;>
    first
    | rfl
    | exact absurd ((Sample.variant_eq m1).symm.trans (Sample.variant_eq m2)) (by simp)

end Verif.FoldRefuted

namespace Verif
open Spec FoldRefuted

/-- **C98 is false in general.** `X => !; X => X L Minus` with the item `Plus`: the generated parser refuses
`Plus Minus`. -/
theorem C98.generated_evaluated_refuted : ∃ (gi : GrammarInfo) (prog : Program) (its : List (ListItem (Token Nat))),
    Generated .id Sample.lexer gi prog ∧ ListOf "S" "X" "L" ⟨"Minus", .none⟩ gi.grammar.productions ∧
    gi.grammar.productions[1]? = some ⟨"X", [.terminal .epsilon]⟩ ∧
    gi.grammar.productions[2]? = some ⟨"X", [.production "X", .production "L", .terminal (.token ⟨"Minus", .none⟩)]⟩ ∧
    gi.Disjoint Sample.sem1 ∧ its ≠ [] ∧
    (∀ it ∈ its, Matches Sample.sem1 gi.terminalType it.close ⟨"Minus", .none⟩ ∧
      ParsesM gi.grammar.productions (Matches Sample.sem1 gi.terminalType) it.tree [.production "L"] it.tokens) ∧
    ∃ run, prog.parseFallible true Sample.sem1 id (Sample.stream (ListItem.all its) none) 50 0 = .ok run ∧
      run.result = .error (.parseError (some (.unit "Plus"))) := by
  obtain ⟨gi, prog, h, -, h1, h2, hr, -⟩ := Sample.runs_ok (o := .id)
    (rules := file [.epsilon] [.production "X", .production "L", .symbol ⟨"Minus", .none⟩])
    (labels := ["S", "X", "L", "Y", "B", "A"]) (sem := Sample.sem1) (ts := [.unit "Plus", .unit "Minus"])
    (r := .error (.parseError (some (.unit "Plus")))) (r' := .error (.parseError (some (.unit "Plus"))))
    (by unfold EpsilonLast; decide) (by decide +kernel)
  have hg : gi.grammar.productions = rules [.terminal .epsilon]
      [.production "X", .production "L", .terminal (.token ⟨"Minus", .none⟩)] := by
    simp only [GrammarInfo.grammar, h1]; rfl
  refine ⟨gi, prog, [⟨item, [.unit "Plus"], .unit "Minus"⟩], h, ?_, by rw [hg]; rfl, by rw [hg]; rfl,
    disjoint h1 h2 (by simp), by simp, ?_, hr⟩
  · rw [hg]
    exact ⟨by decide, rfl, List.mem_of_getElem? (i := 1) rfl, List.mem_of_getElem? (i := 2) rfl, only, once (by simp), own⟩
  · intro it hit
    rw [List.mem_singleton] at hit
    subst hit
    rw [hg, h2]
    exact ⟨.unit, item_parses .unit⟩

/-- **C100 is false in general.** `X => L; X => X Minus L` with the item `Plus`: the generated parser refuses
`Plus Minus Plus`. -/
theorem C100.generated_evaluated_refuted : ∃ (gi : GrammarInfo) (prog : Program) (g : Forest (Token Nat))
    (W0 : List (Token Nat)) (its : List (SepItem (Token Nat))),
    Generated .id Sample.lexer gi prog ∧ SepList "S" "X" "L" ⟨"Minus", .none⟩ gi.grammar.productions ∧
    gi.grammar.productions[1]? = some ⟨"X", [.production "L"]⟩ ∧
    gi.grammar.productions[2]? = some ⟨"X", [.production "X", .terminal (.token ⟨"Minus", .none⟩), .production "L"]⟩ ∧
    gi.Disjoint Sample.sem1 ∧ its ≠ [] ∧
    ParsesM gi.grammar.productions (Matches Sample.sem1 gi.terminalType) g [.production "L"] W0 ∧
    (∀ it ∈ its, Matches Sample.sem1 gi.terminalType it.sep ⟨"Minus", .none⟩ ∧
      ParsesM gi.grammar.productions (Matches Sample.sem1 gi.terminalType) it.tree [.production "L"] it.tokens) ∧
    ∃ run, prog.parseFallible true Sample.sem1 id (Sample.stream (SepItem.all W0 its) none) 50 0 = .ok run ∧
      run.result = .error (.parseError (some (.unit "Plus"))) := by
  obtain ⟨gi, prog, h, -, h1, h2, hr, -⟩ := Sample.runs_ok (o := .id)
    (rules := file [.production "L"] [.production "X", .symbol ⟨"Minus", .none⟩, .production "L"])
    (labels := ["S", "X", "L", "Y", "B", "A"]) (sem := Sample.sem1) (ts := [.unit "Plus", .unit "Minus", .unit "Plus"])
    (r := .error (.parseError (some (.unit "Plus")))) (r' := .error (.parseError (some (.unit "Plus"))))
    (by unfold EpsilonLast; decide) (by decide +kernel)
  have hg : gi.grammar.productions = rules [.production "L"]
      [.production "X", .terminal (.token ⟨"Minus", .none⟩), .production "L"] := by
    simp only [GrammarInfo.grammar, h1]; rfl
  refine ⟨gi, prog, item, [.unit "Plus"], [⟨.unit "Minus", item, [.unit "Plus"]⟩], h, ?_, by rw [hg]; rfl, by rw [hg]; rfl,
    disjoint h1 h2 (by simp), by simp, ?_, ?_, hr⟩
  · rw [hg]
    exact ⟨by decide, rfl, List.mem_of_getElem? (i := 1) rfl, List.mem_of_getElem? (i := 2) rfl, only, once (by simp), own⟩
  · rw [hg, h2]
    exact item_parses .unit
  · intro it hit
    rw [List.mem_singleton] at hit
    subst hit
    rw [hg, h2]
    exact ⟨.unit, item_parses .unit⟩

/-- **C102 is false in general.** `X => L; X => L Minus X` with the item `Plus`: the generated parser refuses
`Plus Minus Plus`. -/
theorem C102.generated_evaluated_refuted : ∃ (gi : GrammarInfo) (prog : Program) (g : Forest (Token Nat))
    (W0 : List (Token Nat)) (its : List (ListItem (Token Nat))),
    Generated .id Sample.lexer gi prog ∧ RightList "S" "X" "L" ⟨"Minus", .none⟩ gi.grammar.productions ∧
    gi.grammar.productions[1]? = some ⟨"X", [.production "L"]⟩ ∧
    gi.grammar.productions[2]? = some ⟨"X", [.production "L", .terminal (.token ⟨"Minus", .none⟩), .production "X"]⟩ ∧
    gi.Disjoint Sample.sem1 ∧ its ≠ [] ∧
    ParsesM gi.grammar.productions (Matches Sample.sem1 gi.terminalType) g [.production "L"] W0 ∧
    (∀ it ∈ its, Matches Sample.sem1 gi.terminalType it.close ⟨"Minus", .none⟩ ∧
      ParsesM gi.grammar.productions (Matches Sample.sem1 gi.terminalType) it.tree [.production "L"] it.tokens) ∧
    ∃ run, prog.parseFallible true Sample.sem1 id (Sample.stream (ListItem.all its ++ W0) none) 50 0 = .ok run ∧
      run.result = .error (.parseError (some (.unit "Plus"))) := by
  obtain ⟨gi, prog, h, -, h1, h2, hr, -⟩ := Sample.runs_ok (o := .id)
    (rules := file [.production "L"] [.production "L", .symbol ⟨"Minus", .none⟩, .production "X"])
    (labels := ["S", "X", "L", "Y", "B", "A"]) (sem := Sample.sem1) (ts := [.unit "Plus", .unit "Minus", .unit "Plus"])
    (r := .error (.parseError (some (.unit "Plus")))) (r' := .error (.parseError (some (.unit "Plus"))))
    (by unfold EpsilonLast; decide) (by decide +kernel)
  have hg : gi.grammar.productions = rules [.production "L"]
      [.production "L", .terminal (.token ⟨"Minus", .none⟩), .production "X"] := by
    simp only [GrammarInfo.grammar, h1]; rfl
  refine ⟨gi, prog, item, [.unit "Plus"], [⟨item, [.unit "Plus"], .unit "Minus"⟩], h, ?_, by rw [hg]; rfl, by rw [hg]; rfl,
    disjoint h1 h2 (by simp), by simp, ?_, ?_, hr⟩
  · rw [hg]
    exact ⟨by decide, rfl, List.mem_of_getElem? (i := 1) rfl, List.mem_of_getElem? (i := 2) rfl, only, once (by simp), own⟩
  · rw [hg, h2]
    exact item_parses .unit
  · intro it hit
    rw [List.mem_singleton] at hit
    subst hit
    rw [hg, h2]
    exact ⟨.unit, item_parses .unit⟩

end Verif
