import Verif.Spec.PostfixFold
import Verif.Props.Postfixed
import Verif.Props.RepairGen
import Verif.Props.RightFold

/-!
# C110: postfix operators apply from the operand outwards
-/

set_option linter.unusedSectionVars false
set_option autoImplicit false

namespace Verif.C110

open Spec C98

section
variable {P V E F' σ : Type} [DecidableEq P] {lex : Lexer} {o : HashOrder} {gi : GrammarInfo} {prog : Program}
  {S X l : String} {op : Sym} {sem : Sem P V E σ} {e m : Nat}

theorem value_snoc {g : Forest (Token P)} {ops : List (Token P)} {a : Token P} {i : Nat} {c : Forest (Token P)}
    (h1 : ∀ w, value gi sem (.node i c .nil) w = andThen (applyPostfixes gi sem e m g ops w) fun v w => (.ok [v], w)) (w : σ) :
    value gi sem (.node m (.node i c (.tok a .nil)) .nil) w =
      andThen (applyPostfixes gi sem e m g (ops ++ [a]) w) fun v w => (.ok [v], w) := by
  have h := h1 w
  have e1 : applyPostfixes gi sem e m g (ops ++ [a]) w =
      andThen (applyPostfixes gi sem e m g ops w) fun v w => construct gi sem m [v, .tok a] w := by
    simp [applyPostfixes, List.foldl_append]
  rw [e1]
  simp only [value, eval] at h ⊢
  rcases hc : eval Val.tok (construct gi sem) c w with ⟨x | us, w1⟩
  · rw [hc] at h
    rcases hx : applyPostfixes gi sem e m g ops w with ⟨y | u, w2⟩ <;> rw [hx] at h <;> simp_all [andThen]
  · rw [hc] at h
    simp only [andThen] at h ⊢
    rcases hd : construct gi sem i us w1 with ⟨x | v, w3⟩ <;> rw [hd] at h <;>
      rcases hx : applyPostfixes gi sem e m g ops w with ⟨y | u, w2⟩ <;> rw [hx] at h <;> simp_all

/-- The tree of an operand before operators. -/
theorem tree_postfixed (h : Postfixed S X l op gi.grammar.productions)
    (he : gi.grammar.productions[e]? = some ⟨X, [.production l]⟩)
    (hm : gi.grammar.productions[m]? = some ⟨X, [.production X, .terminal (.token op)]⟩)
    {mt : Token P → Sym → Prop} (n : Nat) : ∀ {f : Forest (Token P)} {W : List (Token P)}, W.length = n →
      ParsesM gi.grammar.productions mt f [.production X] W →
      ∃ (ops : List (Token P)) (g : Forest (Token P)) (W0 : List (Token P)), W = W0 ++ ops ∧
        ParsesM gi.grammar.productions mt g [.production l] W0 ∧ (∀ a ∈ ops, mt a op) ∧
        ∀ w, value gi sem f w = andThen (applyPostfixes gi sem e m g ops w) fun v w => (.ok [v], w) := by
  induction n using Nat.strongRecOn with
  | ind n ih =>
    intro f W hl hf
    obtain ⟨i, r, c, f', u, v, hr, hs, rfl, rfl, h1, h2⟩ := parsesM_prod_inv hf
    cases h2
    rw [List.append_nil] at hl ⊢
    obtain ⟨sym, rule⟩ := r
    simp only at hs h1
    subst hs
    rcases h.only _ (List.mem_of_getElem? hr) rfl with e1 | e1 <;> simp only at e1 <;> subst e1
    · cases h.once i e _ hr he rfl
      refine ⟨[], c, u, by simp, h1, by simp, fun w => ?_⟩
      obtain ⟨j, r2, d, f2, u2, v2, -, -, rfl, -, -, h9⟩ := parsesM_prod_inv h1
      cases h9
      rw [C100.value_one]
      rfl
    · cases h.once i m _ hr hm rfl
      obtain ⟨i1, r1, c1, f2, u1, v2, hr1, hs1, rfl, rfl, h3, h4⟩ := parsesM_prod_inv h1
      cases h4 with
      | @tok _ b f3 _ v3 hb h4 =>
        cases h4
        have hX : ParsesM gi.grammar.productions mt (.node i1 c1 .nil) [.production sym] u1 := by
          have := ParsesM.prod hr1 h3 .nil
          rwa [List.append_nil, hs1] at this
        obtain ⟨ops, g, W0, rfl, h6, h7, h8⟩ := ih u1.length (by simp at hl; omega) rfl hX
        refine ⟨ops ++ [b], g, W0, by simp, h6, ?_, fun w => value_snoc h8 w⟩
        intro a ha
        rcases List.mem_append.mp ha with ha | ha
        · exact h7 a ha
        · rw [List.mem_singleton] at ha
          subst ha
          exact hb

/-- An operand before operators has a tree. -/
theorem postfixed_tree (he : gi.grammar.productions[e]? = some ⟨X, [.production l]⟩)
    (hm : gi.grammar.productions[m]? = some ⟨X, [.production X, .terminal (.token op)]⟩)
    {mt : Token P → Sym → Prop} (ops : List (Token P)) (g : Forest (Token P)) (W0 : List (Token P))
    (hg : ParsesM gi.grammar.productions mt g [.production l] W0) (hps : ∀ a ∈ ops, mt a op) :
    ∃ i c, ParsesM gi.grammar.productions mt (.node i c .nil) [.production X] (W0 ++ ops) ∧
      ∀ w, value gi sem (.node i c .nil) w = andThen (applyPostfixes gi sem e m g ops w) fun v w => (.ok [v], w) := by
  induction ops using List.reverseRecOn with
  | nil =>
    refine ⟨e, g, by simpa using ParsesM.prod he hg .nil, fun w => ?_⟩
    obtain ⟨j, r2, d, f2, u2, v2, -, -, rfl, -, -, h9⟩ := parsesM_prod_inv hg
    cases h9
    rw [C100.value_one]
    rfl
  | append_singleton ops a ih =>
    obtain ⟨i, c, h1, h2⟩ := ih (fun x hx => hps x (by simp [hx]))
    obtain ⟨j, r, d, f', u, v, hr, hs, e1, e2, h3, h4⟩ := parsesM_prod_inv h1
    cases h4
    cases e1
    rw [List.append_nil] at e2
    refine ⟨m, .node i c (.tok a .nil), ?_, value_snoc h2⟩
    have e5 : W0 ++ (ops ++ [a]) = (u ++ [a]) ++ [] := by rw [← e2]; simp
    rw [e5]
    refine ParsesM.prod hm ?_ .nil
    have g2 := ParsesM.prod hr h3 (.tok (hps a (by simp)) .nil)
    rwa [hs] at g2

theorem value_root (i : Nat) (c g : Forest (Token P)) (ops : List (Token P))
    (h : ∀ w, value gi sem (.node i c .nil) w = andThen (applyPostfixes gi sem e m g ops w) fun v w => (.ok [v], w)) (w : σ) :
    value gi sem (.node 0 (.node i c .nil) .nil) w =
      andThen (andThen (applyPostfixes gi sem e m g ops w) fun u w => construct gi sem 0 [u] w) fun v w => (.ok [v], w) := by
  have h' := h w
  simp only [value] at h' ⊢
  rw [eval, h']
  rcases applyPostfixes gi sem e m g ops w with ⟨x | u, w1⟩
  · rfl
  · simp only [andThen, eval]

/-- **C110.** A value that the generated parser of a grammar with a postfix operator returns is what the constructor of
the root makes of what the operators make of the operand, the nearest one first, and the world is what they leave. -/
theorem generated_value (h : Postfixed S X l op gi.grammar.productions)
    (he : gi.grammar.productions[e]? = some ⟨X, [.production l]⟩)
    (hm : gi.grammar.productions[m]? = some ⟨X, [.production X, .terminal (.token op)]⟩)
    (hG : Generated o lex gi prog) (debug : Bool)
    (into : F' → E) (items : Nat → Option (Item P F')) (fuel : Nat) (w0 : σ) (run : Run P V E σ) (v : Val P V)
    (hrun : prog.parseFallible debug sem into items fuel w0 = .ok run) (hv : run.result = .ok v) :
    ∃ (ops : List (Token P)) (g : Forest (Token P)) (W0 : List (Token P)),
      (∀ i b, (W0 ++ ops)[i]? = some b → items i = some (.ok b)) ∧
      items (W0 ++ ops).length = none ∧
      ParsesM gi.grammar.productions (Matches sem gi.terminalType) g [.production l] W0 ∧
      (∀ a ∈ ops, Matches sem gi.terminalType a op) ∧
      andThen (applyPostfixes gi sem e m g ops w0) (fun u w => construct gi sem 0 [u] w) = (.ok v, run.world) := by
  obtain ⟨W, f, h1, h2, ⟨root, rest, e1, h3⟩, h4⟩ := C18.ok_is_value_of_tree hG debug sem into items fuel w0 run v hrun hv
  have h0 := h.root
  rw [e1] at h0
  cases h0
  obtain ⟨i, r, c, f', u, v', hr, hs, rfl, rfl, h5, h6⟩ := parsesM_prod_inv h3
  cases h6
  cases C81.rootOnce hG.grammar i _ r h.root hr hs
  rw [h.root] at hr
  cases hr
  rw [List.append_nil] at h1 h2
  obtain ⟨ops, g, W0, rfl, h6, h7, h8⟩ := tree_postfixed (sem := sem) h he hm _ rfl h5
  refine ⟨ops, g, W0, h1, h2, h6, h7, ?_⟩
  obtain ⟨i2, r2, c2, f2, u2, v2, -, -, rfl, -, -, h9⟩ := parsesM_prod_inv h5
  cases h9
  rw [value_root i2 c2 g ops h8] at h4
  rcases hx : andThen (applyPostfixes gi sem e m g ops w0) (fun u w => construct gi sem 0 [u] w) with ⟨e | v', w1⟩
  · rw [hx] at h4
    simp [andThen] at h4
  · rw [hx] at h4
    simp [andThen] at h4
    rw [h4.1, h4.2]

/-- **C110, partial.** On the operand before any number of operators, the generated parser runs the constructors of the operators,
the nearest one first, and then that of the root, or stops with the first error of a constructor. (Missing: grammars with missing actions;
overlapping patterns.) -/
theorem generated_evaluated_partial (h : Postfixed S X l op gi.grammar.productions)
    (he : gi.grammar.productions[e]? = some ⟨X, [.production l]⟩)
    (hm : gi.grammar.productions[m]? = some ⟨X, [.production X, .terminal (.token op)]⟩)
    (hG : Generated o lex gi prog) (hD : gi.Disjoint sem) (hc : C07.ActionsComplete gi.grammar) (debug : Bool)
    (into : F' → E) (items : Nat → Option (Item P F')) (g : Forest (Token P)) (W0 : List (Token P))
    (ops : List (Token P)) (w0 : σ)
    (hW : ∀ i b, (W0 ++ ops)[i]? = some b → items i = some (.ok b))
    (hend : items (W0 ++ ops).length = none)
    (hg : ParsesM gi.grammar.productions (Matches sem gi.terminalType) g [.production l] W0)
    (hps : ∀ a ∈ ops, Matches sem gi.terminalType a op) :
    ∃ N run, (∀ fuel ≥ N, prog.parseFallible debug sem into items fuel w0 = .ok run) ∧
      ((∃ v, andThen (applyPostfixes gi sem e m g ops w0) (fun u w => construct gi sem 0 [u] w) = (.ok v, run.world) ∧
          run.result = .ok v) ∨
        ∃ x, andThen (applyPostfixes gi sem e m g ops w0) (fun u w => construct gi sem 0 [u] w) = (.error x, run.world) ∧
          run.result = .error (.user x)) := by
  obtain ⟨rest, e1⟩ := C109.nonempty (g := gi.grammar) h
  obtain ⟨i, c, h1, h2⟩ := postfixed_tree (sem := sem) he hm ops g W0 hg hps
  have ht : ParseTreeM gi.grammar (Matches sem gi.terminalType) (.node 0 (.node i c .nil) .nil) (W0 ++ ops) := by
    refine ⟨_, _, e1, ?_⟩
    have h2 := ParsesM.prod h.root h1 .nil
    simpa using h2
  obtain ⟨N, run, hN, hres⟩ := C19.sentences_are_evaluated_partial hG debug sem into items (W0 ++ ops) _ w0 hD hc
    hW hend ht
  refine ⟨N, run, hN, ?_⟩
  rw [value_root i c g ops h2] at hres
  rcases hx : andThen (applyPostfixes gi sem e m g ops w0) (fun u w => construct gi sem 0 [u] w) with ⟨e | v', w1⟩
  · rw [hx] at hres
    simpa [andThen] using hres
  · rw [hx] at hres
    simpa [andThen] using hres

/-- **C110 with the change of C88.** Generated parsers evaluate all inputs of this form, if patterns do not overlap. -/
theorem generated_evaluated_repaired (h : Postfixed S X l op gi.grammar.productions)
    (he : gi.grammar.productions[e]? = some ⟨X, [.production l]⟩)
    (hm : gi.grammar.productions[m]? = some ⟨X, [.production X, .terminal (.token op)]⟩)
    (hG : GeneratedRepaired o lex gi prog) (hD : gi.Disjoint sem) (debug : Bool)
    (into : F' → E) (items : Nat → Option (Item P F')) (g : Forest (Token P)) (W0 : List (Token P))
    (ops : List (Token P)) (w0 : σ)
    (hW : ∀ i b, (W0 ++ ops)[i]? = some b → items i = some (.ok b))
    (hend : items (W0 ++ ops).length = none)
    (hg : ParsesM gi.grammar.productions (Matches sem gi.terminalType) g [.production l] W0)
    (hps : ∀ a ∈ ops, Matches sem gi.terminalType a op) :
    ∃ N run, (∀ fuel ≥ N, prog.parseFallible debug sem into items fuel w0 = .ok run) ∧
      ((∃ v, andThen (applyPostfixes gi sem e m g ops w0) (fun u w => construct gi sem 0 [u] w) = (.ok v, run.world) ∧
          run.result = .ok v) ∨
        ∃ x, andThen (applyPostfixes gi sem e m g ops w0) (fun u w => construct gi sem 0 [u] w) = (.error x, run.world) ∧
          run.result = .error (.user x)) := by
  obtain ⟨rest, e1⟩ := C109.nonempty (g := gi.grammar) h
  obtain ⟨i, c, h1, h2⟩ := postfixed_tree (sem := sem) he hm ops g W0 hg hps
  have ht : ParseTreeM gi.grammar (Matches sem gi.terminalType) (.node 0 (.node i c .nil) .nil) (W0 ++ ops) := by
    refine ⟨_, _, e1, ?_⟩
    have h2 := ParsesM.prod h.root h1 .nil
    simpa using h2
  obtain ⟨N, run, hN, hall, -⟩ := C88.generated_evaluates_sentences hG debug sem into items (W0 ++ ops) w0 hD hW hend
  have hres := hall _ ht
  refine ⟨N, run, hN, ?_⟩
  rw [value_root i c g ops h2] at hres
  rcases hx : andThen (applyPostfixes gi sem e m g ops w0) (fun u w => construct gi sem 0 [u] w) with ⟨e | v', w1⟩
  · rw [hx] at hres
    simpa [andThen] using hres
  · rw [hx] at hres
    simpa [andThen] using hres

end

/-! ## Concrete cases -/

/-- `S => X; X => L; X => X Bang` and the rules of `L` of the sample file. -/
def bangRules : List ARule :=
  [⟨"S", some (.ident "T" .nil), [.production "X"], some (.brace, Sample.hash "X")⟩,
   ⟨"X", some (.ident "T" .nil), [.production "L"], some (.brace, Sample.hash "L")⟩,
   ⟨"X", some (.ident "T" .nil), [.production "X", .symbol ⟨"Bang", .none⟩],
     some (.brace, Sample.hash "X")⟩] ++
    Sample.rules.drop 1

theorem bang_postfixed {gi : GrammarInfo} (h : gi.productionRules = bangRules) :
    Postfixed "S" "X" "L" ⟨"Bang", .none⟩ gi.grammar.productions := by
  have e : gi.grammar.productions = bangRules.map ARule.toLr := by simp [GrammarInfo.grammar, h]
  rw [e]
  have key : ∀ r ∈ bangRules.map ARule.toLr, r = ⟨"S", [.production "X"]⟩ ∨ r = ⟨"X", [.production "L"]⟩ ∨
      r = ⟨"X", [.production "X", .terminal (.token ⟨"Bang", .none⟩)]⟩ ∨
      (r.symbol = "L" ∧ (∀ t, t = ⟨"Bang", .none⟩ → .terminal (.token t) ∉ r.rule) ∧ ∀ b, .production b ∈ r.rule → b = "L") := by
    intro r hr
    simp only [bangRules, Sample.rules, List.drop_succ_cons, List.drop_zero, List.cons_append, List.nil_append,
      List.map_cons, List.map_nil, List.mem_cons, List.not_mem_nil, or_false] at hr
    rcases hr with rfl | rfl | rfl | rfl | rfl | rfl
    · exact .inl rfl
    · exact .inr (.inl rfl)
    · exact .inr (.inr (.inl rfl))
    all_goals
      refine .inr (.inr (.inr ⟨rfl, ?_, ?_⟩))
      · rintro t rfl; simp [ARule.toLr, ANode.toLrNode]
      · simp [ARule.toLr, ANode.toLrNode]
  have hown : ∀ t, t = ⟨"Bang", .none⟩ → NotBelow (bangRules.map ARule.toLr) "L" t := by
    intro t ht r hr hl
    have hL : r.symbol = "L" := by
      clear hr
      generalize r.symbol = a at hl
      induction hl with
      | root => rfl
      | @step r a _ hr ha ih =>
        rcases key r hr with rfl | rfl | rfl | ⟨-, -, h1⟩
        · simp at ih
        · simp at ih
        · simp at ih
        · exact h1 a ha
    rcases key r hr with rfl | rfl | rfl | ⟨-, h1, -⟩
    · simp at hL
    · simp at hL
    · simp at hL
    · exact h1 t ht
  refine ⟨by decide, rfl, List.mem_of_getElem? (i := 1) rfl, List.mem_of_getElem? (i := 2) rfl, ?_, ?_,
    hown _ rfl⟩
  · intro r hr hs
    rcases key r hr with rfl | rfl | rfl | ⟨h1, -⟩
    · simp at hs
    · exact .inl rfl
    · exact .inr rfl
    · rw [h1] at hs; simp at hs
  · intro i j r hi hj hs
    match i, j with
    | 1, 1 | 2, 2 => rfl
    | 1, 2 | 2, 1 => rw [← hj] at hi; simp [bangRules, Sample.rules, ARule.toLr, ANode.toLrNode] at hi
    | 0, _ | 3, _ | 4, _ | 5, _ => cases hi; simp [ARule.toLr] at hs
    | i + 6, _ => simp [bangRules, Sample.rules] at hi
    | _, 0 | _, 3 | _, 4 | _, 5 => cases hj; simp [ARule.toLr] at hs
    | _, j + 6 => simp [bangRules, Sample.rules] at hj

/-- Each operator doubles. -/
def doubled : Sem Nat Nat String Nat := { Sample.sem with
  body := fun i _ env w => (.ok (.user (
    if i = 2 then 2 * Sample.num (env 0) else if i = 3 then Sample.num (env 1) else Sample.num (env 0))), w + 1) }

theorem bang_disjoint {gi : GrammarInfo} (h1 : gi.productionRules = bangRules)
    (h2 : gi.terminalType = .enum (.ident "Tok" .nil)) : gi.Disjoint doubled := by
  intro a s s' ⟨r, hr, hs⟩ ⟨r', hr', hs'⟩ m1 m2
  have key : ∀ r ∈ bangRules, ∀ s, .symbol s ∈ r.rule →
      s = ⟨"Bang", .none⟩ ∨ s = ⟨"Plus", .none⟩ ∨ s = ⟨"Num", .wildcard⟩ := by
    intro r hr s hs
    simp only [bangRules, Sample.rules, List.drop_succ_cons, List.drop_zero, List.cons_append, List.nil_append,
      List.mem_cons, List.not_mem_nil, or_false] at hr
    rcases hr with rfl | rfl | rfl | rfl | rfl | rfl <;> simp at hs <;> tauto
  rw [h2] at m1 m2
  rw [h1] at hr hr'
  rcases key r hr s hs with rfl | rfl | rfl <;> rcases key r' hr' s' hs' with rfl | rfl | rfl <;>
    first
    | rfl
    | exact absurd ((Sample.variant_eq m1).symm.trans (Sample.variant_eq m2)) (by simp)

/-- The hypotheses are met by a file with these rules; its parser gives 20 for
`Num(5) Bang Bang`. -/
example : ∃ (gi : GrammarInfo) (prog : Program), Generated .id Sample.lexer gi prog ∧
    Postfixed "S" "X" "L" ⟨"Bang", .none⟩ gi.grammar.productions ∧
    gi.grammar.productions[1]? = some ⟨"X", [.production "L"]⟩ ∧
    gi.grammar.productions[2]? = some ⟨"X", [.production "X", .terminal (.token ⟨"Bang", .none⟩)]⟩ ∧
    gi.Disjoint doubled ∧ C07.ActionsComplete gi.grammar ∧
    ∃ run, prog.parseFallible true doubled id (Sample.stream [.data "Num" 5, .unit "Bang", .unit "Bang"] none) 50 0 = .ok run ∧ run.result = .ok (.user 20) := by
  obtain ⟨gi, prog, h, -, h1, h2, hr, -⟩ := Sample.runs_ok (o := .id) (rules := bangRules)
    (labels := ["S", "X", "L"]) (sem := doubled) (ts := [.data "Num" 5, .unit "Bang", .unit "Bang"])
    (r := .ok (.user 20)) (r' := .ok (.user 20)) (by unfold EpsilonLast; decide) (by decide +kernel)
  have hg : gi.grammar = ⟨bangRules.map ARule.toLr⟩ := by unfold GrammarInfo.grammar; rw [h1]
  refine ⟨gi, prog, h, bang_postfixed h1, by rw [hg]; rfl, by rw [hg]; rfl, bang_disjoint h1 h2, ?_, hr⟩
  have h : ((do
      let ig ← IndexedGrammar.build ⟨bangRules.map ARule.toLr⟩
      let F ← FirstTable.build ig
      let (F', _) ← FirstTable.propagate ig F
      pure (F == F')) : Outcome (LRTableError Sym String) Bool) = .ok true := by decide +kernel
  obtain ⟨ig, h2, h⟩ := Outcome.bind_eq_ok.mp h
  obtain ⟨F, h3, h⟩ := Outcome.bind_eq_ok.mp h
  obtain ⟨⟨F', b⟩, h4, h⟩ := Outcome.bind_eq_ok.mp h
  simp only [Outcome.pure_eq, Outcome.ok.injEq, beq_iff_eq] at h
  subst h
  rw [hg]
  exact (C07.first_complete_if_stable_partial _ ig F b h2 h3 h4).actions

/-- `S => X; X => L; X => X Bang; L => Y B; Y => !; B => A Plus; A => A1; A1 => A2; A2 => !`. -/
def late : List ARule :=
  [⟨"S", none, [.production "X"], none⟩, ⟨"X", none, [.production "L"], none⟩,
   ⟨"X", none, [.production "X", .symbol ⟨"Bang", .none⟩], none⟩,
   ⟨"L", none, [.production "Y", .production "B"], none⟩, ⟨"Y", none, [.epsilon], none⟩,
   ⟨"B", none, [.production "A", .symbol ⟨"Plus", .none⟩], none⟩, ⟨"A", none, [.production "A1"], none⟩,
   ⟨"A1", none, [.production "A2"], none⟩, ⟨"A2", none, [.epsilon], none⟩]

/-- Its rules. -/
def lateP : List (Rule Sym String) :=
  [⟨"S", [.production "X"]⟩, ⟨"X", [.production "L"]⟩,
   ⟨"X", [.production "X", .terminal (.token ⟨"Bang", .none⟩)]⟩,
   ⟨"L", [.production "Y", .production "B"]⟩, ⟨"Y", [.terminal .epsilon]⟩,
   ⟨"B", [.production "A", .terminal (.token ⟨"Plus", .none⟩)]⟩, ⟨"A", [.production "A1"]⟩,
   ⟨"A1", [.production "A2"]⟩, ⟨"A2", [.terminal .epsilon]⟩]

theorem late_own {t : Sym} (ht : t ≠ ⟨"Plus", .none⟩) : NotBelow lateP "L" t := by
  intro r hr hl
  have : r.symbol ≠ "X" ∧ r.symbol ≠ "S" := by
    clear hr
    generalize r.symbol = c at hl
    induction hl with
    | root => decide
    | @step r c _ hr ha ih =>
      simp only [lateP, List.mem_cons, List.not_mem_nil, or_false] at hr
      rcases hr with rfl | rfl | rfl | rfl | rfl | rfl | rfl | rfl | rfl <;> simp_all
      rcases ha with rfl | rfl <;> simp
  simp only [lateP, List.mem_cons, List.not_mem_nil, or_false] at hr
  rcases hr with rfl | rfl | rfl | rfl | rfl | rfl | rfl | rfl | rfl <;> simp_all

theorem late_postfixed : Postfixed "S" "X" "L" ⟨"Bang", .none⟩ lateP where
  ne := by decide
  root := rfl
  one := List.mem_of_getElem? (i := 1) rfl
  more := List.mem_of_getElem? (i := 2) rfl
  only := by
    intro r hr hs
    simp only [lateP, List.mem_cons, List.not_mem_nil, or_false] at hr
    rcases hr with rfl | rfl | rfl | rfl | rfl | rfl | rfl | rfl | rfl <;> simp_all
  once := by
    intro i j r hi hj hs
    match i, j with
    | 1, 1 | 2, 2 => rfl
    | 1, 2 | 2, 1 => rw [← hj] at hi; simp [lateP] at hi
    | 0, _ | 3, _ | 4, _ | 5, _ | 6, _ | 7, _ | 8, _ => cases hi; simp at hs
    | i + 9, _ => simp [lateP] at hi
    | _, 0 | _, 3 | _, 4 | _, 5 | _, 6 | _, 7 | _, 8 => cases hj; simp at hs
    | _, j + 9 => simp [lateP] at hj
  own := late_own (by decide)

/-- The tree of `Plus`. -/
def latePlus : Forest (Token Nat) :=
  .node 3 (.node 4 .nil (.node 5 (.node 6 (.node 7 (.node 8 .nil .nil) .nil) (.tok (.unit "Plus") .nil)) .nil)) .nil

theorem latePlus_parses {mt : Token Nat → Sym → Prop} (h : mt (.unit "Plus") ⟨"Plus", .none⟩) :
    ParsesM lateP mt latePlus [.production "L"] [.unit "Plus"] := by
  have h8 := ParsesM.prod (P := lateP) (m := mt) (i := 8) (r := ⟨"A2", [.terminal .epsilon]⟩) rfl (.eps .nil) .nil
  have h7 := ParsesM.prod (P := lateP) (m := mt) (i := 7) (r := ⟨"A1", [.production "A2"]⟩) rfl h8 .nil
  have h6 := ParsesM.prod (P := lateP) (m := mt) (i := 6) (r := ⟨"A", [.production "A1"]⟩) rfl h7
    (.tok (a := .unit "Plus") h .nil)
  have h5 := ParsesM.prod (P := lateP) (m := mt) (i := 5)
    (r := ⟨"B", [.production "A", .terminal (.token ⟨"Plus", .none⟩)]⟩) rfl h6 .nil
  have h4 := ParsesM.prod (P := lateP) (m := mt) (i := 4) (r := ⟨"Y", [.terminal .epsilon]⟩) rfl (.eps .nil) h5
  exact .prod (P := lateP) (m := mt) (i := 3) (r := ⟨"L", [.production "Y", .production "B"]⟩) rfl h4 .nil

theorem late_disjoint {gi : GrammarInfo} (h1 : gi.productionRules = late)
    (h2 : gi.terminalType = .enum (.ident "Tok" .nil)) : gi.Disjoint Sample.sem1 := by
  have key : ∀ s, gi.Terminal s → s = ⟨"Bang", .none⟩ ∨ s = ⟨"Plus", .none⟩ := by
    rintro s ⟨r, hr, hs⟩
    rw [h1] at hr
    simp only [late, List.mem_cons, List.not_mem_nil, or_false] at hr
    rcases hr with rfl | rfl | rfl | rfl | rfl | rfl | rfl | rfl | rfl <;> simp at hs <;> tauto
  intro t s s' hs hs' m1 m2
  rw [h2] at m1 m2
  rcases key s hs with rfl | rfl <;> rcases key s' hs' with rfl | rfl <;>
    first
    | rfl
    | exact absurd ((Sample.variant_eq m1).symm.trans (Sample.variant_eq m2)) (by simp)

/-- **C110 is false in general.** `X => L; X => X Bang` with the operand `Plus` of `late`: the generated parser refuses
`Plus Bang`. -/
theorem generated_evaluated_refuted : ∃ (gi : GrammarInfo) (prog : Program) (g : Forest (Token Nat))
    (W0 : List (Token Nat)) (ops : List (Token Nat)),
    Generated .id Sample.lexer gi prog ∧ Postfixed "S" "X" "L" ⟨"Bang", .none⟩ gi.grammar.productions ∧
    gi.grammar.productions[1]? = some ⟨"X", [.production "L"]⟩ ∧
    gi.grammar.productions[2]? =
      some ⟨"X", [.production "X", .terminal (.token ⟨"Bang", .none⟩)]⟩ ∧
    gi.Disjoint Sample.sem1 ∧ ops ≠ [] ∧
    ParsesM gi.grammar.productions (Matches Sample.sem1 gi.terminalType) g [.production "L"] W0 ∧
    (∀ a ∈ ops, Matches Sample.sem1 gi.terminalType a ⟨"Bang", .none⟩) ∧
    ∃ run, prog.parseFallible true Sample.sem1 id (Sample.stream (W0 ++ ops) none) 50 0 = .ok run ∧
      run.result = .error (.parseError (some (.unit "Plus"))) := by
  obtain ⟨gi, prog, h, -, h1, h2, hr, -⟩ := Sample.runs_ok (o := .id) (rules := late)
    (labels := ["S", "X", "L", "Y", "B", "A", "A1", "A2"]) (sem := Sample.sem1)
    (ts := [.unit "Plus", .unit "Bang"])
    (r := .error (.parseError (some (.unit "Plus")))) (r' := .error (.parseError (some (.unit "Plus"))))
    (by unfold EpsilonLast; decide) (by decide +kernel)
  have hg : gi.grammar.productions = lateP := by simp only [GrammarInfo.grammar, h1]; rfl
  refine ⟨gi, prog, latePlus, [.unit "Plus"], [.unit "Bang"], h, by rw [hg]; exact late_postfixed,
    by rw [hg]; rfl, by rw [hg]; rfl, late_disjoint h1 h2, by simp, ?_, ?_, hr⟩
  · rw [hg, h2]
    exact latePlus_parses .unit
  · intro p hp
    rw [List.mem_singleton] at hp
    subst hp
    rw [h2]
    exact .unit

end Verif.C110
