import Verif.Spec.OptionalFold
import Verif.Props.Optional
import Verif.Props.FoldRefuted

/-!
# C106: the values of something optional
-/

set_option linter.unusedSectionVars false
set_option autoImplicit false

namespace Verif.C106

open Spec C98

section
variable {P V E F' σ : Type} [DecidableEq P] {lex : Lexer} {o : HashOrder} {gi : GrammarInfo} {prog : Program}
  {S X l : String} {sem : Sem P V E σ} {e m : Nat}

theorem value_none (w : σ) : value gi sem (.node e .nil .nil) w =
    andThen (optionValue gi sem e m none w) fun v w => (.ok [v], w) := by
  simp only [value, eval, optionValue, andThen]

/-- The trees of something optional. -/
theorem tree_option (h : Spec.Optional S X l gi.grammar.productions)
    (he : gi.grammar.productions[e]? = some ⟨X, [.terminal .epsilon]⟩)
    (hm : gi.grammar.productions[m]? = some ⟨X, [.production l]⟩)
    {mt : Token P → Sym → Prop} {f : Forest (Token P)} {W : List (Token P)}
    (hf : ParsesM gi.grammar.productions mt f [.production X] W) :
    ∃ g, OptionalTree (fun g W => ParsesM gi.grammar.productions mt g [.production l] W) W g ∧
      ∀ w, value gi sem f w = andThen (optionValue gi sem e m g w) fun v w => (.ok [v], w) := by
  obtain ⟨i, r, c, f', u, v, hr, hs, rfl, rfl, h1, h2⟩ := parsesM_prod_inv hf
  cases h2
  rw [List.append_nil]
  obtain ⟨sym, rule⟩ := r
  simp only at hs h1
  subst hs
  rcases h.only _ (List.mem_of_getElem? hr) rfl with e1 | e1 <;> simp only at e1 <;> subst e1
  · cases h.once i e _ hr he rfl
    cases h1 with
    | eps h1 =>
      cases h1
      exact ⟨none, rfl, value_none⟩
  · cases h.once i m _ hr hm rfl
    refine ⟨some c, h1, fun w => ?_⟩
    obtain ⟨j, r2, d, f2, u2, v2, -, -, rfl, -, -, h9⟩ := parsesM_prod_inv h1
    cases h9
    rw [C100.value_one]
    rfl

/-- Nothing, and the part, have trees. -/
theorem option_tree (he : gi.grammar.productions[e]? = some ⟨X, [.terminal .epsilon]⟩)
    (hm : gi.grammar.productions[m]? = some ⟨X, [.production l]⟩)
    {mt : Token P → Sym → Prop} (g : Option (Forest (Token P))) (W0 : List (Token P))
    (hg : OptionalTree (fun g W => ParsesM gi.grammar.productions mt g [.production l] W) W0 g) :
    ∃ i c, ParsesM gi.grammar.productions mt (.node i c .nil) [.production X] W0 ∧
      ∀ w, value gi sem (.node i c .nil) w = andThen (optionValue gi sem e m g w) fun v w => (.ok [v], w) := by
  cases g with
  | none =>
    cases hg
    exact ⟨e, .nil, ParsesM.prod (u := []) he (.eps .nil) .nil, value_none⟩
  | some g =>
    refine ⟨m, g, by simpa using ParsesM.prod hm hg .nil, fun w => ?_⟩
    obtain ⟨j, r2, d, f2, u2, v2, -, -, rfl, -, -, h9⟩ := parsesM_prod_inv hg
    cases h9
    rw [C100.value_one]
    rfl

theorem value_root (i : Nat) (c : Forest (Token P)) (g : Option (Forest (Token P)))
    (h : ∀ w, value gi sem (.node i c .nil) w = andThen (optionValue gi sem e m g w) fun v w => (.ok [v], w)) (w : σ) :
    value gi sem (.node 0 (.node i c .nil) .nil) w =
      andThen (andThen (optionValue gi sem e m g w) fun u w => construct gi sem 0 [u] w) fun v w => (.ok [v], w) := by
  have h' := h w
  simp only [value] at h' ⊢
  rw [eval, h']
  rcases optionValue gi sem e m g w with ⟨x | u, w1⟩
  · rfl
  · simp only [andThen, eval]

/-- **C106.** A value that the generated parser of a grammar for something optional returns is what the constructor of
the root makes of the value of the part if it is there, and of the value of the empty rule otherwise, and the world is what they leave. -/
theorem generated_value (h : Spec.Optional S X l gi.grammar.productions)
    (he : gi.grammar.productions[e]? = some ⟨X, [.terminal .epsilon]⟩)
    (hm : gi.grammar.productions[m]? = some ⟨X, [.production l]⟩)
    (hG : Generated o lex gi prog) (debug : Bool)
    (into : F' → E) (items : Nat → Option (Item P F')) (fuel : Nat) (w0 : σ) (run : Run P V E σ) (v : Val P V)
    (hrun : prog.parseFallible debug sem into items fuel w0 = .ok run) (hv : run.result = .ok v) :
    ∃ (g : Option (Forest (Token P))) (W0 : List (Token P)),
      (∀ i b, W0[i]? = some b → items i = some (.ok b)) ∧
      items W0.length = none ∧
      OptionalTree (fun g W => ParsesM gi.grammar.productions (Matches sem gi.terminalType) g [.production l] W) W0 g ∧
      andThen (optionValue gi sem e m g w0) (fun u w => construct gi sem 0 [u] w) = (.ok v, run.world) := by
  obtain ⟨W, f, h1, h2, ⟨root, rest, e1, h3⟩, h4⟩ := C18.ok_is_value_of_tree hG debug sem into items fuel w0 run v hrun hv
  have h0 := h.root
  rw [e1] at h0
  cases h0
  obtain ⟨i, r, c, f', u, v', hr, hs, rfl, rfl, h5, h6⟩ := parsesM_prod_inv h3
  cases h6
  cases C81.rootOnce hG.grammar i _ r h.root hr hs
  rw [h.root] at hr
  cases hr
  rw [List.append_nil] at h1 h2
  obtain ⟨g, h6, h8⟩ := tree_option (sem := sem) h he hm h5
  refine ⟨g, _, h1, h2, h6, ?_⟩
  obtain ⟨i2, r2, c2, f2, u2, v2, -, -, rfl, -, -, h9⟩ := parsesM_prod_inv h5
  cases h9
  rw [value_root i2 c2 g h8] at h4
  rcases hx : andThen (optionValue gi sem e m g w0) (fun u w => construct gi sem 0 [u] w) with ⟨e | v', w1⟩
  · rw [hx] at h4
    simp [andThen] at h4
  · rw [hx] at h4
    simp [andThen] at h4
    rw [h4.1, h4.2]

/-- **C106, partial.** On nothing, and on the part, the generated parser runs the constructor of the one rule or the other
and then that of the root, or stops with the first error of a constructor. (Missing: grammars with missing actions;
overlapping patterns.) -/
theorem generated_evaluated_partial (h : Spec.Optional S X l gi.grammar.productions)
    (he : gi.grammar.productions[e]? = some ⟨X, [.terminal .epsilon]⟩)
    (hm : gi.grammar.productions[m]? = some ⟨X, [.production l]⟩)
    (hG : Generated o lex gi prog) (hD : gi.Disjoint sem) (hc : C07.ActionsComplete gi.grammar) (debug : Bool)
    (into : F' → E) (items : Nat → Option (Item P F')) (g : Option (Forest (Token P)))
    (W0 : List (Token P)) (w0 : σ)
    (hW : ∀ i b, W0[i]? = some b → items i = some (.ok b))
    (hend : items W0.length = none)
    (hg : OptionalTree (fun g W => ParsesM gi.grammar.productions (Matches sem gi.terminalType) g [.production l] W) W0 g) :
    ∃ N run, (∀ fuel ≥ N, prog.parseFallible debug sem into items fuel w0 = .ok run) ∧
      ((∃ v, andThen (optionValue gi sem e m g w0) (fun u w => construct gi sem 0 [u] w) = (.ok v, run.world) ∧
          run.result = .ok v) ∨
        ∃ x, andThen (optionValue gi sem e m g w0) (fun u w => construct gi sem 0 [u] w) = (.error x, run.world) ∧
          run.result = .error (.user x)) := by
  obtain ⟨rest, e1⟩ := C103.nonempty (g := gi.grammar) h
  obtain ⟨i, c, h1, h2⟩ := option_tree (sem := sem) he hm g W0 hg
  have ht : ParseTreeM gi.grammar (Matches sem gi.terminalType) (.node 0 (.node i c .nil) .nil) W0 := by
    refine ⟨_, _, e1, ?_⟩
    have h2 := ParsesM.prod h.root h1 .nil
    simpa using h2
  obtain ⟨N, run, hN, hres⟩ := C19.sentences_are_evaluated_partial hG debug sem into items W0 _ w0 hD hc
    hW hend ht
  refine ⟨N, run, hN, ?_⟩
  rw [value_root i c g h2] at hres
  rcases hx : andThen (optionValue gi sem e m g w0) (fun u w => construct gi sem 0 [u] w) with ⟨e | v', w1⟩
  · rw [hx] at hres
    simpa [andThen] using hres
  · rw [hx] at hres
    simpa [andThen] using hres

end

/-! ## Concrete cases -/

/-- `S => X; X => !; X => L; L => Plus L; L => Num(_)`. -/
def maybeRules : List ARule :=
  [⟨"S", some (.ident "T" .nil), [.production "X"], some (.brace, Sample.hash "X")⟩,
   ⟨"X", some (.ident "T" .nil), [.epsilon], some (.brace, .literal "7" .nil)⟩,
   ⟨"X", some (.ident "T" .nil), [.production "L"], some (.brace, Sample.hash "L")⟩] ++
    (Sample.rules.drop 1).take 2

/-- The rules. -/
def maybeP : List (Rule Sym String) :=
  [⟨"S", [.production "X"]⟩, ⟨"X", [.terminal .epsilon]⟩, ⟨"X", [.production "L"]⟩,
   ⟨"L", [.terminal (.token ⟨"Plus", .none⟩), .production "L"]⟩, ⟨"L", [.terminal (.token ⟨"Num", .wildcard⟩)]⟩]

theorem maybe_optional {gi : GrammarInfo} (h : gi.productionRules = maybeRules) :
    Spec.Optional "S" "X" "L" gi.grammar.productions := by
  have e : gi.grammar.productions = maybeP := by simp only [GrammarInfo.grammar, h]; rfl
  rw [e]
  refine ⟨by decide, rfl, List.mem_of_getElem? (i := 1) rfl, List.mem_of_getElem? (i := 2) rfl, ?_, ?_, ?_⟩
  · intro r hr hs
    simp only [maybeP, List.mem_cons, List.not_mem_nil, or_false] at hr
    rcases hr with rfl | rfl | rfl | rfl | rfl <;> simp_all
  · intro i j r hi hj hs
    match i, j with
    | 1, 1 | 2, 2 => rfl
    | 1, 2 | 2, 1 => rw [← hj] at hi; simp [maybeP] at hi
    | 0, _ | 3, _ | 4, _ => cases hi; simp at hs
    | i + 5, _ => simp [maybeP] at hi
    | _, 0 | _, 3 | _, 4 => cases hj; simp at hs
    | _, j + 5 => simp [maybeP] at hj
  · intro hl
    have : ∀ a, Reachable maybeP "L" a → a = "L" := by
      intro a ha
      induction ha with
      | root => rfl
      | @step r a _ hr ha ih =>
        simp only [maybeP, List.mem_cons, List.not_mem_nil, or_false] at hr
        rcases hr with rfl | rfl | rfl | rfl | rfl <;> simp_all
    exact absurd (this _ hl) (by decide)

/-- Nothing is worth 7. -/
def orElse : Sem Nat Nat String Nat := { Sample.sem with
  body := fun i _ env w => (.ok (.user (
    if i = 1 then 7 else if i = 3 then Sample.num (env 1) else Sample.num (env 0))), w + 1) }

theorem maybe_disjoint {gi : GrammarInfo} (h1 : gi.productionRules = maybeRules)
    (h2 : gi.terminalType = .enum (.ident "Tok" .nil)) : gi.Disjoint orElse := by
  have key : ∀ s, gi.Terminal s → s = ⟨"Plus", .none⟩ ∨ s = ⟨"Num", .wildcard⟩ := by
    rintro s ⟨r, hr, hs⟩
    rw [h1] at hr
    simp only [maybeRules, Sample.rules, List.drop_succ_cons, List.drop_zero, List.take_succ_cons, List.take_zero,
      List.cons_append, List.nil_append, List.mem_cons, List.not_mem_nil, or_false] at hr
    rcases hr with rfl | rfl | rfl | rfl | rfl <;> simp at hs <;> tauto
  intro t s s' hs hs' m1 m2
  rw [h2] at m1 m2
  rcases key s hs with rfl | rfl <;> rcases key s' hs' with rfl | rfl <;>
    first
    | rfl
    | exact absurd ((Sample.variant_eq m1).symm.trans (Sample.variant_eq m2)) (by simp)

/-- The hypotheses are met by a file with these rules; its parser gives 5 for
`Plus Num(5)`. -/
example : ∃ (gi : GrammarInfo) (prog : Program), Generated .id Sample.lexer gi prog ∧
    Spec.Optional "S" "X" "L" gi.grammar.productions ∧
    gi.grammar.productions[1]? = some ⟨"X", [.terminal .epsilon]⟩ ∧
    gi.grammar.productions[2]? = some ⟨"X", [.production "L"]⟩ ∧
    gi.Disjoint orElse ∧ C07.ActionsComplete gi.grammar ∧
    ∃ run, prog.parseFallible true orElse id (Sample.stream [.unit "Plus", .data "Num" 5] none) 50 0 = .ok run ∧ run.result = .ok (.user 5) := by
  obtain ⟨gi, prog, h, -, h1, h2, hr, -⟩ := Sample.runs_ok (o := .id) (rules := maybeRules)
    (labels := ["S", "X", "L"]) (sem := orElse) (ts := [.unit "Plus", .data "Num" 5])
    (r := .ok (.user 5)) (r' := .ok (.user 5)) (by unfold EpsilonLast; decide) (by decide +kernel)
  have hg : gi.grammar = ⟨maybeRules.map ARule.toLr⟩ := by unfold GrammarInfo.grammar; rw [h1]
  refine ⟨gi, prog, h, maybe_optional h1, by rw [hg]; rfl, by rw [hg]; rfl, maybe_disjoint h1 h2, ?_, hr⟩
  have h : ((do
      let ig ← IndexedGrammar.build ⟨maybeRules.map ARule.toLr⟩
      let F ← FirstTable.build ig
      let (F', _) ← FirstTable.propagate ig F
      pure (F == F')) : Outcome (LRTableError Sym String) Bool) = .ok true := by decide +kernel
  obtain ⟨ig, h2, h⟩ := Outcome.bind_eq_ok.mp h
  obtain ⟨F, h3, h⟩ := Outcome.bind_eq_ok.mp h
  obtain ⟨⟨F', b⟩, h4, h⟩ := Outcome.bind_eq_ok.mp h
  simp only [Outcome.pure_eq, Outcome.ok.injEq, beq_iff_eq] at h
  subst h
  rw [hg]
  exact (C07.first_complete_if_stable_partial _ ig F b h2 h3 h4).actions

/-- For the empty input it gives 7. -/
example : ∃ (gi : GrammarInfo) (prog : Program), Generated .id Sample.lexer gi prog ∧
    Spec.Optional "S" "X" "L" gi.grammar.productions ∧
    ∃ run, prog.parseFallible true orElse id (Sample.stream [] none) 50 0 = .ok run ∧ run.result = .ok (.user 7) := by
  obtain ⟨gi, prog, h, -, h1, -, hr, -⟩ := Sample.runs_ok (o := .id) (rules := maybeRules)
    (labels := ["S", "X", "L"]) (sem := orElse) (ts := [])
    (r := .ok (.user 7)) (r' := .ok (.user 7)) (by unfold EpsilonLast; decide) (by decide +kernel)
  exact ⟨gi, prog, h, maybe_optional h1, hr⟩

/-- **C106 is false in general.** `X => !; X => L` with the part `Plus` of the file of `FoldRefuted`: the generated parser
refuses `Plus`. -/
theorem generated_evaluated_refuted : ∃ (gi : GrammarInfo) (prog : Program) (g : Forest (Token Nat))
    (W0 : List (Token Nat)),
    Generated .id Sample.lexer gi prog ∧ Spec.Optional "S" "X" "L" gi.grammar.productions ∧
    gi.grammar.productions[1]? = some ⟨"X", [.terminal .epsilon]⟩ ∧
    gi.grammar.productions[2]? = some ⟨"X", [.production "L"]⟩ ∧ gi.Disjoint Sample.sem1 ∧
    OptionalTree (fun g W => ParsesM gi.grammar.productions (Matches Sample.sem1 gi.terminalType) g [.production "L"] W) W0
      (some g) ∧
    ∃ run, prog.parseFallible true Sample.sem1 id (Sample.stream W0 none) 50 0 = .ok run ∧
      run.result = .error (.parseError (some (.unit "Plus"))) := by
  obtain ⟨gi, prog, h, -, h1, h2, hr, -⟩ := Sample.runs_ok (o := .id)
    (rules := FoldRefuted.file [.epsilon] [.production "L"])
    (labels := ["S", "X", "L", "Y", "B", "A"]) (sem := Sample.sem1) (ts := [.unit "Plus"])
    (r := .error (.parseError (some (.unit "Plus")))) (r' := .error (.parseError (some (.unit "Plus"))))
    (by unfold EpsilonLast; decide) (by decide +kernel)
  have hg : gi.grammar.productions = FoldRefuted.rules [.terminal .epsilon] [.production "L"] := by
    simp only [GrammarInfo.grammar, h1]; rfl
  refine ⟨gi, prog, FoldRefuted.item, [.unit "Plus"], h, ?_, by rw [hg]; rfl, by rw [hg]; rfl,
    FoldRefuted.disjoint h1 h2 (by simp), ?_, hr⟩
  · rw [hg]
    refine ⟨by decide, rfl, List.mem_of_getElem? (i := 1) rfl, List.mem_of_getElem? (i := 2) rfl, FoldRefuted.only,
      FoldRefuted.once (by simp), fun hl => ?_⟩
    have : ∀ a, Reachable (FoldRefuted.rules [.terminal .epsilon] [.production "L"]) "L" a → a ≠ "X" ∧ a ≠ "S" := by
      intro a ha
      induction ha with
      | root => decide
      | @step r c _ hr ha ih =>
        simp only [FoldRefuted.rules, List.mem_cons, List.not_mem_nil, or_false] at hr
        rcases hr with rfl | rfl | rfl | rfl | rfl | rfl | rfl <;> simp_all
        rcases ha with rfl | rfl <;> simp
    exact (this _ hl).1 rfl
  · rw [hg, h2]
    exact FoldRefuted.item_parses .unit

end Verif.C106
