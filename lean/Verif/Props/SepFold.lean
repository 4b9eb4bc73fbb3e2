import Verif.Spec.SepFold
import Verif.Props.SepList
import Verif.Props.ListFold

/-!
# C100: items with a separating token between them are put together from left to right
-/

set_option linter.unusedSectionVars false
set_option autoImplicit false

namespace Verif.C100

open Spec C98

section
variable {P V E F' σ : Type} [DecidableEq P] {lex : Lexer} {o : HashOrder} {gi : GrammarInfo} {prog : Program}
  {S X l : String} {k : Sym} {sem : Sem P V E σ} {e m : Nat}

theorem value_one (j : Nat) (d : Forest (Token P)) (w : σ) :
    value gi sem (.node e (.node j d .nil) .nil) w =
      andThen (andThen (value gi sem (.node j d .nil) w) fun us w => construct gi sem e us w) fun v w => (.ok [v], w) := by
  simp only [value, eval]
  rcases eval Val.tok (construct gi sem) d w with ⟨x | us, w1⟩
  · rfl
  · simp only [andThen]
    rcases construct gi sem j us w1 with ⟨x | u, w2⟩
    · rfl
    · rfl

theorem value_more (i j : Nat) (c d : Forest (Token P)) (a : Token P) (w : σ) :
    value gi sem (.node m (.node i c (.tok a (.node j d .nil))) .nil) w =
      andThen (andThen (value gi sem (.node i c .nil) w) fun us w => andThen (value gi sem (.node j d .nil) w) fun vs w =>
        construct gi sem m (us ++ .tok a :: vs) w) fun v w => (.ok [v], w) := by
  simp only [value, eval]
  rcases eval Val.tok (construct gi sem) c w with ⟨x | us, w1⟩
  · rfl
  · simp only [andThen]
    rcases construct gi sem i us w1 with ⟨x | u, w2⟩
    · rfl
    · simp only
      rcases eval Val.tok (construct gi sem) d w2 with ⟨x | vs, w3⟩
      · rfl
      · simp only
        rcases construct gi sem j vs w3 with ⟨x | v, w4⟩
        · rfl
        · rfl

theorem value_snoc {g : Forest (Token P)} {its : List (SepItem (Token P))} {it : SepItem (Token P)} {i j : Nat}
    {c d : Forest (Token P)}
    (h1 : ∀ w, value gi sem (.node i c .nil) w = andThen (foldSep gi sem e m g its w) fun v w => (.ok [v], w))
    (h2 : it.tree = .node j d .nil) (w : σ) :
    value gi sem (.node m (.node i c (.tok it.sep (.node j d .nil))) .nil) w =
      andThen (foldSep gi sem e m g (its ++ [it]) w) fun v w => (.ok [v], w) := by
  have h3 : foldSep gi sem e m g (its ++ [it]) w = andThen (foldSep gi sem e m g its w) fun u w =>
      andThen (value gi sem it.tree w) fun us w => construct gi sem m (u :: .tok it.sep :: us) w := by
    simp [foldSep]
  rw [value_more, h1, h3, h2]
  rcases foldSep gi sem e m g its w with ⟨x | u, w1⟩ <;> rfl

/-- The trees of a list are the items, one after the other. -/
theorem tree_list (h : SepList S X l k gi.grammar.productions)
    (he : gi.grammar.productions[e]? = some ⟨X, [.production l]⟩)
    (hm : gi.grammar.productions[m]? = some ⟨X, [.production X, .terminal (.token k), .production l]⟩)
    {mt : Token P → Sym → Prop} (n : Nat) : ∀ {f : Forest (Token P)} {W : List (Token P)}, W.length = n →
      ParsesM gi.grammar.productions mt f [.production X] W →
      ∃ (g : Forest (Token P)) (W0 : List (Token P)) (its : List (SepItem (Token P))), W = SepItem.all W0 its ∧
        ParsesM gi.grammar.productions mt g [.production l] W0 ∧
        (∀ it ∈ its, mt it.sep k ∧ ParsesM gi.grammar.productions mt it.tree [.production l] it.tokens) ∧
        ∀ w, value gi sem f w = andThen (foldSep gi sem e m g its w) fun v w => (.ok [v], w) := by
  induction n using Nat.strongRecOn with
  | ind n ih =>
    intro f W hl hf
    obtain ⟨i, r, c, f', u, v, hr, hs, rfl, rfl, h1, h2⟩ := parsesM_prod_inv hf
    cases h2
    rw [List.append_nil] at hl ⊢
    obtain ⟨sym, rule⟩ := r
    simp only at hs h1
    subst hs
    rcases h.only _ (List.mem_of_getElem? hr) rfl with e1 | e1 <;> simp only at e1 <;> subst e1
    · cases h.once i e _ hr he rfl
      refine ⟨c, u, [], by simp [SepItem.all], h1, by simp, fun w => ?_⟩
      obtain ⟨j, r2, d, f2, u2, v2, -, -, rfl, -, -, h9⟩ := parsesM_prod_inv h1
      cases h9
      rw [value_one]
      rfl
    · cases h.once i m _ hr hm rfl
      obtain ⟨i1, r1, c1, f1, u1, v1, hr1, hs1, rfl, rfl, h3, h4⟩ := parsesM_prod_inv h1
      cases h4 with
      | @tok _ a f2 _ v2 ha h4 =>
        have hX : ParsesM gi.grammar.productions mt (.node i1 c1 .nil) [.production sym] u1 := by
          have := ParsesM.prod hr1 h3 .nil
          rwa [List.append_nil, hs1] at this
        obtain ⟨g, W0, its, rfl, h6, h7, h8⟩ := ih u1.length (by simp at hl; omega) rfl hX
        refine ⟨g, W0, its ++ [⟨a, f2, v2⟩], by simp [SepItem.all], h6, ?_, fun w => ?_⟩
        · intro it hit
          rcases List.mem_append.mp hit with hit | hit
          · exact h7 it hit
          · rw [List.mem_singleton] at hit
            subst hit
            exact ⟨ha, h4⟩
        · obtain ⟨j, r2, d, f3, u2, v3, -, -, rfl, -, -, h9⟩ := parsesM_prod_inv h4
          cases h9
          exact value_snoc (it := ⟨a, .node j d .nil, v2⟩) h8 rfl w

/-- Items with the token between them have a tree. -/
theorem list_tree (he : gi.grammar.productions[e]? = some ⟨X, [.production l]⟩)
    (hm : gi.grammar.productions[m]? = some ⟨X, [.production X, .terminal (.token k), .production l]⟩)
    {mt : Token P → Sym → Prop} (g : Forest (Token P)) (W0 : List (Token P)) (its : List (SepItem (Token P)))
    (hg : ParsesM gi.grammar.productions mt g [.production l] W0)
    (hits : ∀ it ∈ its, mt it.sep k ∧ ParsesM gi.grammar.productions mt it.tree [.production l] it.tokens) :
    ∃ i c, ParsesM gi.grammar.productions mt (.node i c .nil) [.production X] (SepItem.all W0 its) ∧
      ∀ w, value gi sem (.node i c .nil) w = andThen (foldSep gi sem e m g its w) fun v w => (.ok [v], w) := by
  induction hn : its.length generalizing its with
  | zero =>
    cases List.length_eq_zero_iff.mp hn
    refine ⟨e, g, by simpa [SepItem.all] using ParsesM.prod he hg .nil, fun w => ?_⟩
    obtain ⟨j, r2, d, f2, u2, v2, -, -, rfl, -, -, h9⟩ := parsesM_prod_inv hg
    cases h9
    rw [value_one]
    rfl
  | succ n ih =>
    rcases List.eq_nil_or_concat its with rfl | ⟨its', it, rfl⟩
    · simp at hn
    · rw [List.concat_eq_append] at hits hn ⊢
      obtain ⟨i, c, h1, h2⟩ := ih its' (fun x hx => hits x (by simp [hx])) (by simpa using hn)
      obtain ⟨ha, hL⟩ := hits it (by simp)
      have hL' := hL
      obtain ⟨j, r, d, f', u, v, hr, hs, e1, e2, h3, h4⟩ := parsesM_prod_inv hL
      cases h4
      refine ⟨m, .node i c (.tok it.sep (.node j d .nil)), ?_, value_snoc h2 e1⟩
      obtain ⟨i', r', c', f1, u1, v1, hr1, hs1, e3, e4, h5, h6⟩ := parsesM_prod_inv h1
      cases e3
      cases h6
      rw [List.append_nil] at e4
      have e5 : SepItem.all W0 (its' ++ [it]) = (u1 ++ (it.sep :: it.tokens)) ++ [] := by
        rw [← e4]; simp [SepItem.all]
      rw [e5]
      refine ParsesM.prod hm ?_ .nil
      rw [e1] at hL'
      have g2 := ParsesM.prod hr1 h5 (.tok ha hL')
      rwa [hs1] at g2

theorem value_root (i : Nat) (c g : Forest (Token P)) (its : List (SepItem (Token P)))
    (h : ∀ w, value gi sem (.node i c .nil) w = andThen (foldSep gi sem e m g its w) fun v w => (.ok [v], w)) (w : σ) :
    value gi sem (.node 0 (.node i c .nil) .nil) w =
      andThen (andThen (foldSep gi sem e m g its w) fun u w => construct gi sem 0 [u] w) fun v w => (.ok [v], w) := by
  have h' := h w
  simp only [value] at h' ⊢
  rw [eval, h']
  rcases foldSep gi sem e m g its w with ⟨x | u, w1⟩
  · rfl
  · simp only [andThen, eval]

/-- **C100.** A value that the generated parser of a grammar for lists with separators returns is what the constructor of
the root makes of the fold of the constructors over the items, and the world is what they leave. -/
theorem generated_value (h : SepList S X l k gi.grammar.productions)
    (he : gi.grammar.productions[e]? = some ⟨X, [.production l]⟩)
    (hm : gi.grammar.productions[m]? = some ⟨X, [.production X, .terminal (.token k), .production l]⟩)
    (hG : Generated o lex gi prog) (debug : Bool)
    (into : F' → E) (items : Nat → Option (Item P F')) (fuel : Nat) (w0 : σ) (run : Run P V E σ) (v : Val P V)
    (hrun : prog.parseFallible debug sem into items fuel w0 = .ok run) (hv : run.result = .ok v) :
    ∃ (g : Forest (Token P)) (W0 : List (Token P)) (its : List (SepItem (Token P))),
      (∀ i b, (SepItem.all W0 its)[i]? = some b → items i = some (.ok b)) ∧
      items (SepItem.all W0 its).length = none ∧
      ParsesM gi.grammar.productions (Matches sem gi.terminalType) g [.production l] W0 ∧
      (∀ it ∈ its, Matches sem gi.terminalType it.sep k ∧
        ParsesM gi.grammar.productions (Matches sem gi.terminalType) it.tree [.production l] it.tokens) ∧
      andThen (foldSep gi sem e m g its w0) (fun u w => construct gi sem 0 [u] w) = (.ok v, run.world) := by
  obtain ⟨W, f, h1, h2, ⟨root, rest, e1, h3⟩, h4⟩ := C18.ok_is_value_of_tree hG debug sem into items fuel w0 run v hrun hv
  have h0 := h.root
  rw [e1] at h0
  cases h0
  obtain ⟨i, r, c, f', u, v', hr, hs, rfl, rfl, h5, h6⟩ := parsesM_prod_inv h3
  cases h6
  cases C81.rootOnce hG.grammar i _ r h.root hr hs
  rw [h.root] at hr
  cases hr
  rw [List.append_nil] at h1 h2
  obtain ⟨g, W0, its, rfl, h6, h7, h8⟩ := tree_list (sem := sem) h he hm _ rfl h5
  refine ⟨g, W0, its, h1, h2, h6, h7, ?_⟩
  obtain ⟨i2, r2, c2, f2, u2, v2, -, -, rfl, -, -, h9⟩ := parsesM_prod_inv h5
  cases h9
  rw [value_root i2 c2 g its h8] at h4
  rcases hx : andThen (foldSep gi sem e m g its w0) (fun u w => construct gi sem 0 [u] w) with ⟨e | v', w1⟩
  · rw [hx] at h4
    simp [andThen] at h4
  · rw [hx] at h4
    simp [andThen] at h4
    rw [h4.1, h4.2]

/-- **C100, partial.** On items with the separating token between them, the generated parser folds the constructors over
the items and runs the constructor of the root, or stops with the first error of a constructor. (Missing: grammars with
missing actions; overlapping patterns.) -/
theorem generated_evaluated_partial (h : SepList S X l k gi.grammar.productions)
    (he : gi.grammar.productions[e]? = some ⟨X, [.production l]⟩)
    (hm : gi.grammar.productions[m]? = some ⟨X, [.production X, .terminal (.token k), .production l]⟩)
    (hG : Generated o lex gi prog) (hD : gi.Disjoint sem) (hc : C07.ActionsComplete gi.grammar) (debug : Bool)
    (into : F' → E) (items : Nat → Option (Item P F')) (g : Forest (Token P)) (W0 : List (Token P))
    (its : List (SepItem (Token P))) (w0 : σ)
    (hW : ∀ i b, (SepItem.all W0 its)[i]? = some b → items i = some (.ok b))
    (hend : items (SepItem.all W0 its).length = none)
    (hg : ParsesM gi.grammar.productions (Matches sem gi.terminalType) g [.production l] W0)
    (hits : ∀ it ∈ its, Matches sem gi.terminalType it.sep k ∧
      ParsesM gi.grammar.productions (Matches sem gi.terminalType) it.tree [.production l] it.tokens) :
    ∃ N run, (∀ fuel ≥ N, prog.parseFallible debug sem into items fuel w0 = .ok run) ∧
      ((∃ v, andThen (foldSep gi sem e m g its w0) (fun u w => construct gi sem 0 [u] w) = (.ok v, run.world) ∧
          run.result = .ok v) ∨
        ∃ x, andThen (foldSep gi sem e m g its w0) (fun u w => construct gi sem 0 [u] w) = (.error x, run.world) ∧
          run.result = .error (.user x)) := by
  obtain ⟨rest, e1⟩ := C99.nonempty (g := gi.grammar) h
  obtain ⟨i, c, h1, h2⟩ := list_tree (sem := sem) he hm g W0 its hg hits
  have ht : ParseTreeM gi.grammar (Matches sem gi.terminalType) (.node 0 (.node i c .nil) .nil) (SepItem.all W0 its) := by
    refine ⟨_, _, e1, ?_⟩
    have h2 := ParsesM.prod h.root h1 .nil
    simpa using h2
  obtain ⟨N, run, hN, hres⟩ := C19.sentences_are_evaluated_partial hG debug sem into items (SepItem.all W0 its) _ w0 hD hc
    hW hend ht
  refine ⟨N, run, hN, ?_⟩
  rw [value_root i c g its h2] at hres
  rcases hx : andThen (foldSep gi sem e m g its w0) (fun u w => construct gi sem 0 [u] w) with ⟨e | v', w1⟩
  · rw [hx] at hres
    simpa [andThen] using hres
  · rw [hx] at hres
    simpa [andThen] using hres

end

/-! ## Concrete cases -/

/-- `S => X; X => L; X => X Minus L` and the rules of `L` of the sample file. -/
def minusRules : List ARule :=
  [⟨"S", some (.ident "T" .nil), [.production "X"], some (.brace, Sample.hash "X")⟩,
   ⟨"X", some (.ident "T" .nil), [.production "L"], some (.brace, Sample.hash "L")⟩,
   ⟨"X", some (.ident "T" .nil), [.production "X", .symbol ⟨"Minus", .none⟩, .production "L"],
     some (.brace, .punct '#' false (.literal "0" (.punct '#' false (.literal "2" .nil))))⟩] ++
    Sample.rules.drop 1

theorem minus_sepList {gi : GrammarInfo} (h : gi.productionRules = minusRules) :
    SepList "S" "X" "L" ⟨"Minus", .none⟩ gi.grammar.productions := by
  have e : gi.grammar.productions = minusRules.map ARule.toLr := by simp [GrammarInfo.grammar, h]
  rw [e]
  have key : ∀ r ∈ minusRules.map ARule.toLr, r = ⟨"S", [.production "X"]⟩ ∨ r = ⟨"X", [.production "L"]⟩ ∨
      r = ⟨"X", [.production "X", .terminal (.token ⟨"Minus", .none⟩), .production "L"]⟩ ∨
      (r.symbol = "L" ∧ .terminal (.token ⟨"Minus", .none⟩) ∉ r.rule ∧ ∀ b, .production b ∈ r.rule → b = "L") := by
    intro r hr
    simp only [minusRules, Sample.rules, List.drop_succ_cons, List.drop_zero, List.cons_append, List.nil_append,
      List.map_cons, List.map_nil, List.mem_cons, List.not_mem_nil, or_false] at hr
    rcases hr with rfl | rfl | rfl | rfl | rfl | rfl
    · exact .inl rfl
    · exact .inr (.inl rfl)
    · exact .inr (.inr (.inl rfl))
    all_goals
      refine .inr (.inr (.inr ⟨rfl, ?_, ?_⟩))
      · simp [ARule.toLr, ANode.toLrNode]
      · simp [ARule.toLr, ANode.toLrNode]
  refine ⟨by decide, rfl, List.mem_of_getElem? (i := 1) rfl, List.mem_of_getElem? (i := 2) rfl, ?_, ?_, ?_⟩
  · intro r hr hs
    rcases key r hr with rfl | rfl | rfl | ⟨h1, -⟩
    · simp at hs
    · exact .inl rfl
    · exact .inr rfl
    · rw [h1] at hs; simp at hs
  · intro i j r hi hj hs
    match i, j with
    | 1, 1 | 2, 2 => rfl
    | 1, 2 | 2, 1 => rw [← hj] at hi; simp [minusRules, Sample.rules, ARule.toLr, ANode.toLrNode] at hi
    | 0, _ | 3, _ | 4, _ | 5, _ => cases hi; simp [ARule.toLr] at hs
    | i + 6, _ => simp [minusRules, Sample.rules] at hi
    | _, 0 | _, 3 | _, 4 | _, 5 => cases hj; simp [ARule.toLr] at hs
    | _, j + 6 => simp [minusRules, Sample.rules] at hj
  · intro r hr hl
    have hL : r.symbol = "L" := by
      clear hr
      generalize r.symbol = a at hl
      induction hl with
      | root => rfl
      | @step r a _ hr ha ih =>
        rcases key r hr with rfl | rfl | rfl | ⟨-, -, h1⟩
        · simp at ih
        · simp at ih
        · simp at ih
        · exact h1 a ha
    rcases key r hr with rfl | rfl | rfl | ⟨-, h1, -⟩
    · simp at hL
    · simp at hL
    · simp at hL
    · exact h1

/-- Constructors that subtract. -/
def difference : Sem Nat Nat String Nat := { Sample.sem with
  body := fun i _ env w => (.ok (.user (
    if i = 0 then Sample.num (env 0) else if i = 2 then Sample.num (env 0) - Sample.num (env 2)
    else if i = 3 then Sample.num (env 1) else Sample.num (env 0))), w + 1) }

theorem minus_disjoint {gi : GrammarInfo} (h1 : gi.productionRules = minusRules)
    (h2 : gi.terminalType = .enum (.ident "Tok" .nil)) : gi.Disjoint difference := by
  intro a s s' ⟨r, hr, hs⟩ ⟨r', hr', hs'⟩ m1 m2
  have key : ∀ r ∈ minusRules, ∀ s, .symbol s ∈ r.rule →
      s = ⟨"Minus", .none⟩ ∨ s = ⟨"Plus", .none⟩ ∨ s = ⟨"Num", .wildcard⟩ := by
    intro r hr s hs
    simp only [minusRules, Sample.rules, List.drop_succ_cons, List.drop_zero, List.cons_append, List.nil_append,
      List.mem_cons, List.not_mem_nil, or_false] at hr
    rcases hr with rfl | rfl | rfl | rfl | rfl | rfl <;> simp_all
  rw [h2] at m1 m2
  rw [h1] at hr hr'
  rcases key r hr s hs with rfl | rfl | rfl <;> rcases key r' hr' s' hs' with rfl | rfl | rfl <;>
    first
    | rfl
    | exact absurd ((Sample.variant_eq m1).symm.trans (Sample.variant_eq m2)) (by simp)

/-- The hypotheses are met by a file with these rules; its parser gives 12 for
`Num(20) Minus Plus Num(5) Minus Num(3)`. -/
example : ∃ (gi : GrammarInfo) (prog : Program), Generated .id Sample.lexer gi prog ∧
    SepList "S" "X" "L" ⟨"Minus", .none⟩ gi.grammar.productions ∧
    gi.grammar.productions[1]? = some ⟨"X", [.production "L"]⟩ ∧
    gi.grammar.productions[2]? = some ⟨"X", [.production "X", .terminal (.token ⟨"Minus", .none⟩), .production "L"]⟩ ∧
    gi.Disjoint difference ∧ C07.ActionsComplete gi.grammar ∧
    ∃ run, prog.parseFallible true difference id (Sample.stream [.data "Num" 20, .unit "Minus", .unit "Plus", .data "Num" 5,
      .unit "Minus", .data "Num" 3] none) 50 0 = .ok run ∧ run.result = .ok (.user 12) := by
  obtain ⟨gi, prog, h, -, h1, h2, hr, -⟩ := Sample.runs_ok (o := .id) (rules := minusRules)
    (labels := ["S", "X", "L"]) (sem := difference) (ts := [.data "Num" 20, .unit "Minus", .unit "Plus", .data "Num" 5,
      .unit "Minus", .data "Num" 3])
    (r := .ok (.user 12)) (r' := .ok (.user 12)) (by unfold EpsilonLast; decide) (by decide +kernel)
  have hg : gi.grammar = ⟨minusRules.map ARule.toLr⟩ := by unfold GrammarInfo.grammar; rw [h1]
  refine ⟨gi, prog, h, minus_sepList h1, by rw [hg]; rfl, by rw [hg]; rfl, minus_disjoint h1 h2, ?_, hr⟩
  have h : ((do
      let ig ← IndexedGrammar.build ⟨minusRules.map ARule.toLr⟩
      let F ← FirstTable.build ig
      let (F', _) ← FirstTable.propagate ig F
      pure (F == F')) : Outcome (LRTableError Sym String) Bool) = .ok true := by decide +kernel
  obtain ⟨ig, h2, h⟩ := Outcome.bind_eq_ok.mp h
  obtain ⟨F, h3, h⟩ := Outcome.bind_eq_ok.mp h
  obtain ⟨⟨F', b⟩, h4, h⟩ := Outcome.bind_eq_ok.mp h
  simp only [Outcome.pure_eq, Outcome.ok.injEq, beq_iff_eq] at h
  subst h
  rw [hg]
  exact (C07.first_complete_if_stable_partial _ ig F b h2 h3 h4).actions

end Verif.C100
