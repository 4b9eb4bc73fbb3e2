import Verif.Spec.ListFold
import Verif.Props.ListOf

/-!
# C98: the constructors of a list run once for each item, from left to right
-/

set_option linter.unusedSectionVars false
set_option autoImplicit false

namespace Verif.C98

open Spec

section
variable {P V E F' σ : Type} [DecidableEq P] {lex : Lexer} {o : HashOrder} {gi : GrammarInfo} {prog : Program}
  {S X l : String} {k : Sym} {sem : Sem P V E σ} {e m : Nat}

theorem parsesM_prod_inv {A T L : Type} {Q : List (Rule T L)} {mt : A → T → Prop} {a : L} {α : List (Node T L)}
    {f : Forest A} {w : List A} (h : ParsesM Q mt f (.production a :: α) w) :
    ∃ i r c f' u v, Q[i]? = some r ∧ r.symbol = a ∧ f = .node i c f' ∧ w = u ++ v ∧ ParsesM Q mt c r.rule u ∧
      ParsesM Q mt f' α v := by
  generalize e : Node.production a :: α = β at h
  cases h with
  | nil => cases e
  | tok => cases e
  | eps => cases e
  | prod hr h1 h2 => cases e; exact ⟨_, _, _, _, _, _, hr, rfl, rfl, rfl, h1, h2⟩

theorem value_more (i j : Nat) (c d : Forest (Token P)) (a : Token P) (w : σ) :
    value gi sem (.node m (.node i c (.node j d (.tok a .nil))) .nil) w =
      andThen (andThen (value gi sem (.node i c .nil) w) fun us w => andThen (value gi sem (.node j d .nil) w) fun vs w =>
        construct gi sem m (us ++ (vs ++ [.tok a])) w) fun v w => (.ok [v], w) := by
  simp only [value, eval]
  rcases eval Val.tok (construct gi sem) c w with ⟨x | us, w1⟩
  · rfl
  · simp only [andThen]
    rcases construct gi sem i us w1 with ⟨x | u, w2⟩
    · rfl
    · simp only
      rcases eval Val.tok (construct gi sem) d w2 with ⟨x | vs, w3⟩
      · rfl
      · simp only
        rcases construct gi sem j vs w3 with ⟨x | v, w4⟩
        · rfl
        · simp only [List.cons_append, List.nil_append]

theorem value_snoc {its : List (ListItem (Token P))} {it : ListItem (Token P)} {i j : Nat} {c d : Forest (Token P)}
    (h1 : ∀ w, value gi sem (.node i c .nil) w = andThen (foldItems gi sem e m its w) fun v w => (.ok [v], w))
    (h2 : it.tree = .node j d .nil) (w : σ) :
    value gi sem (.node m (.node i c (.node j d (.tok it.close .nil))) .nil) w =
      andThen (foldItems gi sem e m (its ++ [it]) w) fun v w => (.ok [v], w) := by
  have h3 : foldItems gi sem e m (its ++ [it]) w = andThen (foldItems gi sem e m its w) fun u w =>
      andThen (value gi sem it.tree w) fun us w => construct gi sem m (u :: (us ++ [.tok it.close])) w := by
    simp [foldItems]
  rw [value_more, h1, h3, h2]
  rcases foldItems gi sem e m its w with ⟨x | u, w1⟩ <;> rfl

/-- The trees of a list are the items, one after the other. -/
theorem tree_list (h : ListOf S X l k gi.grammar.productions)
    (he : gi.grammar.productions[e]? = some ⟨X, [.terminal .epsilon]⟩)
    (hm : gi.grammar.productions[m]? = some ⟨X, [.production X, .production l, .terminal (.token k)]⟩)
    {mt : Token P → Sym → Prop} (n : Nat) : ∀ {f : Forest (Token P)} {W : List (Token P)}, W.length = n →
      ParsesM gi.grammar.productions mt f [.production X] W →
      ∃ its : List (ListItem (Token P)), W = ListItem.all its ∧
        (∀ it ∈ its, mt it.close k ∧ ParsesM gi.grammar.productions mt it.tree [.production l] it.tokens) ∧
        ∀ w, value gi sem f w = andThen (foldItems gi sem e m its w) fun v w => (.ok [v], w) := by
  induction n using Nat.strongRecOn with
  | ind n ih =>
    intro f W hl hf
    obtain ⟨i, r, c, f', u, v, hr, hs, rfl, rfl, h1, h2⟩ := parsesM_prod_inv hf
    cases h2
    rw [List.append_nil] at hl ⊢
    obtain ⟨sym, rule⟩ := r
    simp only at hs h1
    subst hs
    rcases h.only _ (List.mem_of_getElem? hr) rfl with e1 | e1 <;> simp only at e1 <;> subst e1
    · cases h.once i e _ hr he rfl
      cases h1 with
      | eps h1 =>
        cases h1
        refine ⟨[], rfl, by simp, fun w => ?_⟩
        simp only [value, eval, andThen, foldItems, List.foldl_nil]
    · cases h.once i m _ hr hm rfl
      obtain ⟨i1, r1, c1, f1, u1, v1, hr1, hs1, rfl, rfl, h3, h4⟩ := parsesM_prod_inv h1
      obtain ⟨i2, r2, c2, f2, u2, v2, hr2, hs2, rfl, rfl, h5, h6⟩ := parsesM_prod_inv h4
      cases h6 with
      | @tok _ a _ _ _ ha h6 =>
        cases h6
        have hX : ParsesM gi.grammar.productions mt (.node i1 c1 .nil) [.production sym] u1 := by
          have := ParsesM.prod hr1 h3 .nil
          rwa [List.append_nil, hs1] at this
        have hL : ParsesM gi.grammar.productions mt (.node i2 c2 .nil) [.production l] u2 := by
          have := ParsesM.prod hr2 h5 .nil
          rwa [List.append_nil, hs2] at this
        obtain ⟨its, rfl, h7, h8⟩ := ih u1.length (by simp at hl; omega) rfl hX
        refine ⟨its ++ [⟨.node i2 c2 .nil, u2, a⟩], by simp [ListItem.all], ?_, fun w => ?_⟩
        · intro it hit
          rcases List.mem_append.mp hit with hit | hit
          · exact h7 it hit
          · rw [List.mem_singleton] at hit
            subst hit
            exact ⟨ha, hL⟩
        · exact value_snoc (it := ⟨.node i2 c2 .nil, u2, a⟩) h8 rfl w

/-- Items, one after the other, have a tree. -/
theorem list_tree (he : gi.grammar.productions[e]? = some ⟨X, [.terminal .epsilon]⟩)
    (hm : gi.grammar.productions[m]? = some ⟨X, [.production X, .production l, .terminal (.token k)]⟩)
    {mt : Token P → Sym → Prop} (its : List (ListItem (Token P)))
    (hits : ∀ it ∈ its, mt it.close k ∧ ParsesM gi.grammar.productions mt it.tree [.production l] it.tokens) :
    ∃ i c, ParsesM gi.grammar.productions mt (.node i c .nil) [.production X] (ListItem.all its) ∧
      ∀ w, value gi sem (.node i c .nil) w = andThen (foldItems gi sem e m its w) fun v w => (.ok [v], w) := by
  induction hn : its.length generalizing its with
  | zero =>
    cases List.length_eq_zero_iff.mp hn
    refine ⟨e, .nil, by simpa [ListItem.all] using ParsesM.prod he (.eps .nil) .nil, fun w => ?_⟩
    simp only [value, eval, andThen, foldItems, List.foldl_nil]
  | succ n ih =>
    rcases List.eq_nil_or_concat its with rfl | ⟨its', it, rfl⟩
    · simp at hn
    · rw [List.concat_eq_append] at hits hn ⊢
      obtain ⟨i, c, h1, h2⟩ := ih its' (fun x hx => hits x (by simp [hx])) (by simpa using hn)
      obtain ⟨ha, hL⟩ := hits it (by simp)
      obtain ⟨j, r, d, f', u, v, hr, hs, e1, e2, h3, h4⟩ := parsesM_prod_inv hL
      cases h4
      rw [List.append_nil] at e2
      subst e2
      refine ⟨m, .node i c (.node j d (.tok it.close .nil)), ?_, value_snoc h2 e1⟩
      obtain ⟨i', r', c', f1, u1, v1, hr1, hs1, e3, e4, h5, h6⟩ := parsesM_prod_inv h1
      cases e3
      cases h6
      rw [List.append_nil] at e4
      rw [show ListItem.all (its' ++ [it]) = (u1 ++ (it.tokens ++ [it.close])) ++ [] by simp [ListItem.all, ← e4]]
      refine ParsesM.prod hm ?_ .nil
      have g1 := ParsesM.prod hr h3 (.tok ha .nil : ParsesM gi.grammar.productions mt (.tok it.close .nil)
        [.terminal (.token k)] [it.close])
      rw [hs] at g1
      have g2 := ParsesM.prod hr1 h5 g1
      rwa [hs1] at g2

theorem value_root (i : Nat) (c : Forest (Token P)) (its : List (ListItem (Token P)))
    (h : ∀ w, value gi sem (.node i c .nil) w = andThen (foldItems gi sem e m its w) fun v w => (.ok [v], w)) (w : σ) :
    value gi sem (.node 0 (.node i c .nil) .nil) w =
      andThen (andThen (foldItems gi sem e m its w) fun u w => construct gi sem 0 [u] w) fun v w => (.ok [v], w) := by
  have h' := h w
  simp only [value] at h' ⊢
  rw [eval, h']
  rcases foldItems gi sem e m its w with ⟨x | u, w1⟩
  · rfl
  · simp only [andThen, eval]

/-- **C98.** A value that the generated parser of a grammar for lists returns is what the constructor of the root makes of
the fold of the constructors over the items, and the world is what they leave. -/
theorem generated_value (h : ListOf S X l k gi.grammar.productions)
    (he : gi.grammar.productions[e]? = some ⟨X, [.terminal .epsilon]⟩)
    (hm : gi.grammar.productions[m]? = some ⟨X, [.production X, .production l, .terminal (.token k)]⟩)
    (hG : Generated o lex gi prog) (debug : Bool)
    (into : F' → E) (items : Nat → Option (Item P F')) (fuel : Nat) (w0 : σ) (run : Run P V E σ) (v : Val P V)
    (hrun : prog.parseFallible debug sem into items fuel w0 = .ok run) (hv : run.result = .ok v) :
    ∃ its : List (ListItem (Token P)), (∀ i b, (ListItem.all its)[i]? = some b → items i = some (.ok b)) ∧
      items (ListItem.all its).length = none ∧
      (∀ it ∈ its, Matches sem gi.terminalType it.close k ∧
        ParsesM gi.grammar.productions (Matches sem gi.terminalType) it.tree [.production l] it.tokens) ∧
      andThen (foldItems gi sem e m its w0) (fun u w => construct gi sem 0 [u] w) = (.ok v, run.world) := by
  obtain ⟨W, f, h1, h2, ⟨root, rest, e1, h3⟩, h4⟩ := C18.ok_is_value_of_tree hG debug sem into items fuel w0 run v hrun hv
  have h0 := h.root
  rw [e1] at h0
  cases h0
  obtain ⟨i, r, c, f', u, v', hr, hs, rfl, rfl, h5, h6⟩ := parsesM_prod_inv h3
  cases h6
  cases C81.rootOnce hG.grammar i _ r h.root hr hs
  rw [h.root] at hr
  cases hr
  rw [List.append_nil] at h1 h2
  obtain ⟨its, rfl, h7, h8⟩ := tree_list (sem := sem) h he hm _ rfl h5
  refine ⟨its, h1, h2, h7, ?_⟩
  obtain ⟨i2, r2, c2, f2, u2, v2, -, -, rfl, -, -, h9⟩ := parsesM_prod_inv h5
  cases h9
  rw [value_root i2 c2 its h8] at h4
  rcases hx : andThen (foldItems gi sem e m its w0) (fun u w => construct gi sem 0 [u] w) with ⟨e | v', w1⟩
  · rw [hx] at h4
    simp [andThen] at h4
  · rw [hx] at h4
    simp [andThen] at h4
    rw [h4.1, h4.2]

/-- **C98, partial.** On items that are each followed by the closing token, the generated parser folds the constructors
over the items and runs the constructor of the root, or stops with the first error of a constructor. (Missing: grammars
with missing actions; overlapping patterns.) -/
theorem generated_evaluated_partial (h : ListOf S X l k gi.grammar.productions)
    (he : gi.grammar.productions[e]? = some ⟨X, [.terminal .epsilon]⟩)
    (hm : gi.grammar.productions[m]? = some ⟨X, [.production X, .production l, .terminal (.token k)]⟩)
    (hG : Generated o lex gi prog) (hD : gi.Disjoint sem) (hc : C07.ActionsComplete gi.grammar) (debug : Bool)
    (into : F' → E) (items : Nat → Option (Item P F')) (its : List (ListItem (Token P))) (w0 : σ)
    (hW : ∀ i b, (ListItem.all its)[i]? = some b → items i = some (.ok b))
    (hend : items (ListItem.all its).length = none)
    (hits : ∀ it ∈ its, Matches sem gi.terminalType it.close k ∧
      ParsesM gi.grammar.productions (Matches sem gi.terminalType) it.tree [.production l] it.tokens) :
    ∃ N run, (∀ fuel ≥ N, prog.parseFallible debug sem into items fuel w0 = .ok run) ∧
      ((∃ v, andThen (foldItems gi sem e m its w0) (fun u w => construct gi sem 0 [u] w) = (.ok v, run.world) ∧
          run.result = .ok v) ∨
        ∃ x, andThen (foldItems gi sem e m its w0) (fun u w => construct gi sem 0 [u] w) = (.error x, run.world) ∧
          run.result = .error (.user x)) := by
  obtain ⟨rest, e1⟩ := C97.nonempty (g := gi.grammar) h
  obtain ⟨i, c, h1, h2⟩ := list_tree (sem := sem) he hm its hits
  have ht : ParseTreeM gi.grammar (Matches sem gi.terminalType) (.node 0 (.node i c .nil) .nil) (ListItem.all its) := by
    refine ⟨_, _, e1, ?_⟩
    have h2 := ParsesM.prod h.root h1 .nil
    simpa using h2
  obtain ⟨N, run, hN, hres⟩ := C19.sentences_are_evaluated_partial hG debug sem into items (ListItem.all its) _ w0 hD hc hW
    hend ht
  refine ⟨N, run, hN, ?_⟩
  rw [value_root i c its h2] at hres
  rcases hx : andThen (foldItems gi sem e m its w0) (fun u w => construct gi sem 0 [u] w) with ⟨e | v', w1⟩
  · rw [hx] at hres
    simpa [andThen] using hres
  · rw [hx] at hres
    simpa [andThen] using hres

end

/-! ## Concrete cases -/

/-- `S => X; X => !; X => X L Minus` and the rules of `L` of the sample file. -/
def listRules : List ARule :=
  [⟨"S", some (.ident "T" .nil), [.production "X"], some (.brace, Sample.hash "X")⟩,
   ⟨"X", some (.ident "T" .nil), [.epsilon], some (.brace, .nil)⟩,
   ⟨"X", some (.ident "T" .nil), [.production "X", .production "L", .symbol ⟨"Minus", .none⟩],
     some (.brace, .punct '#' false (.literal "0" (.punct '#' false (.literal "1" .nil))))⟩] ++
    Sample.rules.drop 1

theorem list_listOf {gi : GrammarInfo} (h : gi.productionRules = listRules) :
    ListOf "S" "X" "L" ⟨"Minus", .none⟩ gi.grammar.productions := by
  have e : gi.grammar.productions = listRules.map ARule.toLr := by simp [GrammarInfo.grammar, h]
  rw [e]
  have key : ∀ r ∈ listRules.map ARule.toLr, r = ⟨"S", [.production "X"]⟩ ∨ r = ⟨"X", [.terminal .epsilon]⟩ ∨
      r = ⟨"X", [.production "X", .production "L", .terminal (.token ⟨"Minus", .none⟩)]⟩ ∨
      (r.symbol = "L" ∧ .terminal (.token ⟨"Minus", .none⟩) ∉ r.rule ∧ ∀ b, .production b ∈ r.rule → b = "L") := by
    intro r hr
    simp only [listRules, Sample.rules, List.drop_succ_cons, List.drop_zero, List.cons_append, List.nil_append,
      List.map_cons, List.map_nil, List.mem_cons, List.not_mem_nil, or_false] at hr
    rcases hr with rfl | rfl | rfl | rfl | rfl | rfl
    · exact .inl rfl
    · exact .inr (.inl rfl)
    · exact .inr (.inr (.inl rfl))
    all_goals
      refine .inr (.inr (.inr ⟨rfl, ?_, ?_⟩))
      · simp [ARule.toLr, ANode.toLrNode]
      · simp [ARule.toLr, ANode.toLrNode]
  refine ⟨by decide, rfl, List.mem_of_getElem? (i := 1) rfl, List.mem_of_getElem? (i := 2) rfl, ?_, ?_, ?_⟩
  · intro r hr hs
    rcases key r hr with rfl | rfl | rfl | ⟨h1, -⟩
    · simp at hs
    · exact .inl rfl
    · exact .inr rfl
    · rw [h1] at hs; simp at hs
  · intro i j r hi hj hs
    match i, j with
    | 1, 1 | 2, 2 => rfl
    | 1, 2 | 2, 1 => rw [← hj] at hi; simp [listRules, Sample.rules, ARule.toLr, ANode.toLrNode] at hi
    | 0, _ | 3, _ | 4, _ | 5, _ => cases hi; simp [ARule.toLr] at hs
    | i + 6, _ => simp [listRules, Sample.rules] at hi
    | _, 0 | _, 3 | _, 4 | _, 5 => cases hj; simp [ARule.toLr] at hs
    | _, j + 6 => simp [listRules, Sample.rules] at hj
  · intro r hr hl
    have hL : r.symbol = "L" := by
      clear hr
      generalize r.symbol = a at hl
      induction hl with
      | root => rfl
      | @step r a _ hr ha ih =>
        rcases key r hr with rfl | rfl | rfl | ⟨-, -, h1⟩
        · simp at ih
        · simp at ih
        · simp at ih
        · exact h1 a ha
    rcases key r hr with rfl | rfl | rfl | ⟨-, h1, -⟩
    · simp at hL
    · simp at hL
    · simp at hL
    · exact h1

/-- Constructors that write the numbers of the items one after the other. -/
def digits : Sem Nat Nat String Nat := { Sample.sem with
  body := fun i _ env w => (.ok (.user (
    if i = 0 then Sample.num (env 0) else if i = 1 then 0 else if i = 2 then 10 * Sample.num (env 0) + Sample.num (env 1)
    else if i = 3 then Sample.num (env 1) else Sample.num (env 0))), w + 1) }

theorem list_disjoint {gi : GrammarInfo} (h1 : gi.productionRules = listRules)
    (h2 : gi.terminalType = .enum (.ident "Tok" .nil)) : gi.Disjoint digits := by
  intro a s s' ⟨r, hr, hs⟩ ⟨r', hr', hs'⟩ m1 m2
  have key : ∀ r ∈ listRules, ∀ s, .symbol s ∈ r.rule →
      s = ⟨"Minus", .none⟩ ∨ s = ⟨"Plus", .none⟩ ∨ s = ⟨"Num", .wildcard⟩ := by
    intro r hr s hs
    simp only [listRules, Sample.rules, List.drop_succ_cons, List.drop_zero, List.cons_append, List.nil_append,
      List.mem_cons, List.not_mem_nil, or_false] at hr
    rcases hr with rfl | rfl | rfl | rfl | rfl | rfl <;> simp_all
  rw [h2] at m1 m2
  rw [h1] at hr hr'
  rcases key r hr s hs with rfl | rfl | rfl <;> rcases key r' hr' s' hs' with rfl | rfl | rfl <;>
    first
    | rfl
    | exact absurd ((Sample.variant_eq m1).symm.trans (Sample.variant_eq m2)) (by simp)

/-- The hypotheses are met by a file with these rules; its parser gives 573 for
`Num(5) Minus Plus Num(7) Minus Num(3) Minus`. -/
example : ∃ (gi : GrammarInfo) (prog : Program), Generated .id Sample.lexer gi prog ∧
    ListOf "S" "X" "L" ⟨"Minus", .none⟩ gi.grammar.productions ∧
    gi.grammar.productions[1]? = some ⟨"X", [.terminal .epsilon]⟩ ∧
    gi.grammar.productions[2]? = some ⟨"X", [.production "X", .production "L", .terminal (.token ⟨"Minus", .none⟩)]⟩ ∧
    gi.Disjoint digits ∧ C07.ActionsComplete gi.grammar ∧
    ∃ run, prog.parseFallible true digits id (Sample.stream [.data "Num" 5, .unit "Minus", .unit "Plus", .data "Num" 7,
      .unit "Minus", .data "Num" 3, .unit "Minus"] none) 50 0 = .ok run ∧ run.result = .ok (.user 573) := by
  obtain ⟨gi, prog, h, -, h1, h2, hr, -⟩ := Sample.runs_ok (o := .id) (rules := listRules)
    (labels := ["S", "X", "L"]) (sem := digits) (ts := [.data "Num" 5, .unit "Minus", .unit "Plus", .data "Num" 7,
      .unit "Minus", .data "Num" 3, .unit "Minus"])
    (r := .ok (.user 573)) (r' := .ok (.user 573)) (by unfold EpsilonLast; decide) (by decide +kernel)
  have hg : gi.grammar = ⟨listRules.map ARule.toLr⟩ := by unfold GrammarInfo.grammar; rw [h1]
  refine ⟨gi, prog, h, list_listOf h1, by rw [hg]; rfl, by rw [hg]; rfl, list_disjoint h1 h2, ?_, hr⟩
  have h : ((do
      let ig ← IndexedGrammar.build ⟨listRules.map ARule.toLr⟩
      let F ← FirstTable.build ig
      let (F', _) ← FirstTable.propagate ig F
      pure (F == F')) : Outcome (LRTableError Sym String) Bool) = .ok true := by decide +kernel
  obtain ⟨ig, h2, h⟩ := Outcome.bind_eq_ok.mp h
  obtain ⟨F, h3, h⟩ := Outcome.bind_eq_ok.mp h
  obtain ⟨⟨F', b⟩, h4, h⟩ := Outcome.bind_eq_ok.mp h
  simp only [Outcome.pure_eq, Outcome.ok.injEq, beq_iff_eq] at h
  subst h
  rw [hg]
  exact (C07.first_complete_if_stable_partial _ ig F b h2 h3 h4).actions

end Verif.C98
