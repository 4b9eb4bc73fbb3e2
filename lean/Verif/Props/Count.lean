import Verif.Spec.Count
import Verif.Props.Linear

/-!
# C89: the exact number of steps of an accepted input
-/

set_option linter.unusedSectionVars false
set_option autoImplicit false

namespace Verif
open Spec

namespace C89

section
variable {A : Type}

theorem nodes_append (ts us : List (Tree A)) :
    (Forest.ofTrees (ts ++ us)).nodes = (Forest.ofTrees ts).nodes + (Forest.ofTrees us).nodes := by
  induction ts with
  | nil => simp [Forest.ofTrees, Forest.nodes]
  | cons t ts ih =>
    cases t with
    | leaf a => simpa only [List.cons_append, Forest.ofTrees, Forest.nodes] using ih
    | node i c => simp only [List.cons_append, Forest.ofTrees, Forest.nodes, ih]; omega

theorem nodes_mapRules (σ : Nat → Nat) (f : Forest A) : (f.mapRules σ).nodes = f.nodes := by
  induction f with
  | nil => rfl
  | tok a f ih => exact ih
  | node i c f ih1 ih2 => simp only [Forest.mapRules, Forest.nodes, ih1, ih2]

variable {T L : Type} {P : List (Rule T L)} {first : List (Node T L) → AugTok T → Prop} {m : A → T → Prop}

/-- There are as many nodes as reductions. -/
theorem steps_nodes {c c' : Config T L A} {tr : List Nat} (h : Steps P first m c c' tr) :
    (Forest.ofTrees c'.trees).nodes = (Forest.ofTrees c.trees).nodes + tr.length := by
  induction h with
  | refl => simp
  | step h1 _ ih =>
    rw [ih]
    cases h1 with
    | shift _ _ =>
      simp only [nodes_append, Forest.ofTrees, Forest.nodes, Option.toList_none, List.nil_append]
      omega
    | @reduce γ ts z x i r _ _ _ =>
      have := nodes_append (ts.take (ts.length - (rhs r).length)) (ts.drop (ts.length - (rhs r).length))
      rw [List.take_append_drop] at this
      simp only [reduceTrees, nodes_append, Forest.ofTrees, Forest.nodes, Option.toList_some, List.length_append,
        List.length_cons, List.length_nil]
      omega

end

section
variable {T L : Type} [DecidableEq T] [DecidableEq L] {ig : IndexedGrammar T L} {F : FirstTable} {kt : KernelTable}
  {table : LRTable}

/-- The loop does not end before the last step. -/
theorem loop_timeout (h : Good ig F kt table) {c c' : Config Nat Nat T} {tr : List Nat}
    (hst : Steps ig.cfg F.NodesFirst (tokMatch ig) c c' tr) :
    ∀ {ss : List Nat}, Stk ig F kt ss c.stack →
      ∀ fuel, fuel + c'.input.length ≤ tr.length + c.input.length →
        ((SimParser.mk ig table).loop fuel ss c.stack.reverse c.input : Outcome (LRTableError T L) _) = .timeout := by
  induction hst with
  | refl c =>
    intro ss hs fuel hfuel
    have : fuel = 0 := by simp at hfuel; omega
    subst this
    rfl
  | @step c c1 c' o tr h1 h2 ih =>
    intro ss hs fuel hfuel
    cases fuel with
    | zero => rfl
    | succ n =>
      rcases step_sim (ε := LRTableError T L) h hs with ⟨h3, e⟩ | ⟨h3, e⟩ | ⟨c2, o', ss', h3, h4, e, -⟩
      · exact absurd h3 (h1.not_accepting h.noConflict h.unique)
      · exact absurd h3 h1.not_stuck
      · obtain ⟨rfl, rfl⟩ := h1.det h.noConflict h.unique h3
        unfold SimParser.loop
        rw [e, Outcome.ok_bind]
        refine ih h4 n ?_
        cases h1 <;> simp only [Option.toList_none, Option.toList_some, List.length_append, List.length_cons,
          List.length_nil, List.nil_append] at hfuel ⊢ <;> omega

/-- **C89 (simulator).** On an accepted input the loop of the simulator is run once for every token and once for every node
of the parse tree: with fewer iterations there is no result yet, and with that many there is. -/
theorem simulator_steps_exact (g : Grammar T L) (p : SimParser T L) (fuel fuel' : Nat) (w : List T)
    (hg : WellFormed g) (hp : SimParser.new fuel g = .ok p)
    (ha : (p.parseStream fuel' w : Outcome (LRTableError T L) _) = .ok true) :
    ∃ f, ParseTree g f w ∧ ∀ n,
      (n < w.length + f.nodes → (p.parseStream n w : Outcome (LRTableError T L) _) = .timeout) ∧
      (w.length + f.nodes ≤ n → (p.parseStream n w : Outcome (LRTableError T L) _) = .ok true) := by
  obtain ⟨F, kt, h⟩ := ready hg hp
  rcases h.result fuel' w with e | ⟨c, tr, h1, ⟨h2, -⟩ | ⟨-, e⟩⟩
  · rw [e] at ha; cases ha
  · obtain ⟨hz, r, h3, -, h4⟩ := h1.sound h.good.rootOk h2
    obtain ⟨r', h5, h6⟩ := h.root
    rw [h3] at h5
    cases h5
    rw [h6] at h4
    refine ⟨_, h.tree h4, fun n => ?_⟩
    have hn : (Forest.mapRules p.grammar.orig (.node 0 (Forest.ofTrees c.trees) .nil)).nodes = tr.length + 1 := by
      rw [nodes_mapRules]
      have := steps_nodes h1
      simp only [Config.start, Forest.ofTrees, Forest.nodes] at this ⊢
      omega
    rw [hn]
    refine ⟨fun hlt => ?_, fun hle => ?_⟩
    · exact loop_timeout h.good h1 .nil n (by rw [hz]; simp only [Config.start, List.length_nil]; omega)
    · have hN := loop_terminates (ε := LRTableError T L) h.good h1 (.inl h2) .nil n
        (by simp only [Config.start]; omega)
      rcases h.result n w with e | ⟨c', tr', h7, ⟨-, e⟩ | ⟨h8, e⟩⟩
      · exact absurd e hN
      · exact e
      · have := (h1.unique h.good.noConflict h.good.unique (.inl h2) h7 (.inr h8)).1
        rw [this] at h2
        exact absurd (accepting_iff.mp h2) (stuck_iff.mp h8 _)
  · rw [e] at ha; cases ha

/-- For `a a c b`, with 4 tokens and 5 nodes, 9 iterations are needed. -/
example : (do let p ← SimParser.new 20 sampleLR; p.parseStream 8 [7, 7, 9, 8]) = Outcome.timeout ∧
    (do let p ← SimParser.new 20 sampleLR; p.parseStream 9 [7, 7, 9, 8]) = Outcome.ok true := by
  constructor <;> decide +kernel

/-- The hypotheses are met by the sample parser. -/
example : ∃ p, SimParser.new 20 sampleLR = .ok p ∧ ∃ f, ParseTree sampleLR f [7, 7, 9, 8] ∧
    ∀ n, (p.parseStream n [7, 7, 9, 8] : Outcome (LRTableError Nat Nat) _) = .ok true ↔ 4 + f.nodes ≤ n := by
  obtain ⟨p, h1, -, h2, -⟩ := sampleLR_parser
  obtain ⟨f, h3, h4⟩ := simulator_steps_exact _ p _ _ _ sampleLR_wellFormed h1 h2
  refine ⟨p, h1, f, h3, fun n => ⟨fun h => ?_, (h4 n).2⟩⟩
  by_contra hlt
  have := (h4 n).1 (by simpa using hlt)
  rw [h] at this
  cases this

end

section
variable {P V E F' σ : Type} [DecidableEq P] {lex : Lexer} {o : HashOrder} {gi : GrammarInfo} {prog : Program}

/-- **C89 (generated parsers).** If a generated parser returns `Ok(v)`, then `v` is the value of a parse tree of the tokens
read (as in C18) and the loop of the parser has been run once for every token and once for every node of that tree:
after fewer iterations the parser has not returned. -/
theorem generated_steps_exact (h : Generated o lex gi prog) (debug : Bool) (sem : Sem P V E σ)
    (into : F' → E) (items : Nat → Option (Item P F')) (fuel : Nat) (w0 : σ) (run : Run P V E σ) (v : Val P V)
    (hrun : prog.parseFallible debug sem into items fuel w0 = .ok run) (hv : run.result = .ok v) :
    ∃ W f, (∀ i a, W[i]? = some a → items i = some (.ok a)) ∧ items W.length = none ∧
      ParseTreeM gi.grammar (Matches sem gi.terminalType) f W ∧ value gi sem f w0 = (.ok [v], run.world) ∧
      ∀ n, (∃ run', prog.parseFallible debug sem into items n w0 = .ok run') ↔ W.length + f.nodes ≤ n := by
  obtain ⟨F, kt, -, hc⟩ := h.ctx
  obtain ⟨W, c0, tr0, st, w, res, hW, hf⟩ := hc.finish' hrun
  rcases hf.done with ⟨v', st', w', rfl, rfl⟩ | ⟨e, w', rfl, rfl⟩
  · cases hv
    have hnone : items W.length = none := by
      cases hf.gen with
      | accept h1 _ h3 _ _ _ _ _ =>
        obtain ⟨hz, -⟩ := hc.accepted hf.steps h3
        have hn := hf.next
        rw [hz, List.length_nil, Nat.sub_zero] at hn
        rw [← hn]
        rcases hf.peek with ⟨f, hp⟩ | hp
        · exact absurd hp (h1 f)
        · rw [hp, hz]; rfl
    have hend : EndsAfter items W := fun a => by rw [hnone]; simp
    obtain ⟨k, hk⟩ := hf.reach.after
    obtain ⟨c, tr, h1, h2, h3⟩ := hc.after_steps hW hend hk
    obtain ⟨res, e, hg⟩ := hc.step (debug := debug) (into := into) (items := items) h3.holds h3.next
    rw [hf.step] at e
    cases e
    cases hg with
    | accept g1 _ g3 g4 g5 g6 g7 g8 =>
      obtain ⟨hz, ht⟩ := hc.accepted h1 g3
      refine ⟨W, _, hW, hnone, ht, by rw [← value_eq]; exact g6, fun n => ?_⟩
      have hn : (Forest.mapRules gi.indexedGrammar.orig (.node 0 (Forest.ofTrees c.trees) .nil)).nodes = tr.length + 1 := by
        rw [nodes_mapRules]
        have := steps_nodes h1
        simp only [Config.start, Forest.ofTrees, Forest.nodes] at this ⊢
        omega
      rw [hn]
      rw [hz] at h2
      simp only [List.length_nil, Nat.add_zero] at h2
      -- the loop returns in iteration `k + 1`
      have last : ∀ {j : Nat} {st1 : PState P V F'} {w1 : σ} {m : Nat},
          prog.after debug sem into items w0 j = some (st1, w1) → j + m = k →
          ∃ run', prog.loop debug sem into items (m + 1) st1 w1 = .ok run' := by
        intro j st1 w1 m
        induction m generalizing j st1 w1 with
        | zero =>
          intro hj e
          cases e
          rw [Nat.add_zero] at hk
          rw [hj] at hk
          cases hk
          unfold Program.loop
          rw [hf.step, Outcome.ok_bind]
          exact ⟨_, rfl⟩
        | succ m ih =>
          intro hj e
          obtain ⟨a, b, hx, -⟩ := Program.after_le (n := j + 1) (by omega) hk
          have hx' := hx
          simp only [Program.after, hj] at hx'
          split at hx'
          · rename_i st2 w2 h4
            cases hx'
            unfold Program.loop
            rw [h4, Outcome.ok_bind]
            exact ih hx (by omega)
          · cases hx'
      constructor
      · rintro ⟨run', hr⟩
        by_contra hlt
        obtain ⟨a, b, hx, -⟩ := Program.after_le (n := n) (by omega) hk
        exact Program.after_loop (k := 0) (n := n) rfl (by rw [Nat.zero_add]; exact hx) hr
      · intro hle
        obtain ⟨run', hr⟩ := last (j := 0) (m := k) rfl (by omega)
        exact ⟨run', Program.loop_mono (by omega) hr⟩
  · cases hv

/-- The sample parser, for `Plus Plus Num(5)`. -/
example : ∃ gi prog W f, Generated .id Sample.lexer gi prog ∧ ParseTreeM gi.grammar (Matches Sample.sem gi.terminalType) f W ∧
    ∀ n, (∃ run, prog.parseFallible true Sample.sem id
      (Sample.stream [.unit "Plus", .unit "Plus", .data "Num" 5] none) n 0 = .ok run) ↔ W.length + f.nodes ≤ n := by
  obtain ⟨gi, prog, h, -, -, hi, hp⟩ := Sample.generated
  obtain ⟨run, h1, h2, -⟩ := Sample.run_of hi hp Sample.value623
  obtain ⟨W, f, -, -, h3, -, h4⟩ := generated_steps_exact h _ _ _ _ _ _ _ _ h1 h2
  exact ⟨gi, prog, W, f, h, h3, h4⟩

end
end C89
end Verif
