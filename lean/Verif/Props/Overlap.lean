import Verif.Props.Linear

/-!
# C03: parsers that do not report overlapping patterns
-/

set_option linter.unusedSectionVars false
set_option autoImplicit false

namespace Verif
open Spec

section
variable {P V E F' σ : Type} [DecidableEq P]

/-- The arm that reduces on the token `t`, if no arm shifts it. -/
def Program.reduction (prog : Program) (sem : Sem P V E σ) (t : Token P) (s : Nat) : Option ReduceArm :=
  prog.states[s]?.bind fun code =>
    match code.shifts.find? fun arm => arm.matcher.matches sem (some t) with
    | some _ => none
    | none => code.reduces.find? fun arm => arm.matchers.any fun m => m.matches sem (some t)

/-- On the token `t`, state `s` reduces a rule without nodes and puts `s'` on top, or a rule with one node and puts
`s'` in its place. -/
def Program.Turns (prog : Program) (sem : Sem P V E σ) (t : Token P) (s s' : Nat) : Prop :=
  ∃ arm, prog.reduction sem t s = some arm ∧ (arm.pops = [] ∨ arm.pops = [⟨0, none, [s]⟩]) ∧ arm.ctor = .unit ∧
    arm.goto = .direct s'

theorem Program.Turns.step {prog : Program} {sem : Sem P V E σ} {t : Token P} {s s' : Nat}
    (h : prog.Turns sem t s s') (into : F' → E) (items : Nat → Option (Item P F')) (n : Nat) (v : Val P V)
    (rest : List (Nat × Val P V)) (w : σ) :
    ∃ rest', prog.step false sem into items ⟨some (.ok t), n, (s, v) :: rest⟩ w =
      .ok (.next ⟨some (.ok t), n, (s', .unit) :: rest'⟩ w) := by
  obtain ⟨⟨ms, pops, ctor, goto⟩, h1, h2, rfl, rfl⟩ := h
  obtain ⟨code, hc, h1⟩ := Option.bind_eq_some_iff.mp h1
  have key : ∃ rest', ReduceArm.run sem ⟨ms, pops, .unit, .direct s'⟩
      (⟨some (.ok t), n, (s, v) :: rest⟩ : PState P V F') w =
      .ok (.next ⟨some (.ok t), n, (s', .unit) :: rest'⟩ w) := by
    rcases h2 with rfl | rfl
    · exact ⟨(s, v) :: rest, rfl⟩
    · refine ⟨rest, ?_⟩
      simp [ReduceArm.run, runPops, PState.popState, Outcome.unwrapUnchecked, extractData, Ctor.run, GotoCode.run,
        PState.push]
  obtain ⟨rest', key⟩ := key
  refine ⟨rest', ?_⟩
  split at h1
  · cases h1
  · rename_i hs
    unfold Program.step
    have hst : (⟨some (.ok t), n, (s, v) :: rest⟩ : PState P V F').state = .ok (s, v) := rfl
    have hi : (Outcome.index prog.states s : Outcome Unit _) = .ok code := Outcome.index_eq_ok.mpr hc
    rw [hst, Outcome.ok_bind, hi, Outcome.ok_bind]
    unfold StateCode.run StateCode.check
    simp only [Bool.false_eq_true, false_and, if_false]
    unfold StateCode.act
    rw [hs]
    simp only [h1]
    exact key

/-- States that turn into each other: the loop does not end. -/
theorem Program.loop_endless {prog : Program} {sem : Sem P V E σ} {t : Token P} {S : Nat → Prop}
    (hS : ∀ s, S s → ∃ s', S s' ∧ prog.Turns sem t s s') (into : F' → E) (items : Nat → Option (Item P F'))
    (n : Nat) (w : σ) : ∀ (fuel s : Nat) (v : Val P V) (rest : List (Nat × Val P V)), S s →
      prog.loop false sem into items fuel ⟨some (.ok t), n, (s, v) :: rest⟩ w = .timeout := by
  intro fuel
  induction fuel with
  | zero => intros; rfl
  | succ fuel ih =>
    intro s v rest hs
    obtain ⟨s', hs', ht⟩ := hS s hs
    obtain ⟨rest', e⟩ := ht.step into items n v rest w
    unfold Program.loop
    rw [e, Outcome.ok_bind]
    exact ih s' .unit rest' hs'

end

namespace Sample

/-- `S => X; D => P Q; G => !; H => !; X => Q | E Z | H Num(..); Z => D | F X | G Num(1); E => E1; E1 => E2;
E2 => !; F => F1; F1 => F2; F2 => !`. That `E` and `F` may vanish is noticed after the last round for `X` and `Z`, so
that `Num(1)` is missing from FIRST of `X`, and `Num(..)` from that of `Z`. -/
def endless : List ARule :=
  let r := fun l ns => (⟨l, none, ns, none⟩ : ARule)
  [r "S" [.production "X"], r "D" [.symbol ⟨"P", .none⟩, .symbol ⟨"Q", .none⟩],
   r "G" [.epsilon], r "H" [.epsilon],
   r "X" [.symbol ⟨"Q", .none⟩], r "X" [.production "E", .production "Z"],
   r "X" [.production "H", .symbol ⟨"Num", .wildcard⟩],
   r "Z" [.production "D"], r "Z" [.production "F", .production "X"],
   r "Z" [.production "G", .symbol ⟨"Num", .pattern "1"⟩],
   r "E" [.production "E1"], r "E1" [.production "E2"], r "E2" [.epsilon],
   r "F" [.production "F1"], r "F1" [.production "F2"], r "F2" [.epsilon]]

/-- Where each state of the parser for `endless` goes on the token `t`, if by `Turns`. -/
def turn (prog : Program) (t : Token Nat) (s : Nat) : Option Nat :=
  match prog.reduction sem1 t s with
  | some arm =>
    if (arm.pops = [] ∨ arm.pops = [⟨0, none, [s]⟩]) ∧ arm.ctor = .unit then
      match arm.goto with
      | .direct s' => some s'
      | _ => none
    else none
  | none => none

theorem turns_of {prog : Program} {t : Token Nat} {s s' : Nat} (h : turn prog t s = some s') :
    prog.Turns sem1 t s s' := by
  unfold turn at h
  split at h
  · rename_i arm ha
    split at h
    · rename_i hp
      split at h
      · rename_i g
        cases h
        exact ⟨arm, ha, hp.1, hp.2, g⟩
      · cases h
    · cases h
  · cases h

end Sample

namespace C03

/-- **C03 is false for generated parsers in general.** In a release build the parser for `Sample.endless`, given
`Num(1)`, never returns: it pushes `E` and `F` in turn. In a debug build it reports that patterns overlap. With another
order of hash maps it returns a value. -/
theorem generated_terminates_refuted : ∃ (gi : GrammarInfo) (prog prog' : Program),
    Generated .id Sample.lexer gi prog ∧
    (∀ fuel, prog.parseFallible false Sample.sem1 id (Sample.stream [.data "Num" 1] none) fuel 0 = .timeout) ∧
    (∃ run, prog.parseFallible true Sample.sem1 id (Sample.stream [.data "Num" 1] none) 50 0 = .ok run ∧
      run.result = .error (.overlapping (some (.data "Num" 1)))) ∧
    Generated ⟨fun _ l => l.reverse, fun _ l => l.reverse_perm⟩ Sample.lexer gi prog' ∧
    ∃ run, prog'.parseFallible false Sample.sem1 id (Sample.stream [.data "Num" 1] none) 50 0 = .ok run ∧
      run.result = .ok .unit := by
  let back : HashOrder := ⟨fun _ l => l.reverse, fun _ l => l.reverse_perm⟩
  have h : (do
      let gi ← Sample.make Sample.endless ["S", "D", "G", "H", "X", "Z", "E", "E1", "E2", "F", "F1", "F2"]
      match generateParser .id Sample.lexer gi, generateParser back Sample.lexer gi with
      | .ok prog, .ok prog' =>
        match prog.parseFallible true Sample.sem1 id (Sample.stream [.data "Num" 1] none) 50 0,
          prog'.parseFallible false Sample.sem1 id (Sample.stream [.data "Num" 1] none) 50 0 with
        | .ok run, .ok run' => pure (Sample.compilesB prog && Sample.compilesB prog' &&
            decide ([0, 6, 5, 3, 13, 12, 9].map (Sample.turn prog (.data "Num" 1)) =
              [some 6, some 5, some 3, some 13, some 12, some 9, some 6]), run.result, run'.result)
        | _, _ => Outcome.panic
      | _, _ => Outcome.panic : Outcome (LRTableError Sym String) (Bool ×
        Except (ParseErr Nat String) (Val Nat Nat) × Except (ParseErr Nat String) (Val Nat Nat))) =
    .ok (true, .error (.overlapping (some (.data "Num" 1))), .ok .unit) := by decide +kernel
  obtain ⟨gi, hi, h⟩ := Outcome.bind_eq_ok.mp h
  split at h
  · rename_i prog prog' hp hp'
    split at h
    · rename_i run run' h1 h2
      simp only [Outcome.pure_eq, Outcome.ok.injEq, Prod.mk.injEq, List.map_cons, List.map_nil, List.cons.injEq,
        and_true, Bool.and_eq_true, decide_eq_true_eq] at h
      obtain ⟨⟨⟨c1, c2⟩, t0, t6, t5, t3, t13, t12, t9⟩, r1, r2⟩ := h
      have hi' := hi
      unfold Sample.make at hi'
      obtain ⟨ig, g1, hi'⟩ := Outcome.bind_eq_ok.mp hi'
      obtain ⟨t, g2, hi'⟩ := Outcome.bind_eq_ok.mp hi'
      simp only [Outcome.pure_eq, Outcome.ok.injEq] at hi'
      have he : EpsilonLast ⟨Sample.endless.map ARule.toLr⟩ := by unfold EpsilonLast; decide
      subst hi'
      refine ⟨⟨"Sample", .enum (.ident "Tok" .nil), none,
        ["S", "D", "G", "H", "X", "Z", "E", "E1", "E2", "F", "F1", "F2"].map fun l => (l, none), Sample.endless, ig, t⟩,
        prog, prog', ⟨g1, ⟨30, g2⟩, he, hp, Sample.compiles_of c1⟩, ?_, ⟨run, h1, r1⟩,
        ⟨g1, ⟨30, g2⟩, he, hp', Sample.compiles_of c2⟩, run', h2, r2⟩
      intro fuel
      refine Program.loop_endless (S := fun s => s ∈ [0, 6, 5, 3, 13, 12, 9]) ?_ id _ 1 0 fuel 0 .unit [] (by simp)
      intro s hs
      simp only [List.mem_cons, List.not_mem_nil, or_false] at hs
      rcases hs with rfl | rfl | rfl | rfl | rfl | rfl | rfl
      · exact ⟨6, by simp, Sample.turns_of t0⟩
      · exact ⟨5, by simp, Sample.turns_of t6⟩
      · exact ⟨3, by simp, Sample.turns_of t5⟩
      · exact ⟨13, by simp, Sample.turns_of t3⟩
      · exact ⟨12, by simp, Sample.turns_of t13⟩
      · exact ⟨9, by simp, Sample.turns_of t12⟩
      · exact ⟨6, by simp, Sample.turns_of t9⟩
    · cases h
  · cases h

/-- Patterns that overlap although no action is missing: the last case of `generated_terminates_partial`. -/
example : ∃ gi prog, Generated .id Sample.lexer gi prog ∧ ¬ gi.Disjoint Sample.sem1 ∧
    C07.ActionsComplete gi.grammar := by
  obtain ⟨gi, prog, h, -, h1, h2, -⟩ := Sample.runs_ok (o := .id) (rules := Sample.overlapping)
    (labels := ["S", "A"]) (sem := Sample.sem1) (ts := [.data "Num" 2])
    (r := .error (.parseError none)) (r' := .error (.parseError none))
    (by unfold EpsilonLast; decide) (by decide +kernel)
  refine ⟨gi, prog, h, fun hD => ?_, ?_⟩
  · have := hD (.data "Num" 1) ⟨"Num", .pattern "1"⟩ ⟨"Num", .wildcard⟩ ?_ ?_ ?_ ?_
    · cases this
    · rw [GrammarInfo.Terminal, h1]
      exact ⟨_, List.mem_cons_of_mem _ (List.mem_cons_self ..), by simp⟩
    · rw [GrammarInfo.Terminal, h1]
      exact ⟨_, List.mem_cons_of_mem _ (List.mem_cons_of_mem _ (List.mem_cons_self ..)), by simp⟩
    · rw [h2]; exact .data (by decide)
    · rw [h2]; exact .any
  · have hg : gi.grammar = ⟨Sample.overlapping.map ARule.toLr⟩ := by unfold GrammarInfo.grammar; rw [h1]
    have h : ((do
        let ig ← IndexedGrammar.build ⟨Sample.overlapping.map ARule.toLr⟩
        let F ← FirstTable.build ig
        let (F', _) ← FirstTable.propagate ig F
        pure (F == F')) : Outcome (LRTableError Sym String) Bool) = .ok true := by decide +kernel
    obtain ⟨ig, h2, h⟩ := Outcome.bind_eq_ok.mp h
    obtain ⟨F, h3, h⟩ := Outcome.bind_eq_ok.mp h
    obtain ⟨⟨F', b⟩, h4, h⟩ := Outcome.bind_eq_ok.mp h
    simp only [Outcome.pure_eq, Outcome.ok.injEq, beq_iff_eq] at h
    subst h
    rw [hg]
    exact (C07.first_complete_if_stable_partial _ ig F b h2 h3 h4).actions

end C03

namespace C53

/-- **C53 is false for generated parsers in general**: in a release build, no number of iterations is enough for the
parser for `Sample.endless` and the single token `Num(1)`. -/
theorem generated_linear_refuted : ∃ (gi : GrammarInfo) (prog : Program), Generated .id Sample.lexer gi prog ∧
    ¬ ∃ K, ∀ (W : List (Token Nat)) (w0 : Nat), ∃ run, ∀ fuel ≥ K * (W.length + 1),
      prog.parseFallible false Sample.sem1 (id : String → String) (Sample.stream W none) fuel w0 = .ok run := by
  obtain ⟨gi, prog, -, h, h1, -⟩ := C03.generated_terminates_refuted
  refine ⟨gi, prog, h, ?_⟩
  rintro ⟨K, hK⟩
  obtain ⟨run, hr⟩ := hK [.data "Num" 1] 0
  have := hr _ (Nat.le_refl _)
  rw [h1] at this
  cases this

end C53
end Verif
