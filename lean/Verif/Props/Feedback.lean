import Verif.Proof.FeedbackFacts
import Verif.Props.Agree

/-!
# C71: reading tokens and running constructors take turns in a fixed way

The iterator that a generated parser reads from may share state with the constructors (`Source`).
-/

set_option linter.unusedSectionVars false
set_option autoImplicit false

namespace Verif
open Spec

namespace Sample

/-- `S => L; L => L Num(_) | Num(_)`: constructors run while tokens are read. -/
def listRules : List ARule :=
  [⟨"S", some (.ident "T" .nil), [.production "L"], some (.brace, hash "L")⟩,
   ⟨"L", some (.ident "T" .nil), [.production "L", .symbol ⟨"Num", .wildcard⟩], some (.brace, hash "L")⟩,
   ⟨"L", some (.ident "T" .nil), [.symbol ⟨"Num", .wildcard⟩],
     some (.brace, .punct '#' false (.literal "0" .nil))⟩]

def listInfo : Outcome (LRTableError Sym String) GrammarInfo := do
  let ig ← IndexedGrammar.build ⟨listRules.map ARule.toLr⟩
  let t ← LRTable.build 20 ig
  pure ⟨"Sample", .enum (.ident "Tok" .nil), none,
    [("S", some (.ident "T" .nil)), ("L", some (.ident "T" .nil))], listRules, ig, t⟩

/-- Every constructor adds 3 to the counter; the value lists the numbers as digits. It fails on 8. -/
def listSem : Sem Nat Nat String Nat :=
  ⟨fun _ => 0, fun _ _ => false,
   fun r _ env w =>
    if env 1 = some (.payload 8) then (.error "eight", w + 3)
    else if r = 1 then (.ok (.user (10 * num (env 0) + num (env 1))), w + 3)
    else (.ok (.user (num (env 0))), w + 3),
   fun _ v w => (.ok v, w)⟩

/-- The iterator yields the value of the counter and adds 1 to it, up to a limit, and `last` after that. -/
def counter (limit : Nat) (last : Option (Item Nat String)) : Source Nat String Nat := fun w =>
  if w < limit then (some (.ok (.data "Num" w)), w + 1) else (last, w)

/-- What the parser for lists does when it reads from the counter. -/
def fedOutcome (start limit : Nat) (last : Option (Item Nat String)) :
    Outcome (LRTableError Sym String) (Except (ParseErr Nat String) (Val Nat Nat) × Nat × Nat) := do
  let gi ← listInfo
  match generateParser .id lexer gi with
  | .ok prog =>
    match prog.parseFed true listSem id (counter limit last) 50 start with
    | .ok run => pure (run.result, run.world, run.pulled)
    | _ => Outcome.panic
  | _ => Outcome.panic

theorem listEpsilonLast : EpsilonLast ⟨listRules.map ARule.toLr⟩ := by
  unfold EpsilonLast; decide

theorem fed_generated : ∃ gi prog, Generated .id lexer gi prog ∧ gi.productionRules = listRules ∧
    gi.terminalType = .enum (.ident "Tok" .nil) ∧ listInfo = .ok gi ∧
    generateParser .id lexer gi = .ok prog := by
  have h : (do
      let gi ← listInfo
      match generateParser .id lexer gi with
      | .ok prog => pure (compilesB prog)
      | _ => pure false) = Outcome.ok true := by decide +kernel
  obtain ⟨gi, hi, h⟩ := Outcome.bind_eq_ok.mp h
  have hi' := hi
  unfold listInfo at hi
  obtain ⟨ig, h1, hi⟩ := Outcome.bind_eq_ok.mp hi
  obtain ⟨t, h2, hi⟩ := Outcome.bind_eq_ok.mp hi
  cases hi
  split at h
  · rename_i prog hp
    simp only [Outcome.pure_eq, Outcome.ok.injEq] at h
    exact ⟨⟨"Sample", .enum (.ident "Tok" .nil), none,
      [("S", some (.ident "T" .nil)), ("L", some (.ident "T" .nil))], listRules, ig, t⟩, prog,
      ⟨h1, ⟨20, h2⟩, listEpsilonLast, hp, compiles_of h⟩, rfl, rfl, hi', hp⟩
  · cases h

theorem fed_run_of {gi : GrammarInfo} {prog : Program} (hi : listInfo = .ok gi)
    (hp : generateParser .id lexer gi = .ok prog) {start limit : Nat} {last : Option (Item Nat String)}
    {r : Except (ParseErr Nat String) (Val Nat Nat)} {w n : Nat}
    (h : fedOutcome start limit last = .ok (r, w, n)) :
    ∃ run, prog.parseFed true listSem id (counter limit last) 50 start = .ok run ∧ run.result = r ∧
      run.world = w ∧ run.pulled = n := by
  unfold fedOutcome at h
  rw [hi, Outcome.ok_bind, hp] at h
  simp only at h
  split at h
  · rename_i run hr
    cases h
    exact ⟨run, hr, rfl, rfl, rfl⟩
  · cases h

/-- The iterator has yielded 0 and 1 before the first constructor adds 3 to the counter: the numbers read are
0, 1, 5 and 9. -/
theorem fed159 : fedOutcome 0 10 none = .ok (.ok (.user 159), 19, 5) := by decide +kernel

/-- Starting from 3, the numbers read are 3, 4 and 8, whose constructor fails; the item after 8 has been asked
for. -/
theorem fed_fails : fedOutcome 3 9 none = .ok (.error (.user "eight"), 15, 4) := by decide +kernel

/-- The iterator fails after 0 and 1. -/
theorem fed_broken : fedOutcome 0 2 (some (.error "broken")) = .ok (.error (.user "broken"), 5, 3) := by
  decide +kernel

/-- The iterator yields something else after 0 and 1. -/
theorem fed_rejected : fedOutcome 0 2 (some (.ok (.unit "Plus"))) =
    .ok (.error (.parseError (some (.unit "Plus"))), 5, 3) := by
  decide +kernel

theorem fed_disjoint {gi : GrammarInfo} (h1 : gi.productionRules = listRules) : gi.Disjoint listSem := by
  intro a s s' ⟨r, hr, hs⟩ ⟨r', hr', hs'⟩ _ _
  have key : ∀ r ∈ listRules, ∀ s, .symbol s ∈ r.rule → s = ⟨"Num", .wildcard⟩ := by
    intro r hr s hs
    simp only [listRules, List.mem_cons, List.not_mem_nil, or_false] at hr
    rcases hr with rfl | rfl | rfl <;> simp_all
  rw [h1] at hr hr'
  rw [key r hr s hs, key r' hr' s' hs']

theorem fed_firstComplete {gi : GrammarInfo} (h1 : gi.productionRules = listRules) :
    C07.FirstComplete gi.grammar := by
  have hg : gi.grammar = ⟨listRules.map ARule.toLr⟩ := by unfold GrammarInfo.grammar; rw [h1]
  have h : ((do
      let ig ← IndexedGrammar.build ⟨listRules.map ARule.toLr⟩
      let F ← FirstTable.build ig
      let (F', _) ← FirstTable.propagate ig F
      pure (F == F')) : Outcome (LRTableError Sym String) Bool) = .ok true := by decide +kernel
  obtain ⟨ig, h2, h⟩ := Outcome.bind_eq_ok.mp h
  obtain ⟨F, h3, h⟩ := Outcome.bind_eq_ok.mp h
  obtain ⟨⟨F', b⟩, h4, h⟩ := Outcome.bind_eq_ok.mp h
  simp only [Outcome.pure_eq, Outcome.ok.injEq, beq_iff_eq] at h
  subst h
  rw [hg]
  exact C07.first_complete_if_stable_partial _ ig F b h2 h3 h4

end Sample

namespace C71

variable {P V E F' σ : Type} [DecidableEq P] {lex : Lexer} {o : HashOrder} {gi : GrammarInfo} {prog : Program}

/-- **C71.** Whatever the iterator and the constructors do to each other's state, a generated parser does not
panic or misbehave. -/
theorem effects_never_panic (h : Generated o lex gi prog) (debug : Bool) (sem : Sem P V E σ) (into : F' → E)
    (src : Source P F' σ) (fuel : Nat) (w0 : σ) :
    prog.parseFed debug sem into src fuel w0 = .timeout ∨
      ∃ run, prog.parseFed debug sem into src fuel w0 = .ok run := by
  obtain ⟨F, kt, -, hc⟩ := h.ctx
  exact hc.loopFed_safe .start

/-- **C71, success.** A value that is returned is that of a parse tree which has been read and evaluated in
turns: from left to right, children before parents, each token followed at once by asking for the next item
(before any constructor that the token completes). The iterator has been asked once more than there are tokens,
and has answered with the end of the input. -/
theorem ok_is_read_in_turns (h : Generated o lex gi prog) (debug : Bool) (sem : Sem P V E σ) (into : F' → E)
    (src : Source P F' σ) (fuel : Nat) (w0 : σ) (run : Run P V E σ) (v : Val P V)
    (hrun : prog.parseFed debug sem into src fuel w0 = .ok run) (hv : run.result = .ok v) :
    ∃ f W, ParseTreeM gi.grammar (Matches sem gi.terminalType) f W ∧
      readValue gi sem src f (src w0) = (.ok [v], (none, run.world)) ∧ run.pulled = W.length + 1 := by
  obtain ⟨F, kt, -, hc⟩ := h.ctx
  obtain ⟨W, c, tr, st, w, res, hfin⟩ := hc.finishFed hrun
  have hgen := hfin.gen
  rcases hfin.done with ⟨v', st', w', rfl, rfl⟩ | ⟨e, w', rfl, rfl⟩
  · cases hv
    cases hgen with
    | accept g1 _ g2 g3 _ g4 =>
      obtain ⟨h1, h2⟩ := hc.accepted hfin.steps g2
      have hp := hfin.pulled
      rw [h1] at hp
      have hn : st.next = none := by
        rcases hfin.peek with ⟨f, hf⟩ | hp
        · exact absurd hf (g1 f)
        · rw [hp, h1]; rfl
      rw [hn, walkIds_eq] at g3
      refine ⟨_, W, h2, g3, ?_⟩
      simp only [List.length_nil] at hp ⊢
      omega
  · cases hv

/-- The sample: the value of the list `0 1 5 9`. -/
example : ∃ gi prog run, Generated .id Sample.lexer gi prog ∧
    prog.parseFed true Sample.listSem id (Sample.counter 10 none) 50 0 = .ok run ∧
    run.result = .ok (.user 159) ∧ run.world = 19 ∧ run.pulled = 5 := by
  obtain ⟨gi, prog, h, -, -, hi, hp⟩ := Sample.fed_generated
  obtain ⟨run, h1, h2, h3, h4⟩ := Sample.fed_run_of hi hp Sample.fed159
  exact ⟨gi, prog, run, h, h1, h2, h3, h4⟩

/-- **C71, user errors.** An error of the user comes from the iterator, which has yielded it right after the
tokens of some trees, all of which have been read and evaluated in turns; or it is the first failure when some
trees are read and evaluated in turns. Nothing happens afterwards. -/
theorem user_error_is_first (h : Generated o lex gi prog) (debug : Bool) (sem : Sem P V E σ) (into : F' → E)
    (src : Source P F' σ) (fuel : Nat) (w0 : σ) (run : Run P V E σ) (e : E)
    (hrun : prog.parseFed debug sem into src fuel w0 = .ok run) (he : run.result = .error (.user e)) :
    ∃ f α u, ParsesM gi.grammar.productions (Matches sem gi.terminalType) f α u ∧ run.pulled = u.length + 1 ∧
      ((∃ vs x, readValue gi sem src f (src w0) = (.ok vs, (some (.error x), run.world)) ∧ e = into x) ∨
        ∃ x, readValue gi sem src f (src w0) = (.error (some e), (x, run.world))) := by
  obtain ⟨F, kt, -, hc⟩ := h.ctx
  obtain ⟨W, c, tr, st, w, res, hfin⟩ := hc.finishFed hrun
  have hgen := hfin.gen
  have hpull := hfin.pulled
  rcases hfin.done with ⟨v', st', w', rfl, rfl⟩ | ⟨e', w', rfl, rfl⟩
  · cases he
  · cases he
    cases hgen with
    | @stream x g =>
      obtain ⟨u, α, h1, h2⟩ := hc.read hfin.steps
      obtain ⟨vs, -, hv⟩ := hfin.holds
      rw [g, walkIds_eq] at hv
      refine ⟨_, α, u, h2, ?_, .inl ⟨vs, x, hv, rfl⟩⟩
      rw [h1, List.length_append] at hpull
      simp only
      omega
    | @reduceFail c' i _ _ _ _ g1 g2 =>
      obtain ⟨u, α, h1, h2⟩ := hc.read (hfin.steps.snoc g1)
      rw [walkIds_eq] at g2
      refine ⟨_, α, u, h2, ?_, .inr ⟨_, g2⟩⟩
      have hi : c'.input = c.input := by cases g1; rfl
      rw [h1, List.length_append, hi] at hpull
      simp only
      omega
    | acceptFail _ _ g1 g2 =>
      obtain ⟨h1, root, rest, -, h2⟩ := hc.accepted hfin.steps g1
      rw [walkIds_eq] at g2
      refine ⟨_, _, W, h2, ?_, .inr ⟨_, g2⟩⟩
      rw [h1, List.length_nil] at hpull
      simp only
      omega

/-- The sample: an iterator that fails, and a constructor that fails. -/
example : ∃ gi prog, Generated .id Sample.lexer gi prog ∧
    (∃ run, prog.parseFed true Sample.listSem id (Sample.counter 2 (some (.error "broken"))) 50 0 = .ok run ∧
      run.result = .error (.user "broken")) ∧
    ∃ run, prog.parseFed true Sample.listSem id (Sample.counter 9 none) 50 3 = .ok run ∧
      run.result = .error (.user "eight") := by
  obtain ⟨gi, prog, h, -, -, hi, hp⟩ := Sample.fed_generated
  obtain ⟨run, h1, h2, -⟩ := Sample.fed_run_of hi hp Sample.fed_broken
  obtain ⟨run', h1', h2', -⟩ := Sample.fed_run_of hi hp Sample.fed_fails
  exact ⟨gi, prog, h, ⟨run, h1, h2⟩, run', h1', h2'⟩

/-- **C71, parse errors.** When a token (or the end of the input) is rejected, the tokens before it belong to
trees that have been read and evaluated in turns; the iterator has yielded the rejected token right after them,
and nothing has happened since. If no action is missing and no token stands for two terminals, no
sentence of the grammar begins with the tokens read and the one rejected. -/
theorem parse_error_is_read (h : Generated o lex gi prog) (debug : Bool) (sem : Sem P V E σ) (into : F' → E)
    (src : Source P F' σ) (fuel : Nat) (w0 : σ) (run : Run P V E σ) (t : Option (Token P))
    (hrun : prog.parseFed debug sem into src fuel w0 = .ok run) (he : run.result = .error (.parseError t)) :
    ∃ f α u vs, ParsesM gi.grammar.productions (Matches sem gi.terminalType) f α u ∧
      run.pulled = u.length + 1 ∧
      readValue gi sem src f (src w0) = (.ok vs, (t.map .ok, run.world)) ∧
      (gi.Disjoint sem → C07.ActionsComplete gi.grammar → ∀ z, z.head? = t → ¬ gi.Sentence sem (u ++ z)) := by
  obtain ⟨F, kt, hF, hc⟩ := h.ctx
  obtain ⟨W, c, tr, st, w, res, hfin⟩ := hc.finishFed hrun
  have hgen := hfin.gen
  have hpull := hfin.pulled
  rcases hfin.done with ⟨v', st', w', rfl, rfl⟩ | ⟨e', w', rfl, rfl⟩
  · cases he
  · cases he
    generalize hq : c.input.head? = t at hgen
    cases hgen with
    | stuck g1 _ g2 =>
      obtain ⟨u, α, h1, h2⟩ := hc.read hfin.steps
      obtain ⟨vs, -, hv⟩ := hfin.holds
      have hn : st.next = c.input.head?.map .ok := by
        rcases hfin.peek with ⟨f, hf⟩ | hp
        · exact absurd hf (g1 f)
        · exact hp
      rw [hn, walkIds_eq] at hv
      refine ⟨_, α, u, vs, h2, ?_, hv, ?_⟩
      · rw [h1, List.length_append] at hpull
        simp only
        omega
      · rintro hD hfc z hz ⟨f, hf⟩
        have hU := h.unique hD
        have hn := hc.good.noConflict
        obtain ⟨f', hf', rfl⟩ := parseTreeM_enc hc.enc hf
        obtain ⟨r, hr, hr0⟩ := hc.good.root_rule
        rw [← hr0] at hf'
        obtain ⟨ch, tr', hs', rfl, hacc⟩ := hf'.accepted (h.closed hfc hF) hc.good.rootOk hc.good.rootOnce hr
        have hsw := hfin.steps.swap (y := z) h1 hz
        obtain ⟨tr2, hs2⟩ := hsw.before hn hU hs' (.inl hacc)
        have hst : Stuck gi.indexedGrammar.cfg F.NodesFirst (gi.tokMatch sem) ⟨c.stack, c.trees, z⟩ :=
          fun x a hx => g2 x a (hx.swap hz.symm)
        obtain ⟨e, -⟩ := hs2.final_eq hn hU (.inr hst)
        rw [e] at hst
        exact absurd (accepting_iff.mp hacc) (stuck_iff.mp hst _)

/-- The sample: `Plus` after the list `0 1`. -/
example : ∃ gi prog run, Generated .id Sample.lexer gi prog ∧ gi.Disjoint Sample.listSem ∧
    C07.ActionsComplete gi.grammar ∧
    prog.parseFed true Sample.listSem id (Sample.counter 2 (some (.ok (.unit "Plus")))) 50 0 = .ok run ∧
    run.result = .error (.parseError (some (.unit "Plus"))) ∧ run.world = 5 := by
  obtain ⟨gi, prog, h, h1, -, hi, hp⟩ := Sample.fed_generated
  obtain ⟨run, k1, k2, k3, -⟩ := Sample.fed_run_of hi hp Sample.fed_rejected
  exact ⟨gi, prog, run, h, Sample.fed_disjoint h1, (Sample.fed_firstComplete h1).actions, k1, k2, k3⟩

/-- **C71, overlaps.** When a debug build reports overlapping patterns, the token stands for two terminals of
the grammar; the tokens before it belong to trees that have been read and evaluated in turns, and nothing has
happened since. -/
theorem overlap_is_read (h : Generated o lex gi prog) (debug : Bool) (sem : Sem P V E σ) (into : F' → E)
    (src : Source P F' σ) (fuel : Nat) (w0 : σ) (run : Run P V E σ) (t : Option (Token P))
    (hrun : prog.parseFed debug sem into src fuel w0 = .ok run) (he : run.result = .error (.overlapping t)) :
    debug = true ∧ ∃ f α u vs a s s', t = some a ∧ s ≠ s' ∧ gi.Terminal s ∧ gi.Terminal s' ∧
      Matches sem gi.terminalType a s ∧ Matches sem gi.terminalType a s' ∧
      ParsesM gi.grammar.productions (Matches sem gi.terminalType) f α u ∧ run.pulled = u.length + 1 ∧
      readValue gi sem src f (src w0) = (.ok vs, (some (.ok a), run.world)) := by
  obtain ⟨F, kt, hF, hc⟩ := h.ctx
  obtain ⟨W, c, tr, st, w, res, hfin⟩ := hc.finishFed hrun
  have hgen := hfin.gen
  have hpull := hfin.pulled
  rcases hfin.done with ⟨v', st', w', rfl, rfl⟩ | ⟨e', w', rfl, rfl⟩
  · cases he
  · cases he
    generalize hq : c.input.head? = t at hgen
    cases hgen with
    | overlap g1 g2 =>
      obtain ⟨hdb, -, a, z, x, y, hz, hne, ⟨s, hs, hm⟩, ⟨s', hs', hm'⟩, -⟩ := g2
      obtain ⟨u, α, h1, h2⟩ := hc.read hfin.steps
      obtain ⟨vs, -, hv⟩ := hfin.holds
      have hn : st.next = some (.ok a) := by
        rcases hfin.peek with ⟨f, hf⟩ | hp
        · exact absurd hf (g1 f)
        · rw [hp, hz]; rfl
      rw [hn, walkIds_eq] at hv
      refine ⟨hdb, _, α, u, vs, a, s, s', by rw [hz]; rfl, ?_, h.used (List.mem_of_getElem? hs),
        h.used (List.mem_of_getElem? hs'), hm, hm', h2, ?_, hv⟩
      · rintro rfl
        exact hne (getElem?_inj_of_nodup (IndexedGrammar.build_ok h.grammar).1.vocab.nodup hs hs')
      · rw [h1, List.length_append] at hpull
        simp only
        omega

/-- The sample for overlaps (C28), with an iterator that yields one token. -/
example : ∃ gi prog run, Generated .id Sample.lexer gi prog ∧
    prog.parseFed true Sample.sem1.counted id (Source.ofItems (Sample.stream [.data "Num" 1] none)) 50 (0, 0) =
      .ok run ∧ run.result = .error (.overlapping (some (.data "Num" 1))) := by
  obtain ⟨gi, prog, h, -, -, -, h1, h2⟩ := Sample.runs_ok (o := .id) (rules := Sample.overlapping)
    (labels := ["S", "A"]) (sem := Sample.sem1) (ts := [.data "Num" 1])
    (r := .error (.overlapping (some (.data "Num" 1)))) (r' := .ok .unit)
    (by unfold EpsilonLast; decide) (by decide +kernel)
  obtain ⟨run, h1, h3⟩ := h1
  refine ⟨gi, prog, run.counted, h, ?_, h3⟩
  rw [Program.parseFed]
  exact (Program.loopFed_ofItems _ 50 (.new _ (LRTable.rootState, .unit)) 0).trans (by
    rw [show prog.loop true Sample.sem1 id (Sample.stream [.data "Num" 1] none) 50
      (.new _ (LRTable.rootState, .unit)) 0 = .ok run from h1])

/-- **C71, sentences.** Conversely, if no action is missing and patterns are disjoint: if a parse tree can be read
and evaluated in turns and the iterator then ends, the generated parser returns its value and leaves the same
world. -/
theorem sentences_are_read_in_turns (h : Generated o lex gi prog) (debug : Bool) (sem : Sem P V E σ)
    (into : F' → E) (src : Source P F' σ) (w0 w' : σ) (f : Forest (Token P)) (W : List (Token P)) (v : Val P V)
    (hD : gi.Disjoint sem) (hfc : C07.ActionsComplete gi.grammar)
    (hf : ParseTreeM gi.grammar (Matches sem gi.terminalType) f W)
    (hv : readValue gi sem src f (src w0) = (.ok [v], (none, w'))) :
    ∃ N run, (∀ fuel ≥ N, prog.parseFed debug sem into src fuel w0 = .ok run) ∧ run.result = .ok v ∧
      run.world = w' := by
  obtain ⟨F, kt, hF, hc⟩ := h.ctx
  have hU := h.unique hD
  obtain ⟨f', hf', rfl⟩ := parseTreeM_enc hc.enc hf
  obtain ⟨r, hr, hr0⟩ := hc.good.root_rule
  rw [← hr0] at hf'
  obtain ⟨ch, tr', hs', rfl, hacc⟩ := hf'.accepted (h.closed hfc hF) hc.good.rootOk hc.good.rootOnce hr
  rw [← walkIds_eq] at hv
  exact hc.runFed hU hs' hacc rfl (by simp only [Forest.ofTrees_trees]; exact hv) ⟨[], .nil, rfl⟩

/-- The sample meets the hypotheses. -/
example : ∃ gi prog f W, Generated .id Sample.lexer gi prog ∧ gi.Disjoint Sample.listSem ∧
    C07.ActionsComplete gi.grammar ∧ ParseTreeM gi.grammar (Matches Sample.listSem gi.terminalType) f W ∧
    readValue gi Sample.listSem (Sample.counter 10 none) f (Sample.counter 10 none 0) =
      (.ok [.user 159], (none, 19)) ∧ W.length = 4 := by
  obtain ⟨gi, prog, h, h1, -, hi, hp⟩ := Sample.fed_generated
  obtain ⟨run, k1, k2, k3, k4⟩ := Sample.fed_run_of hi hp Sample.fed159
  obtain ⟨f, W, g1, g2, g3⟩ := ok_is_read_in_turns h true Sample.listSem id _ 50 0 run _ k1 k2
  rw [k3] at g2
  exact ⟨gi, prog, f, W, h, Sample.fed_disjoint h1, (Sample.fed_firstComplete h1).actions, g1, g2, by omega⟩

/-- **C71, iterators without effects.** If the items are given in advance and the constructors do not touch the
position of the iterator, this is the parser of the other properties. -/
theorem fixed_items_are_a_special_case (prog : Program) (debug : Bool) (sem : Sem P V E σ) (into : F' → E)
    (items : Nat → Option (Item P F')) (fuel : Nat) (w0 : σ) :
    prog.parseFed debug sem.counted into (Source.ofItems items) fuel (w0, 0) =
      (prog.parseFallible debug sem into items fuel w0 >>= fun run => pure run.counted) :=
  Program.loopFed_ofItems items fuel (.new items (LRTable.rootState, .unit)) w0

end C71
end Verif
