import Verif.Proof.Typing
import Verif.Props.Macro

/-!
# C50: generated code is well typed

What the macro writes obeys the typing rules of `Verif.Spec.Typing`. These rules are sound: with well typed
user code and tokens, what is popped from the stack of states always has the type that the grammar declares
for it, and a parse that succeeds returns a value of the type of the root label.
-/

set_option linter.unusedSectionVars false
set_option autoImplicit false
set_option linter.unnecessarySeqFocus false

namespace Verif
open Spec CodeGen

namespace C50

/-- **C50.** The macro writes well typed code. -/
theorem macro_typed {o : HashOrder} {lex : Lexer} {tx : Text} {t : TokenStream} (hj : JointOk t) {fuel : Nat}
    {gi : GrammarInfo} {prog : Program} (hb : buildGrammar o lex tx fuel t = .ok (gi, prog)) :
    ProgramTyped gi prog := by
  obtain ⟨gi', hpar, hb⟩ := Outcome.bind_eq_ok.mp hb
  obtain ⟨prog', hgen, hb⟩ := Outcome.bind_eq_ok.mp hb
  cases hb
  obtain ⟨F, kt, -, h, -⟩ := genIn_of hj hpar
  refine h.typed hgen fun r hr => ?_
  obtain ⟨ty, h1, h2⟩ := C39.types_consistent hj hpar hr
  refine ⟨ty, Outcome.unwrap_eq_ok.mp h1, ?_⟩
  cases ty <;> cases hret : r.returnType <;> rw [hret] at h2 <;> simp [SameType] at h2 ⊢

theorem _root_.Verif.Spec.NodeTy.det {gi : GrammarInfo} {n : ANode} {τ τ' : Ty} (h : NodeTy gi n τ)
    (h' : NodeTy gi n τ') : τ = τ' := by
  cases h with
  | label h1 => cases h' with | label h2 => rw [h1] at h2; cases h2; rfl
  | token => cases h' with
    | token => rfl
    | data h2 => exact absurd rfl h2
  | data h1 => cases h' with
    | token => exact absurd rfl h1
    | data => rfl

section
variable {P V E F σ : Type} [DecidableEq P] {gi : GrammarInfo} {prog : Program} {has : Ty → Val P V → Prop}
  {sem : Sem P V E σ}

theorem lookup_of_nodup {β : Type} {l : List (Nat × β)} (h : (l.map Prod.fst).Pairwise (· > ·)) {i : Nat} {v : β}
    (hm : (i, v) ∈ l) : l.lookup i = some v := by
  induction l with
  | nil => cases hm
  | cons p l ih =>
    obtain ⟨k, u⟩ := p
    rw [List.map_cons, List.pairwise_cons] at h
    rcases List.mem_cons.mp hm with e | hm
    · cases e
      simp
    · have hne : ¬ i = k := by
        intro e
        have := h.1 i (List.mem_map.mpr ⟨_, hm, rfl⟩)
        omega
      rw [List.lookup_cons]
      have : (i == k) = false := by simp [hne]
      rw [this]
      exact ih h.2 hm

/-- What the `let` statements bind. -/
theorem pops_typed (hs : TypedSem gi has sem) {types : List (Option TokenStream)} {r : ARule} :
    ∀ {pops : List PopStep} {st st' : PState P V F} {vars : List (Nat × Val P V)},
      (∀ pop ∈ pops, PopTyped gi types r pop) → StackTyped has types st.stack →
      runPops pops st = .ok (vars, st') →
      vars.map Prod.fst = pops.map PopStep.node ∧ StackTyped has types st'.stack ∧ st'.next = st.next ∧
      ∀ i v, (i, v) ∈ vars → ∃ n τ, r.rule[i]? = some n ∧ NodeTy gi n τ ∧ has τ v := by
  intro pops
  induction pops with
  | nil =>
    intro st st' vars _ hst hrun
    cases hrun
    exact ⟨rfl, hst, rfl, by simp⟩
  | cons pop pops ih =>
    intro st st' vars hp hst hrun
    simp only [runPops, PState.popState, Outcome.bind_eq_ok] at hrun
    obtain ⟨⟨s, st1⟩, ⟨top, h1, h2⟩, hrun⟩ := hrun
    cases h2
    have hhead : st.stack.head? = some s := by
      cases hh : st.stack.head? with
      | none => rw [hh] at h1; cases h1
      | some x => rw [hh] at h1; cases h1; rfl
    have hmem : (s.1, s.2) ∈ st.stack := List.mem_of_head? hhead
    simp only at hrun
    split at hrun
    · rename_i hin
      simp only [Outcome.bind_eq_ok] at hrun
      obtain ⟨v, hv, ⟨vs, st2⟩, hrec, hfin⟩ := hrun
      cases hfin
      have htail : StackTyped has types st.stack.tail := fun s v hm => hst s v (List.mem_of_mem_tail hm)
      obtain ⟨h3, h4, h5, h6⟩ := ih (fun p hp' => hp p (List.mem_cons_of_mem _ hp')) htail hrec
      refine ⟨by simp [h3], h4, h5, fun i u hu => ?_⟩
      rcases List.mem_cons.mp hu with e | hu
      · cases e
        obtain ⟨n, τ, h7, h8, h9⟩ := (hp pop (List.mem_cons_self ..)).arms
        refine ⟨n, τ, h7, h8, ?_⟩
        obtain ⟨ty, h10, h11⟩ := hst _ _ hmem
        cases hvar : pop.variant with
        | none =>
          rw [hvar] at hv
          have h12 := h9 _ hin
          rw [hvar] at h12
          cases h12 with
          | whole h13 =>
            cases hv
            rw [h10] at h13
            cases h13
            exact h11
        | some x =>
          rw [hvar] at hv
          have h12 := h9 _ hin
          rw [hvar] at h12
          cases h12 with
          | part h13 =>
            rw [h10] at h13
            cases h13
            unfold extractData at hv
            simp only at hv
            split at hv
            · rename_i n p hval
              split at hv
              · rename_i hx
                subst hx
                cases hv
                rw [hval] at h11
                exact hs.data _ _ h11
              · cases hv
            · cases hv
      · exact h6 i u hu
    · cases hrun

/-- What constructors return. -/
theorem ctor_typed (ht : ProgramTyped gi prog) (hs : TypedSem gi has sem) {types : List (Option TokenStream)}
    {k : Nat} {r : ARule} {pops : List PopStep} {ctor : Ctor} (hr : RuleTyped gi types k r pops ctor)
    {st st' : PState P V F} {vars : List (Nat × Val P V)} (hst : StackTyped has types st.stack)
    (hrun : runPops pops st = .ok (vars, st')) {ty : Option TokenStream}
    (hty : gi.labelTypes.lookup r.name = some ty) {w w' : σ} {v : Val P V}
    (hc : ctor.run sem (fun i => vars.lookup i) w = .ok (.ok v, w')) : has (.plain ty) v := by
  obtain ⟨h1, -, -, h2⟩ := pops_typed hs hr.pops hst hrun
  have henv : EnvTyped gi has r (fun i => vars.lookup i) := by
    intro i n τ hn hτ
    have hne : n ≠ .epsilon := by rintro rfl; cases hτ
    obtain ⟨pop, hpop, rfl⟩ := (hr.bound i).mpr ⟨n, hn, hne⟩
    have : pop.node ∈ vars.map Prod.fst := by rw [h1]; exact List.mem_map.mpr ⟨_, hpop, rfl⟩
    obtain ⟨⟨i, u⟩, hm, hi⟩ := List.mem_map.mp this
    cases hi
    obtain ⟨n', τ', h3, h4, h5⟩ := h2 _ u hm
    rw [hn] at h3
    cases h3
    cases hτ.det h4
    exact ⟨u, lookup_of_nodup (by rw [h1]; exact hr.order) hm, h5⟩
  have hctor := hr.ctor
  unfold buildConstructor GrammarInfo.productionRule at hctor
  simp only [Outcome.bind_eq_ok, Outcome.index_eq_ok] at hctor
  obtain ⟨r', h3, hctor⟩ := hctor
  rw [hr.rule] at h3
  cases h3
  cases hbl : r.block with
  | some b =>
    obtain ⟨delim, body⟩ := b
    rw [hbl] at hctor
    simp only at hctor
    have hprov : ∃ out, ctor = .provided k out := by
      unfold rewriteProvided at hctor
      split at hctor
      · cases hctor
      · simp only [Outcome.bind_eq_ok] at hctor
        obtain ⟨_, -, hctor⟩ := hctor
        simp only [Outcome.pure_eq, Outcome.ok.injEq] at hctor
        exact ⟨_, hctor.symm⟩
    obtain ⟨out, rfl⟩ := hprov
    unfold Ctor.run at hc
    simp only [Outcome.pure_eq, Outcome.ok.injEq] at hc
    exact hs.body k r ty out _ w v w' hr.rule hty hr.ctor henv hc
  | none =>
    rw [hbl] at hctor
    simp only at hctor
    split at hctor
    · rename_i hsome
      split at hctor
      · cases hctor
      · rename_i hlen
        cases hctor
        unfold Ctor.run at hc
        simp only [Outcome.bind_eq_ok] at hc
        obtain ⟨u, hu, hc⟩ := hc
        simp only [Outcome.pure_eq, Outcome.ok.injEq] at hc
        have hu' : vars.lookup 0 = some u := Outcome.unwrap_eq_ok.mp hu
        obtain ⟨n, hn⟩ : ∃ n, r.rule = [n] := List.length_eq_one_iff.mp (by omega)
        have hm : (0, u) ∈ vars := by
          have : ∀ (l : List (Nat × Val P V)), l.lookup 0 = some u → (0, u) ∈ l := by
            intro l
            induction l with
            | nil => intro h; cases h
            | cons p l ih =>
              obtain ⟨i, x⟩ := p
              intro h
              rw [List.lookup_cons] at h
              split at h
              · rename_i he
                simp only [beq_iff_eq] at he
                subst he
                cases h
                exact List.mem_cons_self ..
              · exact List.mem_cons_of_mem _ (ih h)
          exact this _ hu'
        obtain ⟨n', τ, h3, h4, h5⟩ := h2 0 u hm
        rw [hn] at h3
        cases h3
        exact hs.conv k r ty n τ u w v w' hr.rule hty hn h4 h5 hc
    · rename_i hnone
      cases hctor
      obtain ⟨ty', h3, h4⟩ := ht.labels r (List.mem_of_getElem? hr.rule)
      rw [hty] at h3
      cases h3
      have hret : r.returnType = none := by simpa using hnone
      cases h4.mpr hret
      cases hc
      exact hs.unit

/-- The token that is pushed is the one that was peeked. -/
theorem shift_value {arm : ShiftArm} {types : List (Option TokenStream)} (h : ShiftTyped gi types arm)
    {peeked : Option (Token P)} (hm : arm.matcher.matches sem peeked = true) {t : Token P}
    (he : arm.value.eval sem peeked = .ok t) : peeked = some t := by
  rcases h.value with ⟨x, h1, h2⟩ | ⟨x, h1, h2⟩ | ⟨x, h1, h2⟩ | ⟨x, text, h1, h2⟩ <;>
    rw [h1] at hm <;> rw [h2] at he <;> cases peeked with
    | none => cases hm
    | some p =>
      cases p <;> simp [Matcher.matches, Pat.matches] at hm <;> simp [TokExpr.eval] at he <;>
        simp_all

/-- The data on the stack and the item read ahead have their types. -/
structure Typed (gi : GrammarInfo) (prog : Program) (has : Ty → Val P V → Prop) (st : PState P V F) : Prop where
  stack : StackTyped has prog.stateTypes st.stack
  next : ∀ t, st.next = some (.ok t) → has (.plain (tokenTy gi)) (.tok t)

theorem stackTyped_cons {types : List (Option TokenStream)} {stack : List (Nat × Val P V)}
    (h : StackTyped has types stack) {s : Nat} {v : Val P V} {ty : Option TokenStream} (h1 : types[s]? = some ty)
    (h2 : has (.plain ty) v) : StackTyped has types ((s, v) :: stack) := by
  intro s' v' hm
  rcases List.mem_cons.mp hm with e | hm
  · cases e; exact ⟨ty, h1, h2⟩
  · exact h s' v' hm

/-- The same after a step, and the type of the result. -/
def After (gi : GrammarInfo) (prog : Program) (has : Ty → Val P V → Prop) : StepResult P V E F σ → Prop
  | .next st' _ => Typed gi prog has st'
  | .accept v _ _ => has (.plain prog.resultType) v
  | .fail _ _ => True

variable {items : Nat → Option (Item P F)} {into : F → E}

/-- **C50.** A step keeps the data on the stack well typed, and accepts only with a value of the type of the
root label. -/
theorem step_typed (ht : ProgramTyped gi prog) (hs : TypedSem gi has sem)
    (hi : ∀ i t, items i = some (.ok t) → has (.plain (tokenTy gi)) (.tok t)) (debug : Bool)
    {st : PState P V F} (h : Typed gi prog has st) {w : σ} :
    (∀ st' w', prog.step debug sem into items st w = .ok (.next st' w') → Typed gi prog has st') ∧
    ∀ v st' w', prog.step debug sem into items st w = .ok (.accept v st' w') →
      has (.plain prog.resultType) v := by
  have key : ∀ x, prog.step debug sem into items st w = .ok x →
      After gi prog has x := by
    intro x hx
    simp only [Program.step, Outcome.bind_eq_ok, Outcome.index_eq_ok] at hx
    obtain ⟨top, -, code, hcode, hx⟩ := hx
    have hcm := List.mem_of_getElem? hcode
    have hact : ∀ peeked, (∀ t, peeked = some t → st.next = some (.ok t)) →
        code.check debug sem items peeked st w = .ok x →
        After gi prog has x := by
      intro peeked hpk hx
      unfold StateCode.check at hx
      split at hx
      · cases hx; trivial
      unfold StateCode.act at hx
      split at hx
      · rename_i arm hfind
        have harm := List.mem_of_find?_eq_some hfind
        have hmatch := List.find?_some hfind
        have hT := ht.shift code hcm arm harm
        simp only [ShiftArm.run, PState.advance, Outcome.bind_eq_ok] at hx
        obtain ⟨t, h1, st1, ⟨_, -, h2⟩, h3⟩ := hx
        cases h2
        cases h3
        have hp := hpk t (shift_value hT hmatch h1)
        exact ⟨stackTyped_cons h.stack hT.next (h.next t hp), fun t ht' => hi _ t ht'⟩
      · split at hx
        · rename_i arm hfind
          have harm := List.mem_of_find?_eq_some hfind
          obtain ⟨k, r, ty, h1, h2, h3⟩ := ht.reduce code hcm arm harm
          simp only [ReduceArm.run, Outcome.bind_eq_ok] at hx
          obtain ⟨⟨vars, st1⟩, hpops, ⟨res, w1⟩, hctor, hx⟩ := hx
          cases res with
          | error e => cases hx; trivial
          | ok v =>
            simp only [Outcome.bind_eq_ok] at hx
            obtain ⟨st2, hgoto, hx⟩ := hx
            cases hx
            have hv := ctor_typed ht hs h1 h.stack hpops h2 hctor
            obtain ⟨-, h4, h5, -⟩ := pops_typed hs h1.pops h.stack hpops
            have hpush : ∀ n, prog.stateTypes[n]? = some ty → Typed gi prog has (st1.push (n, v)) := fun n hn =>
              ⟨stackTyped_cons h4 hn hv, fun t hn => h.next t (by rw [← h5]; exact hn)⟩
            cases hg : arm.goto with
            | direct n =>
              rw [hg] at h3 hgoto
              cases hgoto
              exact hpush n h3
            | select arms =>
              rw [hg] at h3 hgoto
              simp only [GotoCode.run, Outcome.bind_eq_ok] at hgoto
              obtain ⟨top, -, hgoto⟩ := hgoto
              split at hgoto
              · rename_i ga hga
                cases hgoto
                exact hpush ga.1 (h3.2.2 ga (List.mem_of_find?_eq_some hga)).2.1
              · cases hgoto
        · split at hx
          · rename_i arm hfind
            obtain ⟨harm, -⟩ := Option.filter_eq_some_iff.mp hfind
            obtain ⟨r, h1, h2⟩ := ht.accept code hcm arm harm
            simp only [AcceptArm.run, Outcome.bind_eq_ok] at hx
            obtain ⟨⟨vars, st1⟩, hpops, _, -, ⟨res, w1⟩, hctor, hx⟩ := hx
            cases res with
            | error e => cases hx; trivial
            | ok v =>
              cases hx
              exact ctor_typed ht hs h1 h.stack hpops h2 hctor
          · cases hx; trivial
    unfold StateCode.run at hx
    split at hx
    · cases hx; trivial
    · rename_i t hn
      exact hact (some t) (fun t' e => by cases e; exact hn) hx
    · exact hact none (fun t' e => by cases e) hx
  exact ⟨fun st' w' e => key _ e, fun v st' w' e => key _ e⟩

theorem loop_typed (ht : ProgramTyped gi prog) (hs : TypedSem gi has sem)
    (hi : ∀ i t, items i = some (.ok t) → has (.plain (tokenTy gi)) (.tok t)) (debug : Bool) {fuel : Nat} :
    ∀ {st : PState P V F} {w : σ} {run : Run P V E σ} {v : Val P V}, Typed gi prog has st →
      prog.loop debug sem into items fuel st w = .ok run → run.result = .ok v →
      has (.plain prog.resultType) v := by
  induction fuel with
  | zero => intro st w run v _ h; cases h
  | succ fuel ih =>
    intro st w run v hst h hv
    simp only [Program.loop, Outcome.bind_eq_ok] at h
    obtain ⟨x, hx, h⟩ := h
    obtain ⟨h1, h2⟩ := step_typed (into := into) ht hs hi debug hst (w := w)
    cases x with
    | next st' w' => exact ih (h1 _ _ hx) h hv
    | accept v' st' w' =>
      cases h
      cases hv
      exact h2 _ _ _ hx
    | fail e w' => cases h; cases hv

/-- **C50.** Typing is sound: if user code keeps to the types of the grammar and the items of the stream are
tokens, then a parse that succeeds returns a value of the type of the root label. -/
theorem result_typed {o : HashOrder} {lex : Lexer} {tx : Text} {t : TokenStream} (hj : JointOk t) {fuel : Nat}
    (hb : buildGrammar o lex tx fuel t = .ok (gi, prog)) (hs : TypedSem gi has sem)
    (hi : ∀ i t, items i = some (.ok t) → has (.plain (tokenTy gi)) (.tok t)) (debug : Bool) {steps : Nat}
    {w : σ} {run : Run P V E σ} {v : Val P V}
    (hrun : prog.parseFallible debug sem into items steps w = .ok run) (hv : run.result = .ok v) :
    has (.plain prog.resultType) v := by
  have ht := macro_typed hj hb
  refine loop_typed ht hs hi debug ⟨?_, fun t h => hi _ t h⟩ hrun hv
  exact stackTyped_cons (by intro s v hm; cases hm) ht.root hs.unit

end
end C50

namespace GrammarSample

/-- Values of the types of the sample. -/
def hasTy : Ty → Val Nat Nat → Prop
  | .plain none, v => v = .unit
  | .plain (some ty), v => if ty = .ident "u64" .nil then ∃ n, v = .user n else ∃ t, v = .tok t
  | .data _, v => ∃ p, v = .payload p

/-- Constructors that add up. -/
def adder : Sem Nat Nat String Nat :=
  ⟨fun _ => 0, fun _ _ => true,
   fun k _ env w =>
    (.ok (.user (match k with
      | 0 => Sample.num (env 1)
      | 2 => Sample.num (env 0)
      | _ => Sample.num (env 0) + Sample.num (env 2))), w + 1),
   fun _ _ w => (.ok (.user 0), w)⟩

/-- **C50**: the hypotheses hold for the sample, and the parser adds. -/
theorem adds : ∃ gi prog, buildGrammar .id lexer tx 1000 tokens = .ok (gi, prog) ∧
    prog.resultType = some (.ident "u64" .nil) ∧
    TypedSem gi hasTy adder ∧ (∀ t, hasTy (.plain (tokenTy gi)) (.tok t)) ∧
    ∃ run, prog.parse true adder (fun i => [Token.data "Num" 3, .unit "Plus", .data "Num" 4][i]?) 50 0 = .ok run ∧
      run.result = .ok (.user 7) := by
  obtain ⟨gi, prog, h⟩ := built
  obtain ⟨ss, hl, hf⟩ := file_syntax
  have hr := C49.reads tokens_joint hl hf h
  have hlook : ∀ (k : Nat) (r : ARule) ty, gi.productionRules[k]? = some r → gi.labelTypes.lookup r.name = some ty →
      (r.name = "O" ∧ r.rule = [.epsilon] ∧ r.block = none) ∨ ty = some (.ident "u64" .nil) := by
    intro k r ty h1 h2
    rw [hr.rules] at h1
    rw [hr.types] at h2
    have hm := List.mem_of_getElem? h1
    simp only [file, GrammarFile.rules, Declaration.rules, List.flatMap_cons, List.flatMap_nil, List.map_cons,
      List.map_nil, List.cons_append, List.nil_append, List.mem_cons, List.not_mem_nil, or_false] at hm
    rcases hm with rfl | rfl | rfl | rfl
    · right; revert h2; simp [file]; intro e; exact e.symm
    · left; exact ⟨rfl, rfl, rfl⟩
    · right; revert h2; simp [file]; intro e; exact e.symm
    · right; revert h2; simp [file]; intro e; exact e.symm
  have hty : tokenTy gi = some (.ident "Token" .nil) := by unfold tokenTy; rw [hr.terminal]; rfl
  refine ⟨gi, prog, h, ?_, ⟨rfl, ?_, ?_, ?_⟩, ?_, ?_⟩
  · have : ∀ x, buildGrammar .id lexer tx 1000 tokens = .ok x →
        x.2.resultType = some (.ident "u64" .nil) := by
      have hk : (match buildGrammar .id lexer tx 1000 tokens with
          | .ok x => decide (x.2.resultType = some (.ident "u64" .nil))
          | _ => true) = true := by decide +kernel
      intro x hx
      rw [hx] at hk
      simpa using hk
    exact this _ h
  · intro x p _; exact ⟨p, rfl⟩
  · intro k r ty out env w v w' h1 h2 h3 h4 h5
    rcases hlook k r ty h1 h2 with ⟨-, -, h6⟩ | rfl
    · unfold buildConstructor GrammarInfo.productionRule at h3
      simp only [Outcome.bind_eq_ok, Outcome.index_eq_ok] at h3
      obtain ⟨r', h7, h3⟩ := h3
      rw [h1] at h7
      cases h7
      rw [h6] at h3
      simp only at h3
      split at h3
      · split at h3 <;> cases h3
      · cases h3
    · cases h5
      simp [hasTy]
  · intro k r ty n τ u w v w' h1 h2 h3 h4 h5 h6
    rcases hlook k r ty h1 h2 with ⟨-, h7, -⟩ | rfl
    · rw [h3] at h7
      cases h7
      cases h4
    · cases h6
      simp [hasTy]
  · intro t
    rw [hty]
    simp [hasTy]
  · have hk : (match buildGrammar .id lexer tx 1000 tokens with
          | .ok x => match x.2.parse true adder (fun i => [Token.data "Num" 3, .unit "Plus", .data "Num" 4][i]?) 50 0 with
            | .ok run => decide (run.result = .ok (.user 7))
            | _ => false
          | _ => false) = true := by decide +kernel
    rw [h] at hk
    simp only at hk
    split at hk
    · rename_i run hrun
      exact ⟨run, hrun, by simpa using hk⟩
    · cases hk

end GrammarSample

end Verif
