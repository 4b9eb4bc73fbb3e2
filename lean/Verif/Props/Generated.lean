import Verif.Proof.Mixed
import Verif.Proof.GenFinish

/-!
# C03, C17, C18, C23–C26, C28, C41: generated parsers
-/

set_option linter.unusedSectionVars false
set_option autoImplicit false

namespace Verif
open Spec

/-! ### A sample parser

`S: T => L {#L}; L: T => Plus L {#L} | Num(..) {#0} | ! {}` -/

namespace Sample

/-- The tokens `#name`. -/
def hash (name : String) : TokenStream := .punct '#' false (.ident name .nil)

def rules : List ARule :=
  [⟨"S", some (.ident "T" .nil), [.production "L"], some (.brace, hash "L")⟩,
   ⟨"L", some (.ident "T" .nil), [.symbol ⟨"Plus", .none⟩, .production "L"], some (.brace, hash "L")⟩,
   ⟨"L", some (.ident "T" .nil), [.symbol ⟨"Num", .wildcard⟩],
     some (.brace, .punct '#' false (.literal "0" .nil))⟩,
   ⟨"L", some (.ident "T" .nil), [.epsilon], some (.brace, .nil)⟩]

def info : Outcome (LRTableError Sym String) GrammarInfo := do
  let ig ← IndexedGrammar.build ⟨rules.map ARule.toLr⟩
  let t ← LRTable.build 20 ig
  pure ⟨"Sample", .enum (.ident "Tok" .nil), none,
    [("S", some (.ident "T" .nil)), ("L", some (.ident "T" .nil))], rules, ig, t⟩

def lexer : Lexer := ⟨fun _ => true, fun _ => true⟩

def num : Option (Val Nat Nat) → Nat
  | some (.payload p) => p
  | some (.user v) => v
  | some (.tok _) => 1
  | _ => 0

/-- Constructors count their calls; the one for numbers fails on 13. -/
def sem : Sem Nat Nat String Nat :=
  ⟨fun _ => 0, fun _ _ => false,
   fun _ _ env w =>
    if env 0 = some (.payload 13) then (.error "unlucky", w + 1)
    else (.ok (.user (1 + num (env 0) + 10 * num (env 1))), w + 1),
   fun _ v w => (.ok v, w)⟩

/-- A stream of tokens, which may end with an error. -/
def stream (ts : List (Token Nat)) (last : Option String) : Nat → Option (Item Nat String) := fun i =>
  match ts[i]? with
  | some t => some (.ok t)
  | none => if i = ts.length then last.map .error else none

/-- Decides whether the default constructors compile. -/
def compilesB (prog : Program) : Bool :=
  prog.states.all fun code =>
    (code.reduces.all fun arm => match arm.ctor with
      | .tryInto _ => arm.pops.any fun pop => pop.node == 0
      | _ => true) &&
    (match code.accept with
      | some arm => match arm.ctor with
        | .tryInto _ => arm.pops.any fun pop => pop.node == 0
        | _ => true
      | none => true)

theorem compiles_of {prog : Program} (h : compilesB prog = true) : prog.Compiles := by
  unfold compilesB at h
  rw [List.all_eq_true] at h
  have key : ∀ (c : Ctor) (pops : List PopStep), (match c with
      | .tryInto _ => pops.any fun pop => pop.node == 0
      | _ => true) = true → c.Compiles pops := by
    intro c pops hc
    cases c with
    | tryInto i =>
      simp only [List.any_eq_true, beq_iff_eq] at hc
      exact hc
    | provided _ _ => trivial
    | unit => trivial
  constructor
  · intro code hcode arm harm
    have := h code hcode
    simp only [Bool.and_eq_true, List.all_eq_true] at this
    exact key _ _ (this.1 arm harm)
  · intro code hcode arm harm
    have := h code hcode
    simp only [Bool.and_eq_true, harm] at this
    exact key _ _ this.2

/-- What the sample parser does, as far as the examples need it. -/
def outcome (debug : Bool) (ts : List (Token Nat)) (last : Option String) :
    Outcome (LRTableError Sym String) (Except (ParseErr Nat String) (Val Nat Nat) × Nat × Nat) := do
  let gi ← info
  match generateParser .id lexer gi with
  | .ok prog =>
    match prog.parseFallible debug sem id (stream ts last) 50 0 with
    | .ok run => pure (run.result, run.world, run.pulled)
    | _ => Outcome.panic
  | _ => Outcome.panic

instance : DecidableEq (Except (ParseErr Nat String) (Val Nat Nat)) := fun a b =>
  match a, b with
  | .ok x, .ok y => if h : x = y then isTrue (by rw [h]) else isFalse fun e => h (by cases e; rfl)
  | .error x, .error y => if h : x = y then isTrue (by rw [h]) else isFalse fun e => h (by cases e; rfl)
  | .ok _, .error _ => isFalse (by intro e; cases e)
  | .error _, .ok _ => isFalse (by intro e; cases e)

theorem epsilonLast : EpsilonLast ⟨rules.map ARule.toLr⟩ := by
  unfold EpsilonLast; decide

/-- The sample parser exists. -/
theorem generated : ∃ gi prog, Generated .id lexer gi prog ∧ gi.productionRules = rules ∧
    gi.terminalType = .enum (.ident "Tok" .nil) ∧ info = .ok gi ∧
    generateParser .id lexer gi = .ok prog := by
  have h : (do
      let gi ← info
      match generateParser .id lexer gi with
      | .ok prog => pure (compilesB prog)
      | _ => pure false) = Outcome.ok true := by decide +kernel
  obtain ⟨gi, hi, h⟩ := Outcome.bind_eq_ok.mp h
  have hi' := hi
  unfold info at hi
  obtain ⟨ig, h1, hi⟩ := Outcome.bind_eq_ok.mp hi
  obtain ⟨t, h2, hi⟩ := Outcome.bind_eq_ok.mp hi
  cases hi
  split at h
  · rename_i prog hp
    simp only [Outcome.pure_eq, Outcome.ok.injEq] at h
    exact ⟨⟨"Sample", .enum (.ident "Tok" .nil), none,
      [("S", some (.ident "T" .nil)), ("L", some (.ident "T" .nil))], rules, ig, t⟩, prog,
      ⟨h1, ⟨20, h2⟩, epsilonLast, hp, compiles_of h⟩, rfl, rfl, hi', hp⟩
  · cases h

/-- Runs of the sample parser can be computed. -/
theorem run_of {gi : GrammarInfo} {prog : Program} (hi : info = .ok gi)
    (hp : generateParser .id lexer gi = .ok prog) {debug : Bool} {ts : List (Token Nat)} {last : Option String}
    {r : Except (ParseErr Nat String) (Val Nat Nat)} {w n : Nat}
    (h : outcome debug ts last = .ok (r, w, n)) :
    ∃ run, prog.parseFallible debug sem id (stream ts last) 50 0 = .ok run ∧ run.result = r ∧
      run.world = w ∧ run.pulled = n := by
  unfold outcome at h
  rw [hi, Outcome.ok_bind, hp] at h
  simp only at h
  split at h
  · rename_i run hr
    cases h
    exact ⟨run, hr, rfl, rfl, rfl⟩
  · cases h

/-- `Plus Plus Num(5)` evaluates to 623, calling four constructors. -/
theorem value623 : outcome true [.unit "Plus", .unit "Plus", .data "Num" 5] none =
    .ok (.ok (.user 623), 4, 4) := by decide +kernel

/-- `Plus Num(13)` fails in a constructor. -/
theorem unlucky : outcome true [.unit "Plus", .data "Num" 13] none =
    .ok (.error (.user "unlucky"), 1, 3) := by decide +kernel

/-- `Plus Num(1) Plus`: the last token is rejected. -/
theorem rejected : outcome true [.unit "Plus", .data "Num" 1, .unit "Plus"] none =
    .ok (.error (.parseError (some (.unit "Plus"))), 0, 3) := by decide +kernel

/-- `Plus` and then a failure of the stream. -/
theorem broken : outcome true [.unit "Plus"] (some "i/o") =
    .ok (.error (.user "i/o"), 0, 2) := by decide +kernel

end Sample

section
variable {P V E F' σ : Type} [DecidableEq P] {sem : Sem P V E σ} {lex : Lexer} {o : HashOrder}
  {gi : GrammarInfo} {prog : Program}

namespace C17

/-- **C17.** Whatever the stream and however long a generated parser has been running, it has not met
undefined behaviour, a failed assertion or any other panic. -/
theorem generated_never_fails (h : Generated o lex gi prog) (debug : Bool) (sem : Sem P V E σ)
    (into : F' → E) (items : Nat → Option (Item P F')) (fuel : Nat) (w0 : σ) :
    prog.parseFallible debug sem into items fuel w0 = .timeout ∨
      ∃ run, prog.parseFallible debug sem into items fuel w0 = .ok run := by
  obtain ⟨F, kt, -, hc⟩ := h.ctx
  rcases hc.parse' (sem := sem) debug into items fuel w0 with e | ⟨W, run, c, tr, -, e, -⟩
  · exact .inl e
  · exact .inr ⟨run, e⟩

/-- The same for `parse`. -/
theorem parse_never_fails (h : Generated o lex gi prog) (debug : Bool) (sem : Sem P V E σ)
    (tokens : Nat → Option (Token P)) (fuel : Nat) (w0 : σ) :
    prog.parse debug sem tokens fuel w0 = .timeout ∨
      ∃ run, prog.parse debug sem tokens fuel w0 = .ok run :=
  generated_never_fails h debug sem _ _ fuel w0

example : ∃ gi prog, Generated .id Sample.lexer gi prog := by
  obtain ⟨gi, prog, h, -⟩ := Sample.generated
  exact ⟨gi, prog, h⟩

end C17

namespace C03

/-- **C03 (generated parsers), partial.** On a stream of finitely many tokens, followed by the end or an error, every
run of a generated parser ends; the result does not depend on the fuel. The condition excludes only builds that do not
report overlapping patterns, of grammars with such patterns whose tables lack actions (C07); there the claim is false
(`generated_terminates_refuted`). -/
theorem generated_terminates_partial (h : Generated o lex gi prog) (debug : Bool) (sem : Sem P V E σ)
    (into : F' → E) (items : Nat → Option (Item P F')) (W : List (Token P)) (w0 : σ)
    (ho : (debug = true ∧ ∃ ty, gi.terminalType = .enum ty) ∨ gi.Disjoint sem ∨ C07.ActionsComplete gi.grammar)
    (hW : ∀ i a, W[i]? = some a → items i = some (.ok a))
    (hend : ∀ a, items W.length ≠ some (.ok a)) :
    ∃ N run, ∀ fuel ≥ N, prog.parseFallible debug sem into items fuel w0 = .ok run := by
  obtain ⟨F, kt, hF, hc⟩ := h.ctx
  obtain ⟨N, run, hN⟩ : ∃ N run, prog.parseFallible debug sem into items N w0 = .ok run := by
    rcases ho with ⟨h1, ty, h2⟩ | hD | hA
    · exact hc.parse_ends_at (fun c hov => ⟨h1, by rw [h2]; rfl, hov⟩) hW hend
    · exact hc.parse_ends_at (fun c hov => absurd hov (not_overlap_of_unique (h.unique hD))) hW hend
    · obtain ⟨K, hK⟩ := hc.ends_of_covers (h.closed hA hF)
      exact ⟨_, hK debug sem into items W w0 hW hend⟩
  exact ⟨N, run, fun fuel hf => Program.loop_mono hf hN⟩

example : ∃ gi prog, Generated .id Sample.lexer gi prog ∧ ∃ ty, gi.terminalType = .enum ty := by
  obtain ⟨gi, prog, h, -, h2, -⟩ := Sample.generated
  exact ⟨gi, prog, h, _, h2⟩

end C03

namespace C18

theorem _root_.Verif.GenCtx.ok_is_value {F : FirstTable} {kt : KernelTable} (hc : GenCtx o lex gi prog F kt)
    {debug : Bool} {sem : Sem P V E σ} {into : F' → E} {items : Nat → Option (Item P F')} {fuel : Nat} {w0 : σ}
    {run : Run P V E σ} {v : Val P V}
    (hrun : prog.parseFallible debug sem into items fuel w0 = .ok run) (hv : run.result = .ok v) :
    ∃ W f, (∀ i a, W[i]? = some a → items i = some (.ok a)) ∧ items W.length = none ∧
      ParseTreeM gi.grammar (Matches sem gi.terminalType) f W ∧
      value gi sem f w0 = (.ok [v], run.world) := by
  obtain ⟨W, c, tr, st, w, res, hW, hf⟩ := hc.finish' hrun
  rcases hf.done with ⟨v', st', w', rfl, rfl⟩ | ⟨e, w', rfl, rfl⟩
  · cases hv
    cases hf.gen with
    | accept h1 _ h3 h4 h5 h6 h7 h8 =>
      obtain ⟨hz, ht⟩ := hc.accepted hf.steps h3
      refine ⟨W, _, hW, ?_, ht, ?_⟩
      · have hn := hf.next
        rw [hz, List.length_nil, Nat.sub_zero] at hn
        rw [← hn]
        rcases hf.peek with ⟨f, hp⟩ | hp
        · exact absurd hp (h1 f)
        · rw [hp, hz]; rfl
      · rw [← value_eq]; exact h6
  · cases hv

/-- **C18.** If a generated parser returns `Ok(v)` then the items before the first `None` are tokens, they
have a parse tree, and evaluating its constructors from the bottom up and from left to right gives `v`
(and has the side effects of the run). -/
theorem ok_is_value_of_tree (h : Generated o lex gi prog) (debug : Bool) (sem : Sem P V E σ)
    (into : F' → E) (items : Nat → Option (Item P F')) (fuel : Nat) (w0 : σ) (run : Run P V E σ) (v : Val P V)
    (hrun : prog.parseFallible debug sem into items fuel w0 = .ok run) (hv : run.result = .ok v) :
    ∃ W f, (∀ i a, W[i]? = some a → items i = some (.ok a)) ∧ items W.length = none ∧
      ParseTreeM gi.grammar (Matches sem gi.terminalType) f W ∧
      value gi sem f w0 = (.ok [v], run.world) := by
  obtain ⟨F, kt, -, hc⟩ := h.ctx
  exact hc.ok_is_value hrun hv

example : ∃ gi prog run, Generated .id Sample.lexer gi prog ∧
    prog.parseFallible true Sample.sem id
      (Sample.stream [.unit "Plus", .unit "Plus", .data "Num" 5] none) 50 0 = .ok run ∧
    run.result = .ok (.user 623) := by
  obtain ⟨gi, prog, h, -, -, hi, hp⟩ := Sample.generated
  obtain ⟨run, h1, h2, -⟩ := Sample.run_of hi hp Sample.value623
  exact ⟨gi, prog, run, h, h1, h2⟩

end C18

/-- A constructor fails after the tokens `u` have been read: `u` is the yield of a list of parse trees
`ts ++ [node i cs]`; all constructors in `ts` and `cs` succeed (bottom up, from left to right), and running
the constructor of rule `i` on the values of `cs` gives the error `e`. -/
def ConstructorFails (gi : GrammarInfo) (sem : Sem P V E σ) (w0 : σ) (u : List (Token P)) (e : E) (w' : σ) :
    Prop :=
  ∃ ts cs i α vs us w1,
    ParsesM gi.grammar.productions (Matches sem gi.terminalType)
      (Forest.ofTrees (ts ++ [.node i (Forest.ofTrees cs)])) α u ∧
    value gi sem (Forest.ofTrees (ts ++ cs)) w0 = (.ok (vs ++ us), w1) ∧ us.length = cs.length ∧
    construct gi sem i us w1 = (.error e, w')

/-- All constructors that have run after the tokens `u` have been read succeeded. -/
def AllSucceed (gi : GrammarInfo) (sem : Sem P V E σ) (w0 : σ) (u : List (Token P)) (w' : σ) : Prop :=
  ∃ f α vs, ParsesM gi.grammar.productions (Matches sem gi.terminalType) f α u ∧
    value gi sem f w0 = (.ok vs, w')

theorem split_length {α : Type} {l : List α} {k : Nat} (hk : k ≤ l.length) :
    ∃ a b, l = a ++ b ∧ b.length = k :=
  ⟨l.take (l.length - k), l.drop (l.length - k), (List.take_append_drop ..).symm, by
    rw [List.length_drop]; omega⟩

/-- A failing reduction, in terms of the user's grammar. -/
theorem constructorFails_of {F : FirstTable} {kt : KernelTable} (hc : GenCtx o lex gi prog F kt)
    {c : Config Nat Nat (Token P)} {w0 w w' : σ} {e : E}
    {ss : List (Nat × Val P V)} {i k : Nat} {β : List INode} {u : List (Token P)}
    (hh : Holds gi F kt sem w0 ss w c) (hk : k ≤ c.trees.length)
    (hp : ParsesM gi.indexedGrammar.cfg (gi.tokMatch sem) (Forest.ofTrees (reduceTrees i k c.trees)) β u)
    (he : eval .tok (fun i => construct gi sem (gi.indexedGrammar.orig i))
      (Forest.ofTrees (reduceTrees i k c.trees)) w0 = (.error e, w')) :
    ConstructorFails gi sem w0 u e w' := by
  obtain ⟨vs, -, hv⟩ := hh
  obtain ⟨ts, cs, hts, hcs⟩ := split_length hk
  have hlen : vs.length = c.trees.length := by
    rw [eval_length hv, Forest.trees_ofTrees]
  obtain ⟨vs1, us, rfl, hus⟩ := split_length (l := vs) (k := k) (by omega)
  rw [eval_reduce hv hus] at he
  obtain ⟨α, hα⟩ := parsesM_user hc.enc hp
  rw [hts, reduceTrees_append hcs, ofTrees_mapRules] at hα
  refine ⟨ts.map (Tree.mapRules gi.indexedGrammar.orig), cs.map (Tree.mapRules gi.indexedGrammar.orig),
    gi.indexedGrammar.orig i, α, vs1, us, w, ?_, ?_, ?_, ?_⟩
  · simpa [Tree.mapRules, ofTrees_mapRules] using hα
  · rw [← List.map_append, ← ofTrees_mapRules, ← value_eq, ← hts]
    exact hv
  · simp [hus, hcs]
  · generalize construct gi sem (gi.indexedGrammar.orig i) us w = x at he
    obtain ⟨x, w2⟩ := x
    cases x with
    | error e' => simpa [andThen] using he
    | ok v => cases he

namespace C23

/-- **C23.** A user error is an error of the stream that was just pulled, or the error of a constructor: the
first to fail, bottom up and from left to right. No token beyond the lookahead has been pulled, and the side
effects are those of the constructors up to the failing one. -/
theorem user_error_is_first_failure (h : Generated o lex gi prog) (debug : Bool) (sem : Sem P V E σ)
    (into : F' → E) (items : Nat → Option (Item P F')) (fuel : Nat) (w0 : σ) (run : Run P V E σ) (e : E)
    (hrun : prog.parseFallible debug sem into items fuel w0 = .ok run)
    (he : run.result = .error (.user e)) :
    ∃ u, (∀ i a, u[i]? = some a → items i = some (.ok a)) ∧ run.pulled = u.length + 1 ∧
      ((∃ f, items u.length = some (.error f) ∧ e = into f ∧ AllSucceed gi sem w0 u run.world) ∨
        ((∀ f, items u.length ≠ some (.error f)) ∧ ConstructorFails gi sem w0 u e run.world)) := by
  obtain ⟨F, kt, -, hc⟩ := h.ctx
  obtain ⟨W, c, tr, st, w, res, hW, hf⟩ := hc.finish' hrun
  have hsane := Sane.start.steps hf.steps
  obtain ⟨u, h1, h2⟩ := hsane.parses
  have hu : ∀ i a, u[i]? = some a → items i = some (.ok a) := by
    intro i a hi
    apply hW
    rw [h2, List.getElem?_append_left (List.getElem?_eq_some_iff.mp hi).1]
    exact hi
  have hlen : run.pulled = u.length + 1 := by
    have h3 := hf.pulled
    rw [hf.total]
    rw [h2, List.length_append] at h3
    omega
  have hnext : st.next = items u.length := by
    rw [hf.next]
    congr 1
    rw [h2, List.length_append]
    omega
  refine ⟨u, hu, hlen, ?_⟩
  rcases hf.done with ⟨v', st', w', rfl, rfl⟩ | ⟨e', w', rfl, rfl⟩
  · cases he
  · simp only [Except.error.injEq] at he
    subst he
    have hg := hf.gen
    generalize hx : StepResult.fail (ParseErr.user e) w' = x at hg
    cases hg with
    | @stream f hfe =>
      cases hx
      left
      refine ⟨f, by rw [← hnext]; exact hfe, rfl, ?_⟩
      obtain ⟨vs, -, hv⟩ := hf.holds
      obtain ⟨α, h3⟩ := parsesM_user hc.enc h1
      exact ⟨_, α, vs, h3, by rw [← value_eq]; exact hv⟩
    | @reduceFail c' i w'' e'' g1 g2 g3 g4 =>
      cases hx
      right
      refine ⟨fun f hn => g1 f (by rw [hnext]; exact hn), ?_⟩
      have hsane' := hsane.step g3
      cases g3 with
      | @reduce γ ts z x i r k1 k2 k3 =>
        obtain ⟨u', h3, h4⟩ := hsane'.parses
        have : u' = u := by
          have : u' ++ z = u ++ z := by rw [← h4]; exact h2
          exact List.append_cancel_right this
        subst this
        refine constructorFails_of hc hf.holds ?_ h3 g4
        have := hsane.length
        simp only [List.length_append] at this
        simp only
        omega
    | @acceptFail r w'' e'' g1 g2 g3 g4 g5 g6 =>
      cases hx
      right
      refine ⟨fun f hn => g1 f (by rw [hnext]; exact hn), ?_⟩
      obtain ⟨hz, r', hr, -, h4⟩ := hf.steps.sound hc.good.rootOk g3
      have hWu : W = u := by rw [h2, hz, List.append_nil]
      rw [hWu] at h4
      have e1 : Forest.node 0 (Forest.ofTrees c.trees) .nil =
          Forest.ofTrees (reduceTrees 0 c.trees.length c.trees) := by
        simp [reduceTrees, Forest.ofTrees]
      rw [e1] at h4 g6
      exact constructorFails_of hc hf.holds (Nat.le_refl _) h4 g6
    | overlap => cases hx
    | stuck => cases hx
    | shift => cases hx
    | reduce => cases hx
    | accept => cases hx

/-- **C23.** If parsing fails for another reason, then no constructor has failed. -/
theorem other_errors_without_failure (h : Generated o lex gi prog) (debug : Bool) (sem : Sem P V E σ)
    (into : F' → E) (items : Nat → Option (Item P F')) (fuel : Nat) (w0 : σ) (run : Run P V E σ)
    (x : ParseErr P E) (hrun : prog.parseFallible debug sem into items fuel w0 = .ok run)
    (he : run.result = .error x) (hx : ∀ e, x ≠ .user e) :
    ∃ u, (∀ i a, u[i]? = some a → items i = some (.ok a)) ∧ run.pulled = u.length + 1 ∧
      AllSucceed gi sem w0 u run.world := by
  obtain ⟨F, kt, -, hc⟩ := h.ctx
  obtain ⟨W, c, tr, st, w, res, hW, hf⟩ := hc.finish' hrun
  obtain ⟨u, h1, h2⟩ := (Sane.start.steps hf.steps).parses
  refine ⟨u, ?_, ?_, ?_⟩
  · intro i a hi
    apply hW
    rw [h2, List.getElem?_append_left (List.getElem?_eq_some_iff.mp hi).1]
    exact hi
  · have h3 := hf.pulled
    rw [hf.total]
    rw [h2, List.length_append] at h3
    omega
  · obtain ⟨vs, -, hv⟩ := hf.holds
    obtain ⟨α, h3⟩ := parsesM_user hc.enc h1
    refine ⟨_, α, vs, h3, ?_⟩
    rw [← value_eq]
    rcases hf.done with ⟨v', st', w', rfl, rfl⟩ | ⟨e', w', rfl, rfl⟩
    · cases he
    · cases he
      cases hf.gen with
      | stream => exact absurd rfl (hx _)
      | reduceFail => exact absurd rfl (hx _)
      | acceptFail => exact absurd rfl (hx _)
      | overlap => exact hv
      | stuck => exact hv

example : ∃ gi prog run, Generated .id Sample.lexer gi prog ∧
    prog.parseFallible true Sample.sem id
      (Sample.stream [.unit "Plus", .data "Num" 13] none) 50 0 = .ok run ∧
    run.result = .error (.user "unlucky") := by
  obtain ⟨gi, prog, h, -, -, hi, hp⟩ := Sample.generated
  obtain ⟨run, h1, h2, -⟩ := Sample.run_of hi hp Sample.unlucky
  exact ⟨gi, prog, run, h, h1, h2⟩

end C23

namespace C24

/-- **C24.** If the stream has an error at position `k`, nothing beyond it is pulled; if the run gets to it,
the result is that error, converted; otherwise the run has failed before. -/
theorem stream_error_when_reached (h : Generated o lex gi prog) (debug : Bool) (sem : Sem P V E σ)
    (into : F' → E) (items : Nat → Option (Item P F')) (fuel : Nat) (w0 : σ) (run : Run P V E σ) (k : Nat)
    (f : F') (hrun : prog.parseFallible debug sem into items fuel w0 = .ok run)
    (hk : items k = some (.error f)) :
    run.pulled ≤ k + 1 ∧ (run.pulled = k + 1 → run.result = .error (.user (into f))) ∧
      ((∀ i < k, ∃ a, items i = some (.ok a)) → ∀ v, run.result ≠ .ok v) := by
  obtain ⟨F, kt, -, hc⟩ := h.ctx
  obtain ⟨W, c, tr, st, w, res, hW, hf⟩ := hc.finish' hrun
  have hp := hf.pulled
  have ht := hf.total
  have hle : run.pulled ≤ k + 1 := by
    by_contra hlt
    have hkW : k < W.length := by omega
    have := hW k W[k] (List.getElem?_eq_getElem hkW)
    rw [hk] at this
    cases this
  refine ⟨hle, ?_, ?_⟩
  · intro e
    have hn := hf.next
    have : W.length - c.input.length = k := by omega
    rw [this, hk] at hn
    rcases hf.done with ⟨v', st', w', rfl, rfl⟩ | ⟨e', w', rfl, rfl⟩
    · cases hf.gen with
      | accept h1 => exact absurd hn (h1 f)
    · cases hf.gen with
      | stream h1 => rw [hn] at h1; cases h1; rfl
      | overlap h1 => exact absurd hn (h1 f)
      | reduceFail h1 => exact absurd hn (h1 f)
      | acceptFail h1 => exact absurd hn (h1 f)
      | stuck h1 => exact absurd hn (h1 f)
  · intro htok v hv
    obtain ⟨W', f', h1, h2, -⟩ := C18.ok_is_value_of_tree h debug sem into items fuel w0 run v hrun hv
    have hle : W'.length < k ∨ k ≤ W'.length := by omega
    rcases hle with hlt | hge
    · obtain ⟨a, ha⟩ := htok _ hlt
      rw [h2] at ha; cases ha
    · rcases Nat.eq_or_lt_of_le hge with heq | hlt
      · rw [heq, h2] at hk; cases hk
      · have := h1 k W'[k] (List.getElem?_eq_getElem hlt)
        rw [hk] at this; cases this

/-- **C24.** Items that have not been pulled do not influence the result. -/
theorem unpulled_items_do_not_matter (prog : Program) (debug : Bool) (sem : Sem P V E σ)
    (into : F' → E) (items items' : Nat → Option (Item P F')) (fuel : Nat) (w0 : σ) (run : Run P V E σ)
    (hrun : prog.parseFallible debug sem into items fuel w0 = .ok run)
    (hag : ∀ i < run.pulled, items i = items' i) :
    prog.parseFallible debug sem into items' fuel w0 = .ok run := by
  have hpos : 0 < run.pulled := by
    have := Program.loop_pulled hrun
    simp only [PState.new] at this
    omega
  unfold Program.parseFallible at hrun ⊢
  have e : PState.new items' (LRTable.rootState, (.unit : Val P V)) =
      PState.new items (LRTable.rootState, (.unit : Val P V)) := by
    unfold PState.new
    rw [hag 0 hpos]
  rw [e]
  exact Program.loop_causal hrun hag

/-- **C24.** In particular items after an error have no influence. -/
theorem items_after_error_do_not_matter (h : Generated o lex gi prog) (debug : Bool) (sem : Sem P V E σ)
    (into : F' → E) (items items' : Nat → Option (Item P F')) (fuel : Nat) (w0 : σ) (run : Run P V E σ)
    (k : Nat) (f : F') (hrun : prog.parseFallible debug sem into items fuel w0 = .ok run)
    (hk : items k = some (.error f)) (hag : ∀ i ≤ k, items i = items' i) :
    prog.parseFallible debug sem into items' fuel w0 = .ok run := by
  have := (stream_error_when_reached h debug sem into items fuel w0 run k f hrun hk).1
  exact unpulled_items_do_not_matter prog debug sem into items items' fuel w0 run hrun
    fun i hi => hag i (by omega)

example : ∃ gi prog run, Generated .id Sample.lexer gi prog ∧
    prog.parseFallible true Sample.sem id (Sample.stream [.unit "Plus"] (some "i/o")) 50 0 = .ok run ∧
    Sample.stream [.unit "Plus"] (some "i/o") 1 = some (.error "i/o") ∧ run.pulled = 2 := by
  obtain ⟨gi, prog, h, -, -, hi, hp⟩ := Sample.generated
  obtain ⟨run, h1, h2, -, h3⟩ := Sample.run_of hi hp Sample.broken
  exact ⟨gi, prog, run, h, h1, rfl, h3⟩

end C24

namespace C25

/-- **C25.** `parse` is `parse_fallible` on the stream of successes, whatever the type of errors. -/
theorem parse_is_parse_fallible (prog : Program) (debug : Bool) (sem : Sem P V E σ) (into : F' → E)
    (tokens : Nat → Option (Token P)) (fuel : Nat) (w0 : σ) :
    prog.parse debug sem tokens fuel w0 =
      prog.parseFallible debug sem into (fun i => (tokens i).map .ok) fuel w0 := by
  unfold Program.parse Program.parseFallible
  have e := loop_conv (sem := sem) (prog := prog) (debug := debug) (fun e : Empty => (nomatch e : F')) into
    (fun i => (tokens i).map .ok) fuel (PState.new (fun i => (tokens i).map .ok) (LRTable.rootState, .unit)) w0
  have e1 : convItems (fun e : Empty => (nomatch e : F')) (fun i => (tokens i).map .ok) =
      fun i => (tokens i).map (.ok : Token P → Item P F') := by
    funext i
    unfold convItems
    simp only
    cases tokens i <;> rfl
  have e2 : (PState.new (fun i => (tokens i).map (.ok : Token P → Item P Empty))
      (LRTable.rootState, (.unit : Val P V))).conv (fun e : Empty => (nomatch e : F')) =
      PState.new (fun i => (tokens i).map .ok) (LRTable.rootState, .unit) := by
    unfold PState.new PState.conv
    simp only
    cases tokens 0 <;> rfl
  have e3 : (into ∘ fun e : Empty => (nomatch e : F')) = fun e : Empty => (nomatch e : E) := by
    funext x; exact nomatch x
  rw [e1, e2, e3] at e
  exact e.symm

/-- **C25.** A user error from `parse` comes from a constructor. -/
theorem parse_user_error (h : Generated o lex gi prog) (debug : Bool) (sem : Sem P V E σ)
    (tokens : Nat → Option (Token P)) (fuel : Nat) (w0 : σ) (run : Run P V E σ) (e : E)
    (hrun : prog.parse debug sem tokens fuel w0 = .ok run) (he : run.result = .error (.user e)) :
    ∃ u, (∀ i a, u[i]? = some a → tokens i = some a) ∧ run.pulled = u.length + 1 ∧
      ConstructorFails gi sem w0 u e run.world := by
  obtain ⟨u, h1, h2, ⟨f, -⟩ | ⟨-, h3⟩⟩ :=
    C23.user_error_is_first_failure h debug sem _ _ fuel w0 run e hrun he
  · exact nomatch f
  · refine ⟨u, ?_, h2, h3⟩
    intro i a hi
    have := h1 i a hi
    cases ht : tokens i with
    | none => rw [ht] at this; cases this
    | some b => rw [ht] at this; cases this; rfl

example : ∃ gi prog run, Generated .id Sample.lexer gi prog ∧
    prog.parse true Sample.sem (fun i => [.unit "Plus", .data "Num" 13][i]?) 50 0 = .ok run ∧
    run.result = .error (.user "unlucky") := by
  obtain ⟨gi, prog, h, -, -, hi, hp⟩ := Sample.generated
  obtain ⟨run, h1, h2, -⟩ := Sample.run_of hi hp Sample.unlucky
  refine ⟨gi, prog, run, h, ?_, h2⟩
  rw [parse_is_parse_fallible (into := id)]
  rw [← h1]
  congr 1
  funext i
  unfold Sample.stream
  cases ([.unit "Plus", .data "Num" 13] : List (Token Nat))[i]? <;> simp

end C25

namespace C26

/-- **C26.** At any point of a run, all but the last item pulled are tokens that have been shifted; the
values on the stack are those of parse trees for these tokens. -/
theorem one_token_ahead (h : Generated o lex gi prog) (debug : Bool) (sem : Sem P V E σ)
    (into : F' → E) (items : Nat → Option (Item P F')) (w0 : σ) (st : PState P V F') (w : σ)
    (hr : GenReach debug sem into items prog w0 st w) :
    ∃ u f α vs, (∀ i a, u[i]? = some a → items i = some (.ok a)) ∧ st.pulled = u.length + 1 ∧
      st.next = items u.length ∧
      ParsesM gi.grammar.productions (Matches sem gi.terminalType) f α u ∧
      value gi sem f w0 = (.ok vs, w) ∧ st.stack.map Prod.snd = vs.reverse ++ [.unit] := by
  obtain ⟨F, kt, -, hc⟩ := h.ctx
  obtain ⟨W, c, tr, hW, h1, h2, h3, h4, h5⟩ := hc.reach' hr
  obtain ⟨u, α, h6, h7⟩ := hc.read h1
  obtain ⟨vs, h8, h9⟩ := h2
  have hl : W.length = u.length + c.input.length := by rw [h6, List.length_append]
  refine ⟨u, _, α, vs, ?_, by omega, ?_, h7, by rw [← value_eq]; exact h9, h8.values⟩
  · intro i a hi
    apply hW
    rw [h6, List.getElem?_append_left (List.getElem?_eq_some_iff.mp hi).1]
    exact hi
  · rw [h4]; congr 1; omega

/-- **C26.** The result depends only on the items pulled. -/
theorem result_depends_on_pulled (prog : Program) (debug : Bool) (sem : Sem P V E σ)
    (into : F' → E) (items items' : Nat → Option (Item P F')) (fuel : Nat) (w0 : σ) (run : Run P V E σ)
    (hrun : prog.parseFallible debug sem into items fuel w0 = .ok run)
    (hag : ∀ i < run.pulled, items i = items' i) :
    prog.parseFallible debug sem into items' fuel w0 = .ok run :=
  C24.unpulled_items_do_not_matter prog debug sem into items items' fuel w0 run hrun hag

example : ∃ gi prog, Generated .id Sample.lexer gi prog ∧
    ∃ st w, GenReach true Sample.sem id (Sample.stream [.unit "Plus"] none) prog 0 st w := by
  obtain ⟨gi, prog, h, -⟩ := Sample.generated
  exact ⟨gi, prog, h, _, _, .start⟩

end C26

namespace C41

/-- **C41.** When a generated parser accepts, only the root state is left on the stack, and all items before
the end of the input have been shifted. -/
theorem accept_empties_stack (h : Generated o lex gi prog) (debug : Bool) (sem : Sem P V E σ)
    (into : F' → E) (items : Nat → Option (Item P F')) (fuel : Nat) (w0 : σ) (run : Run P V E σ) (v : Val P V)
    (hrun : prog.parseFallible debug sem into items fuel w0 = .ok run) (hv : run.result = .ok v) :
    run.stack = [(LRTable.rootState, .unit)] ∧
      ∃ W : List (Token P), (∀ i a, W[i]? = some a → items i = some (.ok a)) ∧ items W.length = none ∧
        run.pulled = W.length + 1 := by
  obtain ⟨F, kt, -, hc⟩ := h.ctx
  obtain ⟨W, c, tr, st, w, res, hW, hf⟩ := hc.finish' hrun
  have ht := hf.total
  rcases hf.done with ⟨v', st', w', rfl, rfl⟩ | ⟨e, w', rfl, rfl⟩
  · cases hv
    cases hf.gen with
    | accept h1 _ h3 h4 h5 h6 h7 h8 =>
      obtain ⟨hz, -⟩ := hc.accepted hf.steps h3
      have hp := hf.pulled
      rw [hz] at hp
      refine ⟨h7, W, hW, ?_, ?_⟩
      · have hn := hf.next
        rw [hz, List.length_nil, Nat.sub_zero] at hn
        rw [← hn]
        rcases hf.peek with ⟨f, hp⟩ | hp
        · exact absurd hp (h1 f)
        · rw [hp, hz]; rfl
      · rw [ht]; simpa using hp
  · cases hv

example : ∃ gi prog run, Generated .id Sample.lexer gi prog ∧
    prog.parseFallible true Sample.sem id
      (Sample.stream [.unit "Plus", .unit "Plus", .data "Num" 5] none) 50 0 = .ok run ∧
    run.result = .ok (.user 623) := by
  obtain ⟨gi, prog, h, -, -, hi, hp⟩ := Sample.generated
  obtain ⟨run, h1, h2, -⟩ := Sample.run_of hi hp Sample.value623
  exact ⟨gi, prog, run, h, h1, h2⟩

end C41
end
end Verif
