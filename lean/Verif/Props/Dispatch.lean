import Verif.Proof.Dispatch
import Verif.Props.Label
import Verif.Props.RepairMore

/-!
# C95: alternatives told apart by their first token
-/

set_option linter.unusedSectionVars false
set_option autoImplicit false

namespace Verif.C95

open Spec

section
variable {T L : Type} [DecidableEq T] [DecidableEq L] {g g' : Grammar T L} {ig : IndexedGrammar T L} {S M : L}

theorem reachable {rest : List (Rule T L)} {root : Rule T L} (h : Dispatch S M g.productions)
    (e : g.productions = root :: rest) {k : T} {l : L}
    (hm : ⟨M, [.terminal (.token k), .production l]⟩ ∈ g.productions) : Reachable g.productions root.symbol l := by
  have h0 := h.root
  rw [e] at h0
  cases h0
  have h1 : Reachable g.productions S M :=
    .step (r := ⟨S, [.production M]⟩) .root (List.mem_of_getElem? h.root) (by simp)
  exact .step (r := ⟨M, [.terminal (.token k), .production l]⟩) h1 hm (by simp)

theorem nonempty (h : Dispatch S M g.productions) :
    ∃ rest, g.productions = ⟨S, [.production M]⟩ :: rest := by
  have := h.root
  cases e : g.productions with
  | nil => rw [e] at this; cases this
  | cons r rest => rw [e] at this; cases this; exact ⟨rest, rfl⟩

/-- **C95.** The grammar is LR(1) if and only if the grammars for its alternatives are. -/
theorem lr1_iff (hp : Productive g.productions) (hne : NoEndMarker g) (hi : IndexedGrammar.build g = .ok ig)
    (h : Dispatch S M g.productions)
    (hr : ∀ k l, ⟨M, [.terminal (.token k), .production l]⟩ ∈ g.productions →
      ∃ ρ s P', RootedAt ρ s l g.productions P') :
    ¬ NotLR1 g.productions ↔ ∀ k l, ⟨M, [.terminal (.token k), .production l]⟩ ∈ g.productions →
      ∀ ρ s P', RootedAt ρ s l g.productions P' → ¬ NotLR1 P' := by
  constructor
  · intro hl k l hm ρ s P' hr' hn
    obtain ⟨rest, e⟩ := nonempty h
    have hre := reachable h e hm
    obtain ⟨is, δ, z, hform⟩ := reachable_form (C81.nodesProductive hi hne hp) hre
    exact hl (hr'.notLR1 (C82.new_ne (g' := ⟨P'⟩) hi e hre hr') (C81.rootUnused hi hp) h.root hform hn)
  · intro hl
    refine h.lr1 (C81.rootOnce hi) fun k l hm => ?_
    obtain ⟨ρ, s, P', hr'⟩ := hr k l hm
    exact ⟨ρ, s, P', hr', hl k l hm ρ s P' hr'⟩

/-- **C95, partial.** If the grammars for the alternatives get tables, then the whole grammar gets a parser. (Missing:
alternatives with missing actions, for which this is false.) -/
theorem alternatives_accepted_partial (hg : WellFormed g) (hp : Productive g.productions)
    (hi : IndexedGrammar.build g = .ok ig) (h : Dispatch S M g.productions)
    (hl : ∀ k l, ⟨M, [.terminal (.token k), .production l]⟩ ∈ g.productions →
      ∃ ρ s g' n p', RootedAt ρ s l g.productions g'.productions ∧ C07.ActionsComplete g' ∧ SimParser.new n g' = .ok p') :
    ∃ N, ∀ fuel ≥ N, ∃ p, SimParser.new fuel g = .ok p := by
  obtain ⟨rest, e⟩ := nonempty h
  obtain ⟨N, hN⟩ := C81.lr1_gets_table hg hp hi (h.lr1 (C81.rootOnce hi) fun k l hm => by
    obtain ⟨ρ, s, g', n, p', hr, hc, hn⟩ := hl k l hm
    obtain ⟨hi', ht'⟩ := new_ok hn
    exact ⟨ρ, s, g'.productions, hr, C81.table_is_lr1_partial (C82.wellFormed hg hr)
      (C82.productive hi hp e (reachable h e hm) hr) hi' hc ht'⟩)
  refine ⟨N, fun fuel hf => ?_⟩
  obtain ⟨t, ht⟩ := hN fuel hf
  exact ⟨⟨ig, t⟩, by simp [SimParser.new, hi, ht]⟩

/-- **C95.** What the parser accepts is the token of an alternative followed by what the alternative derives. -/
theorem accepts_only {p : SimParser T L} {n m : Nat} (hg : WellFormed g) (h : Dispatch S M g.productions)
    (hn : SimParser.new n g = .ok p) (w : List T) (ha : (p.parseStream m w : Outcome (LRTableError T L) _) = .ok true) :
    ∃ k l v, ⟨M, [.terminal (.token k), .production l]⟩ ∈ g.productions ∧ w = k :: v ∧
      Derives g.productions [.production l] v := by
  obtain ⟨root, rest, e, hd⟩ := C01.accepts_only_sentences g p n m w hg hn ha
  obtain ⟨rest', e'⟩ := nonempty h
  rw [e'] at e
  cases e
  exact (h.derives_iff (C81.rootOnce (new_ok hn).1)).mp hd

/-- **C95, partial.** On the token of an alternative followed by other tokens, the parser answers what the parser for this
alternative answers on these. (Missing: grammars with missing actions.) -/
theorem alternative_decides_partial {p p' : SimParser T L} {n n' : Nat} {ρ : Nat → Nat} {s l : L} {k : T} (hg : WellFormed g)
    (h : Dispatch S M g.productions) (hc : C07.ActionsComplete g) (hn : SimParser.new n g = .ok p)
    (hm : ⟨M, [.terminal (.token k), .production l]⟩ ∈ g.productions)
    (hr : RootedAt ρ s l g.productions g'.productions) (hc' : C07.ActionsComplete g') (hn' : SimParser.new n' g' = .ok p')
    (v : List T) : ∃ b N, ∀ fuel ≥ N, (p.parseStream fuel (k :: v) : Outcome (LRTableError T L) _) = .ok b ∧
      (p'.parseStream fuel v : Outcome (LRTableError T L) _) = .ok b := by
  obtain ⟨hi, -⟩ := new_ok hn
  obtain ⟨rest, e⟩ := nonempty h
  have ho := C81.rootOnce hi
  obtain ⟨b, N, h1, h2⟩ := C44.trailing_epsilon_partial g p n (k :: v) hg hc hn
  obtain ⟨b', N', h1', h2'⟩ := C82.label_decides_partial hg hi e (reachable h e hm) hr hc' hn' v
  have : b = b' := by
    rw [Bool.eq_iff_iff, h1, h1']
    constructor
    · rintro ⟨root, rest', e', hd⟩
      rw [e] at e'
      cases e'
      obtain ⟨k1, l1, v1, hm1, e1, hd⟩ := (h.derives_iff ho).mp hd
      cases e1
      obtain ⟨i, hi⟩ := List.mem_iff_getElem?.mp hm
      obtain ⟨j, hj⟩ := List.mem_iff_getElem?.mp hm1
      cases h.apart i j k l l1 hi hj
      rw [hi] at hj
      cases hj
      exact hd
    · exact fun hd => ⟨_, _, e, (h.derives_iff ho).mpr ⟨k, l, v, hm, rfl, hd⟩⟩
  subst this
  exact ⟨b, max N N', fun fuel hf => ⟨h2 fuel (by omega), h2' fuel (by omega)⟩⟩

theorem repaired_is_lr1 {p : SimParser T L} {n : Nat} (hg : WellFormed g) (hp : Productive g.productions)
    (hn : SimParser.newRepaired n g = .ok p) : ¬ NotLR1 g.productions := by
  obtain ⟨hi, ht⟩ := C88.newRepaired_ok hn
  have henc := (IndexedGrammar.build_ok hi).1
  obtain ⟨F, kt, hF, hfirst, hB⟩ := repaired_of_ok henc.wf ht
  have hn := noConflict_iff henc (sameFirst_true hi)
  rw [← hfirst] at hn
  exact (C81.noConflict_iff_lr1 (C81.nodesProductive hi hg.noEndMarker hp) hg.noEndMarker (C81.rootUnused hi hp)
    (C81.rootOnce hi)).mp (hn.mp (hB.noConflict henc.wf hF.wf (henc.epsLast hg.epsilonLast)))

/-- **C95 with the change of C88.** If the grammars for the alternatives get parsers, then the whole grammar gets a
parser that decides its language. -/
theorem alternatives_repaired (hg : WellFormed g) (hp : Productive g.productions)
    (hi : IndexedGrammar.build g = .ok ig) (h : Dispatch S M g.productions)
    (hl : ∀ k l, ⟨M, [.terminal (.token k), .production l]⟩ ∈ g.productions →
      ∃ ρ s g' n p', RootedAt ρ s l g.productions g'.productions ∧ SimParser.newRepaired n g' = .ok p') :
    ∃ N, ∀ fuel ≥ N, ∃ p, SimParser.newRepaired fuel g = .ok p ∧ C88.Decides g p := by
  obtain ⟨rest, e⟩ := nonempty h
  refine C88.lr1_parser hg hp hi (h.lr1 (C81.rootOnce hi) fun k l hm => ?_)
  obtain ⟨ρ, s, g', n, p', hr, hn⟩ := hl k l hm
  exact ⟨ρ, s, g'.productions, hr, repaired_is_lr1 (C82.wellFormed hg hr)
    (C82.productive hi hp e (reachable h e hm) hr) hn⟩

end

section
variable {P V E F' σ : Type} [DecidableEq P] {lex : Lexer} {o : HashOrder} {gi : GrammarInfo} {prog : Program}
  {S M : String} {sem : Sem P V E σ}

/-- What the constructors of the alternative `m` and of the root make of the token `a` and the values `us`. -/
def finish (gi : GrammarInfo) (sem : Sem P V E σ) (m : Nat) (a : Token P) (us : List (Val P V)) (w : σ) :
    Except E (Val P V) × σ :=
  andThen (construct gi sem m (.tok a :: us) w) fun u w => construct gi sem 0 [u] w

theorem value_dispatch (m : Nat) (a : Token P) (f : Forest (Token P)) (w : σ) :
    value gi sem (.node 0 (.node m (.tok a f) .nil) .nil) w =
      andThen (andThen (value gi sem f w) (finish gi sem m a)) fun v w => (.ok [v], w) := by
  simp only [value, eval]
  rcases eval Val.tok (construct gi sem) f w with ⟨e | us, w1⟩
  · rfl
  · simp only [andThen, finish]
    rcases construct gi sem m (.tok a :: us) w1 with ⟨e | u, w2⟩
    · rfl
    · rfl

theorem tree_dispatch (h : Dispatch S M gi.grammar.productions) (ho : RootOnce gi.grammar.productions)
    {mt : Token P → Sym → Prop} {f : Forest (Token P)} {W : List (Token P)} (hf : ParseTreeM gi.grammar mt f W) :
    ∃ m a k l c W', f = .node 0 (.node m (.tok a c) .nil) .nil ∧ W = a :: W' ∧ mt a k ∧
      gi.grammar.productions[m]? = some ⟨M, [.terminal (.token k), .production l]⟩ ∧
      ParsesM gi.grammar.productions mt c [.production l] W' := by
  obtain ⟨root, rest, e, hd⟩ := hf
  have h0 := h.root
  rw [e] at h0
  cases h0
  generalize hα : [Node.production S] = α at hd
  cases hd with
  | nil => cases hα
  | tok => cases hα
  | eps => cases hα
  | @prod i r c f α u w hr h1 h2 =>
    injection hα with e1 hα
    subst hα
    injection e1 with e1
    cases h2
    cases ho i _ r h.root hr e1.symm
    rw [h.root] at hr
    cases hr
    generalize hβ : [Node.production M] = β at h1
    cases h1 with
    | nil => cases hβ
    | tok => cases hβ
    | eps => cases hβ
    | @prod m r' c f β u w hr' h3 h4 =>
      injection hβ with e2 hβ
      subst hβ
      injection e2 with e2
      cases h4
      obtain ⟨k, l, hk⟩ := h.alt r' (List.mem_of_getElem? hr') e2.symm
      obtain ⟨sym, rule⟩ := r'
      simp only at e2 hk
      subst e2 hk
      cases h3 with
      | @tok _ a c _ W' hm h5 => exact ⟨m, a, k, l, c, W', rfl, by simp, hm, hr', h5⟩

/-- **C95.** A value that the generated parser returns is what the constructors of an alternative and of the root make of
the first token, which is one for this alternative, and of the value of a tree of the alternative for the rest. -/
theorem generated_value (h : Dispatch S M gi.grammar.productions) (hG : Generated o lex gi prog) (debug : Bool)
    (into : F' → E) (items : Nat → Option (Item P F')) (fuel : Nat) (w0 : σ) (run : Run P V E σ) (v : Val P V)
    (hrun : prog.parseFallible debug sem into items fuel w0 = .ok run) (hv : run.result = .ok v) :
    ∃ m a k l W f, (∀ i b, (a :: W)[i]? = some b → items i = some (.ok b)) ∧ items (W.length + 1) = none ∧
      gi.grammar.productions[m]? = some ⟨M, [.terminal (.token k), .production l]⟩ ∧ Matches sem gi.terminalType a k ∧
      ParsesM gi.grammar.productions (Matches sem gi.terminalType) f [.production l] W ∧
      andThen (value gi sem f w0) (finish gi sem m a) = (.ok v, run.world) := by
  obtain ⟨W, f, h1, h2, h3, h4⟩ := C18.ok_is_value_of_tree hG debug sem into items fuel w0 run v hrun hv
  obtain ⟨m, a, k, l, c, W', rfl, rfl, h5, h6, h7⟩ := tree_dispatch h (C81.rootOnce hG.grammar) h3
  refine ⟨m, a, k, l, W', c, h1, by simpa using h2, h6, h5, h7, ?_⟩
  rw [value_dispatch] at h4
  rcases hx : andThen (value gi sem c w0) (finish gi sem m a) with ⟨e | v', w1⟩
  · rw [hx] at h4
    simp [andThen] at h4
  · rw [hx] at h4
    simp [andThen] at h4
    rw [h4.1, h4.2]

/-- **C95, partial.** On a token of an alternative followed by what the alternative derives, the generated parser
evaluates the tree of the alternative and runs the constructors of the alternative and of the root. (Missing: grammars
with missing actions; overlapping patterns.) -/
theorem generated_evaluated_partial (h : Dispatch S M gi.grammar.productions) (hG : Generated o lex gi prog)
    (hD : gi.Disjoint sem) (hc : C07.ActionsComplete gi.grammar) (debug : Bool) (into : F' → E)
    (items : Nat → Option (Item P F')) (m : Nat) (a : Token P) (k : Sym) (l : String) (W : List (Token P))
    (f : Forest (Token P)) (w0 : σ) (hW : ∀ i b, (a :: W)[i]? = some b → items i = some (.ok b))
    (hend : items (W.length + 1) = none)
    (hm : gi.grammar.productions[m]? = some ⟨M, [.terminal (.token k), .production l]⟩)
    (ha : Matches sem gi.terminalType a k)
    (hf : ParsesM gi.grammar.productions (Matches sem gi.terminalType) f [.production l] W) :
    ∃ N run, (∀ fuel ≥ N, prog.parseFallible debug sem into items fuel w0 = .ok run) ∧
      ((∃ v, andThen (value gi sem f w0) (finish gi sem m a) = (.ok v, run.world) ∧ run.result = .ok v) ∨
        ∃ e, andThen (value gi sem f w0) (finish gi sem m a) = (.error e, run.world) ∧
          run.result = .error (.user e)) := by
  obtain ⟨rest, e⟩ := nonempty (g := gi.grammar) h
  have ht : ParseTreeM gi.grammar (Matches sem gi.terminalType) (.node 0 (.node m (.tok a f) .nil) .nil) (a :: W) := by
    refine ⟨_, _, e, ?_⟩
    have h1 := ParsesM.prod hm (.tok ha hf) .nil
    have h2 := ParsesM.prod h.root h1 .nil
    simpa using h2
  obtain ⟨N, run, hN, hres⟩ := C19.sentences_are_evaluated_partial hG debug sem into items (a :: W) _ w0 hD hc hW
    (by simpa using hend) ht
  refine ⟨N, run, hN, ?_⟩
  rw [value_dispatch] at hres
  rcases hx : andThen (value gi sem f w0) (finish gi sem m a) with ⟨e | v', w1⟩
  · rw [hx] at hres
    simpa [andThen] using hres
  · rw [hx] at hres
    simpa [andThen] using hres

end

/-! ## Concrete cases -/

section
variable {P P' : List (Rule Nat Nat)} {s l : Nat}

/-- The rule numbers `nums`, and others beyond. -/
def numbering (P : List (Rule Nat Nat)) (nums : List Nat) (i : Nat) : Nat := (nums[i - 1]?).getD (P.length + i)

theorem rooted (nums labels : List Nat) (h0 : P'[0]? = some ⟨s, [.production l]⟩)
    (hf : ∀ r ∈ P'.tail, r.symbol ≠ s ∧ .production s ∉ r.rule) (hg : P'.tail.map some = nums.map (P[·]?))
    (hn : nums.Nodup) (hr : ∀ r ∈ P'.tail, Reachable P l r.symbol) (hl : l ∈ labels)
    (hc : ∀ r ∈ P, r.symbol ∈ labels → ∀ n ∈ r.rule, ∀ a, n = .production a → a ∈ labels)
    (ha : ∀ j r, P[j]? = some r → r.symbol ∈ labels → j ∈ nums) : RootedAt (numbering P nums) s l P P' := by
  have tail : ∀ {i : Nat} {r : Rule Nat Nat}, i ≠ 0 → P'[i]? = some r → P'.tail[i - 1]? = some r := by
    intro i r hi h
    obtain ⟨i, rfl⟩ : ∃ k, i = k + 1 := ⟨i - 1, by omega⟩
    simpa using h
  have get : ∀ {i m : Nat}, nums[i]? = some m → ∃ r, P[m]? = some r ∧ P'.tail[i]? = some r := by
    intro i m h
    have h1 := congrArg (·[i]?) hg
    simp only [List.getElem?_map, h, Option.map_some] at h1
    obtain ⟨r, h2, h3⟩ := Option.map_eq_some_iff.mp h1
    exact ⟨r, h3.symm, h2⟩
  have low : ∀ {i m : Nat}, nums[i]? = some m → m < P.length := by
    intro i m h
    obtain ⟨r, h1, -⟩ := get h
    exact (List.getElem?_eq_some_iff.mp h1).1
  refine ⟨h0, fun i r hi h => hf r (List.mem_of_getElem? (tail hi h)), ?_, ?_,
    fun i r hi h => hr r (List.mem_of_getElem? (tail hi h)), ?_⟩
  · intro i r hi h
    have h1 := tail hi h
    have h2 := congrArg (·[i - 1]?) hg
    simp only [List.getElem?_map, h1, Option.map_some] at h2
    obtain ⟨m, h3, h4⟩ := Option.map_eq_some_iff.mp h2.symm
    simp [numbering, h3, h4]
  · intro i j hi hj e
    unfold numbering at e
    cases h1 : nums[i - 1]? with
    | none =>
      cases h2 : nums[j - 1]? with
      | none => simp only [h1, h2, Option.getD_none] at e; omega
      | some m => simp only [h1, h2, Option.getD_none, Option.getD_some] at e; have := low h2; omega
    | some m =>
      cases h2 : nums[j - 1]? with
      | none => simp only [h1, h2, Option.getD_none, Option.getD_some] at e; have := low h1; omega
      | some m' =>
        simp only [h1, h2, Option.getD_some] at e
        subst e
        obtain ⟨k1, -⟩ := List.getElem?_eq_some_iff.mp h1
        have := (List.getElem?_inj k1 hn).mp (h1.trans h2.symm)
        omega
  · intro j r hr hre
    have hin : ∀ a, Reachable P l a → a ∈ labels := by
      intro a h
      induction h with
      | root => exact hl
      | step _ hr hm ih => exact hc _ hr ih _ hm _ rfl
    obtain ⟨i, hi⟩ := List.mem_iff_getElem?.mp (ha j r hr (hin _ hre))
    obtain ⟨r', h1, h2⟩ := get hi
    rw [hr] at h1
    cases h1
    exact ⟨i + 1, by simp, by simp [numbering, hi], by simpa using h2⟩

end

/-- `S -> M; M -> x A | y B; A -> a A | !; B -> b A`. -/
def menu : Grammar Nat Nat :=
  ⟨[⟨0, [.production 1]⟩, ⟨1, [.terminal (.token 1), .production 2]⟩, ⟨1, [.terminal (.token 2), .production 3]⟩,
    ⟨2, [.terminal (.token 3), .production 2]⟩, ⟨2, [.terminal .epsilon]⟩, ⟨3, [.terminal (.token 4), .production 2]⟩]⟩

/-- `S -> A; A -> a A | !`. -/
def menuA : Grammar Nat Nat :=
  ⟨[⟨0, [.production 2]⟩, ⟨2, [.terminal (.token 3), .production 2]⟩, ⟨2, [.terminal .epsilon]⟩]⟩

/-- `S -> B; A -> a A | !; B -> b A`. -/
def menuB : Grammar Nat Nat :=
  ⟨[⟨0, [.production 3]⟩, ⟨2, [.terminal (.token 3), .production 2]⟩, ⟨2, [.terminal .epsilon]⟩,
    ⟨3, [.terminal (.token 4), .production 2]⟩]⟩

theorem menuA_rooted : RootedAt (numbering menu.productions [3, 4]) 0 2 menu.productions menuA.productions :=
  rooted [3, 4] [2] rfl (by decide) (by decide) (by decide) (by
    intro r hr
    simp only [menuA, List.tail_cons, List.mem_cons, List.not_mem_nil, or_false] at hr
    rcases hr with rfl | rfl <;> exact .root) (by decide) (by
    intro r hr hl n hn a e
    subst e
    simp only [menu, List.mem_cons, List.not_mem_nil, or_false] at hr
    rcases hr with rfl | rfl | rfl | rfl | rfl | rfl <;> simp_all) (by
    intro j r hr hl
    match j with
    | 0 | 1 | 2 | 5 => cases hr; simp at hl
    | 3 | 4 => simp
    | j + 6 => cases hr)

theorem menuB_rooted : RootedAt (numbering menu.productions [3, 4, 5]) 0 3 menu.productions menuB.productions :=
  rooted [3, 4, 5] [2, 3] rfl (by decide) (by decide) (by decide) (by
    have h2 : Reachable menu.productions 3 2 :=
      .step (r := ⟨3, [.terminal (.token 4), .production 2]⟩) .root (by decide) (by simp)
    intro r hr
    simp only [menuB, List.tail_cons, List.mem_cons, List.not_mem_nil, or_false] at hr
    rcases hr with rfl | rfl | rfl
    exacts [h2, h2, .root]) (by decide) (by
    intro r hr hl n hn a e
    subst e
    simp only [menu, List.mem_cons, List.not_mem_nil, or_false] at hr
    rcases hr with rfl | rfl | rfl | rfl | rfl | rfl <;> simp_all) (by
    intro j r hr hl
    match j with
    | 0 | 1 | 2 => cases hr; simp at hl
    | 3 | 4 | 5 => simp
    | j + 6 => cases hr)

theorem menu_dispatch : Dispatch 0 1 menu.productions where
  root := rfl
  alt := by
    intro r hr hs
    simp only [menu, List.mem_cons, List.not_mem_nil, or_false] at hr
    rcases hr with rfl | rfl | rfl | rfl | rfl | rfl
    · cases hs
    · exact ⟨_, _, rfl⟩
    · exact ⟨_, _, rfl⟩
    · cases hs
    · cases hs
    · cases hs
  apart := by
    intro i j k l l' hi hj
    match i, j with
    | 1, 1 | 2, 2 => rfl
    | 1, 2 => cases hi; cases hj
    | 2, 1 => cases hi; cases hj
    | 0, _ | 3, _ | 4, _ | 5, _ | i + 6, _ => cases hi
    | _, 0 | _, 3 | _, 4 | _, 5 | _, j + 6 => cases hj
  once := by
    intro i r h0 hr
    match i with
    | 0 => exact absurd rfl h0
    | 1 | 2 | 3 | 4 | 5 => cases hr; simp
    | i + 6 => cases hr

theorem complete_of_stable {g : Grammar Nat Nat} (h : ((do
      let ig ← IndexedGrammar.build g
      let F ← FirstTable.build ig
      let (F', _) ← FirstTable.propagate ig F
      pure (F == F')) : Outcome (LRTableError Nat Nat) Bool) = .ok true) : C07.FirstComplete g := by
  obtain ⟨ig, h2, h⟩ := Outcome.bind_eq_ok.mp h
  obtain ⟨F, h3, h⟩ := Outcome.bind_eq_ok.mp h
  obtain ⟨⟨F', b⟩, h4, h⟩ := Outcome.bind_eq_ok.mp h
  simp only [Outcome.pure_eq, Outcome.ok.injEq, beq_iff_eq] at h
  subst h
  exact C07.first_complete_if_stable_partial _ ig F b h2 h3 h4

theorem parser_of_builds {g : Grammar Nat Nat} {n : Nat} (h : (do let _ ← SimParser.new n g; pure ()) =
    (Outcome.ok () : Outcome (LRTableError Nat Nat) _)) : ∃ p, SimParser.new n g = .ok p := by
  obtain ⟨p, hp, -⟩ := Outcome.bind_eq_ok.mp h
  exact ⟨p, hp⟩

theorem menu_wellFormed : WellFormed menu := ⟨by unfold EpsilonLast; decide, by unfold NoEndMarker; decide⟩

theorem menu_productive : Productive menu.productions := by
  have hA : Derives menu.productions [.production 2] [] :=
    .prod (r := ⟨2, [.terminal .epsilon]⟩) (u := []) (w := []) (by decide) (.eps .nil) .nil
  have hB : Derives menu.productions [.production 3] [4] :=
    .prod (r := ⟨3, [.terminal (.token 4), .production 2]⟩) (u := [4]) (w := []) (by decide) (.tok hA) .nil
  have hM : Derives menu.productions [.production 1] [1] :=
    .prod (r := ⟨1, [.terminal (.token 1), .production 2]⟩) (u := [1]) (w := []) (by decide) (.tok hA) .nil
  have hS : Derives menu.productions [.production 0] [1] :=
    .prod (r := ⟨0, [.production 1]⟩) (u := [1]) (w := []) (by decide) hM .nil
  intro r hr
  simp only [menu, List.mem_cons, List.not_mem_nil, or_false] at hr
  rcases hr with rfl | rfl | rfl | rfl | rfl | rfl
  exacts [⟨_, hS⟩, ⟨_, hM⟩, ⟨_, hM⟩, ⟨_, hA⟩, ⟨_, hA⟩, ⟨_, hB⟩]

theorem menu_alternatives : ∀ k l, (⟨1, [.terminal (.token k), .production l]⟩ : Rule Nat Nat) ∈ menu.productions →
    (k = 1 ∧ l = 2) ∨ (k = 2 ∧ l = 3) := by
  intro k l h
  simpa [menu] using h

/-- The hypotheses of the theorem on tables are met by `menu`. -/
example : ∃ N, ∀ fuel ≥ N, ∃ p, SimParser.new fuel menu = .ok p := by
  refine alternatives_accepted_partial menu_wellFormed menu_productive rfl menu_dispatch fun k l hm => ?_
  rcases menu_alternatives k l hm with ⟨rfl, rfl⟩ | ⟨rfl, rfl⟩
  · obtain ⟨p, hp⟩ := parser_of_builds (g := menuA) (n := 20) (by decide +kernel)
    exact ⟨_, _, _, _, p, menuA_rooted, (complete_of_stable (by decide +kernel)).actions, hp⟩
  · obtain ⟨p, hp⟩ := parser_of_builds (g := menuB) (n := 20) (by decide +kernel)
    exact ⟨_, _, _, _, p, menuB_rooted, (complete_of_stable (by decide +kernel)).actions, hp⟩

/-- On `y` and then `v` its parser answers what the parser of `menuB` answers on `v`. -/
example : ∃ p p', SimParser.new 20 menu = .ok p ∧ SimParser.new 20 menuB = .ok p' ∧ ∀ v, ∃ b N, ∀ fuel ≥ N,
    (p.parseStream fuel (2 :: v) : Outcome (LRTableError Nat Nat) _) = .ok b ∧
    (p'.parseStream fuel v : Outcome (LRTableError Nat Nat) _) = .ok b := by
  obtain ⟨p, hp⟩ := parser_of_builds (g := menu) (n := 20) (by decide +kernel)
  obtain ⟨p', hp'⟩ := parser_of_builds (g := menuB) (n := 20) (by decide +kernel)
  exact ⟨p, p', hp, hp', alternative_decides_partial menu_wellFormed menu_dispatch
    (complete_of_stable (by decide +kernel)).actions hp (by decide) menuB_rooted
    (complete_of_stable (by decide +kernel)).actions hp'⟩

/-- The parser accepts `y b a` and rejects `x b a`. -/
example : (do
    let p ← SimParser.new 20 menu
    let a ← p.parseStream 30 [2, 4, 3]
    let b ← p.parseStream 30 [1, 4, 3]
    pure (a, b)) = Outcome.ok (true, false) := by decide +kernel

/-- `menu` is LR(1) because its alternatives are. -/
example : ¬ NotLR1 menu.productions := by
  refine menu_dispatch.lr1 (C81.rootOnce (g := menu) rfl) fun k l hm => ?_
  rcases menu_alternatives k l hm with ⟨rfl, rfl⟩ | ⟨rfl, rfl⟩
  · obtain ⟨p, hp⟩ := parser_of_builds (g := menuA) (n := 20) (by decide +kernel)
    exact ⟨_, _, _, menuA_rooted, C81.table_is_lr1_partial (C82.wellFormed menu_wellFormed menuA_rooted)
      (C82.productive (ig := _) rfl menu_productive rfl (reachable menu_dispatch rfl hm) menuA_rooted) (new_ok hp).1
      (complete_of_stable (by decide +kernel)).actions (new_ok hp).2⟩
  · obtain ⟨p, hp⟩ := parser_of_builds (g := menuB) (n := 20) (by decide +kernel)
    exact ⟨_, _, _, menuB_rooted, C81.table_is_lr1_partial (C82.wellFormed menu_wellFormed menuB_rooted)
      (C82.productive (ig := _) rfl menu_productive rfl (reachable menu_dispatch rfl hm) menuB_rooted) (new_ok hp).1
      (complete_of_stable (by decide +kernel)).actions (new_ok hp).2⟩

/-- `S -> M; M -> y A; E -> !; D -> E; C' -> D; C -> C'; A -> x B C c; B -> b; B -> Q; Q -> b`. -/
def lone : Grammar Nat Nat :=
  ⟨[⟨0, [.production 1]⟩, ⟨1, [.terminal (.token 9), .production 2]⟩, ⟨7, [.terminal .epsilon]⟩, ⟨6, [.production 7]⟩,
    ⟨5, [.production 6]⟩, ⟨4, [.production 5]⟩,
    ⟨2, [.terminal (.token 1), .production 3, .production 4, .terminal (.token 3)]⟩,
    ⟨3, [.terminal (.token 2)]⟩, ⟨3, [.production 8]⟩, ⟨8, [.terminal (.token 2)]⟩]⟩

/-- `S -> A` and the same rules for `A` and the labels below it, in another order. -/
def loneA : Grammar Nat Nat :=
  ⟨[⟨0, [.production 2]⟩, ⟨2, [.terminal (.token 1), .production 3, .production 4, .terminal (.token 3)]⟩,
    ⟨3, [.terminal (.token 2)]⟩, ⟨3, [.production 8]⟩, ⟨8, [.terminal (.token 2)]⟩, ⟨4, [.production 5]⟩,
    ⟨5, [.production 6]⟩, ⟨6, [.production 7]⟩, ⟨7, [.terminal .epsilon]⟩]⟩

theorem loneA_rooted : RootedAt (numbering lone.productions [6, 7, 8, 9, 5, 4, 3, 2]) 0 2 lone.productions
    loneA.productions :=
  rooted [6, 7, 8, 9, 5, 4, 3, 2] [2, 3, 4, 5, 6, 7, 8] rfl (by decide) (by decide) (by decide) (by
    have h3 : Reachable lone.productions 2 3 := .step (r :=
      ⟨2, [.terminal (.token 1), .production 3, .production 4, .terminal (.token 3)]⟩) .root (by decide) (by simp)
    have h4 : Reachable lone.productions 2 4 := .step (r :=
      ⟨2, [.terminal (.token 1), .production 3, .production 4, .terminal (.token 3)]⟩) .root (by decide) (by simp)
    have h8 : Reachable lone.productions 2 8 := .step (r := ⟨3, [.production 8]⟩) h3 (by decide) (by simp)
    have h5 : Reachable lone.productions 2 5 := .step (r := ⟨4, [.production 5]⟩) h4 (by decide) (by simp)
    have h6 : Reachable lone.productions 2 6 := .step (r := ⟨5, [.production 6]⟩) h5 (by decide) (by simp)
    have h7 : Reachable lone.productions 2 7 := .step (r := ⟨6, [.production 7]⟩) h6 (by decide) (by simp)
    intro r hr
    simp only [loneA, List.tail_cons, List.mem_cons, List.not_mem_nil, or_false] at hr
    rcases hr with rfl | rfl | rfl | rfl | rfl | rfl | rfl | rfl
    exacts [.root, h3, h3, h8, h4, h5, h6, h7]) (by decide) (by
    intro r hr hl n hn a e
    subst e
    simp only [lone, List.mem_cons, List.not_mem_nil, or_false] at hr
    rcases hr with rfl | rfl | rfl | rfl | rfl | rfl | rfl | rfl | rfl | rfl <;> simp_all
    rcases hn with rfl | rfl <;> simp) (by
    intro j r hr hl
    match j with
    | 0 | 1 => cases hr; simp at hl
    | 2 | 3 | 4 | 5 | 6 | 7 | 8 | 9 => simp
    | j + 10 => cases hr)

theorem lone_dispatch : Dispatch 0 1 lone.productions where
  root := rfl
  alt := by
    intro r hr hs
    simp only [lone, List.mem_cons, List.not_mem_nil, or_false] at hr
    rcases hr with rfl | rfl | rfl | rfl | rfl | rfl | rfl | rfl | rfl | rfl
    · cases hs
    · exact ⟨_, _, rfl⟩
    all_goals cases hs
  apart := by
    intro i j k l l' hi hj
    match i, j with
    | 1, 1 => rfl
    | 0, _ | 2, _ | 3, _ | 4, _ | 5, _ | 6, _ | 7, _ | 8, _ | 9, _ | i + 10, _ => cases hi
    | _, 0 | _, 2 | _, 3 | _, 4 | _, 5 | _, 6 | _, 7 | _, 8 | _, 9 | _, j + 10 => cases hj
  once := by
    intro i r h0 hr
    match i with
    | 0 => exact absurd rfl h0
    | 1 | 2 | 3 | 4 | 5 | 6 | 7 | 8 | 9 => cases hr; simp
    | i + 10 => cases hr

theorem lone_productive : Productive lone.productions := by
  have h7 : Derives lone.productions [.production 7] [] :=
    .prod (r := ⟨7, [.terminal .epsilon]⟩) (u := []) (w := []) (by decide) (.eps .nil) .nil
  have h6 : Derives lone.productions [.production 6] [] :=
    .prod (r := ⟨6, [.production 7]⟩) (u := []) (w := []) (by decide) h7 .nil
  have h5 : Derives lone.productions [.production 5] [] :=
    .prod (r := ⟨5, [.production 6]⟩) (u := []) (w := []) (by decide) h6 .nil
  have h4 : Derives lone.productions [.production 4] [] :=
    .prod (r := ⟨4, [.production 5]⟩) (u := []) (w := []) (by decide) h5 .nil
  have h8 : Derives lone.productions [.production 8] [2] :=
    .prod (r := ⟨8, [.terminal (.token 2)]⟩) (u := [2]) (w := []) (by decide) (.tok .nil) .nil
  have h3 : Derives lone.productions [.production 3] [2] :=
    .prod (r := ⟨3, [.terminal (.token 2)]⟩) (u := [2]) (w := []) (by decide) (.tok .nil) .nil
  have h2 : Derives lone.productions [.production 2] [1, 2, 3] :=
    .prod (r := ⟨2, [.terminal (.token 1), .production 3, .production 4, .terminal (.token 3)]⟩) (u := [1, 2, 3]) (w := [])
      (by decide) (.tok (h3.append (h4.append (.tok .nil)))) .nil
  have h1 : Derives lone.productions [.production 1] [9, 1, 2, 3] :=
    .prod (r := ⟨1, [.terminal (.token 9), .production 2]⟩) (u := [9, 1, 2, 3]) (w := []) (by decide) (.tok h2) .nil
  have h0 : Derives lone.productions [.production 0] [9, 1, 2, 3] :=
    .prod (r := ⟨0, [.production 1]⟩) (u := [9, 1, 2, 3]) (w := []) (by decide) h1 .nil
  intro r hr
  simp only [lone, List.mem_cons, List.not_mem_nil, or_false] at hr
  rcases hr with rfl | rfl | rfl | rfl | rfl | rfl | rfl | rfl | rfl | rfl
  exacts [⟨_, h0⟩, ⟨_, h1⟩, ⟨_, h7⟩, ⟨_, h6⟩, ⟨_, h5⟩, ⟨_, h4⟩, ⟨_, h2⟩, ⟨_, h3⟩, ⟨_, h3⟩, ⟨_, h8⟩]

/-- **C95 is false in general.** The grammar for the only alternative of `lone` gets a parser, but for `lone` itself a
conflict is reported. -/
theorem alternatives_accepted_refuted : WellFormed lone ∧ Productive lone.productions ∧
    (∃ ig, IndexedGrammar.build lone = .ok ig) ∧ Dispatch 0 1 lone.productions ∧
    (∀ k l, ⟨1, [.terminal (.token k), .production l]⟩ ∈ lone.productions →
      ∃ ρ s g' n p', RootedAt ρ s l lone.productions g'.productions ∧ SimParser.new n g' = .ok p') ∧
    ∃ e, SimParser.new 30 lone = .err e := by
  refine ⟨⟨by unfold EpsilonLast; decide, by unfold NoEndMarker; decide⟩, lone_productive, ⟨_, rfl⟩, lone_dispatch, ?_,
    ?_⟩
  · intro k l hm
    obtain ⟨rfl, rfl⟩ : k = 9 ∧ l = 2 := by simpa [lone] using hm
    obtain ⟨p, hp⟩ := parser_of_builds (g := loneA) (n := 30) (by decide +kernel)
    exact ⟨_, _, _, _, p, loneA_rooted, hp⟩
  · have h : (match SimParser.new 30 lone with | .err _ => true | _ => false) = true := by decide +kernel
    cases hx : SimParser.new 30 lone with
    | err e => exact ⟨e, rfl⟩
    | ok p => rw [hx] at h; cases h
    | panic => rw [hx] at h; cases h
    | ub => rw [hx] at h; cases h
    | timeout => rw [hx] at h; cases h

/-- `S => M; M => Minus L; M => Plus L` and the rules of `L` of the sample file. -/
def signRules : List ARule :=
  [⟨"S", some (.ident "T" .nil), [.production "M"], some (.brace, Sample.hash "M")⟩,
   ⟨"M", some (.ident "T" .nil), [.symbol ⟨"Minus", .none⟩, .production "L"], some (.brace, Sample.hash "L")⟩,
   ⟨"M", some (.ident "T" .nil), [.symbol ⟨"Plus", .none⟩, .production "L"], some (.brace, Sample.hash "L")⟩] ++
    Sample.rules.drop 1

theorem sign_dispatch {gi : GrammarInfo} (h : gi.productionRules = signRules) :
    Dispatch "S" "M" gi.grammar.productions := by
  have e : gi.grammar.productions = signRules.map ARule.toLr := by simp [GrammarInfo.grammar, h]
  rw [e]
  refine ⟨rfl, ?_, ?_, ?_⟩
  · intro r hr hs
    simp only [signRules, Sample.rules, List.drop_succ_cons, List.drop_zero, List.cons_append, List.nil_append,
      List.map_cons, List.map_nil, List.mem_cons, List.not_mem_nil, or_false] at hr
    rcases hr with rfl | rfl | rfl | rfl | rfl | rfl
    · simp [ARule.toLr] at hs
    · exact ⟨_, _, rfl⟩
    · exact ⟨_, _, rfl⟩
    all_goals simp [ARule.toLr] at hs
  · have key : ∀ (i : Nat) (k : Sym) (l : String), (signRules.map ARule.toLr)[i]? =
        some ⟨"M", [.terminal (.token k), .production l]⟩ → (i = 1 ∧ k.name = "Minus") ∨ (i = 2 ∧ k.name = "Plus") := by
      intro i k l hi
      match i with
      | 0 | 3 | 4 | 5 => simp [signRules, Sample.rules, ARule.toLr] at hi
      | 1 => simp [signRules, Sample.rules, ARule.toLr, ANode.toLrNode] at hi; exact .inl ⟨rfl, by rw [← hi.1]⟩
      | 2 => simp [signRules, Sample.rules, ARule.toLr, ANode.toLrNode] at hi; exact .inr ⟨rfl, by rw [← hi.1]⟩
      | i + 6 => simp [signRules, Sample.rules] at hi
    intro i j k l l' hi hj
    rcases key i k l hi with ⟨h1, h2⟩ | ⟨h1, h2⟩ <;> rcases key j k l' hj with ⟨h3, h4⟩ | ⟨h3, h4⟩
    · rw [h1, h3]
    · rw [h2] at h4; simp at h4
    · rw [h2] at h4; simp at h4
    · rw [h1, h3]
  · intro i r h0 hr
    match i with
    | 0 => exact absurd rfl h0
    | 1 | 2 | 3 | 4 | 5 => cases hr; decide
    | i + 6 => simp [signRules, Sample.rules] at hr

theorem sign_disjoint {gi : GrammarInfo} (h1 : gi.productionRules = signRules)
    (h2 : gi.terminalType = .enum (.ident "Tok" .nil)) : gi.Disjoint C72.telling := by
  intro a s s' ⟨r, hr, hs⟩ ⟨r', hr', hs'⟩ m1 m2
  have key : ∀ r ∈ signRules, ∀ s, .symbol s ∈ r.rule →
      s = ⟨"Minus", .none⟩ ∨ s = ⟨"Plus", .none⟩ ∨ s = ⟨"Num", .wildcard⟩ := by
    intro r hr s hs
    simp only [signRules, Sample.rules, List.drop_succ_cons, List.drop_zero, List.cons_append, List.nil_append,
      List.mem_cons, List.not_mem_nil, or_false] at hr
    rcases hr with rfl | rfl | rfl | rfl | rfl | rfl <;> simp_all
  rw [h2] at m1 m2
  rw [h1] at hr hr'
  rcases key r hr s hs with rfl | rfl | rfl <;> rcases key r' hr' s' hs' with rfl | rfl | rfl <;>
    first
    | rfl
    | exact absurd ((Sample.variant_eq m1).symm.trans (Sample.variant_eq m2)) (by simp)

/-- The hypotheses are met by a file with these rules; its parser gives a value for `Minus Plus Num(5)`. -/
example : ∃ (gi : GrammarInfo) (prog : Program), Generated .id Sample.lexer gi prog ∧
    Dispatch "S" "M" gi.grammar.productions ∧ gi.Disjoint C72.telling ∧ C07.ActionsComplete gi.grammar ∧
    ∃ run, prog.parseFallible true C72.telling id (Sample.stream [.unit "Minus", .unit "Plus", .data "Num" 5] none) 50 0
      = .ok run ∧ run.result = .ok (.user 0) := by
  obtain ⟨gi, prog, h, -, h1, h2, hr, -⟩ := Sample.runs_ok (o := .id) (rules := signRules)
    (labels := ["S", "M", "L"]) (sem := C72.telling) (ts := [.unit "Minus", .unit "Plus", .data "Num" 5])
    (r := .ok (.user 0)) (r' := .ok (.user 0)) (by unfold EpsilonLast; decide) (by decide +kernel)
  have hg : gi.grammar = ⟨signRules.map ARule.toLr⟩ := by unfold GrammarInfo.grammar; rw [h1]
  refine ⟨gi, prog, h, sign_dispatch h1, sign_disjoint h1 h2, ?_, hr⟩
  have h : ((do
      let ig ← IndexedGrammar.build ⟨signRules.map ARule.toLr⟩
      let F ← FirstTable.build ig
      let (F', _) ← FirstTable.propagate ig F
      pure (F == F')) : Outcome (LRTableError Sym String) Bool) = .ok true := by decide +kernel
  obtain ⟨ig, h2, h⟩ := Outcome.bind_eq_ok.mp h
  obtain ⟨F, h3, h⟩ := Outcome.bind_eq_ok.mp h
  obtain ⟨⟨F', b⟩, h4, h⟩ := Outcome.bind_eq_ok.mp h
  simp only [Outcome.pure_eq, Outcome.ok.injEq, beq_iff_eq] at h
  subst h
  rw [hg]
  exact (C07.first_complete_if_stable_partial _ ig F b h2 h3 h4).actions

end Verif.C95
