import Verif.Proof.Run

/-!
# No parser is generated for a grammar whose root rule mentions the root

If the root occurs at the beginning of the root rule then two copies of the finished root rule meet in one state
and the construction of the table stops; if it occurs later then accepting may leave other states on the stack
and the code generator stops.
-/

set_option linter.unusedSectionVars false
set_option autoImplicit false

namespace Verif
open Spec EntryBuilder Partition

section
variable {T L : Type} [DecidableEq T] [DecidableEq L] {ig : IndexedGrammar T L} {F : FirstTable}
  {kt : KernelTable} {table : LRTable}

theorem keyCount_next_eq {items : List Position} {X : INode} {i d : Nat}
    (hc : ∀ p ∈ items, p.key = (i, d) → p.cat ig = some X) :
    keyCount (nextOf ig items (some X)).positions (i, d + 1) = keyCount items (i, d) := by
  unfold keyCount nextOf next Kernel.new
  rw [(Kernel.sortPositions_perm _).countP_eq, List.countP_map, List.countP_filter]
  apply List.countP_congr
  intro p hp
  simp only [Function.comp, adv, Position.key, Bool.and_eq_true, beq_iff_eq, Prod.mk.injEq]
  constructor
  · rintro ⟨⟨h1, h2⟩, -⟩
    exact ⟨h1, by omega⟩
  · rintro ⟨h1, h2⟩
    exact ⟨⟨h1, by omega⟩, hc p hp (by simp [Position.key, h1, h2])⟩

theorem keyCount_append (l l' : List Position) (x : Nat × Nat) :
    keyCount (l ++ l') x = keyCount l x + keyCount l' x := by
  simp [keyCount, List.countP_append]

/-- A root rule that begins with the root is present twice along its own symbols. -/
theorem two_roots (hw : ig.WF) (hF : F.WF ig.labelsCount ig.vocab.size) (he : EpsLast ig) {r : Rule Nat Nat}
    {β : List INode} (hr : ig.cfg[0]? = some r) (hβ : rhs r = .production r.symbol :: β) :
    ∀ d ≤ (rhs r).length, ∀ k items, KPath ig F ((rhs r).take d) k → ItemsOf ig F k items →
      2 ≤ keyCount items (0, d) := by
  obtain ⟨q, hq, rfl⟩ := cfg_get.mp hr
  have hcat : ∀ d, ∀ p : Position, p.key = (0, d) → p.cat ig = ((rhs q.rule).drop d).head? := by
    intro d p hp
    simp only [Position.key, Prod.mk.injEq] at hp
    have := he.cat_eq (p := p) (q := q.rule) (by rw [hp.1]; exact hr)
    rw [this, hp.2]
  intro d
  induction d with
  | zero =>
    intro _ k items hk hi
    have hk0 : k = rootKernel ig := by
      generalize hg : (rhs q.rule).take 0 = γ at hk
      cases hk with
      | nil => rfl
      | snoc _ _ _ _ => simp at hg
    subst hk0
    have hit := (hk.reach.items hw hF hi)
    obtain ⟨ps, rfl, -⟩ := hit.added
    rw [keyCount_append]
    have hlab : ClosureLabel ig (rootKernel ig).positions q.symbol := by
      obtain ⟨rest, hrest, -⟩ := he.of_tail (F := F) (p := rootPosition ig) hr
        (by rw [show (rootPosition ig).position = 0 from rfl, List.drop_zero, hβ])
      exact .kernel (p := rootPosition ig) (by simp [rootKernel]) hrest
    obtain ⟨p, hp, h1, h2⟩ := hit.again _ hlab 0 q hq rfl
    rw [List.drop_left] at hp
    have c1 : 0 < keyCount (rootKernel ig).positions (0, 0) := by
      unfold keyCount
      rw [List.countP_pos_iff]
      exact ⟨rootPosition ig, by simp [rootKernel], by simp [Position.key, rootPosition]⟩
    have c2 : 0 < keyCount ps (0, 0) := by
      unfold keyCount
      rw [List.countP_pos_iff]
      exact ⟨p, hp, by simp [Position.key, h1, h2]⟩
    omega
  | succ d ih =>
    intro hd k items hk hi
    obtain ⟨X, hX⟩ : ∃ X, (rhs q.rule)[d]? = some X := ⟨_, List.getElem?_eq_getElem hd⟩
    rw [List.take_add_one, hX] at hk
    obtain ⟨k', items', p, h1, h2, h3, h4, rfl⟩ := KPath.snoc_inv (X := X) hk
    have := ih (by omega) k' items' h1 h2
    have hn := keyCount_next_eq (ig := ig) (items := items') (X := X) (i := 0) (d := d) fun p _ hp => by
      rw [hcat d p hp, List.head?_drop, hX]
    have hit := (hk.reach.items hw hF hi)
    obtain ⟨ps, rfl, -⟩ := hit.added
    rw [keyCount_append, hn]
    omega

/-- The root rule of a grammar with a table does not begin with the root. -/
theorem Fit.root_first (h : Fit ig F kt table) {r : Rule Nat Nat} (hr : ig.cfg[0]? = some r) (β : List INode) :
    rhs r ≠ .production r.symbol :: β := by
  intro hβ
  have hv : Valid ig.cfg (rhs r) 0 (rhs r).length := by
    have := (Valid.root (P := ig.cfg)).extend hr (α := rhs r) (β := []) (by simp)
    simpa using this
  obtain ⟨s, hs⟩ := h.at_of_valid hv
  have hlt := (h.entries hs).lt
  obtain ⟨k, hk, e⟩ := hs
  obtain ⟨k', items, hrow⟩ := h.built.row s hlt
  rw [hrow.kernel] at e
  cases e
  have h2 := two_roots h.wf h.res.wf h.eps hr hβ (rhs r).length (Nat.le_refl _) k items
    (by rwa [List.take_length]) hrow.itemsOf
  have h1 := hrow.once.1
  have : keyCount items (0, (rhs r).length) ≤
      (items.filter fun p => p.cat ig == none).countP (fun p => p.rule == 0) := by
    unfold keyCount
    rw [List.countP_filter]
    apply List.countP_mono_left
    intro p _ hp
    simp only [Position.key, beq_iff_eq, Prod.mk.injEq] at hp
    have := h.eps.cat_eq (p := p) (q := r) (by rw [hp.1]; exact hr)
    simp [hp.1, this, hp.2]
  omega
end

section
variable {lex : Lexer} {o : HashOrder} {gi : GrammarInfo} {prog : Program} {F : FirstTable} {kt : KernelTable}

namespace GenCode
variable (h : GenCode o lex gi prog F kt)
include h

/-- The root rule is finished only when it is all that has been read. -/
theorem root_alone {γ : List INode} {r : Rule Nat Nat} (hr : gi.indexedGrammar.cfg[0]? = some r)
    (hv : Valid gi.indexedGrammar.cfg γ 0 (rhs r).length) : γ = rhs r := by
  obtain ⟨s, hs⟩ := h.fit.at_of_valid hv
  obtain ⟨smap, code, hrow, hcode, hgen⟩ := h.code hs
  unfold generateState at hgen
  simp only [Outcome.bind_eq_ok] at hgen
  obtain ⟨acts, hacts, ov, hov, reduces, hreduces, accept, haccept, -⟩ := hgen
  obtain ⟨l, hl, -, hact⟩ := h.action_tokens hs hacts
  have hin : (AugTok.eos, Action.accept) ∈ l := by
    refine (hact _ _).mpr ⟨.eos, ⟨?_, ?_⟩, rfl⟩
    · simp [Label.id, Vocab.size]
    · exact ((h.fit.entries hs).accept Unit .eos (by simp [Label.id, Vocab.size])).mpr (.accept hr rfl hv)
  have hsome := (hl.accept _).mpr hin
  rw [hsome] at haccept
  simp only [acceptArm, Outcome.bind_eq_ok] at haccept
  obtain ⟨m, hm1, rule, hrule, ⟨pops, states⟩, hbind, u, hassert, ctor, hctor, hfin⟩ := haccept
  have hstates : states = [0] := by
    have := Outcome.assert_eq_ok.mp hassert
    rw [beq_iff_eq] at this
    have hp := o.perm [6, s] states
    rw [this] at hp
    exact (List.perm_singleton.mp hp.symm)
  subst hstates
  have hr' : gi.indexedGrammar.cfg[0]? = some rule.rule := cfg_get.mpr ⟨rule, Outcome.index_eq_ok.mp hrule, rfl⟩
  rw [hr] at hr'
  cases hr'
  have hrhs : rhs rule.rule = symbolsRev (indexedNodesRev rule.nodes) := by
    rw [symbolsRev_indexed]; rfl
  obtain ⟨γ', hγ, -⟩ := hv.split hr
  rw [List.take_length] at hγ
  have sem : Sem Unit Unit Unit Unit := ⟨fun _ => (), fun _ _ => false, fun _ _ _ w => (.ok .unit, w), fun _ _ w => (.ok .unit, w)⟩
  obtain ⟨-, -, g4, -⟩ := bindNodes_run (sem := sem) (tt := gi.terminalType) h.fit hrow hr _ _ _ _ hbind
    ⟨[], by rw [hrhs, List.append_nil]⟩
    (by
      intro s' hs'
      rw [List.mem_singleton] at hs'
      subst hs'
      exact ⟨_, hs, hrhs ▸ hv⟩)
  obtain ⟨s', h1, h2⟩ := g4 γ' s (by rw [← hrhs, ← hγ]; exact hs) (by simp)
  rw [List.mem_singleton] at h2
  subst h2
  rw [hγ, h.fit.at_zero h1, List.nil_append]

/-- **The root rule does not mention the root.** -/
theorem root_free {r : Rule Nat Nat} (hr : gi.indexedGrammar.cfg[0]? = some r) :
    .production r.symbol ∉ rhs r := by
  intro hm
  obtain ⟨α, β, hαβ⟩ := List.append_of_mem hm
  have hv : Valid gi.indexedGrammar.cfg α 0 α.length := by
    have := (Valid.root (P := gi.indexedGrammar.cfg)).extend hr (α := α) (β := .production r.symbol :: β)
      (by simpa using hαβ)
    simpa using this
  have hv0 : Valid gi.indexedGrammar.cfg α 0 0 := .close hv hr (r' := r) (β := β) (by rw [hαβ]; simp) hr
  have hv1 := hv0.extend hr (α := rhs r) (β := []) (by simp)
  rw [Nat.zero_add] at hv1
  have hα := h.root_alone hr hv1
  have hα' : α = [] := by simpa using hα
  subst hα'
  exact h.fit.root_first hr β (by simpa using hαβ)

theorem good : Good gi.indexedGrammar F kt gi.lrTable := by
  refine ⟨h.fit.wf, h.fit.res, ⟨h.fit.eps, ?_⟩, h.fit.vocab, h.fit.built⟩
  intro r hr hm
  obtain ⟨i, hi⟩ := List.mem_iff_getElem?.mp hr
  refine h.fit.noEos r.rule (List.mem_of_getElem? (cfg_get.mpr ⟨r, hi, rfl⟩)) ?_
  exact hm

end GenCode
end
end Verif
