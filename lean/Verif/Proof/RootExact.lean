import Verif.Proof.RootRec
import Verif.Proof.Rename
import Verif.Spec.Root

/-!
# Root rules that mention the root: which of them have a table
-/

set_option linter.unusedSectionVars false
set_option autoImplicit false

namespace Verif
open Spec IndexedGrammar.Encodes

section
variable {T L : Type} [DecidableEq T] [DecidableEq L] {ig : IndexedGrammar T L} {F : FirstTable}
  {kt : KernelTable} {table : LRTable}

theorem rootMild_of_not_overlaps (hw : ig.WF) (he : EpsLast ig) (h : ¬ RootOverlaps ig.cfg F.NodesFirst) :
    RootMild ig F := by
  intro i r α β hr hn
  have hi : i = 0 := by
    by_contra hi
    exact hw.rootRef i r hr hi (by rw [hn]; simp)
  subst hi
  have hcfg : ig.cfg[0]? = some r.rule := cfg_get.mpr ⟨r, hr, rfl⟩
  have hsym : r.rule.symbol = 0 := (hw.root 0 r hr).mpr rfl
  have hd : r.nodes.drop α.length = .production 0 :: β := by rw [hn]; simp
  obtain ⟨β', hβ, hf⟩ := he.prod (F := F) (List.mem_of_getElem? hr) hd
  refine ⟨rfl, ?_, ?_⟩
  · obtain ⟨k, hk⟩ := he.split (List.mem_of_getElem? hr)
    cases hα : rhs r.rule with
    | nil => rw [hα] at hβ; simp at hβ
    | cons n rest =>
      have hlen : 0 < α.length := by
        apply Nat.pos_of_ne_zero
        intro h0
        exact h ⟨r.rule, 0, β', hcfg, by rw [hsym, ← hβ, h0], .inl rfl⟩
      have hmem : n ∈ α := by
        rw [hn, hα] at hk
        cases α with
        | nil => simp at hlen
        | cons m α =>
          simp only [List.cons_append, List.cons.injEq] at hk
          simp [hk.1]
      exact ⟨n, hmem, not_eps_of_mem_rhs (r := r.rule) (by rw [hα]; simp)⟩
  · intro t ht hft
    cases t with
    | epsilon => exact absurd rfl ht
    | eos => rfl
    | token k =>
      exact absurd ⟨r.rule, α.length, β', hcfg, by rw [hβ, hsym], .inr ⟨k, (hf _).mp hft⟩⟩ h

theorem Built.not_overlaps (hw : ig.WF) (hF : F.WF ig.labelsCount ig.vocab.size) (he : EpsLast ig)
    (h : Built ig F kt table) : ¬ RootOverlaps ig.cfg F.NodesFirst := by
  rintro ⟨r, d, β, hr, hd, hc⟩
  have row : ∀ γ i d, Valid ig.cfg γ i d → ∃ k items s, KPath ig F γ k ∧ RowSpec ig F kt.states table s k items := by
    intro γ i d hv
    obtain ⟨s, hs⟩ := h.at_of_valid hw hF he hv
    have hlt := (h.entries hw hF he hs).lt
    obtain ⟨k, hk, e⟩ := hs
    obtain ⟨k', items, hrow⟩ := h.row s hlt
    rw [hrow.kernel] at e
    cases e
    exact ⟨k, items, s, hk, hrow⟩
  have hcat : ∀ p : Position, p.rule = 0 → p.position = (rhs r).length → p.cat ig = none := by
    intro p h1 h2
    have := he.cat_eq (p := p) (q := r) (by rw [h1]; exact hr)
    simp [this, h2]
  rcases hc with rfl | ⟨t, ht⟩
  · rw [List.drop_zero] at hd
    have hv : Valid ig.cfg (rhs r) 0 (rhs r).length := by
      have := (Valid.root (P := ig.cfg)).extend hr (α := rhs r) (β := []) (by simp)
      simpa using this
    obtain ⟨k, items, s, hk, hrow⟩ := row _ _ _ hv
    have h2 := two_roots hw hF he hr hd (rhs r).length (Nat.le_refl _) k items
      (by rwa [List.take_length]) hrow.itemsOf
    have h1 := hrow.once.1
    have : keyCount items (0, (rhs r).length) ≤
        (items.filter fun p => p.cat ig == none).countP (fun p => p.rule == 0) := by
      unfold keyCount
      rw [List.countP_filter]
      apply List.countP_mono_left
      intro p _ hp
      simp only [Position.key, beq_iff_eq, Prod.mk.injEq] at hp
      simp [hp.1, hcat p hp.1 hp.2]
    omega
  · have hlt : d < (rhs r).length := by
      by_contra hlt
      rw [List.drop_eq_nil_of_le (by omega)] at hd
      cases hd
    have hv : Valid ig.cfg ((rhs r).take d) 0 d := by
      have := (Valid.root (P := ig.cfg)).extend hr (α := (rhs r).take d) (β := (rhs r).drop d) (by simp)
      simpa [Nat.min_eq_left (Nat.le_of_lt hlt)] using this
    have hl : ValidLook ig.cfg F.NodesFirst ((rhs r).take d) 0 0 (.token t) :=
      .closeFirst hv hr hd hr (by simp) ht
    have hl' := hl.extend hr (α := rhs r) (β := []) (by simp)
    rw [Nat.zero_add] at hl'
    obtain ⟨k, items, s, hk, hrow⟩ := row _ _ _ hl'.valid
    obtain ⟨p, hp, h1, h2, h3⟩ := (hk.closureOf hw hF he hrow.itemsOf).allLook _ _ _ hl'
    have := hrow.once.2 p (by simp [hp, hcat p h1 h2]) h1 _ h3
    cases this

variable {g : Grammar T L} {first : List (Node T L) → AugTok T → Prop}
  {first' : List INode → AugTokId → Prop}

/-- The same in the user's grammar. -/
theorem rootOverlaps_iff (h : ig.Encodes g) (hf : SameFirst ig first first') :
    RootOverlaps ig.cfg first' ↔ RootOverlaps g.productions first := by
  constructor
  · rintro ⟨r', d, β', hr, hd, hc⟩
    obtain ⟨r, hs⟩ := sameRule_of_indexed h hr
    have hu := hs.user
    rw [orig_zero h] at hu
    have h3 := encNodes_drop hs.nodes d
    rw [hd] at h3
    generalize hd' : (rhs r).drop d = x at h3
    cases h3 with
    | @cons n _ β _ hn hβ =>
      cases n with
      | terminal _ => exact hn.elim
      | production l =>
        have hn : ig.labels[r'.symbol]? = some l := hn
        rw [hs.symbol] at hn
        cases hn
        refine ⟨r, d, β, hu, hd', hc.imp_right ?_⟩
        rintro ⟨k, hk⟩
        obtain ⟨t, ht⟩ := hf.dec _ _ _ hβ hk
        cases t with
        | token t => exact ⟨t, (hf.iff _ _ _ _ hβ ht).mpr hk⟩
        | epsilon => exact ht.elim
        | eos => exact ht.elim
  · rintro ⟨r, d, β, hr, hd, hc⟩
    obtain ⟨q, hq, -⟩ := h.root
    obtain ⟨r1, hs⟩ := sameRule_of_indexed h (cfg_get.mpr ⟨q, hq, rfl⟩)
    have hu := hs.user
    rw [orig_zero h, hr] at hu
    cases hu
    have h3 := encNodes_drop hs.nodes d
    rw [hd] at h3
    generalize hd' : (rhs q.rule).drop d = x at h3
    cases h3 with
    | @cons _ n _ β' hn hβ =>
      cases n with
      | terminal _ => exact hn.elim
      | production l =>
        have hn : ig.labels[l]? = some r.symbol := hn
        have : l = q.rule.symbol := h.label_inj hn hs.symbol
        subst this
        refine ⟨q.rule, d, β', hs.indexed, hd', hc.imp_right ?_⟩
        rintro ⟨k, hk⟩
        obtain ⟨t, ht⟩ := hf.enc _ _ _ hβ hk
        cases t with
        | token t => exact ⟨t, (hf.iff _ _ _ _ hβ ht).mp hk⟩
        | epsilon => exact ht.elim
        | eos => exact ht.elim
end
end Verif
