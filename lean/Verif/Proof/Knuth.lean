import Verif.Proof.Simulator
import Verif.Proof.Trees

/-!
# Conflicts and Knuth's LR(1) condition

If two valid items demand different actions, two rightmost sentential forms show that the grammar is not
LR(1).
-/

set_option linter.unusedSectionVars false
set_option autoImplicit false

namespace Verif.Spec

section
variable {T L : Type} {P : List (Rule T L)} {first : List (Node T L) → AugTok T → Prop}

/-- Every node of every rule derives something. -/
def NodesProductive (P : List (Rule T L)) : Prop :=
  ∀ r ∈ P, ∀ n ∈ rhs r, ∃ v, Derives P [n] v

/-- What `first` says is true and can be realised by a derivation. -/
structure FirstSound (P : List (Rule T L)) (first : List (Node T L) → AugTok T → Prop) : Prop where
  eps : ∀ r ∈ P, ∀ d, first ((rhs r).drop d) .epsilon → Derives P ((rhs r).drop d) []
  tok : ∀ r ∈ P, ∀ d k, first ((rhs r).drop d) (.token k) → ∃ v, Derives P ((rhs r).drop d) (k :: v)
  eos : ∀ r ∈ P, ∀ d, ¬ first ((rhs r).drop d) .eos

theorem Derives.append {α β : List (Node T L)} {u v : List T} (h : Derives P α u) (h' : Derives P β v) :
    Derives P (α ++ β) (u ++ v) := by
  induction h with
  | nil => exact h'
  | tok _ ih => exact .tok ih
  | eps _ ih => exact .eps ih
  | prod hr h1 _ _ ih2 => rw [List.append_assoc]; exact .prod hr h1 ih2

theorem NodesProductive.all (hp : NodesProductive P) {r : Rule T L} (hr : r ∈ P) (α : List (Node T L))
    (hα : ∀ n ∈ α, n ∈ rhs r) : ∃ v, Derives P α v := by
  induction α with
  | nil => exact ⟨_, .nil⟩
  | cons n α ih =>
    obtain ⟨v, hv⟩ := hp r hr n (hα n (by simp))
    obtain ⟨v', hv'⟩ := ih fun n hn => hα n (by simp [hn])
    exact ⟨v ++ v', Derives.append (α := [n]) hv hv'⟩

theorem tokNodes_append {u v : List T} :
    (tokNodes (u ++ v) : List (Node T L)) = tokNodes u ++ tokNodes v := by
  simp [tokNodes]

theorem tokNodes_cons {a : T} {v : List T} :
    (tokNodes (a :: v) : List (Node T L)) = .terminal (.token a) :: tokNodes v := by
  simp [tokNodes]

/-- A derivation can be carried out from the right. -/
theorem Derives.rightmost {α : List (Node T L)} {v : List T} (h : Derives P α v) :
    ∀ (x : List (Node T L)) (y : List T),
      ∃ is, RmSteps P is (x ++ strip α ++ tokNodes y) (x ++ tokNodes (v ++ y)) := by
  induction h with
  | nil => intro x y; exact ⟨[], by simpa using RmSteps.refl _⟩
  | @tok t α w _ ih =>
    intro x y
    obtain ⟨is, h⟩ := ih (x ++ [.terminal (.token t)]) y
    exact ⟨is, by simpa [tokNodes] using h⟩
  | eps _ ih =>
    intro x y
    obtain ⟨is, h⟩ := ih x y
    exact ⟨is, by simpa using h⟩
  | @prod r α u w hr _ _ ih1 ih2 =>
    intro x y
    obtain ⟨i, hi⟩ := List.mem_iff_getElem?.mp hr
    obtain ⟨is1, h1⟩ := ih1 x (w ++ y)
    obtain ⟨is2, h2⟩ := ih2 (x ++ [.production r.symbol]) y
    have h3 : RmStep P i (x ++ .production r.symbol :: tokNodes (w ++ y)) (x ++ rhs r ++ tokNodes (w ++ y)) :=
      .mk hi
    refine ⟨is2 ++ i :: is1, ?_⟩
    have h4 := RmSteps.trans (by simpa using h2) (.step h3 h1)
    simpa using h4

theorem no_label_eq {α : List (Node T L)} {v : List T} (h : Derives P α v)
    (hn : ∀ l, .production l ∉ α) : strip α = tokNodes v := by
  induction h with
  | nil => rfl
  | tok _ ih =>
    have := ih fun l hl => hn l (List.mem_cons_of_mem _ hl)
    simp [tokNodes_cons, this]
  | eps _ ih =>
    have := ih fun l hl => hn l (List.mem_cons_of_mem _ hl)
    simp [this]
  | prod => exact absurd (List.mem_cons_self ..) (hn _)

/-- Unless there is nothing to replace, the derivation from the right has a last step. -/
theorem Derives.last {α : List (Node T L)} {v : List T} (h : Derives P α v)
    (hn : ∃ l, .production l ∈ α) :
    ∀ (x : List (Node T L)) (y : List T),
      ∃ (is : List Nat) (i : Nat) (r : Rule T L) (x' : List (Node T L)) (w' : List T), P[i]? = some r ∧
        RmSteps P is (x ++ strip α ++ tokNodes y) (x ++ x' ++ .production r.symbol :: tokNodes (w' ++ y)) ∧
        x' ++ rhs r ++ tokNodes w' = tokNodes v ∧ w'.length ≤ v.length := by
  induction h with
  | nil => obtain ⟨l, hl⟩ := hn; cases hl
  | @tok t α w _ ih =>
    intro x y
    obtain ⟨l, hl⟩ := hn
    have hl' : Node.production l ∈ α := by simpa using hl
    obtain ⟨is, i, r, x', w', h1, h2, h3, h4⟩ := ih ⟨l, hl'⟩ (x ++ [.terminal (.token t)]) y
    refine ⟨is, i, r, .terminal (.token t) :: x', w', h1, by simpa using h2, ?_, ?_⟩
    · rw [tokNodes_cons, ← h3]; simp
    · simp only [List.length_cons]; omega
  | @eps α w _ ih =>
    intro x y
    obtain ⟨l, hl⟩ := hn
    have hl' : Node.production l ∈ α := by simpa using hl
    obtain ⟨is, i, r, x', w', h1, h2, h3, h4⟩ := ih ⟨l, hl'⟩ x y
    exact ⟨is, i, r, x', w', h1, by simpa using h2, h3, h4⟩
  | @prod r α u w hr hd hd' ih1 ih2 =>
    intro x y
    obtain ⟨i, hi⟩ := List.mem_iff_getElem?.mp hr
    obtain ⟨is2, h2⟩ := hd'.rightmost (x ++ [.production r.symbol]) y
    have h2' : RmSteps P is2 (x ++ strip (.production r.symbol :: α) ++ tokNodes y)
        (x ++ .production r.symbol :: tokNodes (w ++ y)) := by simpa using h2
    by_cases hl : ∃ l, .production l ∈ r.rule
    · obtain ⟨is, j, r', x', w', h3, h4, h5, h6⟩ := ih1 hl x (w ++ y)
      have h7 : RmStep P i (x ++ .production r.symbol :: tokNodes (w ++ y))
          (x ++ strip r.rule ++ tokNodes (w ++ y)) := .mk hi
      refine ⟨is2 ++ i :: is, j, r', x', w' ++ w, h3, h2'.trans (.step h7 (by simpa using h4)), ?_, ?_⟩
      · rw [tokNodes_append, tokNodes_append, ← h5]; simp
      · simp only [List.length_append]; omega
    · refine ⟨is2, i, r, [], w, hi, by simpa using h2', ?_, by simp⟩
      have := no_label_eq hd fun l hm => hl ⟨l, hm⟩
      rw [tokNodes_append, ← this]
      rfl

/-- An item that is valid after `γ` is a handle in the making. -/
theorem Valid.handle (hp : NodesProductive P) {root : Rule T L} (hroot : P[0]? = some root)
    {γ : List (Node T L)} {i d : Nat} (h : Valid P γ i d) :
    ∃ r x y, P[i]? = some r ∧ γ = x ++ (rhs r).take d ∧ Handle P i x y := by
  induction h with
  | root => exact ⟨root, [], [], hroot, by simp, root, root, [], hroot, hroot, .refl _⟩
  | @close γ i d j r r' β _ hr hd hj ih =>
    obtain ⟨r0, x, y, h1, h2, root', r1, is, h3, h4, h5⟩ := ih
    rw [hr] at h1 h4
    cases h1
    cases h4
    have hsub : ∀ n ∈ β, n ∈ rhs r := fun n hn =>
      List.mem_of_mem_drop (i := d) (by rw [hd]; exact List.mem_cons_of_mem _ hn)
    obtain ⟨v, hv⟩ := hp.all (List.mem_of_getElem? hr) β hsub
    have hβ : strip β = β := by
      have := strip_of_drop (drop_succ_of_drop hd)
      exact this
    obtain ⟨is', h6⟩ := hv.rightmost (γ ++ [.production r'.symbol]) y
    have h7 : RmStep P i (x ++ .production r.symbol :: tokNodes y) (x ++ rhs r ++ tokNodes y) := .mk hr
    have h8 : x ++ rhs r = γ ++ .production r'.symbol :: β := by
      rw [h2, ← hd, List.append_assoc, List.take_append_drop]
    rw [h8] at h7
    rw [hβ] at h6
    refine ⟨r', γ, v ++ y, hj, by simp, root', r', is ++ i :: is', h3, hj, ?_⟩
    exact h5.trans (.step h7 (by simpa using h6))
  | @move γ i d r X β _ hr hd ih =>
    obtain ⟨r0, x, y, h1, h2, h3⟩ := ih
    rw [hr] at h1
    cases h1
    refine ⟨r, x, y, hr, ?_, h3⟩
    rw [take_succ_of_drop hd, h2, List.append_assoc]

/-- With a lookahead, the rest of the sentential form begins with it. -/
theorem ValidLook.handle (hp : NodesProductive P) (hf : FirstSound P first) {root : Rule T L}
    (hroot : P[0]? = some root) {γ : List (Node T L)} {i d : Nat} {t : AugTok T}
    (h : ValidLook P first γ i d t) :
    ∃ r x y, P[i]? = some r ∧ γ = x ++ (rhs r).take d ∧ Handle P i x y ∧
      ((t = .eos ∧ y = []) ∨ ∃ k y', t = .token k ∧ y = k :: y') := by
  induction h with
  | root => exact ⟨root, [], [], hroot, by simp, ⟨root, root, [], hroot, hroot, .refl _⟩, .inl ⟨rfl, rfl⟩⟩
  | @closeFirst γ i d j r r' β t hv hr hd hj hne ht =>
    obtain ⟨r0, x, y, h1, h2, root', r1, is, h3, h4, h5⟩ := hv.handle hp hroot
    rw [hr] at h1 h4
    cases h1
    cases h4
    have hβ' : (rhs r).drop (d + 1) = β := drop_succ_of_drop hd
    have hβ : strip β = β := strip_of_drop hβ'
    have h7 : RmStep P i (x ++ .production r.symbol :: tokNodes y) (x ++ rhs r ++ tokNodes y) := .mk hr
    have h8 : x ++ rhs r = γ ++ .production r'.symbol :: β := by
      rw [h2, ← hd, List.append_assoc, List.take_append_drop]
    rw [h8] at h7
    rw [← hβ'] at ht
    cases t with
    | epsilon => exact absurd rfl hne
    | eos => exact absurd ht (hf.eos r (List.mem_of_getElem? hr) _)
    | token k =>
      obtain ⟨v, hv⟩ := hf.tok r (List.mem_of_getElem? hr) _ _ ht
      rw [hβ'] at hv
      obtain ⟨is', h6⟩ := hv.rightmost (γ ++ [.production r'.symbol]) y
      rw [hβ] at h6
      refine ⟨r', γ, k :: (v ++ y), hj, by simp, ⟨root', r', is ++ i :: is', h3, hj, ?_⟩,
        .inr ⟨k, v ++ y, rfl, rfl⟩⟩
      exact h5.trans (.step h7 (by simpa using h6))
  | @closePass γ i d j r r' β t hv hr hd hj ht ih =>
    obtain ⟨r0, x, y, h1, h2, ⟨root', r1, is, h3, h4, h5⟩, hy⟩ := ih
    rw [hr] at h1 h4
    cases h1
    cases h4
    have hβ' : (rhs r).drop (d + 1) = β := drop_succ_of_drop hd
    have hβ : strip β = β := strip_of_drop hβ'
    have h7 : RmStep P i (x ++ .production r.symbol :: tokNodes y) (x ++ rhs r ++ tokNodes y) := .mk hr
    have h8 : x ++ rhs r = γ ++ .production r'.symbol :: β := by
      rw [h2, ← hd, List.append_assoc, List.take_append_drop]
    rw [h8] at h7
    rw [← hβ'] at ht
    have hv := hf.eps r (List.mem_of_getElem? hr) _ ht
    rw [hβ'] at hv
    obtain ⟨is', h6⟩ := hv.rightmost (γ ++ [.production r'.symbol]) y
    rw [hβ] at h6
    refine ⟨r', γ, y, hj, by simp, ⟨root', r', is ++ i :: is', h3, hj, ?_⟩, hy⟩
    exact h5.trans (.step h7 (by simpa using h6))
  | @move γ i d r X β t _ hr hd ih =>
    obtain ⟨r0, x, y, h1, h2, h3⟩ := ih
    rw [hr] at h1
    cases h1
    refine ⟨r, x, y, hr, ?_, h3⟩
    rw [take_succ_of_drop hd, h2, List.append_assoc]

/-- A completed item, whatever it calls for. -/
theorem Demands.handle (hp : NodesProductive P) (hf : FirstSound P first) (hu : RootUnused P)
    {γ : List (Node T L)} {t : AugTok T} {i : Nat} (h : Demands P first γ t (endAct i)) :
    ∃ r x y, P[i]? = some r ∧ γ = x ++ rhs r ∧ Handle P i x y ∧
      ((t = .eos ∧ y = []) ∨ ∃ k y', t = .token k ∧ y = k :: y') := by
  by_cases hi : i = 0
  · subst hi
    have h' : Demands P first γ t .accept := h
    obtain ⟨r, hr, rfl⟩ := h'.accept_stack hu
    cases h' with
    | accept _ ht _ =>
      exact ⟨r, [], [], hr, rfl, ⟨r, r, [], hr, hr, .refl _⟩, .inl ⟨ht, rfl⟩⟩
  · have h' : Demands P first γ t (.reduce i) := by simpa [endAct, hi] using h
    cases h' with
    | @reduce _ r hr _ hv =>
      have hroot : ∃ root, P[0]? = some root := by
        have : 0 < P.length := by
          have := (List.getElem?_eq_some_iff.mp hr).1
          omega
        exact ⟨P[0], List.getElem?_eq_getElem this⟩
      obtain ⟨root, hroot⟩ := hroot
      obtain ⟨r', x, y, h1, h2, h3, h4⟩ := hv.handle hp hf hroot
      rw [hr] at h1
      cases h1
      exact ⟨r, x, y, hr, by simpa using h2, h3, h4⟩

/-- **Two demands that differ refute Knuth's condition.** -/
theorem notLR1_of_reduce_reduce (hp : NodesProductive P) (hf : FirstSound P first) (hu : RootUnused P)
    {γ : List (Node T L)} {t : AugTok T} {i j : Nat} (h : Demands P first γ t (endAct i))
    (h' : Demands P first γ t (endAct j)) (hij : i ≠ j) : NotLR1 P := by
  obtain ⟨r, x, w, h1, h2, h3, h4⟩ := h.handle hp hf hu
  obtain ⟨r', x', w', h1', h2', h3', h4'⟩ := h'.handle hp hf hu
  refine ⟨γ, i, r, x, w, j, r', x', w', w', h1, h1', h3, h3', h2, by rw [h2'], ?_, .inl hij⟩
  rcases h4 with ⟨ht, rfl⟩ | ⟨k, y, ht, rfl⟩ <;> rcases h4' with ⟨ht', rfl⟩ | ⟨k', y', ht', rfl⟩ <;>
    first | rfl | (cases ht.symm.trans ht'; rfl) | cases ht.symm.trans ht'

theorem notLR1_of_shift_reduce (hp : NodesProductive P) (hf : FirstSound P first) (hu : RootUnused P)
    (he : ∀ r ∈ P, .terminal .eos ∉ r.rule)
    {γ : List (Node T L)} {t : AugTok T} {i : Nat} (h : Demands P first γ t (endAct i))
    (h' : Demands P first γ t .shift) : NotLR1 P := by
  obtain ⟨r, x, w, h1, h2, h3, h4⟩ := h.handle hp hf hu
  cases h' with
  | @shift j d r' β hv hr hd =>
    have hmem : .terminal t ∈ r'.rule := by
      have : .terminal t ∈ rhs r' := List.mem_of_mem_drop (i := d) (by rw [hd]; simp)
      exact (List.mem_filter.mp this).1
    rcases h4 with ⟨rfl, -⟩ | ⟨k, w1, rfl, rfl⟩
    · exact absurd hmem (he r' (List.mem_of_getElem? hr))
    · have hroot : ∃ root, P[0]? = some root := by
        have : 0 < P.length := by
          have := (List.getElem?_eq_some_iff.mp hr).1
          omega
        exact ⟨P[0], List.getElem?_eq_getElem this⟩
      obtain ⟨root, hroot⟩ := hroot
      obtain ⟨r0, x', y, h5, h6, h7⟩ := hv.handle hp hroot
      rw [hr] at h5
      cases h5
      have hβ' : (rhs r').drop (d + 1) = β := drop_succ_of_drop hd
      have hβ : strip β = β := strip_of_drop hβ'
      have h8 : x' ++ rhs r' = γ ++ .terminal (.token k) :: β := by
        rw [h6, ← hd, List.append_assoc, List.take_append_drop]
      have hsub : ∀ n ∈ β, n ∈ rhs r' := fun n hn =>
        List.mem_of_mem_drop (i := d) (by rw [hd]; exact List.mem_cons_of_mem _ hn)
      obtain ⟨v, hv⟩ := hp.all (List.mem_of_getElem? hr) β hsub
      by_cases hl : ∃ l, .production l ∈ β
      · obtain ⟨is', j', r'', x'', w'', h9, h10, h11, h12⟩ :=
          hv.last hl (γ ++ [.terminal (.token k)]) y
        obtain ⟨root', r0, is, h13, h14, h15⟩ := h7
        rw [hr] at h14
        cases h14
        have h16 : RmStep P j (x' ++ .production r'.symbol :: tokNodes y) (x' ++ rhs r' ++ tokNodes y) :=
          .mk hr
        rw [h8] at h16
        rw [hβ] at h10
        refine ⟨γ, i, r, x, k :: w1, j', r'', γ ++ .terminal (.token k) :: x'', w'' ++ y, k :: (v ++ y), h1, h9,
          h3, ⟨root', r'', is ++ j :: is', h13, h9, ?_⟩, h2, ?_, rfl, .inr ?_⟩
        · refine h15.trans (.step h16 ?_)
          simpa using h10
        · rw [tokNodes_cons, tokNodes_append, tokNodes_append, ← h11]; simp
        · intro heq
          have := congrArg List.length heq
          simp only [List.length_append, List.length_cons] at this
          omega
      · have h17 := no_label_eq hv fun l hm => hl ⟨l, hm⟩
        rw [hβ] at h17
        subst h17
        refine ⟨γ, i, r, x, k :: w1, j, r', x', y, k :: (v ++ y), h1, hr, h3, h7, h2, ?_, rfl, .inr ?_⟩
        · rw [h8, tokNodes_cons, tokNodes_append]; simp
        · intro heq
          have := congrArg List.length heq
          simp only [List.length_append, List.length_cons] at this
          omega

theorem notLR1_of_conflict (hp : NodesProductive P) (hf : FirstSound P first) (hu : RootUnused P)
    (he : ∀ r ∈ P, .terminal .eos ∉ r.rule) (h : ¬ NoConflict P first) : NotLR1 P := by
  unfold NoConflict at h
  simp only [Classical.not_forall] at h
  obtain ⟨γ, t, a, b, ha, hb, hab⟩ := h
  have key : ∀ a, Demands P first γ t a → a = .shift ∨ ∃ i, a = endAct i := by
    intro a h
    cases h with
    | shift => exact .inl rfl
    | @reduce i _ _ hi _ => exact .inr ⟨i, by simp [endAct, hi]⟩
    | accept => exact .inr ⟨0, rfl⟩
  rcases key a ha with rfl | ⟨i, rfl⟩ <;> rcases key b hb with rfl | ⟨j, rfl⟩
  · exact absurd rfl hab
  · exact notLR1_of_shift_reduce hp hf hu he hb ha
  · exact notLR1_of_shift_reduce hp hf hu he ha hb
  · exact notLR1_of_reduce_reduce hp hf hu ha hb fun h => hab (by rw [h])

end
end Verif.Spec

namespace Verif
open Spec

section
variable {T L : Type} {P : List (Rule T L)}

theorem First.derives_nil {α : List (Node T L)} {t : AugTok T} (h : First P α t) (ht : t = .epsilon) :
    Derives P α [] := by
  induction h with
  | nil => exact .nil
  | eps _ ih => exact .eps (ih ht)
  | term h => exact absurd ht h
  | skip hr _ _ ih1 ih2 => exact .prod (u := []) hr (ih1 rfl) (ih2 ht)
  | take _ _ h => exact absurd ht h

theorem First.derives_tok (hp : NodesProductive P) {α : List (Node T L)} {t : AugTok T} (h : First P α t)
    {k : T} (ht : t = .token k) :
    (∀ n ∈ strip α, ∃ v, Derives P [n] v) → ∃ v, Derives P α (k :: v) := by
  have rest : ∀ (α : List (Node T L)), (∀ n ∈ strip α, ∃ v, Derives P [n] v) → ∃ v, Derives P α v := by
    intro α
    induction α with
    | nil => intro _; exact ⟨_, .nil⟩
    | cons n α ih =>
      intro hα
      match n with
      | .terminal .epsilon =>
        obtain ⟨v, hv⟩ := ih (by simpa using hα)
        exact ⟨v, .eps hv⟩
      | .terminal .eos =>
        obtain ⟨v, hv⟩ := hα (.terminal .eos) (by simp [strip])
        cases hv
      | .terminal (.token t) =>
        obtain ⟨v, hv⟩ := ih fun n hn => hα n (by simp [hn])
        exact ⟨_, .tok hv⟩
      | .production l =>
        obtain ⟨v, hv⟩ := ih fun n hn => hα n (by simp [hn])
        obtain ⟨v', hv'⟩ := hα (.production l) (by simp)
        exact ⟨_, Derives.append (α := [_]) hv' hv⟩
  induction h with
  | nil => cases ht
  | eps _ ih =>
    intro hα
    obtain ⟨v, hv⟩ := ih ht (by simpa using hα)
    exact ⟨v, .eps hv⟩
  | @term t α h =>
    intro hα
    subst ht
    obtain ⟨v, hv⟩ := rest α fun n hn => hα n (by simp [hn])
    exact ⟨v, .tok hv⟩
  | skip hr h1 _ _ ih2 =>
    intro hα
    obtain ⟨v, hv⟩ := ih2 ht fun n hn => hα n (by simp [hn])
    exact ⟨v, .prod (u := []) hr (h1.derives_nil rfl) hv⟩
  | @take r α t hr _ _ ih =>
    intro hα
    obtain ⟨v, hv⟩ := ih ht fun n hn => hp r hr n hn
    obtain ⟨v', hv'⟩ := rest α fun n hn => hα n (by simp [hn])
    exact ⟨v ++ v', .prod (u := k :: v) hr hv hv'⟩

theorem First.not_eos {α : List (Node T L)} {t : AugTok T} (h : First P α t) (ht : t = .eos)
    (he : ∀ r ∈ P, .terminal .eos ∉ r.rule) : Node.terminal .eos ∈ α := by
  induction h with
  | nil => cases ht
  | eps _ ih => exact List.mem_cons_of_mem _ (ih ht)
  | term _ => subst ht; simp
  | skip _ _ _ _ ih => exact List.mem_cons_of_mem _ (ih ht)
  | take hr _ _ ih => exact absurd (ih ht) (he _ hr)

end

section
variable {P : List (Rule Nat Nat)} {F : FirstTable}

theorem firstSound (hp : NodesProductive P) (hJ : F.Justified P) (he : NoEos P) :
    FirstSound P F.NodesFirst where
  eps r hr d h := ((h.just hJ).first).derives_nil rfl
  tok r hr d k h := by
    refine ((h.just hJ).first).derives_tok hp rfl fun n hn => hp r hr n ?_
    rw [strip_of_drop rfl] at hn
    exact List.mem_of_mem_drop hn
  eos r hr d h := by
    have := ((h.just hJ).first).not_eos rfl he
    exact he r hr (List.mem_filter.mp (List.mem_of_mem_drop this)).1

end

/-! ### From the indexed grammar to the user's grammar -/

section
variable {T L : Type} [DecidableEq T] [DecidableEq L] {g : Grammar T L} {ig : IndexedGrammar T L}
open IndexedGrammar.Encodes

theorem _root_.Verif.Spec.RootDead.derives {T L : Type} {P : List (Rule T L)} (hd : RootDead P)
    {α : List (Node T L)} {w : List T} (h : Derives P α w) :
    ∀ r0, P[0]? = some r0 → .production r0.symbol ∉ α := by
  intro r0 h0
  induction h with
  | nil => simp
  | tok _ ih => simpa using ih
  | eps _ ih => simpa using ih
  | @prod r α u w hr _ _ ih1 ih2 =>
    intro hm
    obtain ⟨i, hi⟩ := List.mem_iff_getElem?.mp hr
    rcases List.mem_cons.mp hm with e | hm
    · injection e with e
      have := hd.1 i r0 r h0 hi e.symm
      subst this
      obtain ⟨r1, h1, h2⟩ := hd.2
      rw [h0] at h1 hi
      cases h1
      cases hi
      exact ih1 h2
    · exact ih2 hm

/-- If all labels are productive, the root rule does not mention the root. -/
theorem rootUnused_of (hwf : ig.WF) (hp : NodesProductive ig.cfg) : RootUnused ig.cfg := by
  rcases rootOk_of hwf with h | h
  · exact h
  · obtain ⟨r0, h1, h2⟩ := h.2
    obtain ⟨v, hv⟩ := hp r0 (List.mem_of_getElem? h1) (.production r0.symbol)
      (List.mem_filter.mpr ⟨h2, by simp⟩)
    exact absurd (by simp) (h.derives hv r0 h1)

theorem noEos_of (hg : IWellFormed ig) : NoEos ig.cfg := by
  intro r hr
  obtain ⟨i, hi⟩ := List.mem_iff_getElem?.mp hr
  obtain ⟨q, hq, rfl⟩ := cfg_get.mp hi
  exact hg.noEndMarker q (List.mem_of_getElem? hq)

theorem nodesProductive (h : ig.Encodes g) (hne : NoEndMarker g) (hp : Productive g.productions) :
    NodesProductive ig.cfg := by
  have hM := productiveM (M := fun (a t : T) => a = t) h hne (fun t _ => ⟨t, rfl⟩) (fun r hr => by
    obtain ⟨w, hw⟩ := hp r hr
    obtain ⟨f, hf⟩ := hw.parses
    exact ⟨f, w, parses_iff_parsesM.mp hf⟩)
  intro r hr n hn
  obtain ⟨f, w, hf⟩ := hM r hr n hn
  obtain ⟨v, -, hv⟩ := hf.derives
  exact ⟨v, hv⟩

theorem forall₂_append_right {α β : Type} {R : α → β → Prop} {c : List α} {a b : List β}
    (h : List.Forall₂ R c (a ++ b)) :
    ∃ c1 c2, c = c1 ++ c2 ∧ List.Forall₂ R c1 a ∧ List.Forall₂ R c2 b := by
  induction a generalizing c with
  | nil => exact ⟨[], c, rfl, .nil, h⟩
  | cons x a ih =>
    cases h with
    | cons hx h =>
      obtain ⟨c1, c2, rfl, h1, h2⟩ := ih h
      exact ⟨_ :: c1, c2, rfl, .cons hx h1, h2⟩

theorem encNode_inj {n n' : Node T L} {k : INode} (h : EncNode ig.labels ig.vocab.idMap n k)
    (h' : EncNode ig.labels ig.vocab.idMap n' k) : n = n' := by
  match n, n', k with
  | .production _, .production _, .production _ =>
    simp only [EncNode] at h h'
    rw [h] at h'
    cases h'
    rfl
  | .terminal .epsilon, .terminal .epsilon, .terminal .epsilon => rfl
  | .terminal .eos, .terminal .eos, .terminal .eos => rfl
  | .terminal (.token _), .terminal (.token _), .terminal (.token _) =>
    simp only [EncNode, EncTok] at h h'
    rw [h] at h'
    cases h'
    rfl
  | .terminal .epsilon, .terminal .eos, .terminal k => cases k <;> simp [EncNode, EncTok] at h h'
  | .terminal .epsilon, .terminal (.token _), .terminal k => cases k <;> simp [EncNode, EncTok] at h h'
  | .terminal .eos, .terminal .epsilon, .terminal k => cases k <;> simp [EncNode, EncTok] at h h'
  | .terminal .eos, .terminal (.token _), .terminal k => cases k <;> simp [EncNode, EncTok] at h h'
  | .terminal (.token _), .terminal .eos, .terminal k => cases k <;> simp [EncNode, EncTok] at h h'
  | .terminal (.token _), .terminal .epsilon, .terminal k => cases k <;> simp [EncNode, EncTok] at h h'
  | .production _, _, .terminal _ => simp [EncNode] at h
  | .terminal _, _, .production _ => simp [EncNode] at h
  | _, .production _, .terminal _ => simp [EncNode] at h'
  | _, .terminal _, .production _ => simp [EncNode] at h'

theorem encNodes_inj {α α' : List (Node T L)} {β : List INode} (h : EncNodes ig α β)
    (h' : EncNodes ig α' β) : α = α' := by
  induction h generalizing α' with
  | nil => cases h'; rfl
  | cons h1 _ ih =>
    cases h' with
    | cons h2 h3 => rw [encNode_inj h1 h2, ih h3]

theorem encNodes_strip {α : List (Node T L)} {β : List INode} (h : EncNodes ig α β) :
    EncNodes ig (strip α) (strip β) := by
  induction h with
  | nil => exact .nil
  | @cons n k α β h1 _ ih =>
    match n, k with
    | .terminal .epsilon, .terminal .epsilon => simpa using ih
    | .terminal .eos, .terminal .eos => exact .cons h1 ih
    | .terminal (.token _), .terminal (.token _) => exact .cons h1 ih
    | .production _, .production _ => exact .cons h1 ih
    | .terminal .epsilon, .terminal .eos => simp [EncNode, EncTok] at h1
    | .terminal .epsilon, .terminal (.token _) => simp [EncNode, EncTok] at h1
    | .terminal .eos, .terminal .epsilon => simp [EncNode, EncTok] at h1
    | .terminal .eos, .terminal (.token _) => simp [EncNode, EncTok] at h1
    | .terminal (.token _), .terminal .eos => simp [EncNode, EncTok] at h1
    | .terminal (.token _), .terminal .epsilon => simp [EncNode, EncTok] at h1
    | .terminal _, .production _ => simp [EncNode] at h1
    | .production _, .terminal _ => simp [EncNode] at h1

theorem encNodes_tok {α : List (Node T L)} {y : List Nat} (h : EncNodes ig α (tokNodes y)) :
    ∃ v, α = tokNodes v ∧ EncWord ig v y := by
  induction y generalizing α with
  | nil => cases h; exact ⟨[], rfl, .nil⟩
  | cons k y ih =>
    rw [tokNodes_cons] at h
    cases h with
    | @cons n _ α _ h1 h2 =>
      obtain ⟨v, rfl, hv⟩ := ih h2
      match n with
      | .terminal (.token t) => exact ⟨t :: v, rfl, .cons h1 hv⟩
      | .terminal .epsilon => simp [EncNode, EncTok] at h1
      | .terminal .eos => simp [EncNode, EncTok] at h1
      | .production _ => simp [EncNode] at h1

theorem rmSteps_dec (h : ig.Encodes g) {is : List Nat} {β β' : List INode} (hs : RmSteps ig.cfg is β β') :
    ∀ {α : List (Node T L)}, EncNodes ig α β →
      ∃ α', EncNodes ig α' β' ∧ RmSteps g.productions (is.map ig.orig) α α' := by
  induction hs with
  | refl => intro α hα; exact ⟨α, hα, .refl _⟩
  | @step i is β1 β2 β3 h1 _ ih =>
    intro α hα
    cases h1 with
    | @mk x y r hr =>
      obtain ⟨q, hq, rfl⟩ := cfg_get.mp hr
      obtain ⟨p, hp, hl, hn⟩ := h.rule q (List.mem_of_getElem? hq)
      obtain ⟨α1, α2, rfl, h2, h3⟩ := forall₂_append_right hα
      cases h3 with
      | @cons n _ α2 _ h4 h5 =>
        obtain ⟨v, rfl, hv⟩ := encNodes_tok h5
        have hn' : n = .production p.symbol := by
          match n with
          | .production l =>
            have h4' : ig.labels[q.symbol]? = some l := h4
            rw [hl] at h4'
            cases h4'
            rfl
          | .terminal _ => simp [EncNode] at h4
        subst hn'
        have h6 : EncNodes ig (α1 ++ rhs p ++ tokNodes v) (x ++ rhs q.rule ++ tokNodes y) := by
          refine List.rel_append (List.rel_append h2 (encNodes_strip hn)) h5
        obtain ⟨α', h7, h8⟩ := ih h6
        refine ⟨α', h7, .step ?_ h8⟩
        rw [orig_eq hq]
        exact .mk hp

theorem handle_dec (h : ig.Encodes g) {i : Nat} {x : List INode} {y : List Nat} (hh : Handle ig.cfg i x y) :
    ∃ x' y', EncNodes ig x' x ∧ EncWord ig y' y ∧ Handle g.productions (ig.orig i) x' y' := by
  obtain ⟨root, r, is, h1, h2, h3⟩ := hh
  obtain ⟨q, hq, rfl⟩ := cfg_get.mp h2
  obtain ⟨q0, hq0, rfl⟩ := cfg_get.mp h1
  obtain ⟨p, hp, hl, hn⟩ := h.rule q (List.mem_of_getElem? hq)
  obtain ⟨root', rest, hg, hl'⟩ := h.root_label
  have h0 : q0.symbol = 0 := (h.wf.root 0 q0 hq0).mpr rfl
  have h3' : RmSteps ig.cfg is [.production 0] (x ++ .production q.symbol :: tokNodes y) := by
    rw [← h0]; exact h3
  obtain ⟨α', h4, h5⟩ := rmSteps_dec h h3' (α := [.production root'.symbol]) (.cons hl' .nil)
  obtain ⟨α1, α2, rfl, h6, h7⟩ := forall₂_append_right h4
  cases h7 with
  | @cons n _ α2 _ h8 h9 =>
    obtain ⟨v, rfl, hv⟩ := encNodes_tok h9
    have hn' : n = .production p.symbol := by
      match n with
      | .production l =>
        have h4' : ig.labels[q.symbol]? = some l := h8
        rw [hl] at h4'
        cases h4'
        rfl
      | .terminal _ => simp [EncNode] at h8
    subst hn'
    refine ⟨α1, v, h6, hv, root', p, _, by rw [hg]; rfl, by rw [orig_eq hq]; exact hp, h5⟩

theorem orig_inj (h : ig.Encodes g) {i j : Nat} {r s : IRule} (hr : ig.rules[i]? = some r)
    (hs : ig.rules[j]? = some s) (he : ig.orig i = ig.orig j) : i = j := by
  have hnd : (ig.rules.map (·.originalIndex)).Nodup := h.perm.nodup_iff.mpr List.nodup_range
  rw [orig_eq hr, orig_eq hs] at he
  refine getElem?_inj_of_nodup (x := r.originalIndex) hnd ?_ ?_
  · simp [hr]
  · simp [hs, he]

theorem encWord_head {v v' : List T} {w w' : List Nat} (h : EncWord ig v w) (h' : EncWord ig v' w')
    (he : w.head? = w'.head?) : v.head? = v'.head? := by
  cases h <;> cases h' <;> simp_all

/-- The user's grammar is not LR(1) either. -/
theorem notLR1_dec (h : ig.Encodes g) (hn : NotLR1 ig.cfg) : NotLR1 g.productions := by
  obtain ⟨γ, i, r, x, w, j, r', x', w', y, h1, h2, h3, h4, rfl, h6, h7, h8⟩ := hn
  obtain ⟨q, hq, rfl⟩ := cfg_get.mp h1
  obtain ⟨q', hq', rfl⟩ := cfg_get.mp h2
  obtain ⟨p, hp, hl, hn⟩ := h.rule q (List.mem_of_getElem? hq)
  obtain ⟨p', hp', hl', hn'⟩ := h.rule q' (List.mem_of_getElem? hq')
  obtain ⟨x1, w1, h9, h10, h11⟩ := handle_dec h h3
  obtain ⟨x1', w1', h9', h10', h11'⟩ := handle_dec h h4
  have h12 : EncNodes ig (x1' ++ rhs p' ++ tokNodes w1') (x' ++ rhs q'.rule ++ tokNodes w') := by
    refine List.rel_append (List.rel_append h9' (encNodes_strip hn')) ?_
    clear * - h10'
    induction h10' with
    | nil => exact .nil
    | cons h _ ih => exact .cons h ih
  rw [← h6] at h12
  obtain ⟨γ1, α2, h13, h14, h15⟩ := forall₂_append_right h12
  obtain ⟨y1, rfl, h16⟩ := encNodes_tok h15
  have h17 : EncNodes ig (x1 ++ rhs p) (x ++ rhs q.rule) := List.rel_append h9 (encNodes_strip hn)
  cases encNodes_inj h14 h17
  refine ⟨_, ig.orig i, p, x1, w1, ig.orig j, p', x1', w1', y1, by rw [orig_eq hq]; exact hp,
    by rw [orig_eq hq']; exact hp', h11, h11', rfl, h13.symm, encWord_head h10 h16 h7, ?_⟩
  rcases h8 with h8 | h8
  · exact .inl fun he => h8 (orig_inj h hq hq' he)
  · exact .inr fun he => h8 (by subst he; exact EncWord.inj h h10' h16)

end
end Verif
