import Mathlib.Data.List.Permutation
import Verif.Spec.Sorted
import Verif.Proof.Sorted
import Verif.Props.Order

/-!
# C76: with the rules in the right order the parser is right
-/

set_option linter.unusedSectionVars false
set_option autoImplicit false

namespace Verif
open Spec

namespace C76

section
variable {T L : Type}

/-- `l` vanishes in at most `n` levels. -/
def Vanishes (P : List (Rule T L)) : Nat → L → Prop
  | 0, _ => False
  | n + 1, l => ∃ r ∈ P, r.symbol = l ∧ ∀ m ∈ r.rule, m = .terminal .epsilon ∨ ∃ l', m = .production l' ∧ Vanishes P n l'

variable {P : List (Rule T L)}

theorem Vanishes.mono {n : Nat} {l : L} (h : Vanishes P n l) : ∀ {m : Nat}, n ≤ m → Vanishes P m l := by
  induction n generalizing l with
  | zero => cases h
  | succ n ih =>
    intro m hm
    obtain ⟨m, rfl⟩ : ∃ k, m = k + 1 := ⟨m - 1, by omega⟩
    obtain ⟨r, hr, hs, ha⟩ := h
    refine ⟨r, hr, hs, fun x hx => (ha x hx).imp_right ?_⟩
    rintro ⟨l', e, h'⟩
    exact ⟨l', e, ih h' (by omega)⟩

theorem exists_vanishes {α : List (Node T L)} {t : AugTok T} (h : First P α t) (ht : t = .epsilon) :
    ∃ n, ∀ m ∈ α, m = .terminal .epsilon ∨ ∃ l, m = .production l ∧ Vanishes P n l := by
  induction h with
  | nil => exact ⟨0, by simp⟩
  | eps _ ih =>
    obtain ⟨n, hn⟩ := ih ht
    refine ⟨n, fun m hm => ?_⟩
    rcases List.mem_cons.mp hm with rfl | hm
    · exact .inl rfl
    · exact hn m hm
  | term hne => exact absurd ht hne
  | @skip r α t hr _ _ ih1 ih2 =>
    obtain ⟨n1, h1⟩ := ih1 rfl
    obtain ⟨n2, h2⟩ := ih2 ht
    refine ⟨max (n1 + 1) n2, fun m hm => ?_⟩
    rcases List.mem_cons.mp hm with rfl | hm
    · exact .inr ⟨_, rfl, Vanishes.mono (n := n1 + 1) ⟨r, hr, rfl, h1⟩ (by omega)⟩
    · rcases h2 m hm with h | ⟨l, e, h⟩
      · exact .inl h
      · exact .inr ⟨l, e, h.mono (by omega)⟩
  | take _ _ hne => exact absurd ht hne

theorem first_of_vanishes {n : Nat} {l : L} (h : Vanishes P n l) : First P [.production l] .epsilon := by
  induction n generalizing l with
  | zero => cases h
  | succ n ih =>
    obtain ⟨r, hr, rfl, ha⟩ := h
    refine .skip hr ?_ .nil
    generalize r.rule = α at ha
    induction α with
    | nil => exact .nil
    | cons m α ih' =>
      have h1 := ih' fun x hx => ha x (List.mem_cons_of_mem _ hx)
      rcases ha m List.mem_cons_self with rfl | ⟨l', rfl, h'⟩
      · exact .eps h1
      · rw [show (Node.production l' :: α : List (Node T L)) = [.production l'] ++ α from rfl, First.append]
        exact .inr ⟨ih h', h1⟩

theorem first_of_all {α : List (Node T L)}
    (ha : ∀ m ∈ α, m = .terminal .epsilon ∨ ∃ l, m = .production l ∧ First P [.production l] .epsilon) :
    First P α .epsilon := by
  induction α with
  | nil => exact .nil
  | cons m α ih =>
    have h1 := ih fun x hx => ha x (List.mem_cons_of_mem _ hx)
    rcases ha m List.mem_cons_self with rfl | ⟨l, rfl, h⟩
    · exact .eps h1
    · rw [show (Node.production l :: α : List (Node T L)) = [.production l] ++ α from rfl, First.append]
      exact .inr ⟨h, h1⟩

open Classical in
/-- The least number of levels. -/
noncomputable def rank (P : List (Rule T L)) (l : L) : Nat :=
  if h : ∃ n, Vanishes P n l then Nat.find h else 0

/-- A label that vanishes has a rule of epsilons and of labels that vanish in fewer levels. -/
theorem exists_lower {l : L} (h : First P [.production l] .epsilon) :
    ∃ r ∈ P, r.symbol = l ∧ ∀ m ∈ r.rule, m = .terminal .epsilon ∨
      ∃ l', m = .production l' ∧ First P [.production l'] .epsilon ∧ rank P l' < rank P l := by
  classical
  have hv : ∃ n, Vanishes P n l := by
    obtain ⟨n, hn⟩ := exists_vanishes h rfl
    rcases hn _ List.mem_cons_self with h | ⟨l', e, h⟩
    · cases h
    · cases e; exact ⟨n, h⟩
  have hr : rank P l = Nat.find hv := dif_pos hv
  have hs := Nat.find_spec hv
  obtain ⟨n, hn⟩ : ∃ n, Nat.find hv = n + 1 := by
    cases h0 : Nat.find hv with
    | zero => rw [h0] at hs; cases hs
    | succ n => exact ⟨n, rfl⟩
  rw [hn] at hs hr
  obtain ⟨r, hr', e, ha⟩ := hs
  refine ⟨r, hr', e, fun m hm => (ha m hm).imp_right ?_⟩
  rintro ⟨l', e', h'⟩
  refine ⟨l', e', first_of_vanishes h', ?_⟩
  have h2 : rank P l' ≤ n := by
    unfold rank
    rw [dif_pos ⟨n, h'⟩]
    exact Nat.find_min' _ h'
  omega

theorem vanishes_congr {P' : List (Rule T L)} (h : ∀ r, r ∈ P → r ∈ P') {α : List (Node T L)} {t : AugTok T}
    (hf : First P α t) : First P' α t := by
  induction hf with
  | nil => exact .nil
  | eps _ ih => exact .eps ih
  | term hne => exact .term hne
  | skip hr _ _ ih1 ih2 => exact .skip (h _ hr) ih1 ih2
  | take hr _ hne ih => exact .take (h _ hr) ih hne

end

section
variable {T L : Type} [DecidableEq T] [DecidableEq L] {P : List (Rule T L)}

/-- A root that vanishes is not mentioned. -/
theorem root_not_mentioned {root : Rule T L} {rest : List (Rule T L)} (hu : C10.RootUnique root rest)
    (hf : First (root :: rest) [.production root.symbol] .epsilon) :
    ∀ r ∈ root :: rest, Node.production root.symbol ∉ r.rule := by
  intro r hr hm
  rcases List.mem_cons.mp hr with rfl | hr
  · have := First.nullable_sub (fun l => decide (l ≠ r.symbol)) ?_ hf rfl
    · simp [First.vanishes] at this
    · rw [List.all_eq_true]
      intro q hq
      rcases List.mem_cons.mp hq with rfl | hq
      · have : (q.rule.all (First.vanishes fun l => decide (l ≠ q.symbol))) = false := by
          rw [Bool.eq_false_iff]
          intro h
          have := List.all_eq_true.mp h _ hm
          simp [First.vanishes] at this
        rw [this]; rfl
      · simp [(hu q hq).1]
  · exact (hu r hr).2 hm

theorem filter_false {l : L} : ¬ First (P.filter fun q => decide (q.symbol ≠ l)) [.production l] .epsilon := by
  intro h
  obtain ⟨r, hr, e, -⟩ := exists_lower h
  have := (List.mem_filter.mp hr).2
  simp [e] at this

/-- A label of lower rank vanishes without the rules of `l`. -/
theorem without_of_rank {l0 : L} : ∀ {l : L}, First P [.production l] .epsilon → rank P l < rank P l0 →
    First (P.filter fun q => decide (q.symbol ≠ l0)) [.production l] .epsilon := by
  have key : ∀ n, ∀ {l : L}, rank P l = n → First P [.production l] .epsilon → rank P l < rank P l0 →
      First (P.filter fun q => decide (q.symbol ≠ l0)) [.production l] .epsilon := by
    intro n
    induction n using Nat.strongRecOn with
    | ind n ih =>
      intro l hn hl hlt
      obtain ⟨r, hr, e, ha⟩ := exists_lower hl
      have hr' : r ∈ P.filter fun q => decide (q.symbol ≠ l0) := by
        refine List.mem_filter.mpr ⟨hr, ?_⟩
        simp only [ne_eq, decide_not, Bool.not_eq_true', decide_eq_false_iff_not]
        rintro rfl
        rw [e] at hlt
        omega
      obtain rfl := e
      refine .skip hr' (first_of_all fun m hm => (ha m hm).imp_right ?_) .nil
      rintro ⟨l', rfl, h1, h2⟩
      exact ⟨l', rfl, ih _ (by omega) rfl h1 (by omega)⟩
  intro l
  exact key _ rfl

section Sorting
variable {α : Type} {f : α → Rule T L} {root : α} {rs : List α} {le : α → α → Bool}

theorem index_lt (hrefl : ∀ a, le a a = true) (hsort : rs.Pairwise fun p q => le p q = true) {p q : α} {k n : Nat}
    (hk : rs[k]? = some p) (hn : rs[n]? = some q) (h : le q p = false) : k < n := by
  by_contra hlt
  by_cases e : n = k
  · subst e
    rw [hk] at hn
    cases hn
    rw [hrefl] at h
    cases h
  obtain ⟨hn1, rfl⟩ := List.getElem?_eq_some_iff.mp hn
  obtain ⟨hk1, rfl⟩ := List.getElem?_eq_some_iff.mp hk
  have := (List.pairwise_iff_getElem.mp hsort) n k hn1 hk1 (by omega)
  rw [h] at this
  cases this

theorem before_of (hrefl : ∀ a, le a a = true) (hsort : rs.Pairwise fun p q => le p q = true) {p : α} (hp : p ∈ rs) {l : L}
    (hl : l ≠ (f root).symbol) (h : ∀ q ∈ rs, (f q).symbol = l → le q p = false) :
    Before ((root :: rs).map f) (f p).symbol l := by
  intro n q hn hq
  cases n with
  | zero => cases hn; exact absurd hq.symm hl
  | succ n =>
    rw [List.map_cons, List.getElem?_cons_succ, List.getElem?_map, Option.map_eq_some_iff] at hn
    obtain ⟨q, hn, rfl⟩ := hn
    obtain ⟨k, hk⟩ := List.mem_iff_getElem?.mp hp
    exact ⟨k + 1, f p, Nat.succ_lt_succ (index_lt hrefl hsort hk hn (h q (List.mem_of_getElem? hn) hq)), by simp [hk], rfl⟩

end Sorting

/-- Whatever stands for the rules after the root rule can be sorted. -/
theorem sortable_map {α : Type} (f : α → Rule T L) {root : α} {rest : List α}
    (hb : ∃ ig, IndexedGrammar.build ⟨(root :: rest).map f⟩ = .ok ig) (hs : InSight ((root :: rest).map f)) :
    ∃ rest', rest.Perm rest' ∧ EmptySorted ((root :: rest').map f) ∧ FoundInOrder ((root :: rest').map f) := by
  classical
  obtain ⟨hu, -, -⟩ := (C10.build_succeeds_iff (f root) (rest.map f)).mp hb
  let P := f root :: rest.map f
  obtain ⟨l0, hsight⟩ : ∃ l0, (∃ r ∈ P, ∃ t, t ≠ .epsilon ∧ BeginsWith r.rule t) ∨
      ∃ r ∈ rest, (f r).symbol = l0 ∧ ∃ pre t rest, (f r).rule = pre ++ .terminal t :: rest ∧ t ≠ .epsilon ∧
        ∀ m ∈ pre, m = .terminal .epsilon ∨ ∃ l, m = .production l ∧ First P [.production l] .epsilon ∧
          (l = l0 ∨ First (P.filter fun q => decide (q.symbol ≠ l0)) [.production l] .epsilon) := by
    rcases hs with h | ⟨r, hr, pre, t, rest', h1, h2, h3⟩
    · exact ⟨(f root).symbol, .inl h⟩
    · rw [List.map_cons, List.tail_cons] at hr
      obtain ⟨a, ha, rfl⟩ := List.mem_map.mp hr
      refine ⟨_, .inr ⟨a, ha, rfl, pre, t, rest', h1, h2, fun m hm => (h3 m hm).imp_right ?_⟩⟩
      rintro ⟨l, rfl, h4, h5⟩
      exact ⟨l, rfl, first_iff.mpr h4, h5.imp_right first_iff.mpr⟩
  let P0 := P.filter fun q => decide (q.symbol ≠ l0)
  let A : L → Prop := fun l => First P0 [.production l] .epsilon
  have hAP : ∀ {l}, A l → First P [.production l] .epsilon := fun h => vanishes_congr (fun r hr => (List.mem_filter.mp hr).1) h
  let c : Rule T L → Nat := fun r => if A r.symbol then 0 else if r.symbol = l0 then 1 else 2
  let k : Rule T L → Nat := fun r => if A r.symbol then rank P0 r.symbol else if r.symbol = l0 then
    (if ∀ m ∈ r.rule, m = .terminal .epsilon ∨ ∃ l, m = .production l ∧ A l then 0 else 1) else rank P r.symbol
  let le : α → α → Bool := fun p q => decide (c (f p) < c (f q) ∨ c (f p) = c (f q) ∧ k (f p) ≤ k (f q))
  have hperm : (rest.mergeSort le).Perm rest := List.mergeSort_perm rest le
  have hsort : (rest.mergeSort le).Pairwise (fun p q => le p q = true) :=
    List.pairwise_mergeSort (le := le) (fun a b c h1 h2 => by simp only [le, decide_eq_true_eq] at *; omega)
      (fun a b => by simp only [le, Bool.or_eq_true, decide_eq_true_eq]; omega) rest
  have hrefl : ∀ a, le a a = true := fun a => by simp [le]
  have hmem : ∀ r, r ∈ (root :: rest.mergeSort le).map f ↔ r ∈ P := by
    intro r; rw [List.map_cons, List.mem_cons, (hperm.map f).mem_iff, ← List.mem_cons]
  have hfirst : ∀ {α : List (Node T L)} {t}, InFirst ((root :: rest.mergeSort le).map f) α t ↔ First P α t := by
    intro α t
    rw [← first_iff]
    exact ⟨vanishes_congr fun r => (hmem r).mp, vanishes_congr fun r => (hmem r).mpr⟩
  have hne : ∀ {l : L} {q : Rule T L}, First P [.production l] .epsilon → q ∈ P →
      Node.production l ∈ q.rule → l ≠ (f root).symbol := by
    rintro l q h1 h2 h3 rfl
    exact root_not_mentioned hu h1 q h2 h3
  -- the rules of `l'` begin before those of `l`
  have hbefore : ∀ {l l' : L}, l ≠ (f root).symbol → l' ≠ (f root).symbol → First P [.production l'] .epsilon →
      (∃ r ∈ P, r.symbol = l' ∧ ∀ q : Rule T L, q.symbol = l → c r < c q ∨ c r = c q ∧ k r < k q) →
      Before ((root :: rest.mergeSort le).map f) l' l := by
    rintro l l' hl hl' h1 ⟨r, hr, rfl, h2⟩
    rcases List.mem_cons.mp hr with rfl | hr
    · exact absurd rfl hl'
    obtain ⟨p, hp, rfl⟩ := List.mem_map.mp hr
    refine before_of hrefl hsort (hperm.mem_iff.mpr hp) hl fun q _ hq => ?_
    have := h2 (f q) hq
    simp only [le, decide_eq_false_iff_not]
    omega
  have hrule : ∀ {l : L}, First P [.production l] .epsilon → ∃ r ∈ P, r.symbol = l := fun h =>
    let ⟨r, hr, e, _⟩ := exists_lower h; ⟨r, hr, e⟩
  have cA : ∀ {r : Rule T L}, A r.symbol → c r = 0 := fun h => if_pos h
  have kA : ∀ {r : Rule T L}, A r.symbol → k r = rank P0 r.symbol := fun h => if_pos h
  have c0 : ∀ {r : Rule T L}, r.symbol = l0 → c r = 1 := fun h => by
    simp only [c]; rw [if_neg (by rw [h]; exact filter_false), if_pos h]
  have c2 : ∀ {r : Rule T L}, ¬ A r.symbol → r.symbol ≠ l0 → c r = 2 := fun h h' => by
    simp only [c]; rw [if_neg h, if_neg h']
  have k2 : ∀ {r : Rule T L}, ¬ A r.symbol → r.symbol ≠ l0 → k r = rank P r.symbol := fun h h' => by
    simp only [k]; rw [if_neg h, if_neg h']
  have before0 : ∀ {l' : L}, l0 ≠ (f root).symbol → l' ≠ (f root).symbol → A l' →
      Before ((root :: rest.mergeSort le).map f) l' l0 := by
    intro l' h1 h2 h3
    obtain ⟨r, hr, rfl⟩ := hrule (hAP h3)
    exact hbefore h1 h2 (hAP h3) ⟨r, hr, rfl, fun q hq => .inl (by rw [cA h3, c0 hq]; omega)⟩
  have empty0 : First P [.production l0] .epsilon → ∃ r ∈ P, r.symbol = l0 ∧
      ∀ m ∈ r.rule, m = .terminal .epsilon ∨ ∃ l', m = .production l' ∧ A l' := by
    intro h
    obtain ⟨r, hr, e, ha⟩ := exists_lower h
    refine ⟨r, hr, e, fun m hm => (ha m hm).imp_right ?_⟩
    rintro ⟨l', rfl, h1, h2⟩
    exact ⟨l', rfl, without_of_rank h1 h2⟩
  refine ⟨rest.mergeSort le, hperm.symm, ?_, ?_⟩
  · rintro l hl ⟨q, hq, hlq⟩
    rw [hfirst] at hl
    have hl0 := hne hl ((hmem q).mp hq) hlq
    by_cases hA : A l
    · obtain ⟨r, hr, e, ha⟩ := exists_lower hA
      have hr' := (List.mem_filter.mp hr).1
      refine ⟨r, (hmem r).mpr hr', e, fun m hm => (ha m hm).imp_right ?_⟩
      rintro ⟨l', rfl, h1, h2⟩
      refine ⟨l', rfl, hfirst.mpr (hAP h1), hbefore hl0 (hne (hAP h1) hr' hm) (hAP h1) ?_⟩
      obtain ⟨p, hp, rfl⟩ := hrule (hAP h1)
      refine ⟨p, hp, rfl, fun q hq => .inr ?_⟩
      subst hq
      rw [cA h1, cA hA, kA h1, kA hA]
      exact ⟨rfl, h2⟩
    by_cases hl1 : l = l0
    · subst hl1
      obtain ⟨r, hr, e, ha⟩ := empty0 hl
      refine ⟨r, (hmem r).mpr hr, e, fun m hm => (ha m hm).imp_right ?_⟩
      rintro ⟨l', rfl, h1⟩
      exact ⟨l', rfl, hfirst.mpr (hAP h1), before0 hl0 (hne (hAP h1) hr hm) h1⟩
    · obtain ⟨r, hr, e, ha⟩ := exists_lower hl
      refine ⟨r, (hmem r).mpr hr, e, fun m hm => (ha m hm).imp_right ?_⟩
      rintro ⟨l', rfl, h1, h2⟩
      refine ⟨l', rfl, hfirst.mpr h1, hbefore hl0 (hne h1 hr hm) h1 ?_⟩
      obtain ⟨p, hp, rfl⟩ := hrule h1
      refine ⟨p, hp, rfl, fun q hq => ?_⟩
      subst hq
      rw [c2 hA hl1]
      by_cases hA' : A p.symbol
      · exact .inl (by rw [cA hA']; omega)
      by_cases hl2 : p.symbol = l0
      · exact .inl (by rw [c0 hl2]; omega)
      · rw [c2 hA' hl2, k2 hA' hl2, k2 hA hl1]
        exact .inr ⟨rfl, h2⟩
  · rcases hsight with ⟨r, hr, t, hne', pre, rest', h1, h2⟩ | ⟨a, ha, hal, pre, t, rest', h1, h2, h3⟩
    · obtain ⟨n, hn⟩ := List.mem_iff_getElem?.mp ((hmem r).mpr hr)
      exact ⟨n, r, hn, pre, t, rest', h1, hne', fun m hm => .inl (h2 m hm)⟩
    · have hroot : l0 ≠ (f root).symbol := by
        rw [← hal]; exact (hu (f a) (List.mem_map_of_mem ha)).1
      have haP : f a ∈ P := List.mem_cons_of_mem _ (List.mem_map_of_mem ha)
      obtain ⟨n, hn⟩ := List.mem_iff_getElem?.mp (hperm.mem_iff.mpr ha)
      refine ⟨n + 1, f a, by simp [hn], pre, t, rest', h1, h2, fun m hm => (h3 m hm).imp_right ?_⟩
      rintro ⟨l, rfl, h4, h5⟩
      refine ⟨l, rfl, hfirst.mpr h4, ?_⟩
      rw [hal]
      rcases h5 with rfl | h5
      · obtain ⟨r, hr, e, hall⟩ := empty0 h4
        rcases List.mem_cons.mp hr with rfl | hr'
        · exact absurd e.symm hroot
        obtain ⟨b, hb, rfl⟩ := List.mem_map.mp hr'
        obtain ⟨j, hj⟩ := List.mem_iff_getElem?.mp (hperm.mem_iff.mpr hb)
        refine .inr ⟨rfl, j + 1, f b, Nat.succ_lt_succ (index_lt hrefl hsort hj hn ?_), by simp [hj], e,
          fun m hm => (hall m hm).imp_right ?_⟩
        · have e1 : k (f b) = 0 := by
            simp only [k]; rw [if_neg (by rw [e]; exact filter_false), if_pos e, if_pos hall]
          have e2 : k (f a) = 1 := by
            simp only [k]; rw [if_neg (by rw [hal]; exact filter_false), if_pos hal, if_neg]
            intro hall'
            rcases hall' (.terminal t) (by rw [h1]; simp) with h | ⟨l, h, -⟩
            · cases h; exact h2 rfl
            · cases h
          simp only [le, decide_eq_false_iff_not, c0 hal, c0 e, e1, e2]
          omega
        · rintro ⟨l', rfl, h6⟩
          exact ⟨l', rfl, hfirst.mpr (hAP h6), before0 hroot (hne (hAP h6) hr hm) h6⟩
      · exact .inl (before0 hroot (hne h4 haP (by rw [h1]; exact List.mem_append_left _ hm)) h5)

/-- **C76.** If a token is in sight, the rules after the root rule can be sorted so that it is found. -/
theorem sortable {root : Rule T L} {rest : List (Rule T L)} (hb : ∃ ig, IndexedGrammar.build ⟨root :: rest⟩ = .ok ig)
    (hs : InSight (root :: rest)) : ∃ rest', rest.Perm rest' ∧ EmptySorted (root :: rest') ∧ FoundInOrder (root :: rest') := by
  have := sortable_map (fun r : Rule T L => r) (root := root) (rest := rest) (by simpa using hb) (by simpa using hs)
  simpa using this

variable {g : Grammar T L} {ig : IndexedGrammar T L}

/-- The numbers of labels respect the order of their rules. -/
theorem label_lt (henc : IndexedGrammar.Encodes g ig) {i j : Nat} {l' l : L} (hi : ig.labels[i]? = some l')
    (hj : ig.labels[j]? = some l) (h : Before g.productions l' l) (hr : ∃ r ∈ g.productions, r.symbol = l) : i < j := by
  by_contra hlt
  obtain ⟨r, hr, hs⟩ := hr
  obtain ⟨n, hn⟩ := List.mem_iff_getElem?.mp hr
  have key : ∀ n : Nat, ∀ r : Rule T L, g.productions[n]? = some r → r.symbol = l → False := by
    intro n
    induction n using Nat.strongRecOn with
    | ind n ih =>
      intro r hn hs
      obtain ⟨m, p, hm, hp, hpl⟩ := h n r hn hs
      by_cases e : i = j
      · subst e
        rw [hi] at hj
        cases hj
        exact ih m hm p hp hpl
      · obtain ⟨m', p', hm', hp', hpl'⟩ := henc.first j i l l' hj hi (by omega) m p hp hpl
        exact ih m' (by omega) p' hp' hpl'
  exact key n r hn hs

theorem nodes_enc {α : List (Node T L)} {β : List INode}
    (hf : List.Forall₂ (EncNode ig.labels ig.vocab.idMap) α β) {R : L → Prop} {R' : Nat → Prop}
    (h : ∀ l i, ig.labels[i]? = some l → Node.production l ∈ α → R l → R' i)
    (ha : ∀ m ∈ α, m = .terminal .epsilon ∨ ∃ l, m = .production l ∧ R l) :
    ∀ m ∈ β, m = .terminal .epsilon ∨ ∃ i, m = .production i ∧ R' i := by
  intro n hn
  obtain ⟨m, hm, he⟩ := IndexedGrammar.Encodes.forall₂_mem_right hf hn
  cases n with
  | production i =>
    rcases ha m hm with rfl | ⟨l, rfl, hr⟩
    · simp [EncNode] at he
    · exact .inr ⟨i, rfl, h l i he hm hr⟩
  | terminal k =>
    rcases ha m hm with rfl | ⟨l, rfl, -⟩
    · cases k <;> simp [EncNode, EncTok] at he
      exact .inl rfl
    · simp [EncNode] at he

theorem nodes_dec {α : List (Node T L)} {β : List INode}
    (hf : List.Forall₂ (EncNode ig.labels ig.vocab.idMap) α β) {R : L → Prop} {R' : Nat → Prop}
    (h : ∀ l i, ig.labels[i]? = some l → R' i → R l)
    (ha : ∀ m ∈ β, m = .terminal .epsilon ∨ ∃ i, m = .production i ∧ R' i) :
    ∀ m ∈ α, m = .terminal .epsilon ∨ ∃ l, m = .production l ∧ R l := by
  intro m hm
  obtain ⟨n, hn, he⟩ := IndexedGrammar.Encodes.forall₂_mem_left hf hm
  cases m with
  | production l =>
    rcases ha n hn with rfl | ⟨i, rfl, hr⟩
    · simp [EncNode] at he
    · exact .inr ⟨l, rfl, h l i he hr⟩
  | terminal k =>
    rcases ha n hn with rfl | ⟨i, rfl, -⟩
    · cases k <;> simp [EncNode, EncTok] at he
      exact .inl rfl
    · simp [EncNode] at he

theorem first_dec (henc : IndexedGrammar.Encodes g ig) {l : L} {i : Nat} (hl : ig.labels[i]? = some l) :
    InFirst g.productions [.production l] .epsilon ↔ First ig.cfg [.production i] .epsilon := by
  rw [← first_iff]
  exact henc.first_iff (α := [.production l]) (β := [.production i]) (t := .epsilon) (i := .epsilon) (.cons hl .nil) trivial

/-- **C76.** If the rules are sorted and a token is found in their order, the FIRST sets are complete. -/
theorem first_complete_if_sorted (hg : IndexedGrammar.build g = .ok ig) (hs : EmptySorted g.productions)
    (ht : FoundInOrder g.productions) : C07.FirstComplete g := by
  have henc := (IndexedGrammar.build_ok hg).1
  obtain ⟨F, hF, hres⟩ := FirstTable.build_spec (ε := LRTableError T L) henc.wf
  have hn : ∀ l, First ig.cfg [.production l] .epsilon → (∃ r ∈ ig.cfg, .production l ∈ r.rule) →
      FirstTable.Early ig l := by
    rintro i hf ⟨q0, hq0, hm⟩
    obtain ⟨q, hq, rfl⟩ := List.mem_map.mp hq0
    obtain ⟨p, hp, -, hnodes⟩ := henc.rule q hq
    obtain ⟨l, hl, hlp⟩ := IndexedGrammar.Encodes.mem_production hnodes hm
    obtain ⟨r, hr, e, ha⟩ := hs l ((first_dec henc hl).mpr hf) ⟨p, List.mem_of_getElem? hp, hlp⟩
    obtain ⟨j, hj⟩ := List.mem_iff_getElem?.mp hr
    obtain ⟨k, r', hr', -, hsym, hnodes'⟩ := henc.rule_of_production hj (e ▸ hl)
    refine ⟨r'.rule, IndexedGrammar.Encodes.mem_cfg (List.mem_of_getElem? hr'), hsym, nodes_enc hnodes' ?_ ha⟩
    rintro l' i' hl' - ⟨h2, h3⟩
    exact ⟨(first_dec henc hl').mp h2, label_lt henc hl' hl h3 ⟨r, hr, e⟩⟩
  obtain ⟨n, r, hr, pre, t, rest, hrule, hne, hpre⟩ := ht
  obtain ⟨r0, hr0, ho0, hs0, hn0⟩ := henc.exists_rule hr
  obtain ⟨i0, hi0⟩ := List.mem_iff_getElem?.mp hr0
  have hrm := List.mem_of_getElem? hr
  rw [hrule] at hn0
  obtain ⟨pre', rest', hp1, hp2, hp3⟩ := IndexedGrammar.Encodes.forall₂_append_left hn0
  obtain ⟨t', rest'', rfl, hne'⟩ : ∃ t' rest'', rest' = .terminal t' :: rest'' ∧ t' ≠ .epsilon := by
    cases hp2 with
    | @cons _ n _ β he _ =>
      cases n with
      | production l => simp [EncNode] at he
      | terminal k =>
        refine ⟨k, β, rfl, ?_⟩
        rintro rfl
        cases t <;> simp [EncNode, EncTok] at he
        exact hne rfl
  obtain ⟨F1, h1⟩ := FirstTable.propagate_found (ε := LRTableError T L) henc.wf hn hi0 hp3 hne' (nodes_enc hp1 (by
    rintro l i hi - ⟨h1, h2⟩
    refine ⟨(first_dec henc hi).mp h1, ?_⟩
    rcases h2 with h2 | ⟨rfl, k, q, hk, hq, hql, hqa⟩
    · exact .inl (label_lt henc hi hs0 h2 ⟨r, hrm, rfl⟩)
    · obtain ⟨i1, r1, hi1, ho1, hs1, hn1⟩ := henc.rule_of_production hq (by rw [hql]; exact hs0)
      refine .inr ⟨henc.label_inj hi hs0, i1, r1, ?_, hi1, hs1, nodes_enc hn1 ?_ hqa⟩
      · by_contra hlt
        by_cases e : i0 = i1
        · subst e
          rw [hi0] at hi1
          cases hi1
          omega
        · have := henc.order i0 i1 r0 r1 hi0 hi1 hs1.symm (by omega)
          omega
      · rintro l' i' hl' - ⟨h2, h3⟩
        exact ⟨(first_dec henc hl').mp h2, label_lt henc hl' hs0 h3 ⟨r, hrm, rfl⟩⟩) hpre)
  exact C07.complete_of_closed hg hF (FirstTable.closed_of_early henc.wf hF hn h1)

theorem vanishes_dec (henc : IndexedGrammar.Encodes g ig) {Q : Rule Nat Nat → Bool} {Q' : Rule T L → Bool}
    (hQ : ∀ (r : Rule Nat Nat) (p : Rule T L), ig.labels[r.symbol]? = some p.symbol → Q r = true → Q' p = true) {n : Nat} :
    ∀ (l : L) (i : Nat), ig.labels[i]? = some l → Vanishes (ig.cfg.filter Q) n i → Vanishes (g.productions.filter Q') n l := by
  induction n with
  | zero => intro l i _ h; cases h
  | succ n ih =>
    rintro l i hl ⟨r, hr, rfl, ha⟩
    obtain ⟨hr, hrQ⟩ := List.mem_filter.mp hr
    obtain ⟨q, hq, rfl⟩ := List.mem_map.mp hr
    obtain ⟨p, hp, hpl, hnodes⟩ := henc.rule q hq
    have e : p.symbol = l := by
      rw [hl] at hpl; cases hpl; rfl
    exact ⟨p, List.mem_filter.mpr ⟨List.mem_of_getElem? hp, hQ _ _ hpl hrQ⟩, e, nodes_dec hnodes ih ha⟩

theorem first_filter_dec (henc : IndexedGrammar.Encodes g ig) {Q : Rule Nat Nat → Bool} {Q' : Rule T L → Bool}
    (hQ : ∀ (r : Rule Nat Nat) (p : Rule T L), ig.labels[r.symbol]? = some p.symbol → Q r = true → Q' p = true) {l : L} {i : Nat}
    (hl : ig.labels[i]? = some l) (h : First (ig.cfg.filter Q) [.production i] .epsilon) :
    InFirst (g.productions.filter Q') [.production l] .epsilon := by
  obtain ⟨n, hn⟩ := exists_vanishes h rfl
  rcases hn _ List.mem_cons_self with h | ⟨i', e, h⟩
  · cases h
  · cases e
    exact first_iff.mp (first_of_vanishes (vanishes_dec henc hQ l i hl h))

/-- What the first round finds is in sight. -/
theorem inSight_of_found (hg : IndexedGrammar.build g = .ok ig) (h : FirstTable.Found ig) : InSight g.productions := by
  have henc := (IndexedGrammar.build_ok hg).1
  obtain ⟨r, hr, pre', t', rest', hrule, hne', hpre⟩ := h
  obtain ⟨p, hp, hpl, hnodes⟩ := henc.rule r hr
  obtain ⟨i, hi⟩ := List.mem_iff_getElem?.mp hr
  rw [hrule] at hnodes
  obtain ⟨pre, rest0, hp0, hp1, hp2⟩ := IndexedGrammar.Encodes.forall₂_append_left hnodes.flip
  obtain ⟨t, rest, rfl, hne⟩ : ∃ t rest, rest0 = .terminal t :: rest ∧ t ≠ .epsilon := by
    cases hp1 with
    | @cons _ n _ β he _ =>
      cases n with
      | production l => simp at he
      | terminal k =>
        refine ⟨k, β, rfl, ?_⟩
        rintro rfl
        cases t' <;> simp [EncTok] at he
        exact hne' rfl
  have hp0 : List.Forall₂ (EncNode ig.labels ig.vocab.idMap) pre pre' := hp0.flip
  by_cases h0 : r.symbol = 0
  · -- the root rule: nothing is known yet
    refine .inl ⟨p, List.mem_of_getElem? hp, t, hne, pre, rest, hp2, fun m hm => ?_⟩
    have := nodes_dec hp0 (R := fun _ => False) (fun l i hl h => h) (fun m hm => (hpre m hm).imp_right (by
      rintro ⟨l', rfl, h1 | ⟨rfl, h1⟩⟩
      · obtain ⟨q, hq, -⟩ := exists_lower h1
        have := (List.mem_filter.mp hq).2
        simp [h0] at this
      · obtain ⟨q, hq, e, ha⟩ := exists_lower h1
        obtain ⟨q', hq', rfl⟩ := List.mem_map.mp (List.mem_filter.mp hq).1
        obtain ⟨j, hj⟩ := List.mem_iff_getElem?.mp hq'
        have e1 := (henc.wf.root i r hi).mp h0
        have e2 := (henc.wf.root j q' hj).mp (e.trans h0)
        subst e1 e2
        rw [hi] at hj
        cases hj
        rcases ha (.terminal t') (by rw [show r.rule.rule = r.nodes from rfl, hrule]; simp) with h | ⟨l, h, -⟩
        · cases h; exact absurd rfl hne'
        · cases h)) m hm
    rcases this with h | ⟨l, -, h⟩
    · exact h
    · exact h.elim
  · refine .inr ⟨p, ?_, pre, t, rest, hp2, hne, nodes_dec hp0 ?_ hpre⟩
    · have : r.originalIndex ≠ 0 := by
        intro e
        obtain ⟨r1, h1, h2⟩ := henc.root
        have hi0 : i ≠ 0 := by
          rintro rfl
          exact h0 ((henc.wf.root 0 r hi).mpr rfl)
        have hnd : (ig.rules.map (·.originalIndex)).Nodup := henc.perm.nodup_iff.mpr List.nodup_range
        refine hi0 (getElem?_inj_of_nodup hnd (x := 0) ?_ ?_)
        · rw [List.getElem?_map, hi]; simp [e]
        · rw [List.getElem?_map, h1]; simp [h2]
      obtain ⟨k, hk⟩ : ∃ k, r.originalIndex = k + 1 := ⟨r.originalIndex - 1, by omega⟩
      rw [hk] at hp
      apply List.mem_of_getElem? (i := k)
      rw [List.getElem?_tail]
      exact hp
    · rintro l i hl h
      have hall : ∀ {Q : Rule Nat Nat → Bool}, First (ig.cfg.filter Q) [.production i] .epsilon →
          InFirst g.productions [.production l] .epsilon := fun h =>
        (first_dec henc hl).mpr (vanishes_congr (fun r hr => (List.mem_filter.mp hr).1) h)
      rcases h with h | ⟨rfl, h⟩
      · refine ⟨hall h, .inr (first_filter_dec henc ?_ hl h)⟩
        intro q p' hq hlt
        simp only [decide_eq_true_eq] at hlt ⊢
        intro e
        rw [e] at hq
        have := henc.label_inj hq hpl
        omega
      · refine ⟨hall h, .inl ?_⟩
        rw [hl] at hpl
        cases hpl; rfl

theorem inSight_of_begins {P : List (Rule T L)} (h : ∃ r ∈ P, ∃ t : T, BeginsWith r.rule (.token t)) : InSight P := by
  obtain ⟨r, hr, t, h⟩ := h
  exact .inl ⟨r, hr, .token t, by simp, h⟩

theorem found_of_begins {P : List (Rule T L)} (h : ∃ r ∈ P, ∃ t : T, BeginsWith r.rule (.token t)) : FoundInOrder P := by
  obtain ⟨r, hr, t, pre, rest, h1, h2⟩ := h
  obtain ⟨n, hn⟩ := List.mem_iff_getElem?.mp hr
  exact ⟨n, r, hn, pre, .token t, rest, h1, by simp, fun m hm => .inl (h2 m hm)⟩

theorem inSight_order {π : Equiv.Perm Nat} {P P' : List (Rule T L)} (h : Reordered π P P') (hs : InSight P) : InSight P' := by
  have hf : ∀ {α t}, InFirst P α t → InFirst P' α t := fun h' => first_iff.mp (vanishes_congr (fun r => h.mem) (first_iff.mpr h'))
  rcases hs with ⟨r, hr, h'⟩ | ⟨r, hr, pre, t, rest, h1, h2, h3⟩
  · exact .inl ⟨r, h.mem hr, h'⟩
  · refine .inr ⟨r, ?_, pre, t, rest, h1, h2, fun m hm => (h3 m hm).imp_right ?_⟩
    · cases P with
      | nil => cases hr
      | cons root rest =>
        obtain ⟨n, hn⟩ := List.mem_iff_getElem?.mp hr
        have hn' : (root :: rest)[n + 1]? = some r := hn
        rw [← h.get] at hn'
        have hne : π (n + 1) ≠ 0 := by
          intro e
          have := π.injective (e.trans h.root.symm)
          omega
        obtain ⟨k, hk⟩ : ∃ k, π (n + 1) = k + 1 := ⟨π (n + 1) - 1, by omega⟩
        rw [hk] at hn'
        apply List.mem_of_getElem? (i := k)
        rw [List.getElem?_tail]
        exact hn'
    · rintro ⟨l, rfl, h4, h5⟩
      refine ⟨l, rfl, hf h4, h5.imp_right fun h6 => first_iff.mp (vanishes_congr (fun q hq => ?_) (first_iff.mpr h6))⟩
      obtain ⟨h7, h8⟩ := List.mem_filter.mp hq
      exact List.mem_filter.mpr ⟨h.mem h7, h8⟩

/-- **C76 (FIRST sets).** If the labels are used correctly and a token is in sight, then the rules after the root rule can
be put in an order for which the FIRST sets are complete. -/
theorem order_exists (hg : ∃ ig, IndexedGrammar.build g = .ok ig) (ht : InSight g.productions) :
    ∃ (π : Equiv.Perm Nat) (g' : Grammar T L), Reordered π g.productions g'.productions ∧
      EmptySorted g'.productions ∧ C07.FirstComplete g' := by
  obtain ⟨P⟩ := g
  cases P with
  | nil => obtain ⟨ig, hg⟩ := hg; cases hg
  | cons root rest =>
    obtain ⟨rest', hp, hs, hfo⟩ := sortable hg ht
    obtain ⟨π, hπ⟩ := reordered_of_perm root hp
    obtain ⟨ig', hg'⟩ := C62.build_order' (g' := ⟨root :: rest'⟩) hπ hg
    exact ⟨π, ⟨root :: rest'⟩, hπ, hs, first_complete_if_sorted hg' hs hfo⟩

/-- **C76 (FIRST sets), exactly.** Unless nothing but epsilon is in the FIRST sets of a grammar, its rules after the root
rule can be put in an order for which the FIRST sets are complete if and only if a token is in sight. -/
theorem order_exists_iff (hg : ∃ ig, IndexedGrammar.build g = .ok ig)
    (hτ : ∃ l t, t ≠ .epsilon ∧ InFirst g.productions [.production l] t) :
    (∃ (π : Equiv.Perm Nat) (g' : Grammar T L), Reordered π g.productions g'.productions ∧ C07.FirstComplete g') ↔
      InSight g.productions := by
  constructor
  · rintro ⟨π, g', hπ, hc⟩
    obtain ⟨ig', hg'⟩ := C62.build_order' hπ hg
    by_contra hno
    obtain ⟨l, t, hne, hf⟩ := hτ
    have hrec := hc l t (hπ.moved.inFirst hf)
    obtain ⟨ig1, F, i, k, s, h1, h2, h3, h4, -⟩ := id hrec
    rw [origLabel_iff] at h3
    rw [idToToken_iff] at h4
    rw [recorded_iff h1 h2 h3 h4] at hrec
    have henc := (IndexedGrammar.build_ok h1).1
    have := FirstTable.build_quiet henc.wf (fun hfo => hno (inSight_order hπ.symm (inSight_of_found h1 hfo))) h2 i k hrec
    subst this
    cases t <;> simp [EncTok] at h4
    exact hne rfl
  · intro h
    obtain ⟨π, g', h1, -, h2⟩ := order_exists hg h
    exact ⟨π, g', h1, h2⟩

/-- The language does not depend on the order. -/
theorem language_order {π : Equiv.Perm Nat} {g g' : Grammar T L} (h : Reordered π g.productions g'.productions) (w : List T)
    (hw : Language g w) : Language g' w := by
  obtain ⟨root, rest, e, hd⟩ := hw
  have hd' := h.moved.derives hd
  rw [e] at h
  obtain ⟨rest', e'⟩ := h.cons
  exact ⟨root, rest', e', hd'⟩

/-- **C76 (parsers), partial.** For every grammar with a token in sight there is an order of the rules for which a table is
built exactly if the grammar has no LR(1) conflict, and the parser accepts exactly the sentences.
(Missing: grammars without a token in sight, see `order_refuted`.) -/
theorem parser_exists_partial (hg : ∃ ig, IndexedGrammar.build g = .ok ig) (hw : WellFormed g) (hr : RootNotRecursive g)
    (ht : InSight g.productions) :
    ∃ (π : Equiv.Perm Nat) (g' : Grammar T L) (N : Nat), Reordered π g.productions g'.productions ∧
      ∀ fuel ≥ N, (NoConflict g.productions (InFirst g.productions) ↔ ∃ p, SimParser.new fuel g' = .ok p) ∧
        ∀ p, SimParser.new fuel g' = .ok p → ∀ w, ∃ b M, (b = true ↔ Language g w) ∧
          ∀ fuel' ≥ M, (p.parseStream fuel' w : Outcome (LRTableError T L) _) = .ok b := by
  obtain ⟨π, g', hπ, -, hc⟩ := order_exists hg ht
  obtain ⟨ig', hg'⟩ := C62.build_order' hπ hg
  have hw' : WellFormed g' := ⟨C62.epsilonLast_order hπ hw.epsilonLast, fun r hr => hw.noEndMarker r (hπ.symm.mem hr)⟩
  obtain ⟨N, hN⟩ := C13.conflict_error_iff_lr1_user_partial hg' hw'.epsilonLast (C62.rootNotRecursive_order hπ hr) hc.actions
  refine ⟨π, g', N, hπ, fun fuel hf => ⟨?_, fun p hp w => ?_⟩⟩
  · have h1 : NoConflict g.productions (InFirst g.productions) ↔ NoConflict g'.productions (InFirst g'.productions) :=
      ⟨hπ.moved.symm.noConflict fun α t => hπ.moved.symm.inFirst, hπ.moved.noConflict fun α t => hπ.moved.inFirst⟩
    rw [h1, ← (hN fuel hf).2]
    unfold SimParser.new
    rw [hg', Outcome.ok_bind]
    constructor
    · rintro ⟨t, ht⟩
      exact ⟨⟨ig', t⟩, by rw [ht]; rfl⟩
    · rintro ⟨p, hp⟩
      obtain ⟨t, ht, -⟩ := Outcome.bind_eq_ok.mp hp
      exact ⟨t, ht⟩
  · obtain ⟨b, M, h1, h2⟩ := C44.trailing_epsilon_partial g' p fuel w hw' hc.actions hp
    exact ⟨b, M, h1.trans ⟨language_order hπ.symm w, language_order hπ w⟩, h2⟩

end

/-- `S -> z M B; M -> !; B -> C x; C -> D; D -> !`. -/
def late : Grammar Nat Nat :=
  ⟨[⟨0, [.terminal (.token 1), .production 1, .production 2]⟩, ⟨1, [.terminal .epsilon]⟩,
    ⟨2, [.production 3, .terminal (.token 7)]⟩, ⟨3, [.production 4]⟩, ⟨4, [.terminal .epsilon]⟩]⟩

/-- The grammar `late` meets the hypotheses. In the given order its parser rejects the sentence `z x`. -/
example : (∃ ig, IndexedGrammar.build late = .ok ig) ∧ WellFormed late ∧ RootNotRecursive late ∧
    (∃ r ∈ late.productions, ∃ t, BeginsWith r.rule (.token t)) ∧ Language late [1, 7] ∧ ¬ EmptySorted late.productions ∧
    ∃ p, SimParser.new 20 late = .ok p ∧ (p.parseStream 20 [1, 7] : Outcome (LRTableError Nat Nat) _) = .ok false := by
  have hg : ∃ ig, IndexedGrammar.build late = .ok ig := ⟨_, rfl⟩
  have hw : WellFormed late := ⟨by unfold Spec.EpsilonLast; decide, by unfold Spec.NoEndMarker; decide⟩
  have ht : ∃ r ∈ late.productions, ∃ t, BeginsWith r.rule (.token t) :=
    ⟨_, List.mem_cons_self, 1, [], _, rfl, by simp [AllEpsilon]⟩
  have hl : Language late [1, 7] := by
    have hD : Derives late.productions [.production 4] [] :=
      .prod (r := ⟨4, [.terminal .epsilon]⟩) (u := []) (w := []) (by decide) (.eps .nil) .nil
    have hC : Derives late.productions [.production 3, .terminal (.token 7)] [7] :=
      .prod (r := ⟨3, [.production 4]⟩) (u := []) (w := [7]) (by decide) hD (.tok .nil)
    have hB : Derives late.productions [.production 2] [7] :=
      .prod (r := ⟨2, [.production 3, .terminal (.token 7)]⟩) (u := [7]) (w := []) (by decide) hC .nil
    have hM : Derives late.productions [.production 1, .production 2] [7] :=
      .prod (r := ⟨1, [.terminal .epsilon]⟩) (u := []) (w := [7]) (by decide) (.eps .nil) hB
    exact ⟨_, _, rfl, .prod (r := ⟨0, [.terminal (.token 1), .production 1, .production 2]⟩) (u := [1, 7]) (w := [])
      (by decide) (.tok hM) .nil⟩
  have h : (do
      let p ← SimParser.new 20 late
      p.parseStream 20 [1, 7]) = Outcome.ok false := by decide +kernel
  obtain ⟨p, h1, h2⟩ := Outcome.bind_eq_ok.mp h
  refine ⟨hg, hw, by intro root rest e; cases e; decide, ht, hl, fun hs => ?_, p, h1, h2⟩
  obtain ⟨ig, hg⟩ := hg
  obtain ⟨N, hN⟩ := C02.accepts_all_sentences_partial late p 20 [1, 7] hw (first_complete_if_sorted hg hs (found_of_begins ht)).actions h1 hl
  have h3 := hN (max 20 N) (by omega)
  have h4 : (p.parseStream (max 20 N) [1, 7] : Outcome (LRTableError Nat Nat) _) = .ok false :=
    loop_mono (by omega) h2
  rw [h4] at h3
  cases h3

theorem not_recorded {T L : Type} [DecidableEq T] [DecidableEq L] {g : Grammar T L} {i : Nat} {k : AugTokId} {l : L}
    {t : AugTok T} (hq : C07.query g i k = .ok false)
    (hl : (do let ig ← IndexedGrammar.build g; ig.origLabel i) = .ok l)
    (ht : (do let ig ← IndexedGrammar.build g; ig.vocab.idToToken k) = .ok t) : ¬ Recorded g l t := by
  intro hr
  obtain ⟨ig, F, -, -, -, hg, hF, -⟩ := id hr
  have henc := (IndexedGrammar.build_ok hg).1
  rw [hg, Outcome.ok_bind] at hl ht
  rw [origLabel_iff] at hl
  rw [idToToken_iff] at ht
  rw [recorded_iff hg hF hl ht] at hr
  obtain ⟨F1, hF1, hres⟩ := FirstTable.build_spec (ε := LRTableError T L) henc.wf
  rw [hF] at hF1
  cases hF1
  obtain ⟨s', e, hs, hwf, hin⟩ := hres.wf.get (ε := LRTableError T L) (hres.wf.in_lt hr).1
  rw [C07.query, hg, Outcome.ok_bind, hF, Outcome.ok_bind, FirstTable.firstSet, e, Outcome.ok_bind,
    hwf.has_eq (EncTok.id_lt ht), (hin _).mp hr] at hq
  cases hq

/-- `S -> L; L -> L x; L -> !`: no rule begins with a token, but one is in sight. -/
def list : Grammar Nat Nat :=
  ⟨[⟨0, [.production 1]⟩, ⟨1, [.production 1, .terminal (.token 7)]⟩, ⟨1, [.terminal .epsilon]⟩]⟩

/-- The grammar `list` meets the hypotheses. In the given order its FIRST sets are not complete, the other order puts this
right. -/
example : (∃ ig, IndexedGrammar.build list = .ok ig) ∧ WellFormed list ∧ RootNotRecursive list ∧
    InSight list.productions ∧ (∃ l t, t ≠ .epsilon ∧ InFirst list.productions [.production l] t) ∧
    ¬ C07.FirstComplete list := by
  have hL : First list.productions [.production 1] .epsilon :=
    .skip (r := ⟨1, [.terminal .epsilon]⟩) (by decide) (.eps .nil) .nil
  have hx : First list.productions [.production 1] (.token 7) :=
    .take (r := ⟨1, [.production 1, .terminal (.token 7)]⟩) (by decide)
      (.skip (r := ⟨1, [.terminal .epsilon]⟩) (by decide) (.eps .nil) (.term (by simp))) (by simp)
  refine ⟨⟨_, rfl⟩, ⟨by unfold Spec.EpsilonLast; decide, by unfold Spec.NoEndMarker; decide⟩,
    by intro root rest e; cases e; decide, .inr ⟨⟨1, [.production 1, .terminal (.token 7)]⟩, by decide, [.production 1],
      .token 7, [], rfl, by simp, ?_⟩, ⟨1, .token 7, by simp, first_iff.mp hx⟩, fun hc => ?_⟩
  · intro m hm
    rw [List.mem_singleton] at hm
    exact .inr ⟨1, hm, first_iff.mp hL, .inl rfl⟩
  · exact not_recorded (g := list) (i := 1) (k := .token 0) (by decide +kernel) (by decide +kernel) (by decide +kernel)
      (hc 1 (.token 7) (first_iff.mp hx))

/-! ### A grammar that cannot be sorted out -/

section
variable {α : Type} {π : Equiv.Perm Nat}

theorem filterMap_getElem? (l : List α) : (List.range l.length).filterMap (l[·]?) = l := by
  induction l with
  | nil => rfl
  | cons a l ih =>
    rw [List.length_cons, List.range_succ_eq_map, List.filterMap_cons]
    simp only [List.getElem?_cons_zero, List.filterMap_map]
    congr 1

theorem _root_.Verif.Spec.Reordered.perm {rs rs' : List α} (h : Reordered π rs rs') : rs.Perm rs' := by
  have h1 : ∀ i, i < rs.length ↔ π i < rs'.length := by
    intro i
    rw [← not_iff_not, Nat.not_lt, Nat.not_lt, ← List.getElem?_eq_none_iff, ← List.getElem?_eq_none_iff, h.get]
  have h2 : ((List.range rs.length).map π).Perm (List.range rs'.length) := by
    rw [List.perm_ext_iff_of_nodup ((List.nodup_range).map π.injective) List.nodup_range]
    intro j
    simp only [List.mem_map, List.mem_range]
    constructor
    · rintro ⟨i, hi, rfl⟩; exact (h1 i).mp hi
    · intro hj
      exact ⟨π.symm j, (h1 _).mpr (by simpa using hj), by simp⟩
  have h3 := h2.filterMap (rs'[·]?)
  rw [filterMap_getElem?, List.filterMap_map] at h3
  have h4 : (fun x => rs'[x]?) ∘ ⇑π = (rs[·]?) := by funext i; exact h.get i
  rwa [h4, filterMap_getElem?] at h3

end

/-- `S -> M L; M -> !; L -> P x | !; P -> L`. -/
def hidden : Grammar Nat Nat :=
  ⟨⟨0, [.production 1, .production 2]⟩ :: ⟨1, [.terminal .epsilon]⟩ :: ⟨2, [.production 3, .terminal (.token 7)]⟩ ::
    ⟨2, [.terminal .epsilon]⟩ :: ⟨3, [.production 2]⟩ :: []⟩

/-- No token is in sight, though `x` begins sentences. -/
example : (∃ ig, IndexedGrammar.build hidden = .ok ig) ∧ ¬ InSight hidden.productions ∧
    InFirst hidden.productions [.production 2] (.token 7) := by
  refine ⟨⟨_, rfl⟩, ?_, first_iff.mp (.take (r := ⟨2, [.production 3, .terminal (.token 7)]⟩) (by decide)
    (.skip (r := ⟨3, [.production 2]⟩) (by decide) (.skip (r := ⟨2, [.terminal .epsilon]⟩) (by decide) (.eps .nil) .nil)
      (.term (by simp))) (by simp))⟩
  rintro (⟨r, hr, t, hne, pre, rest, h1, h2⟩ | ⟨r, hr, pre, t, rest, h1, hne, h2⟩)
  · simp only [hidden, List.mem_cons, List.not_mem_nil, or_false] at hr
    rcases hr with rfl | rfl | rfl | rfl | rfl <;>
      (rcases pre with _ | ⟨a, pre⟩ <;> simp_all [AllEpsilon])
  · simp only [hidden, List.tail_cons, List.mem_cons, List.not_mem_nil, or_false] at hr
    rcases hr with rfl | rfl | rfl | rfl
    · rcases pre with _ | ⟨a, pre⟩ <;> simp_all
    · rcases pre with _ | ⟨a, pre⟩
      · simp at h1
      · simp only [List.cons_append, List.cons.injEq] at h1
        obtain ⟨rfl, -⟩ := h1
        rcases h2 _ List.mem_cons_self with h | ⟨l, h, -, h3⟩
        · cases h
        · cases h
          rcases h3 with h3 | h3
          · cases h3
          · have := First.nullable_sub (fun l => decide (l = 1)) (by decide) (first_iff.mpr h3) rfl
            simp [First.vanishes] at this
    · rcases pre with _ | ⟨a, pre⟩ <;> simp_all
    · rcases pre with _ | ⟨a, pre⟩ <;> simp_all

theorem hidden_orders : ∀ rest ∈ (hidden.productions.drop 1).permutations', (do
    let p ← SimParser.new 20 (⟨⟨0, [.production 1, .production 2]⟩ :: rest⟩ : Grammar Nat Nat)
    p.parseStream 20 [7]) = Outcome.ok false := by
  have h : ((hidden.productions.drop 1).permutations'.all fun rest => decide ((do
    let p ← SimParser.new 20 (⟨⟨0, [.production 1, .production 2]⟩ :: rest⟩ : Grammar Nat Nat)
    p.parseStream 20 [7]) = Outcome.ok false)) = true := by decide +kernel
  intro rest hr
  exact of_decide_eq_true (List.all_eq_true.mp h rest hr)

/-- **C76 is false for some grammar without a token in sight.** The sequence `x` is a sentence of
`hidden`; in whatever order its rules are listed, the parser rejects it. -/
theorem order_refuted : WellFormed hidden ∧ RootNotRecursive hidden ∧ Language hidden [7] ∧
    ∀ (π : Equiv.Perm Nat) (g' : Grammar Nat Nat), Reordered π hidden.productions g'.productions →
      ∃ p, SimParser.new 20 g' = .ok p ∧
        ∀ fuel ≥ 20, (p.parseStream fuel [7] : Outcome (LRTableError Nat Nat) _) = .ok false := by
  refine ⟨⟨?_, ?_⟩, ?_, ?_, ?_⟩
  · unfold Spec.EpsilonLast; decide
  · unfold Spec.NoEndMarker; decide
  · intro root rest e
    cases e
    decide
  · have hL : Derives hidden.productions [.production 2] [] :=
      .prod (r := ⟨2, [.terminal .epsilon]⟩) (u := []) (w := []) (by decide) (.eps .nil) .nil
    have hP : Derives hidden.productions [.production 3, .terminal (.token 7)] [7] :=
      .prod (r := ⟨3, [.production 2]⟩) (u := []) (w := [7]) (by decide) hL (.tok .nil)
    have hL' : Derives hidden.productions [.production 2] [7] :=
      .prod (r := ⟨2, [.production 3, .terminal (.token 7)]⟩) (u := [7]) (w := []) (by decide) hP .nil
    have hM : Derives hidden.productions [.production 1, .production 2] [7] :=
      .prod (r := ⟨1, [.terminal .epsilon]⟩) (u := []) (w := [7]) (by decide) (.eps .nil) hL'
    exact ⟨_, _, rfl, .prod (r := ⟨0, [.production 1, .production 2]⟩) (u := [7]) (w := []) (by decide) hM .nil⟩
  · intro π g' h
    obtain ⟨rest, e⟩ := Spec.Reordered.cons (rs := hidden.productions.drop 1) h
    obtain ⟨P'⟩ := g'
    dsimp only at e
    subst e
    have hp := List.Perm.cons_inv h.perm
    have := hidden_orders rest (List.mem_permutations'.mpr hp.symm)
    obtain ⟨p, h1, h2⟩ := Outcome.bind_eq_ok.mp this
    exact ⟨p, h1, fun fuel hf => loop_mono hf h2⟩

end C76
end Verif
