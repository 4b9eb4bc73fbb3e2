import Verif.Proof.BitSet

/-!
# C29: the bit set is a finite set

A history of API calls is a `Prog`. Its specification `Prog.denote` is a plain set of numbers; its
execution `Prog.exec` runs the model of `bit_set.rs`.
-/

namespace Verif.C29

/-- A bit set built by API calls on a universe of fixed size. -/
inductive Prog where
  | new
  | set (p : Prog) (b : Nat)
  | clear (p : Prog) (b : Nat)
  | merge (p q : Prog)

/-- Running the calls. -/
def Prog.exec {ε : Type} (n : Nat) : Prog → Outcome ε BitSet
  | .new => pure (BitSet.new n)
  | .set p b => do (← p.exec n).set b
  | .clear p b => do (← p.exec n).clear b
  | .merge p q => do
    let s ← p.exec n
    let t ← q.exec n
    pure (s.merge t).1

/-- Specification: the set of members, as a set. -/
def Prog.denote : Prog → Nat → Prop
  | .new, _ => False
  | .set p b, c => c = b ∨ p.denote c
  | .clear p b, c => c ≠ b ∧ p.denote c
  | .merge p q, c => p.denote c ∨ q.denote c

/-- All arguments are below the size. -/
def Prog.InRange (n : Nat) : Prog → Prop
  | .new => True
  | .set p b => b < n ∧ p.InRange n
  | .clear p b => b < n ∧ p.InRange n
  | .merge p q => p.InRange n ∧ q.InRange n

variable {ε : Type}

theorem exec_ok {n : Nat} (p : Prog) (hp : p.InRange n) :
    ∃ s, (p.exec n : Outcome ε BitSet) = .ok s ∧ s.WF ∧ s.len = n ∧
      ∀ c, s.mem c = true ↔ p.denote c := by
  induction p with
  | new =>
    exact ⟨_, rfl, BitSet.new_WF n, rfl, by simp [BitSet.mem_new, Prog.denote]⟩
  | set p b ih =>
    obtain ⟨s, hs, hwf, hlen, hm⟩ := ih hp.2
    obtain ⟨s', hs', hwf', hlen', hm'⟩ := BitSet.set_eq (ε := ε) hwf (b := b) (hlen ▸ hp.1)
    refine ⟨s', by simp [Prog.exec, hs, hs'], hwf', hlen'.trans hlen, fun c => ?_⟩
    simp only [hm' c, Bool.or_eq_true, hm c, beq_iff_eq, Prog.denote]
    exact or_comm
  | clear p b ih =>
    obtain ⟨s, hs, hwf, hlen, hm⟩ := ih hp.2
    obtain ⟨s', hs', hwf', hlen', hm'⟩ := BitSet.clear_eq (ε := ε) hwf (b := b) (hlen ▸ hp.1)
    refine ⟨s', by simp [Prog.exec, hs, hs'], hwf', hlen'.trans hlen, fun c => ?_⟩
    simp only [hm' c, Bool.and_eq_true, hm c, bne_iff_ne, Prog.denote]
    exact and_comm
  | merge p q ihp ihq =>
    obtain ⟨s, hs, hwf, hlen, hm⟩ := ihp hp.1
    obtain ⟨t, ht, hwft, hlent, hmt⟩ := ihq hp.2
    have hl : s.len = t.len := by rw [hlen, hlent]
    refine ⟨(s.merge t).1, by simp [Prog.exec, hs, ht], BitSet.merge_WF hwf hwft hl, hlen, ?_⟩
    intro c
    rw [BitSet.mem_merge (by rw [hwf.length, hwft.length, hl])]
    simp [hm c, hmt c, Prog.denote]

/-- **C29.** Every history of in-range calls runs without panicking; afterwards `has` is membership,
`for_each` enumerates exactly the members in ascending order, and `full` is totality. -/
theorem bitset_is_finite_set {n : Nat} (p : Prog) (hp : p.InRange n) :
    ∃ s, (p.exec n : Outcome ε BitSet) = .ok s ∧
      (∀ b, b < n → ∃ r, (s.has b : Outcome ε Bool) = .ok r ∧ (r = true ↔ p.denote b)) ∧
      (s.forEach.Pairwise (· < ·) ∧ ∀ b, b ∈ s.forEach ↔ p.denote b) ∧
      (∀ b, p.denote b → b < n) ∧
      (∃ r, (s.full : Outcome ε Bool) = .ok r ∧ (r = true ↔ ∀ b, b < n → p.denote b)) := by
  obtain ⟨s, hs, hwf, hlen, hm⟩ := exec_ok (ε := ε) p hp
  refine ⟨s, hs, ?_, ⟨?_, ?_⟩, ?_, ?_⟩
  · intro b hb
    exact ⟨_, BitSet.has_eq hwf (hlen ▸ hb), hm b⟩
  · rw [BitSet.forEach_eq hwf]
    exact List.Pairwise.filter _ List.pairwise_lt_range
  · intro b; rw [BitSet.mem_forEach hwf, hm]
  · intro b hb; rw [← hlen]; exact hwf.bound b ((hm b).mpr hb)
  · obtain ⟨r, hr, hiff⟩ := BitSet.full_eq (ε := ε) hwf
    refine ⟨r, hr, hiff.trans ?_⟩
    rw [hlen]
    exact forall_congr' fun b => imp_congr Iff.rfl (hm b)

/-- **C29.** `merge` reports `true` exactly when the set grew. -/
theorem merge_reports_growth {n : Nat} (p q : Prog) (hp : p.InRange n) (hq : q.InRange n) :
    ∃ s t, (p.exec n : Outcome ε BitSet) = .ok s ∧ (q.exec n : Outcome ε BitSet) = .ok t ∧
      ((s.merge t).2 = true ↔ ∃ b, q.denote b ∧ ¬ p.denote b) := by
  obtain ⟨s, hs, hwf, hlen, hm⟩ := exec_ok (ε := ε) p hp
  obtain ⟨t, ht, hwft, hlent, hmt⟩ := exec_ok (ε := ε) q hq
  refine ⟨s, t, hs, ht, ?_⟩
  rw [BitSet.merge_modified_iff hwf hwft (by rw [hlen, hlent])]
  exact exists_congr fun b => by rw [← hm b, ← hmt b, Bool.not_eq_true]

/-- **C29.** Bit sets with the same members are equal (as values, hence equally hashed), whatever calls
produced them, and conversely. -/
theorem equal_iff_same_members {n : Nat} (p q : Prog) (hp : p.InRange n) (hq : q.InRange n) :
    (p.exec n : Outcome ε BitSet) = q.exec n ↔ ∀ b, p.denote b ↔ q.denote b := by
  obtain ⟨s, hs, hwf, hlen, hm⟩ := exec_ok (ε := ε) p hp
  obtain ⟨t, ht, hwft, hlent, hmt⟩ := exec_ok (ε := ε) q hq
  rw [hs, ht, Outcome.ok.injEq]
  constructor
  · rintro rfl b; rw [← hm b, ← hmt b]
  · intro h
    refine BitSet.ext hwf hwft (by rw [hlen, hlent]) fun b => ?_
    rw [Bool.eq_iff_iff, hm, hmt]; exact h b

/-- **C29.** Out-of-range arguments are refused (debug assertion), never silently accepted. -/
theorem out_of_range_panics (s : BitSet) (b : Nat) (hb : s.len ≤ b) :
    (s.has b : Outcome ε Bool) = .panic ∧ (s.set b : Outcome ε BitSet) = .panic ∧
      (s.clear b : Outcome ε BitSet) = .panic := by
  simp [BitSet.has, BitSet.set, BitSet.clear, Nat.not_lt.mpr hb]

/-- The hypotheses are met by a history with several words, clearing and merging. -/
example : Prog.InRange 130
    (.merge (.clear (.set (.set .new 3) 129) 3) (.set (.set .new 64) 0)) := by
  simp [Prog.InRange]

example : ((Prog.merge (.clear (.set (.set .new 3) 129) 3) (.set (.set .new 64) 0)).exec 130 :
    Outcome Unit BitSet) = .ok ⟨[1#64, 1#64, 2#64], 130⟩ := by decide +kernel

end Verif.C29
