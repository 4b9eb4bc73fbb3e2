import Verif.Model.Vocabulary
import Verif.Proof.FixedMap

/-!
# Lemmas about token ids, vocabularies and vocabulary sets
-/

namespace Verif

@[simp] theorem AugTok.ofId_id (t : AugTokId) : AugTok.ofId (Label.id t) = t := by
  cases t <;> simp [AugTok.ofId, Label.id]

@[simp] theorem AugTok.id_ofId (n : Nat) : Label.id (AugTok.ofId n) = n := by
  unfold AugTok.ofId
  split
  · simp [Label.id, *]
  · split
    · simp [Label.id, *]
    · simp [Label.id]; omega

theorem AugTok.id_inj {a b : AugTokId} (h : Label.id a = Label.id b) : a = b := by
  rw [← AugTok.ofId_id a, h, AugTok.ofId_id]

namespace VocabSet
variable {ε : Type}

/-- Membership of a token id. -/
def mem (s : VocabSet) (t : AugTokId) : Bool := s.set.mem (Label.id t)

/-- Well-formed set over a vocabulary of size `n`. -/
structure WF (n : Nat) (s : VocabSet) : Prop where
  wf : s.set.WF
  len : s.set.len = n

variable {n : Nat} {s o : VocabSet} {t : AugTokId}

theorem WF.lt (h : s.WF n) (hm : s.mem t = true) : Label.id t < n := by
  rw [← h.len]; exact h.wf.bound _ hm

theorem ext (hs : s.WF n) (ho : o.WF n) (h : ∀ t, s.mem t = o.mem t) : s = o := by
  have : s.set = o.set := BitSet.ext hs.wf ho.wf (by rw [hs.len, ho.len]) fun b => by
    have := h (AugTok.ofId b)
    simpa [mem] using this
  cases s; cases o; simp_all

theorem new_WF (n : Nat) : (new n).WF n := ⟨BitSet.new_WF n, rfl⟩

@[simp] theorem mem_new (n : Nat) (t : AugTokId) : (new n).mem t = false := BitSet.mem_new _ _

theorem WF.has_eq (h : s.WF n) (ht : Label.id t < n) :
    (s.has t : Outcome ε Bool) = .ok (s.mem t) :=
  BitSet.has_eq h.wf (h.len ▸ ht)

theorem WF.insert_eq (h : s.WF n) (ht : Label.id t < n) :
    ∃ s', (s.insert t : Outcome ε VocabSet) = .ok s' ∧ s'.WF n ∧
      ∀ u, s'.mem u = (s.mem u || u == t) := by
  obtain ⟨b, hb, hwf, hlen, hm⟩ := BitSet.set_eq (ε := ε) h.wf (b := Label.id t) (h.len ▸ ht)
  refine ⟨⟨b⟩, by simp [insert, hb], ⟨hwf, hlen.trans h.len⟩, fun u => ?_⟩
  show b.mem _ = _
  rw [hm]
  congr 1
  rw [Bool.eq_iff_iff, beq_iff_eq, beq_iff_eq]
  exact ⟨AugTok.id_inj, fun h => h ▸ rfl⟩

theorem WF.clear_eq (h : s.WF n) (ht : Label.id t < n) :
    ∃ s', (s.clear t : Outcome ε VocabSet) = .ok s' ∧ s'.WF n ∧
      ∀ u, s'.mem u = (s.mem u && u != t) := by
  obtain ⟨b, hb, hwf, hlen, hm⟩ := BitSet.clear_eq (ε := ε) h.wf (b := Label.id t) (h.len ▸ ht)
  refine ⟨⟨b⟩, by simp [clear, hb], ⟨hwf, hlen.trans h.len⟩, fun u => ?_⟩
  show b.mem _ = _
  rw [hm]
  congr 1
  rw [Bool.eq_iff_iff, bne_iff_ne, bne_iff_ne]
  exact not_congr ⟨AugTok.id_inj, fun h => h ▸ rfl⟩

theorem WF.merge (hs : s.WF n) (ho : o.WF n) : (s.merge o).1.WF n :=
  ⟨BitSet.merge_WF hs.wf ho.wf (by rw [hs.len, ho.len]), hs.len⟩

theorem mem_merge (hs : s.WF n) (ho : o.WF n) (t : AugTokId) :
    (s.merge o).1.mem t = (s.mem t || o.mem t) :=
  BitSet.mem_merge (by rw [hs.wf.length, ho.wf.length, hs.len, ho.len]) _

theorem merge_modified (hs : s.WF n) (ho : o.WF n) :
    (s.merge o).2 = true ↔ ∃ t, o.mem t = true ∧ s.mem t = false := by
  show (s.set.merge o.set).2 = true ↔ _
  rw [BitSet.merge_modified_iff hs.wf ho.wf (by rw [hs.len, ho.len])]
  constructor
  · rintro ⟨b, h1, h2⟩; exact ⟨AugTok.ofId b, by simpa [mem] using h1, by simpa [mem] using h2⟩
  · rintro ⟨t, h1, h2⟩; exact ⟨_, h1, h2⟩

theorem merge_not_modified (hs : s.WF n) (ho : o.WF n) (h : (s.merge o).2 = false) :
    (s.merge o).1 = s := by
  apply ext (hs.merge ho) hs
  intro t
  rw [mem_merge hs ho]
  cases ht : s.mem t with
  | true => rfl
  | false =>
    cases hot : o.mem t with
    | false => rfl
    | true => exact absurd ((merge_modified hs ho).mpr ⟨t, hot, ht⟩) (by simp [h])

theorem WF.mem_iter (h : s.WF n) : t ∈ s.iter ↔ s.mem t = true := by
  unfold iter
  rw [List.mem_map]
  constructor
  · rintro ⟨b, hb, rfl⟩
    rw [BitSet.mem_forEach h.wf] at hb
    simpa [mem] using hb
  · intro hm
    exact ⟨Label.id t, (BitSet.mem_forEach h.wf _).mpr hm, AugTok.ofId_id t⟩

theorem WF.nodup_iter (h : s.WF n) : s.iter.Nodup := by
  unfold iter
  rw [BitSet.forEach_eq h.wf]
  refine List.Pairwise.map _ ?_ (List.Pairwise.filter _ List.nodup_range)
  intro a b hab he
  apply hab
  have := congrArg Label.id he
  simpa using this

end VocabSet
end Verif
