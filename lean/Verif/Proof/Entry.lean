import Verif.Model.LRTable
import Verif.Proof.Partition

/-!
# One row of the LR table: `LRTableEntryBuilder`
-/

set_option linter.unusedSectionVars false
set_option autoImplicit false

namespace Verif

/-- The outcome is a value with `P`, an error with `E` or a panic (only if `X`). -/
def Outcome.Sat {ε α : Type} (o : Outcome ε α) (P : α → Prop) (E : ε → Prop) (X : Prop) : Prop :=
  match o with
  | .ok a => P a
  | .err e => E e
  | .panic => X
  | .ub => False
  | .timeout => False

namespace Outcome.Sat
variable {ε α β : Type} {o : Outcome ε α} {P P' : α → Prop} {E E' : ε → Prop} {X X' : Prop}

theorem bind {f : α → Outcome ε β} {Q : β → Prop} (h : o.Sat P E X)
    (hf : ∀ a, o = .ok a → P a → (f a).Sat Q E X) : (o >>= f).Sat Q E X := by
  cases o with
  | ok a => exact hf a rfl h
  | err e => exact h
  | panic => exact h
  | ub => exact h
  | timeout => exact h

theorem mono (h : o.Sat P E X) (hP : ∀ a, P a → P' a) (hE : ∀ e, E e → E' e) (hX : X → X') :
    o.Sat P' E' X' := by
  cases o with
  | ok a => exact hP a h
  | err e => exact hE e h
  | panic => exact hX h
  | ub => exact h
  | timeout => exact h

theorem of_ok {a : α} (h : o = .ok a) (hP : P a) : o.Sat P E X := by subst h; exact hP

theorem ok {a : α} (h : o.Sat P E X) (e : o = .ok a) : P a := by subst e; exact h
theorem err {x : ε} (h : o.Sat P E X) (e : o = .err x) : E x := by subst e; exact h

end Outcome.Sat

namespace EntryBuilder
variable {T L : Type} [DecidableEq T] [DecidableEq L] {ig : IndexedGrammar T L}

theorem idToToken_ok {ε : Type} {v : Vocab T} {t : AugTokId} (h : Label.id t < v.size) :
    ∃ tok, (v.idToToken t : Outcome ε _) = .ok tok := by
  cases t with
  | epsilon => exact ⟨_, rfl⟩
  | eos => exact ⟨_, rfl⟩
  | token i =>
    have hi : i < v.idMap.length := by
      have : i + 2 < v.size := h
      simp only [Vocab.size] at this
      omega
    exact ⟨.token v.idMap[i], by simp [Vocab.idToToken, Outcome.index_of_lt hi]⟩

/-- `e` reports that action `a` on `t` clashes with the existing action `b`. -/
def Reports (ig : IndexedGrammar T L) (e : LRTableError T L) (t : AugTokId) (a b : Action) : Prop :=
  ∃ tok, (ig.vocab.idToToken t : Outcome (LRTableError T L) _) = .ok tok ∧
    match a, b with
    | .reduce r, .reduce r' => e = .reduceConflict r r' tok
    | .reduce r, .shift _ => e = .shiftReduceConflict r tok
    | .reduce r, .accept => e = .reduceConflict r 0 tok
    | .shift _, .reduce r => e = .shiftReduceConflict r tok
    | .shift _, .shift _ => e = .shiftConflict tok
    | .shift _, .accept => e = .shiftReduceConflict 0 tok
    | .accept, _ => False

/-- The builder holds exactly the given actions and gotos. -/
structure Rep (ig : IndexedGrammar T L) (b : EntryBuilder) (W : AugTokId → Action → Prop)
    (G : Nat → Nat → Prop) : Prop where
  wfA : b.actions.WF ig.vocab.size
  wfG : b.gotos.WF ig.labelsCount
  act : ∀ t a, b.actions.lookup t = some a ↔ W t a
  got : ∀ l i, b.gotos.lookup l = some i ↔ G l i

theorem new_rep : Rep ig (new ig) (fun _ _ => False) (fun _ _ => False) :=
  ⟨SparseMap.new_WF _, SparseMap.new_WF _,
    fun t a => by simp [new, SparseMap.lookup_new], fun t a => by simp [new, SparseMap.lookup_new]⟩

theorem Rep.congr {b : EntryBuilder} {W W' : AugTokId → Action → Prop} {G G' : Nat → Nat → Prop}
    (h : Rep ig b W G) (hW : ∀ t a, W t a ↔ W' t a) (hG : ∀ l i, G l i ↔ G' l i) : Rep ig b W' G' :=
  ⟨h.wfA, h.wfG, fun t a => (h.act t a).trans (hW t a), fun l i => (h.got l i).trans (hG l i)⟩

theorem insertAct {b : EntryBuilder} {W : AugTokId → Action → Prop} {G : Nat → Nat → Prop}
    (h : Rep ig b W G) {t : AugTokId} (ht : Label.id t < ig.vocab.size) (a : Action) :
    (∃ old, W t old ∧
      (b.actions.tryInsert t a : Outcome (LRTableError T L) _) = .ok (.error old)) ∨
    ((∀ old, ¬ W t old) ∧ ∃ m, (b.actions.tryInsert t a : Outcome (LRTableError T L) _) = .ok (.ok m) ∧
      Rep ig { b with actions := m } (fun t' a' => W t' a' ∨ (t' = t ∧ a' = a)) G) := by
  cases hl : b.actions.lookup t with
  | some old => exact .inl ⟨old, (h.act t old).mp hl, h.wfA.tryInsert_some ht a old hl⟩
  | none =>
    right
    refine ⟨fun old ho => ?_, ?_⟩
    · rw [(h.act t old).mpr ho] at hl; cases hl
    obtain ⟨m, e, hwf, hmap⟩ := h.wfA.tryInsert_none (ε := LRTableError T L) ht a hl
    refine ⟨m, e, hwf, h.wfG, fun t' a' => ?_, h.got⟩
    have hap := SparseMap.lookup_append hmap hl t'
    show m.lookup t' = some a' ↔ _
    rw [hap]
    split
    · rename_i hid
      have := AugTok.id_inj hid
      subst this
      rw [← h.act, hl]
      simp only [Option.some.injEq, true_and]
      constructor
      · exact fun h => .inr h.symm
      · rintro (h | h)
        · cases h
        · exact h.symm
    · rename_i hid
      rw [h.act]
      constructor
      · exact .inl
      · rintro (h | ⟨rfl, -⟩)
        · exact h
        · exact absurd rfl hid

theorem addReduce_sat {b : EntryBuilder} {W : AugTokId → Action → Prop} {G : Nat → Nat → Prop}
    (h : Rep ig b W G) {t : AugTokId} (ht : Label.id t < ig.vocab.size) (r : Nat) (X : Prop) :
    (addReduce ig b t r).Sat
      (fun b' => (∀ a, ¬ W t a) ∧ Rep ig b' (fun t' a' => W t' a' ∨ (t' = t ∧ a' = .reduce r)) G)
      (fun e => ∃ a, W t a ∧ Reports ig e t (.reduce r) a) X := by
  unfold addReduce
  rcases insertAct h ht (.reduce r) with ⟨old, ho, e⟩ | ⟨hno, m, e, hm⟩
  · obtain ⟨tok, etok⟩ := idToToken_ok (ε := LRTableError T L) ht
    rw [e]
    simp only [Outcome.ok_bind, etok]
    cases old with
    | reduce r' => exact ⟨_, ho, tok, etok, rfl⟩
    | shift i => exact ⟨_, ho, tok, etok, rfl⟩
    | accept => exact ⟨_, ho, tok, etok, rfl⟩
  · rw [e]
    exact ⟨hno, hm⟩

theorem addReduces_sat (ts : List AugTokId) (hts : ∀ t ∈ ts, Label.id t < ig.vocab.size)
    (hnd : ts.Nodup) {b : EntryBuilder} {W : AugTokId → Action → Prop} {G : Nat → Nat → Prop}
    (h : Rep ig b W G) (r : Nat) (X : Prop) :
    (addReduces ig r ts b).Sat
      (fun b' => (∀ t ∈ ts, ∀ a, ¬ W t a) ∧
        Rep ig b' (fun t' a' => W t' a' ∨ (t' ∈ ts ∧ a' = .reduce r)) G)
      (fun e => ∃ t ∈ ts, ∃ a, W t a ∧ Reports ig e t (.reduce r) a) X := by
  induction ts generalizing b W with
  | nil => exact ⟨by simp, h.congr (by simp) fun _ _ => Iff.rfl⟩
  | cons t ts ih =>
    rw [List.nodup_cons] at hnd
    unfold addReduces
    refine Outcome.Sat.bind ((addReduce_sat h (hts t List.mem_cons_self) r X).mono (fun _ h => h) ?_
      (fun h => h)) ?_
    · rintro e ⟨a, h1, h2⟩
      exact ⟨t, List.mem_cons_self, a, h1, h2⟩
    · rintro b1 - ⟨hno, hb1⟩
      refine (ih (fun t ht => hts t (List.mem_cons_of_mem _ ht)) hnd.2 hb1).mono ?_ ?_ (fun h => h)
      · rintro b' ⟨g1, g2⟩
        refine ⟨fun t' ht' => ?_, g2.congr (fun t' a' => ?_) fun _ _ => Iff.rfl⟩
        · rcases List.mem_cons.mp ht' with rfl | ht'
          · exact hno
          · exact fun a ha => g1 t' ht' a (.inl ha)
        · rw [List.mem_cons]
          constructor
          · rintro ((g | ⟨g, g'⟩) | ⟨g, g'⟩)
            · exact .inl g
            · exact .inr ⟨.inl g, g'⟩
            · exact .inr ⟨.inr g, g'⟩
          · rintro (g | ⟨g | g, g'⟩)
            · exact .inl (.inl g)
            · exact .inl (.inr ⟨g, g'⟩)
            · exact .inr ⟨g, g'⟩
      · rintro e ⟨t', ht', a, g1 | ⟨rfl, -⟩, g2⟩
        · exact ⟨t', List.mem_cons_of_mem _ ht', a, g1, g2⟩
        · exact absurd ht' hnd.1

/-- The action that an item at the end of its rule calls for on `t`. -/
def EndWants (p : Position) (t : AugTokId) (a : Action) : Prop :=
  (p.rule = 0 ∧ t = .eos ∧ a = .accept) ∨
  (p.rule ≠ 0 ∧ p.followSet.mem t = true ∧ a = .reduce p.rule)

/-- At most one of the items belongs to the root rule, and it is followed by the end of the input only. -/
def OneRoot (ps : List Position) : Prop :=
  ps.countP (fun p => p.rule == 0) ≤ 1 ∧ ∀ p ∈ ps, p.rule = 0 → ∀ t, p.followSet.mem t = true → t = .eos

theorem addEnds_sat (ps : List Position) (hps : ∀ p ∈ ps, p.OK ig ∧ p.cat ig = none)
    {b : EntryBuilder} {W : AugTokId → Action → Prop} {G : Nat → Nat → Prop} (h : Rep ig b W G)
    {X : Prop} (hX : (∀ done p rest, ps = done ++ p :: rest → p.rule = 0 →
      (∀ t, p.followSet.mem t = true → t = .eos) ∧ done = [] ∧ ∀ a, ¬ W .eos a) ∨ X) :
    (addEnds ig ps b).Sat
      (fun b' => Rep ig b' (fun t a => W t a ∨ ∃ p ∈ ps, EndWants p t a) G ∧
        ((∃ a, W .eos a) → ∀ p ∈ ps, p.rule ≠ 0) ∧ OneRoot ps)
      (fun e => ∃ done p rest, ps = done ++ p :: rest ∧ ∃ t a a', EndWants p t a ∧
        (W t a' ∨ ∃ q ∈ done, EndWants q t a') ∧ Reports ig e t a a') X := by
  induction ps generalizing b W with
  | nil => exact ⟨h.congr (by simp) fun _ _ => Iff.rfl, by simp, by simp, by simp⟩
  | cons p ps ih =>
    obtain ⟨hp, hcat⟩ := hps p List.mem_cons_self
    have hend : (p.atEndOfRule ig : Outcome (LRTableError T L) _) = .ok true := by
      rw [hp.atEnd_eq]
      unfold Position.cat at hcat
      rw [hcat]; rfl
    have hX' : (∀ done q rest, ps = done ++ q :: rest → q.rule ≠ 0) ∨ X := by
      rcases hX with hX | hX
      · left
        rintro done q rest rfl hq
        obtain ⟨-, h2, -⟩ := hX (p :: done) q rest rfl hq
        cases h2
      · exact .inr hX
    have hstep : ∀ (b1 : EntryBuilder) (W1 : AugTokId → Action → Prop),
        (∀ t a, W1 t a ↔ W t a ∨ EndWants p t a) → Rep ig b1 W1 G →
        (p.rule = 0 → (∀ a, ¬ W .eos a) ∧ ∀ t, p.followSet.mem t = true → t = .eos) →
        (addEnds ig ps b1).Sat
          (fun b' => Rep ig b' (fun t a => W t a ∨ ∃ q ∈ p :: ps, EndWants q t a) G ∧
            ((∃ a, W .eos a) → ∀ q ∈ p :: ps, q.rule ≠ 0) ∧ OneRoot (p :: ps))
          (fun e => ∃ done q rest, p :: ps = done ++ q :: rest ∧ ∃ t a a', EndWants q t a ∧
            (W t a' ∨ ∃ q ∈ done, EndWants q t a') ∧ Reports ig e t a a') X := by
      intro b1 W1 hW1 hb1 hfree
      have hX1 : (∀ done p rest, ps = done ++ p :: rest → p.rule = 0 →
          (∀ t, p.followSet.mem t = true → t = .eos) ∧ done = [] ∧ ∀ a, ¬ W1 .eos a) ∨ X :=
        hX'.imp (fun h done q rest e hq => absurd hq (h done q rest e)) fun h => h
      refine (ih (fun q hq => hps q (List.mem_cons_of_mem _ hq)) hb1 hX1).mono ?_ ?_ (fun h => h)
      · rintro b' ⟨hb', hno, hcount, heos⟩
        refine ⟨hb'.congr (fun t a => ?_) fun _ _ => Iff.rfl, ?_, ?_, ?_⟩
        · rw [hW1]
          simp only [List.mem_cons, exists_eq_or_imp, or_assoc]
        · rintro ⟨a, ha⟩ q hq
          rcases List.mem_cons.mp hq with rfl | hq
          · exact fun h0 => (hfree h0).1 a ha
          · exact hno ⟨a, (hW1 _ _).mpr (.inl ha)⟩ q hq
        · rw [List.countP_cons]
          split
          · rename_i h0
            have h0 : p.rule = 0 := by simpa using h0
            have : ps.countP (fun p => p.rule == 0) = 0 := by
              rw [List.countP_eq_zero]
              intro q hq
              simpa using hno ⟨_, (hW1 _ _).mpr (.inr (.inl ⟨h0, rfl, rfl⟩))⟩ q hq
            omega
          · simpa using hcount
        · intro q hq hq0
          rcases List.mem_cons.mp hq with rfl | hq
          · exact (hfree hq0).2
          · exact heos q hq hq0
      · rintro e ⟨done, q, rest, rfl, t, a, a', g1, g2, g3⟩
        refine ⟨p :: done, q, rest, rfl, t, a, a', g1, ?_, g3⟩
        rcases g2 with g2 | ⟨q', hq', g2⟩
        · rcases (hW1 t a').mp g2 with g2 | g2
          · exact .inl g2
          · exact .inr ⟨p, List.mem_cons_self, g2⟩
        · exact .inr ⟨q', List.mem_cons_of_mem _ hq', g2⟩
    simp only [addEnds, hend, Outcome.ok_bind, Outcome.assert_true]
    by_cases hr : p.rule = IndexedGrammar.rootRule
    · have hr0 : p.rule = 0 := hr
      simp only [hr, if_true]
      have hgood : (∀ t, p.followSet.mem t = true → t = .eos) ∧ (∀ a, ¬ W .eos a) ∨ X := by
        rcases hX with hX | hX
        · obtain ⟨g1, -, g3⟩ := hX [] p ps rfl hr0
          exact .inl ⟨g1, g3⟩
        · exact .inr hX
      have heos : Label.id (AugTok.eos : AugTokId) < ig.vocab.size := by
        show 1 < _; simp [Vocab.size]
      cases hall : (p.followSet.iter.all fun t => t == .eos) with
      | false =>
        simp only [Outcome.assert_false, Outcome.panic_bind]
        show X
        rcases hgood with ⟨g1, -⟩ | hX
        · rw [List.all_eq_false] at hall
          obtain ⟨t, ht, hne⟩ := hall
          exact absurd (g1 t (hp.follow.mem_iter.mp ht)) (by simpa using hne)
        · exact hX
      | true =>
        simp only [Outcome.assert_true, Outcome.ok_bind]
        rcases insertAct h heos .accept with ⟨old, ho, e⟩ | ⟨hno, m, e, hm⟩
        · rw [e]
          simp only [Outcome.ok_bind, Outcome.panic_bind]
          show X
          rcases hgood with ⟨-, g2⟩ | hX
          · exact absurd ho (g2 old)
          · exact hX
        · rw [e]
          simp only [Outcome.ok_bind, Outcome.pure_eq]
          refine hstep _ _ (fun t a => ?_) hm fun _ => ⟨hno, fun t ht => ?_⟩
          swap
          · rw [List.all_eq_true] at hall
            simpa using hall t (hp.follow.mem_iter.mpr ht)
          simp only [EndWants, hr0]
          constructor
          · rintro (g | ⟨rfl, rfl⟩)
            · exact .inl g
            · exact .inr (.inl ⟨trivial, rfl, rfl⟩)
          · rintro (g | ⟨-, rfl, rfl⟩ | ⟨g, -⟩)
            · exact .inl g
            · exact .inr ⟨rfl, rfl⟩
            · exact absurd rfl g
    · have hr0 : p.rule ≠ 0 := hr
      simp only [hr, if_false]
      refine Outcome.Sat.bind ((addReduces_sat p.followSet.iter
        (fun t ht => hp.follow.lt (hp.follow.mem_iter.mp ht)) hp.follow.nodup_iter h p.rule X).mono
        (fun _ h => h) ?_ (fun h => h)) ?_
      · rintro e ⟨t, ht, a, g1, g2⟩
        exact ⟨[], p, ps, rfl, t, _, a, .inr ⟨hr0, hp.follow.mem_iter.mp ht, rfl⟩, .inl g1, g2⟩
      · rintro b1 - ⟨-, hb1⟩
        refine hstep _ _ (fun t a => ?_) hb1 fun h0 => absurd h0 hr0
        simp only [EndWants, hp.follow.mem_iter]
        constructor
        · rintro (g | ⟨g1, g2⟩)
          · exact .inl g
          · exact .inr (.inr ⟨hr0, g1, g2⟩)
        · rintro (g | ⟨g, -⟩ | ⟨-, g1, g2⟩)
          · exact .inl g
          · exact absurd g hr0
          · exact .inr ⟨g1, g2⟩

theorem addShift_sat {b : EntryBuilder} {W : AugTokId → Action → Prop} {G : Nat → Nat → Prop}
    (h : Rep ig b W G) {t : AugTokId} (ht : Label.id t < ig.vocab.size) (id : Nat) (X : Prop) :
    (addShift ig b t id).Sat
      (fun b' => Rep ig b' (fun t' a' => W t' a' ∨ (t' = t ∧ a' = .shift id)) G)
      (fun e => ∃ a, W t a ∧ Reports ig e t (.shift id) a) X := by
  unfold addShift
  rcases insertAct h ht (.shift id) with ⟨old, ho, e⟩ | ⟨hno, m, e, hm⟩
  · obtain ⟨tok, etok⟩ := idToToken_ok (ε := LRTableError T L) ht
    rw [e]
    simp only [Outcome.ok_bind, etok]
    cases old with
    | reduce r' => exact ⟨_, ho, tok, etok, rfl⟩
    | shift i => exact ⟨_, ho, tok, etok, rfl⟩
    | accept => exact ⟨_, ho, tok, etok, rfl⟩
  · rw [e]
    exact hm

theorem addGoto_ok {b : EntryBuilder} {W : AugTokId → Action → Prop} {G : Nat → Nat → Prop}
    (h : Rep ig b W G) {l : Nat} (hl : l < ig.labelsCount) (id : Nat) (hno : ∀ i, ¬ G l i) :
    ∃ b', (addGoto b l id : Outcome (LRTableError T L) _) = .ok b' ∧
      Rep ig b' W (fun l' i' => G l' i' ∨ (l' = l ∧ i' = id)) := by
  have hn : b.gotos.lookup l = none := by
    cases hg : b.gotos.lookup l with
    | none => rfl
    | some i => exact absurd ((h.got l i).mp hg) (hno i)
  obtain ⟨m, e, hwf, hmap⟩ := h.wfG.tryInsert_none (ε := LRTableError T L) (k := l) hl id hn
  refine ⟨{ b with gotos := m }, by simp [addGoto, e], h.wfA, hwf, h.act, fun l' i' => ?_⟩
  have hap : m.lookup l' = if l' = l then some id else b.gotos.lookup l' :=
    SparseMap.lookup_append hmap hn l'
  show m.lookup l' = some i' ↔ _
  rw [hap]
  split
  · rename_i hid
    subst hid
    rw [← h.got, hn]
    simp only [Option.some.injEq, true_and]
    constructor
    · exact fun h => .inr h.symm
    · rintro (h | h)
      · cases h
      · exact h.symm
  · rename_i hid
    rw [h.got]
    constructor
    · exact .inl
    · rintro (h | ⟨rfl, -⟩)
      · exact h
      · exact absurd rfl hid

theorem noneAtEnd_eq (ps : List Position) (hps : ∀ p ∈ ps, p.OK ig ∧ p.cat ig ≠ none) :
    noneAtEnd ig ps = .ok true := by
  induction ps with
  | nil => rfl
  | cons p ps ih =>
    obtain ⟨hp, hcat⟩ := hps p List.mem_cons_self
    have hend : (p.atEndOfRule ig : Outcome (LRTableError T L) _) = .ok false := by
      rw [hp.atEnd_eq]
      unfold Position.cat at hcat
      cases hf : firstNode (p.tail ig) with
      | none => exact absurd hf hcat
      | some _ => rfl
    simp [noneAtEnd, hend, ih fun q hq => hps q (List.mem_cons_of_mem _ hq)]

/-- The position after the dot has moved over one node. -/
def adv (p : Position) : Position := { p with position := p.position + 1 }

/-- The kernel reached from a group of positions. -/
def next (ps : List Position) : Kernel := Kernel.new (ps.map adv)

/-- The kernel reached from a closure over a node. -/
def nextOf (ig : IndexedGrammar T L) (items : List Position) (c : Category) : Kernel :=
  next (items.filter fun p => p.cat ig == c)

/-- The actions called for by the groups (states are looked up in the kernel table). -/
def Wants (states : List Kernel) (done : List (Category × List Position)) (t : AugTokId) :
    Action → Prop
  | .shift id => ∃ ps, (some (.terminal t), ps) ∈ done ∧ states[id]? = some (next ps)
  | a => ∃ ps, (none, ps) ∈ done ∧ ∃ p ∈ ps, EndWants p t a

/-- The gotos called for by the groups. -/
def WantsGoto (states : List Kernel) (done : List (Category × List Position)) (l id : Nat) : Prop :=
  ∃ ps, (some (.production l), ps) ∈ done ∧ states[id]? = some (next ps)

/-- The row under construction after the groups in `done`. -/
structure Row (ig : IndexedGrammar T L) (done : List (Category × List Position)) (kt : KernelTable)
    (b : EntryBuilder) : Prop where
  rep : Rep ig b (Wants kt.states done) (WantsGoto kt.states done)
  known : ∀ n ps, (some n, ps) ∈ done → ∃ id : Nat, kt.states[id]? = some (next ps)
  once : ∀ ps, (none, ps) ∈ done → OneRoot ps

/-- Why the construction of a row may fail: two demands on the same token. -/
def Clash (ig : IndexedGrammar T L) (groups : List (Category × List Position)) (e : LRTableError T L) :
    Prop :=
  (∃ ps, (none, ps) ∈ groups ∧ ∃ done p rest, ps = done ++ p :: rest ∧ ∃ q ∈ done, ∃ t a a',
    EndWants p t a ∧ EndWants q t a' ∧ Reports ig e t a a') ∨
  (∃ ps qs t id, (none, ps) ∈ groups ∧ (some (.terminal t), qs) ∈ groups ∧ ∃ p ∈ ps, ∃ a,
    EndWants p t a ∧ (Reports ig e t a (.shift id) ∨ Reports ig e t (.shift id) a))

theorem EndWants.not_shift {p : Position} {t : AugTokId} {id : Nat} : ¬ EndWants p t (.shift id) := by
  rintro (⟨_, _, h⟩ | ⟨_, _, h⟩) <;> cases h

theorem wants_mono {states states' : List Kernel} (hpre : states <+: states') (hnd : states'.Nodup)
    {done : List (Category × List Position)}
    (hknown : ∀ n ps, (some n, ps) ∈ done → ∃ id : Nat, states[id]? = some (next ps))
    (t : AugTokId) (a : Action) : Wants states done t a ↔ Wants states' done t a := by
  obtain ⟨more, rfl⟩ := hpre
  cases a with
  | shift id =>
    simp only [Wants]
    constructor
    · rintro ⟨ps, h1, h2⟩
      refine ⟨ps, h1, ?_⟩
      rw [List.getElem?_append_left (List.getElem?_eq_some_iff.mp h2).1]; exact h2
    · rintro ⟨ps, h1, h2⟩
      refine ⟨ps, h1, ?_⟩
      obtain ⟨id', h3⟩ := hknown _ _ h1
      have h4 : (states ++ more)[id']? = some (next ps) := by
        rw [List.getElem?_append_left (List.getElem?_eq_some_iff.mp h3).1]; exact h3
      rw [getElem?_inj_of_nodup hnd h2 h4]; exact h3
  | reduce r => exact Iff.rfl
  | accept => exact Iff.rfl

theorem wantsGoto_mono {states states' : List Kernel} (hpre : states <+: states') (hnd : states'.Nodup)
    {done : List (Category × List Position)}
    (hknown : ∀ n ps, (some n, ps) ∈ done → ∃ id : Nat, states[id]? = some (next ps))
    (l id : Nat) : WantsGoto states done l id ↔ WantsGoto states' done l id := by
  obtain ⟨more, rfl⟩ := hpre
  simp only [WantsGoto]
  constructor
  · rintro ⟨ps, h1, h2⟩
    refine ⟨ps, h1, ?_⟩
    rw [List.getElem?_append_left (List.getElem?_eq_some_iff.mp h2).1]; exact h2
  · rintro ⟨ps, h1, h2⟩
    refine ⟨ps, h1, ?_⟩
    obtain ⟨id', h3⟩ := hknown _ _ h1
    have h4 : (states ++ more)[id']? = some (next ps) := by
      rw [List.getElem?_append_left (List.getElem?_eq_some_iff.mp h3).1]; exact h3
    rw [getElem?_inj_of_nodup hnd h2 h4]; exact h3

theorem cat_nodup {done gs : List (Category × List Position)} {c : Category} {ps qs : List Position}
    (hnd : ((done ++ (c, ps) :: gs).map (·.1)).Nodup) : (c, qs) ∉ done := by
  intro h
  rw [List.map_append, List.nodup_append] at hnd
  exact hnd.2.2 c (List.mem_map.mpr ⟨_, h, rfl⟩) c (by simp) rfl

theorem tryBuild_sat (hw : ig.WF) (gs done : List (Category × List Position))
    (hgs : ∀ c ps, (c, ps) ∈ gs → ps ≠ [] ∧ ∀ p ∈ ps, p.OK ig ∧ p.cat ig = c)
    (hnd : ((done ++ gs).map (·.1)).Nodup) {kt : KernelTable} (hkt : kt.WF) {b : EntryBuilder}
    (hb : Row ig done kt b) {X : Prop}
    (hX : (∀ g1 ps g2, done ++ gs = g1 ++ (none, ps) :: g2 → ∀ d p rest, ps = d ++ p :: rest →
      p.rule = 0 → (∀ t, p.followSet.mem t = true → t = .eos) ∧ d = [] ∧ g1 = []) ∨ X) :
    (tryBuild ig gs kt b).Sat
      (fun (b', kt') => Row ig (done ++ gs) kt' b' ∧ kt'.WF ∧ kt.states <+: kt'.states ∧
        ∀ k ∈ kt'.states, k ∈ kt.states ∨ ∃ n ps, (some n, ps) ∈ gs ∧ k = next ps)
      (Clash ig (done ++ gs)) X := by
  induction gs generalizing done kt b with
  | nil =>
    rw [List.append_nil]
    exact ⟨hb, hkt, List.prefix_rfl, fun k hk => .inl hk⟩
  | cons g gs ih =>
    obtain ⟨c, ps⟩ := g
    obtain ⟨hne, hps⟩ := hgs c ps List.mem_cons_self
    have hgs' := fun c' ps' h => hgs c' ps' (List.mem_cons_of_mem (c, ps) h)
    have hcat : done ++ (c, ps) :: gs = (done ++ [(c, ps)]) ++ gs := by simp
    have hnd' := hnd
    rw [hcat] at hnd'
    have hX' := hX
    rw [hcat] at hX'
    cases c with
    | none =>
      simp only [tryBuild]
      have hXe : (∀ d p rest, ps = d ++ p :: rest → p.rule = 0 →
          (∀ t, p.followSet.mem t = true → t = .eos) ∧ d = [] ∧
            ∀ a, ¬ Wants kt.states done .eos a) ∨ X := by
        refine hX.imp (fun h d p rest e hr => ?_) fun h => h
        obtain ⟨g1, g2, g3⟩ := h done ps gs rfl d p rest e hr
        refine ⟨g1, g2, fun a ha => ?_⟩
        subst g3
        cases a <;> simp [Wants] at ha
      refine Outcome.Sat.bind ((addEnds_sat ps hps hb.rep hXe).mono (fun _ h => h) ?_ fun h => h) ?_
      · rintro e ⟨d, p, rest, e1, t, a, a', h1, h2, h3⟩
        rcases h2 with h2 | ⟨q, hq, h2⟩
        · cases a' with
          | shift id =>
            obtain ⟨qs, h4, -⟩ := h2
            refine .inr ⟨ps, qs, t, id, by simp, by simp [h4], p, by simp [e1], a, h1, .inl h3⟩
          | reduce r =>
            obtain ⟨qs, h4, -⟩ := h2
            exact absurd h4 (cat_nodup hnd)
          | accept =>
            obtain ⟨qs, h4, -⟩ := h2
            exact absurd h4 (cat_nodup hnd)
        · exact .inl ⟨ps, by simp, d, p, rest, e1, q, hq, t, a, a', h1, h2, h3⟩
      · rintro b1 - ⟨hb1, -, hcount⟩
        have hrow : Row ig (done ++ [(none, ps)]) kt b1 := by
          refine ⟨hb1.congr (fun t a => ?_) (fun l i => ?_), fun n qs h => ?_, fun qs h => ?_⟩
          · cases a with
            | shift id =>
              simp only [Wants, List.mem_append, List.mem_singleton, Prod.mk.injEq, reduceCtorEq,
                false_and, or_false]
              constructor
              · rintro (h | ⟨p, -, h⟩)
                · exact h
                · exact absurd h EndWants.not_shift
              · exact .inl
            | reduce r =>
              simp only [Wants, List.mem_append, List.mem_singleton, Prod.mk.injEq, true_and]
              constructor
              · rintro (⟨qs, h, h'⟩ | h)
                · exact ⟨qs, .inl h, h'⟩
                · exact ⟨ps, .inr rfl, h⟩
              · rintro ⟨qs, h | rfl, h'⟩
                · exact .inl ⟨qs, h, h'⟩
                · exact .inr h'
            | accept =>
              simp only [Wants, List.mem_append, List.mem_singleton, Prod.mk.injEq, true_and]
              constructor
              · rintro (⟨qs, h, h'⟩ | h)
                · exact ⟨qs, .inl h, h'⟩
                · exact ⟨ps, .inr rfl, h⟩
              · rintro ⟨qs, h | rfl, h'⟩
                · exact .inl ⟨qs, h, h'⟩
                · exact .inr h'
          · simp [WantsGoto]
          · refine hb.known n qs ?_
            simpa using h
          · rw [List.mem_append, List.mem_singleton] at h
            rcases h with h | h
            · exact hb.once qs h
            · cases h; exact hcount
        rw [hcat]
        refine (ih _ hgs' hnd' hkt hrow hX').mono ?_ (fun _ h => h) (fun h => h)
        rintro ⟨b', kt'⟩ ⟨g1, g2, g3, g4⟩
        refine ⟨g1, g2, g3, fun k hk => (g4 k hk).imp (fun h => h) ?_⟩
        rintro ⟨n, qs, h1, h2⟩
        exact ⟨n, qs, List.mem_cons_of_mem _ h1, h2⟩
    | some n =>
      have hcs : ∀ p ∈ ps, p.OK ig ∧ p.cat ig ≠ none := fun p hp =>
        ⟨(hps p hp).1, by rw [(hps p hp).2]; simp⟩
      have hrange : n.InRange ig.labelsCount ig.vocab.size := by
        obtain ⟨p, hp⟩ := List.exists_mem_of_ne_nil ps hne
        have := (hps p hp).1.cat_inRange hw
        rw [(hps p hp).2] at this
        exact this
      have hadv : (Position.advanceAll ig ps : Outcome (LRTableError T L) _) = .ok (ps.map adv) :=
        Position.advanceAll_eq ps (fun p hp => (hps p hp).1) fun p hp => (hcs p hp).2
      simp only [tryBuild, noneAtEnd_eq ps hcs, hadv, Outcome.ok_bind, Outcome.assert_true]
      obtain ⟨k1, k2, k3, k4⟩ := hkt.getOrInsert (next ps)
      have hunf : kt.getOrInsert (Kernel.new (ps.map adv)) = kt.getOrInsert (next ps) := rfl
      rw [hunf]
      generalize hgoi : kt.getOrInsert (next ps) = res at k1 k2 k3 k4
      obtain ⟨kt1, id⟩ := res
      simp only at k1 k2 k3 k4 ⊢
      have hrep1 : Rep ig b (Wants kt1.states done) (WantsGoto kt1.states done) :=
        hb.rep.congr (wants_mono k2 k1.nodup hb.known) (wantsGoto_mono k2 k1.nodup hb.known)
      have hknown : ∀ n' qs, (some n', qs) ∈ done ++ [(some n, ps)] →
          ∃ id : Nat, kt1.states[id]? = some (next qs) := by
        intro n' qs h
        rw [List.mem_append, List.mem_singleton] at h
        rcases h with h | h
        · obtain ⟨i, hi⟩ := hb.known n' qs h
          obtain ⟨more, hmore⟩ := k2
          refine ⟨i, ?_⟩
          rw [← hmore, List.getElem?_append_left (List.getElem?_eq_some_iff.mp hi).1]; exact hi
        · simp only [Prod.mk.injEq] at h
          obtain ⟨-, rfl⟩ := h
          exact ⟨id, k3⟩
      have honce : ∀ qs, (none, qs) ∈ done ++ [(some n, ps)] → OneRoot qs := by
        intro qs h
        refine hb.once qs ?_
        simpa using h
      have hidu : ∀ i : Nat, kt1.states[i]? = some (next ps) ↔ i = id := fun i =>
        ⟨fun h => getElem?_inj_of_nodup k1.nodup h k3, fun h => h ▸ k3⟩
      have hfin : ∀ b1, Row ig (done ++ [(some n, ps)]) kt1 b1 →
          (tryBuild ig gs kt1 b1).Sat
            (fun (b', kt') => Row ig (done ++ (some n, ps) :: gs) kt' b' ∧ kt'.WF ∧
              kt.states <+: kt'.states ∧
              ∀ k ∈ kt'.states, k ∈ kt.states ∨ ∃ n' qs, (some n', qs) ∈ (some n, ps) :: gs ∧ k = next qs)
            (Clash ig (done ++ (some n, ps) :: gs)) X := by
        intro b1 hrow
        rw [hcat]
        refine (ih _ hgs' hnd' k1 hrow hX').mono ?_ (fun _ h => h) (fun h => h)
        rintro ⟨b', kt'⟩ ⟨g1, g2, g3, g4⟩
        refine ⟨g1, g2, k2.trans g3, fun k hk => ?_⟩
        rcases g4 k hk with h | ⟨n', qs, h1, h2⟩
        · rcases k4 k h with h | h
          · exact .inl h
          · exact .inr ⟨n, ps, List.mem_cons_self, h⟩
        · exact .inr ⟨n', qs, List.mem_cons_of_mem _ h1, h2⟩
      cases n with
      | production l =>
        obtain ⟨b1, e1, hb1⟩ := addGoto_ok hrep1 (l := l) hrange id (by
          rintro i ⟨qs, h, -⟩
          exact cat_nodup hnd h)
        simp only [e1, Outcome.ok_bind]
        refine hfin b1 ⟨hb1.congr (fun t a => ?_) (fun l' i => ?_), hknown, honce⟩
        · cases a <;> simp [Wants]
        · simp only [WantsGoto, List.mem_append, List.mem_singleton, Prod.mk.injEq, Option.some.injEq,
            Node.production.injEq]
          constructor
          · rintro (⟨qs, h1, h2⟩ | ⟨rfl, rfl⟩)
            · exact ⟨qs, .inl h1, h2⟩
            · exact ⟨ps, .inr ⟨rfl, rfl⟩, k3⟩
          · rintro ⟨qs, h1 | ⟨rfl, rfl⟩, h2⟩
            · exact .inl ⟨qs, h1, h2⟩
            · exact .inr ⟨rfl, (hidu i).mp h2⟩
      | terminal t =>
        refine Outcome.Sat.bind ((addShift_sat hrep1 (t := t) hrange id X).mono (fun _ h => h) ?_
          fun h => h) ?_
        · rintro e ⟨a, h1, h2⟩
          cases a with
          | shift id' =>
            obtain ⟨qs, h3, -⟩ := h1
            exact absurd h3 (cat_nodup hnd)
          | reduce r =>
            obtain ⟨qs, h3, p, hp, h4⟩ := h1
            exact .inr ⟨qs, ps, t, id, by simp [h3], by simp, p, hp, _, h4, .inr h2⟩
          | accept =>
            obtain ⟨qs, h3, p, hp, h4⟩ := h1
            exact .inr ⟨qs, ps, t, id, by simp [h3], by simp, p, hp, _, h4, .inr h2⟩
        · intro b1 _ hb1
          refine hfin b1 ⟨hb1.congr (fun t' a => ?_) (fun l' i => ?_), hknown, honce⟩
          · cases a with
            | shift i =>
              simp only [Wants, List.mem_append, List.mem_singleton, Prod.mk.injEq, Option.some.injEq,
                Node.terminal.injEq, Action.shift.injEq]
              constructor
              · rintro (⟨qs, h1, h2⟩ | ⟨rfl, rfl⟩)
                · exact ⟨qs, .inl h1, h2⟩
                · exact ⟨ps, .inr ⟨rfl, rfl⟩, k3⟩
              · rintro ⟨qs, h1 | ⟨rfl, rfl⟩, h2⟩
                · exact .inl ⟨qs, h1, h2⟩
                · exact .inr ⟨rfl, (hidu i).mp h2⟩
            | reduce r => simp [Wants]
            | accept => simp [Wants]
          · simp [WantsGoto]

end EntryBuilder
end Verif
