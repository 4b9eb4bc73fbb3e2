import Verif.Props.Agree
import Verif.Props.Exact

/-!
# C94: a token that no terminal stands for stops the parser
-/

set_option linter.unusedSectionVars false
set_option autoImplicit false

namespace Verif
open Spec

/-- Whatever is parsed is matched by terminals. -/
theorem Spec.ParsesM.leaf {T L A : Type} {P : List (Rule T L)} {M : A → T → Prop} {f : Forest A} {α : List (Node T L)}
    {w : List A} (h : ParsesM P M f α w) {a : A} (ha : a ∈ w) : ∃ t, M a t := by
  induction h with
  | nil => cases ha
  | tok hm _ ih =>
    rcases List.mem_cons.mp ha with rfl | ha
    · exact ⟨_, hm⟩
    · exact ih ha
  | eps _ ih => exact ih ha
  | prod _ _ _ ih1 ih2 =>
    rcases List.mem_append.mp ha with ha | ha
    · exact ih1 ha
    · exact ih2 ha

namespace C94

section
variable {T L : Type} [DecidableEq T] [DecidableEq L]

/-- **C94 (simulator).** An input with a token that occurs in no rule is rejected. -/
theorem simulator_foreign (g : Grammar T L) (p : SimParser T L) (fuel : Nat) (w : List T) (a : T) (hg : WellFormed g)
    (hp : SimParser.new fuel g = .ok p) (ha : a ∈ w) (hno : ∀ r ∈ g.productions, .terminal (.token a) ∉ r.rule) :
    ∃ N, ∀ fuel' ≥ N, (p.parseStream fuel' w : Outcome (LRTableError T L) _) = .ok false := by
  obtain ⟨b, N, hN⟩ := C03.parse_terminates g p fuel w hg hp
  refine ⟨N, fun fuel' hf => ?_⟩
  cases b with
  | false => exact hN fuel' hf
  | true =>
    obtain ⟨root, rest, e, hd⟩ := C01.accepts_only_sentences g p fuel N w hg hp (hN N (Nat.le_refl _))
    exfalso
    have key : ∀ {α : List (Node T L)} {u : List T}, Derives g.productions α u → a ∈ u →
        .terminal (.token a) ∈ α ∨ ∃ r ∈ g.productions, .terminal (.token a) ∈ r.rule := by
      intro α u hd
      induction hd with
      | nil => intro h; cases h
      | tok _ ih =>
        intro h
        rcases List.mem_cons.mp h with rfl | h
        · exact .inl List.mem_cons_self
        · exact (ih h).imp (List.mem_cons_of_mem _) id
      | eps _ ih => intro h; exact (ih h).imp (List.mem_cons_of_mem _) id
      | prod hr _ _ ih1 ih2 =>
        intro h
        rcases List.mem_append.mp h with h | h
        · rcases ih1 h with h | h
          · exact .inr ⟨_, hr, h⟩
          · exact .inr h
        · exact (ih2 h).imp (List.mem_cons_of_mem _) id
    rcases key hd ha with h | ⟨r, hr, h⟩
    · simp at h
    · exact hno r hr h

end

section
variable {P V E F' σ : Type} [DecidableEq P] {o : HashOrder} {lex : Lexer} {gi : GrammarInfo} {prog : Program}

/-- No terminal of the grammar stands for the token. -/
def Foreign (gi : GrammarInfo) (sem : Sem P V E σ) (a : Token P) : Prop :=
  ∀ s, gi.Terminal s → ¬ Matches sem gi.terminalType a s

/-- **C94 (generated parsers).** No run reads past a token that no terminal stands for: it ends before it takes this token
from the iterator, or with the parse error for it right after. This is so in all builds and whatever the patterns are. -/
theorem stops_at_foreign (h : Generated o lex gi prog) (debug : Bool) (sem : Sem P V E σ) (into : F' → E)
    (items : Nat → Option (Item P F')) (fuel : Nat) (w0 : σ) (run : Run P V E σ) (n : Nat) (a : Token P)
    (hrun : prog.parseFallible debug sem into items fuel w0 = .ok run) (ha : items n = some (.ok a))
    (hno : Foreign gi sem a) :
    run.pulled ≤ n ∨ run.pulled = n + 1 ∧ run.result = .error (.parseError (some a)) := by
  obtain ⟨F, kt, -, hx⟩ := h.ctx
  have hno' : ∀ k, ¬ gi.tokMatch sem a k := by
    rintro k ⟨t, h1, h2⟩
    exact hno t (h.used (List.mem_of_getElem? h1)) h2
  obtain ⟨W, c, tr, st, w, res, hW, hf⟩ := hx.finish' hrun
  obtain ⟨u, h1, h2⟩ := (Sane.start.steps hf.steps).parses
  have hlen : W.length = u.length + c.input.length := by rw [h2, List.length_append]
  have hp : run.pulled = u.length + 1 := by have := hf.pulled; rw [hf.total]; omega
  have hle : u.length ≤ n := by
    by_contra hlt
    have hlt' : n < u.length := by omega
    have h3 : W[n]? = some u[n] := by rw [h2, List.getElem?_append_left hlt']; exact List.getElem?_eq_getElem hlt'
    have h4 := hW n _ h3
    rw [ha] at h4
    cases h4
    obtain ⟨k, hk⟩ := h1.leaf (List.getElem_mem hlt')
    exact hno' k hk
  rcases Nat.lt_or_ge u.length n with hlt | hge
  · left; omega
  · right
    have hn : u.length = n := by omega
    refine ⟨by omega, ?_⟩
    have hnext : st.next = some (.ok a) := by
      rw [hf.next, hlen, Nat.add_sub_cancel, hn, ha]
    have hhead : c.input.head? = some a := by
      rcases hf.peek with ⟨f, e⟩ | e
      · rw [hnext] at e; cases e
      · rw [hnext] at e
        cases hc : c.input.head? with
        | none => rw [hc] at e; cases e
        | some b => rw [hc] at e; cases e; rfl
    obtain ⟨z, hz⟩ : ∃ z, c.input = a :: z := by
      cases hc : c.input with
      | nil => rw [hc] at hhead; cases hhead
      | cons b z => rw [hc] at hhead; cases hhead; exact ⟨z, rfl⟩
    have hlook : ∀ x, ¬ Look (gi.tokMatch sem) c.input x := by
      intro x hx
      rw [hz] at hx
      cases hx with
      | tok hm => exact hno' _ hm
    have hstep : ∀ {c' o'}, ¬ Step gi.indexedGrammar.cfg F.NodesFirst (gi.tokMatch sem) c c' o' := by
      intro c' o' hs
      cases hs with
      | shift hm _ => exact hlook _ (.tok hm)
      | reduce _ hl _ => exact hlook _ hl
    have hgen := hf.gen
    rcases hf.done with ⟨v, st', w', rfl, rfl⟩ | ⟨e, w', rfl, rfl⟩
    · cases hgen with
      | accept _ _ g => obtain ⟨x, hl, -⟩ := g; exact absurd hl (hlook _)
    · cases hgen with
      | stream g => rw [hnext] at g; cases g
      | overlap _ g =>
        obtain ⟨-, -, b, z', x, y, e1, -, e2, -⟩ := g
        rw [e1] at hlook
        exact absurd (.tok e2) (hlook _)
      | reduceFail _ _ g => exact absurd g hstep
      | acceptFail _ _ g => obtain ⟨x, hl, -⟩ := g; exact absurd hl (hlook _)
      | stuck _ _ g => rw [hhead]

/-- So what comes after such a token does not matter, and no input with one has a value. -/
theorem foreign_has_no_value (h : Generated o lex gi prog) (debug : Bool) (sem : Sem P V E σ) (into : F' → E)
    (items : Nat → Option (Item P F')) (fuel : Nat) (w0 : σ) (run : Run P V E σ) (n : Nat) (a : Token P)
    (hrun : prog.parseFallible debug sem into items fuel w0 = .ok run) (ha : items n = some (.ok a))
    (hbefore : ∀ i < n, items i ≠ none) (hno : Foreign gi sem a) :
    (∀ v, run.result ≠ .ok v) ∧ ∀ items', (∀ i ≤ n, items' i = items i) →
      prog.parseFallible debug sem into items' fuel w0 = .ok run := by
  have hp := stops_at_foreign h debug sem into items fuel w0 run n a hrun ha hno
  refine ⟨fun v hv => ?_, fun items' hi => ?_⟩
  · obtain ⟨W, f, h1, h2, h3, -⟩ := C18.ok_is_value_of_tree h debug sem into items fuel w0 run v hrun hv
    rcases Nat.lt_trichotomy W.length n with hlt | e | hlt
    · exact hbefore _ hlt h2
    · rw [e, ha] at h2; cases h2
    · have h4 := h1 n _ (List.getElem?_eq_getElem hlt)
      rw [ha] at h4
      cases h4
      obtain ⟨root, rest, -, h5⟩ := (h.parseTree_means).mpr h3
      obtain ⟨t, k1, k2⟩ := h5.leaf (List.getElem_mem hlt)
      exact hno t k1 k2
  · exact C24.unpulled_items_do_not_matter prog debug sem into items items' fuel w0 run hrun
      fun i hi' => (hi i (by omega)).symm

/-- Such a token also ends parsing streams that go on for ever, under the condition of C03. -/
theorem foreign_ends (h : Generated o lex gi prog) (debug : Bool) (sem : Sem P V E σ) (into : F' → E)
    (items : Nat → Option (Item P F')) (W : List (Token P)) (w0 : σ) (a : Token P)
    (ho : (debug = true ∧ ∃ ty, gi.terminalType = .enum ty) ∨ gi.Disjoint sem ∨ C07.ActionsComplete gi.grammar)
    (hW : ∀ i b, W[i]? = some b → items i = some (.ok b)) (ha : items W.length = some (.ok a)) (hno : Foreign gi sem a) :
    ∃ N run, (∀ fuel ≥ N, prog.parseFallible debug sem into items fuel w0 = .ok run) ∧
      run.pulled ≤ W.length + 1 ∧ ∃ e, run.result = .error e := by
  have hlt : ∀ i < W.length, ∃ b, items i = some (.ok b) := fun i hi => ⟨_, hW i _ (List.getElem?_eq_getElem hi)⟩
  have hW' : ∀ i b, (W ++ [a])[i]? = some b → (if i ≤ W.length then items i else none) = some (.ok b) := by
    intro i b hb
    rcases Nat.lt_trichotomy i W.length with hi | hi | hi
    · rw [List.getElem?_append_left hi] at hb
      rw [if_pos (by omega)]
      exact hW i b hb
    · subst hi
      rw [if_pos (Nat.le_refl _), ha]
      simp at hb
      rw [hb]
    · rw [List.getElem?_eq_none (by simp; omega)] at hb; cases hb
  obtain ⟨N, run, hN⟩ := C03.generated_terminates_partial h debug sem into
    (fun i => if i ≤ W.length then items i else none) (W ++ [a]) w0 ho hW' (by simp)
  have hp := stops_at_foreign h debug sem into _ N w0 run W.length a (hN N (Nat.le_refl _)) (by simpa using ha) hno
  obtain ⟨hv, hs⟩ := foreign_has_no_value h debug sem into _ N w0 run W.length a (hN N (Nat.le_refl _)) (by simpa using ha)
    (fun i hi => by
      obtain ⟨b, hb⟩ := hlt i hi
      simp only [if_pos (Nat.le_of_lt hi)]
      rw [hb]; simp) hno
  refine ⟨N, run, fun fuel hf => Program.loop_mono hf (hs items fun i hi => by simp only [if_pos hi]), by omega, ?_⟩
  cases hr : run.result with
  | ok v => exact absurd hr (hv v)
  | error e => exact ⟨e, rfl⟩

end

/-! ### Concrete cases -/

/-- No rule of the sample has a `10`. -/
example : ∃ p, SimParser.new 20 sampleLR = .ok p ∧ ∃ N, ∀ fuel ≥ N,
    (p.parseStream fuel [7, 10, 9, 8] : Outcome (LRTableError Nat Nat) _) = .ok false := by
  obtain ⟨p, h, -⟩ := sampleLR_parser
  exact ⟨p, h, simulator_foreign sampleLR p 20 _ 10 sampleLR_wellFormed h (by simp) (by decide)⟩

theorem sample_foreign {gi : GrammarInfo} (h1 : gi.productionRules = Sample.rules)
    (h2 : gi.terminalType = .enum (.ident "Tok" .nil)) : Foreign gi Sample.sem (.unit "Minus") := by
  rintro s ⟨r, hr, hs⟩ hm
  rw [h1] at hr
  rw [h2] at hm
  have hn := Sample.variant_eq hm
  simp only [Sample.rules, List.mem_cons, List.not_mem_nil, or_false] at hr
  rcases hr with rfl | rfl | rfl | rfl <;> simp at hs <;> subst hs <;> simp [Sample.variant] at hn

/-- `Plus Minus Minus …` without end: the sample parser ends with an error after two items. -/
example : ∃ gi prog, Generated .id Sample.lexer gi prog ∧ ∃ N run, (∀ fuel ≥ N, prog.parseFallible false Sample.sem
    (id : String → String) (fun i => if i = 0 then some (.ok (.unit "Plus")) else some (.ok (.unit "Minus"))) fuel 0 =
      .ok run) ∧ run.pulled ≤ 2 ∧ ∃ e, run.result = .error e := by
  obtain ⟨gi, prog, h, h1, h2, -⟩ := Sample.generated
  refine ⟨gi, prog, h, foreign_ends h false Sample.sem id _ [.unit "Plus"] 0 (.unit "Minus")
    (.inr (.inl (Sample.disjoint h1 h2))) ?_ rfl (sample_foreign h1 h2)⟩
  intro i b hb
  match i, hb with
  | 0, hb => cases hb; rfl

end C94
end Verif
