import Verif.Proof.Label
import Verif.Props.Knuth
import Verif.Props.Conflict
import Verif.Props.Parse
import Verif.Props.GrammarIndex
import Verif.Props.Extend

/-!
# C81: tables and the LR(1) property; C82: another label as the root
-/

set_option linter.unusedSectionVars false
set_option autoImplicit false

namespace Verif
open Spec

namespace C81

section
variable {T L : Type} {P : List (Rule T L)}

/-- The true FIRST sets are true. -/
theorem firstSound_true (hp : NodesProductive P) (he : ∀ r ∈ P, .terminal .eos ∉ r.rule) : FirstSound P (InFirst P) where
  eps r hr d h := (first_iff.mpr h).derives_nil rfl
  tok r hr d k h := by
    refine (first_iff.mpr h).derives_tok hp rfl fun n hn => hp r hr n ?_
    rw [strip_of_drop rfl] at hn
    exact List.mem_of_mem_drop hn
  eos r hr d h := by
    have := (first_iff.mpr h).not_eos rfl he
    exact he r hr (List.mem_filter.mp (List.mem_of_mem_drop this)).1

/-- Rules without conflicts are those with Knuth's property. -/
theorem noConflict_iff_lr1 (hp : NodesProductive P) (he : ∀ r ∈ P, .terminal .eos ∉ r.rule) (hu : RootUnused P) (ho : RootOnce P) :
    NoConflict P (InFirst P) ↔ ¬ NotLR1 P :=
  ⟨lr1_of_noConflict hu ho, fun h => by
    by_contra hn
    exact h (notLR1_of_conflict hp (firstSound_true hp he) hu he hn)⟩

end

section
variable {T L : Type} [DecidableEq T] [DecidableEq L] {g : Grammar T L} {ig : IndexedGrammar T L}

theorem root_unique {root : Rule T L} {rest : List (Rule T L)} (hi : IndexedGrammar.build g = .ok ig)
    (e : g.productions = root :: rest) : C10.RootUnique root rest := by
  obtain ⟨ps⟩ := g
  cases e
  exact ((C10.build_succeeds_iff root rest).mp ⟨ig, hi⟩).1

theorem rootOnce (hi : IndexedGrammar.build g = .ok ig) : RootOnce g.productions := by
  intro i r0 r h0 hr e
  cases h : g.productions with
  | nil => rw [h] at h0; cases h0
  | cons root rest =>
    have hu := root_unique hi h
    rw [h] at h0 hr
    cases h0
    cases i with
    | zero => rfl
    | succ i => exact absurd e (hu r (List.mem_of_getElem? (by simpa using hr))).1

/-- If all labels are productive, the root rule does not mention the root. -/
theorem rootUnused (hi : IndexedGrammar.build g = .ok ig) (hp : Productive g.productions) : RootUnused g.productions := by
  have ho := rootOnce hi
  intro r0 h0 r hr hm
  cases h : g.productions with
  | nil => rw [h] at h0; cases h0
  | cons root rest =>
    have hu := root_unique hi h
    have h0' := h0
    rw [h] at h0' hr
    cases h0'
    rcases List.mem_cons.mp hr with rfl | hr
    · obtain ⟨w, hw⟩ := hp r (List.mem_of_getElem? h0)
      exact RootDead.derives ⟨ho, r, h0, hm⟩ hw r h0 (by simp)
    · exact (hu r hr).2 hm

theorem rootNotRecursive (hi : IndexedGrammar.build g = .ok ig) (hp : Productive g.productions) : RootNotRecursive g := by
  intro root rest e
  exact rootUnused hi hp root (by rw [e]; rfl) root (by rw [e]; simp)

/-- Every node of a rule derives something. -/
theorem nodesProductive (hi : IndexedGrammar.build g = .ok ig) (hne : NoEndMarker g) (hp : Productive g.productions) :
    NodesProductive g.productions := by
  intro r hr n hn
  have hn' := (List.mem_filter.mp hn)
  match n with
  | .terminal .epsilon => simp at hn'
  | .terminal .eos => exact absurd hn'.1 (hne r hr)
  | .terminal (.token k) => exact ⟨[k], .tok .nil⟩
  | .production l =>
    cases h : g.productions with
    | nil => rw [h] at hr; cases hr
    | cons root rest =>
      have hg : g = C10.gr root rest := by cases g; cases h; rfl
      obtain ⟨q, hq, rfl⟩ := ((C10.build_succeeds_iff root rest).mp ⟨ig, hg ▸ hi⟩).2.1 r (hg ▸ hr) l hn'.1
      rw [← h]
      exact hp q (by rw [h]; exact hq)

/-- **C81.** An LR(1) grammar gets a table. -/
theorem lr1_gets_table (hg : WellFormed g) (hp : Productive g.productions) (hi : IndexedGrammar.build g = .ok ig)
    (hl : ¬ NotLR1 g.productions) : ∃ N, ∀ fuel ≥ N, ∃ t, LRTable.build fuel ig = .ok t := by
  obtain ⟨N, hN⟩ := C13.conflict_error_iff_user hi hg.epsilonLast (rootNotRecursive hi hp)
  refine ⟨N, fun fuel hf => ?_⟩
  by_contra hno
  rw [(hN fuel hf).2] at hno
  obtain ⟨e, he⟩ := (hN fuel hf).1.mpr hno
  exact hl (C42.conflict_not_lr1 g ig fuel e hg hp hi he)

/-- **C81, partial.** The grammars that get a table are those that are LR(1) in Knuth's sense, the others get an error.
(Missing: grammars with missing actions, see C07. Some of these that are not LR(1) get a table.) -/
theorem table_iff_lr1_partial (hg : WellFormed g) (hp : Productive g.productions) (hi : IndexedGrammar.build g = .ok ig)
    (hc : C07.ActionsComplete g) :
    ∃ N, ∀ fuel ≥ N, ((∃ t, LRTable.build fuel ig = .ok t) ↔ ¬ NotLR1 g.productions) ∧
      ((∃ e, LRTable.build fuel ig = .err e) ↔ NotLR1 g.productions) := by
  obtain ⟨N, hN⟩ := C13.conflict_error_iff_lr1_user_partial hi hg.epsilonLast (rootNotRecursive hi hp) hc
  have key := noConflict_iff_lr1 (nodesProductive hi hg.noEndMarker hp) hg.noEndMarker (rootUnused hi hp) (rootOnce hi)
  refine ⟨N, fun fuel hf => ⟨(hN fuel hf).2.trans key, (hN fuel hf).1.trans ?_⟩⟩
  rw [key, not_not]

/-- **C81, partial.** A grammar that gets a table is LR(1). (Missing: grammars with missing actions.) -/
theorem table_is_lr1_partial {t : LRTable} {n : Nat} (hg : WellFormed g) (hp : Productive g.productions)
    (hi : IndexedGrammar.build g = .ok ig) (hc : C07.ActionsComplete g) (ht : LRTable.build n ig = .ok t) :
    ¬ NotLR1 g.productions :=
  lr1_of_noConflict (rootUnused hi hp) (rootOnce hi) (hc.noConflict.mp (C72.noConflict_of_table hi hg.epsilonLast ht))

/-- **C81.** In an LR(1) grammar each rightmost sentential form has only one rightmost derivation. -/
theorem one_derivation (hp : Productive g.productions) (hi : IndexedGrammar.build g = .ok ig)
    (hl : ¬ NotLR1 g.productions) {root : Rule T L} {rest : List (Rule T L)} (e : g.productions = root :: rest)
    {is js : List Nat} {α : List (Node T L)} (h1 : RmSteps g.productions is [.production root.symbol] α)
    (h2 : RmSteps g.productions js [.production root.symbol] α) : is = js :=
  rm_unique (rootUnused hi hp) hl (by rw [e]; rfl) _ rfl h1 h2

end

theorem missed_productive : Productive C13.missed.productions := by
  have hE : Derives C13.missed.productions [.production 5] [] :=
    .prod (r := ⟨5, [.terminal .epsilon]⟩) (u := []) (w := []) (by decide) (.eps .nil) .nil
  have hD : Derives C13.missed.productions [.production 4] [] :=
    .prod (r := ⟨4, [.production 5]⟩) (u := []) (w := []) (by decide) hE .nil
  have hC : Derives C13.missed.productions [.production 2] [] :=
    .prod (r := ⟨2, [.production 4]⟩) (u := []) (w := []) (by decide) hD .nil
  have hQ : Derives C13.missed.productions [.production 3] [2] :=
    .prod (r := ⟨3, [.terminal (.token 2)]⟩) (u := [2]) (w := []) (by decide) (.tok .nil) .nil
  have hB : Derives C13.missed.productions [.production 1] [2] :=
    .prod (r := ⟨1, [.terminal (.token 2)]⟩) (u := [2]) (w := []) (by decide) (.tok .nil) .nil
  have hS : Derives C13.missed.productions [.production 0] [1, 2, 3] :=
    .prod (r := ⟨0, [.terminal (.token 1), .production 1, .production 2, .terminal (.token 3)]⟩) (u := [1, 2, 3]) (w := [])
      (by decide) (.tok (hB.append (hC.append (.tok .nil)))) .nil
  intro r hr
  simp only [C13.missed, List.mem_cons, List.not_mem_nil, or_false] at hr
  rcases hr with rfl | rfl | rfl | rfl | rfl | rfl | rfl
  exacts [⟨_, hS⟩, ⟨_, hB⟩, ⟨_, hB⟩, ⟨_, hQ⟩, ⟨_, hC⟩, ⟨_, hD⟩, ⟨_, hE⟩]

/-- **C81 is false in general.** `S -> x B C c; B -> b; B -> Q; Q -> b; C -> D; D -> E; E -> !` is not LR(1) but gets a
table. -/
theorem table_iff_lr1_refuted : ∃ (g : Grammar Nat Nat) (ig : IndexedGrammar Nat Nat) (t : LRTable), WellFormed g ∧
    Productive g.productions ∧ IndexedGrammar.build g = .ok ig ∧ LRTable.build 20 ig = .ok t ∧ NotLR1 g.productions := by
  obtain ⟨hg, -, ig, hi, ⟨t, ht⟩, hn⟩ := C13.conflict_missed
  have hp := missed_productive
  refine ⟨C13.missed, ig, t, hg, hp, hi, ht, ?_⟩
  have henc := (IndexedGrammar.build_ok hi).1
  rw [noConflict_iff henc (sameFirst_true hi), noConflict_iff_lr1 (nodesProductive hi hg.noEndMarker hp) hg.noEndMarker
    (rootUnused hi hp) (rootOnce hi), not_not] at hn
  exact hn

theorem sampleLR_productive : Productive sampleLR.productions := by
  have hA : Derives sampleLR.productions [.production 1] [] :=
    .prod (r := ⟨1, [.terminal .epsilon]⟩) (u := []) (w := []) (by decide) (.eps .nil) .nil
  have hB : Derives sampleLR.productions [.production 2] [9, 8] :=
    .prod (r := ⟨2, [.terminal (.token 9), .terminal (.token 8)]⟩) (u := [9, 8]) (w := []) (by decide) (.tok (.tok .nil)) .nil
  have hS : Derives sampleLR.productions [.production 0] [9, 8] :=
    .prod (r := ⟨0, [.production 1, .production 2]⟩) (u := [9, 8]) (w := []) (by decide) (hA.append hB) .nil
  intro r hr
  simp only [sampleLR, List.mem_cons, List.not_mem_nil, or_false] at hr
  rcases hr with rfl | rfl | rfl | rfl
  exacts [⟨_, hS⟩, ⟨_, hA⟩, ⟨_, hA⟩, ⟨_, hB⟩]

theorem sampleLR_table : ∃ ig t, IndexedGrammar.build sampleLR = .ok ig ∧ LRTable.build 20 ig = .ok t := by
  have h := sampleLR_builds
  rw [Outcome.bind_eq_ok] at h
  obtain ⟨ig, h1, h⟩ := h
  rw [Outcome.bind_eq_ok] at h
  obtain ⟨t, h2, -⟩ := h
  exact ⟨ig, t, h1, h2⟩

/-- The hypotheses are met by `S -> A B; A -> a A | !; B -> c b`, which is LR(1). -/
example : ¬ NotLR1 sampleLR.productions := by
  obtain ⟨ig, t, h1, h2⟩ := sampleLR_table
  exact table_is_lr1_partial sampleLR_wellFormed sampleLR_productive h1 sampleLR_complete.actions h2

end C81

namespace C82

section
variable {T L : Type} [DecidableEq T] [DecidableEq L] {g g' : Grammar T L} {ig : IndexedGrammar T L} {ρ : Nat → Nat}
  {s l : L} {root : Rule T L} {rest : List (Rule T L)}

theorem cons (h : RootedAt ρ s l g.productions g'.productions) :
    ∃ rest', g'.productions = ⟨s, [.production l]⟩ :: rest' := by
  have := h.root
  cases e : g'.productions with
  | nil => rw [e] at this; cases this
  | cons r rest' => rw [e] at this; cases this; exact ⟨rest', rfl⟩

/-- A label that can be reached has a rule. -/
theorem has_rule (hi : IndexedGrammar.build g = .ok ig) (e : g.productions = root :: rest) {a : L}
    (hl : Reachable g.productions root.symbol a) : ∃ r ∈ g.productions, r.symbol = a := by
  obtain ⟨ps⟩ := g
  cases e
  cases hl with
  | root => exact ⟨root, by simp, rfl⟩
  | step _ hr hl => exact ((C10.build_succeeds_iff root rest).mp ⟨ig, hi⟩).2.1 _ hr _ hl

theorem reachable_trans {P : List (Rule T L)} {a b c : L} (h : Reachable P a b) (h' : Reachable P b c) : Reachable P a c := by
  induction h' with
  | root => exact h
  | step _ hr hl ih => exact .step ih hr hl

theorem new_ne (hi : IndexedGrammar.build g = .ok ig) (e : g.productions = root :: rest)
    (hl : Reachable g.productions root.symbol l) (h : RootedAt ρ s l g.productions g'.productions) : s ≠ l := by
  rintro rfl
  obtain ⟨r, hr, hs⟩ := has_rule hi e hl
  obtain ⟨j, hj⟩ := List.mem_iff_getElem?.mp hr
  obtain ⟨i, hi, -, hr'⟩ := h.all j r hj (by rw [hs]; exact .root)
  exact (h.fresh i r hi hr').1 hs

theorem reachable_new (h : RootedAt ρ s l g.productions g'.productions) {a : L} (ha : Reachable g.productions l a) :
    Reachable g'.productions s a := by
  induction ha with
  | root => exact .step (r := ⟨s, [.production l]⟩) .root (List.mem_of_getElem? h.root) (by simp)
  | @step r a hr1 hr ha ih => exact .step ih (h.mem hr hr1) ha

theorem old_or_new (h : RootedAt ρ s l g.productions g'.productions) {r : Rule T L} (hr : r ∈ g'.productions) :
    r = ⟨s, [.production l]⟩ ∨ (r ∈ g.productions ∧ Reachable g.productions l r.symbol) := by
  obtain ⟨i, hi⟩ := List.mem_iff_getElem?.mp hr
  by_cases h0 : i = 0
  · subst h0
    rw [h.root] at hi
    cases hi
    exact .inl rfl
  · exact .inr ⟨List.mem_of_getElem? (h.get i r h0 hi), h.reach i r h0 hi⟩

theorem wellFormed (hg : WellFormed g) (h : RootedAt ρ s l g.productions g'.productions) : WellFormed g' where
  epsilonLast r hr := by
    rcases old_or_new h hr with rfl | ⟨hr, -⟩
    · simp
    · exact hg.epsilonLast r hr
  noEndMarker r hr := by
    rcases old_or_new h hr with rfl | ⟨hr, -⟩
    · simp
    · exact hg.noEndMarker r hr

theorem productive (hi : IndexedGrammar.build g = .ok ig) (hp : Productive g.productions) (e : g.productions = root :: rest)
    (hl : Reachable g.productions root.symbol l) (h : RootedAt ρ s l g.productions g'.productions) :
    Productive g'.productions := by
  intro r hr
  rcases old_or_new h hr with rfl | ⟨hr, hrl⟩
  · obtain ⟨q, hq, hs⟩ := has_rule hi e hl
    obtain ⟨w, hw⟩ := hp q hq
    rw [hs] at hw
    exact ⟨w, (h.derives_iff (new_ne hi e hl h)).mpr hw⟩
  · obtain ⟨w, hw⟩ := hp r hr
    refine ⟨w, h.derives_new (fun a ha => ?_) hw⟩
    simp at ha
    subst ha
    exact hrl

/-- **C82.** With another label as the root, the grammar is still one that the library accepts as input. -/
theorem label_builds (hi : IndexedGrammar.build g = .ok ig) (e : g.productions = root :: rest)
    (hl : Reachable g.productions root.symbol l) (h : RootedAt ρ s l g.productions g'.productions) :
    ∃ ig', IndexedGrammar.build g' = .ok ig' := by
  have hsl := new_ne hi e hl h
  obtain ⟨rest', e'⟩ := cons h
  have hg' : g' = C10.gr ⟨s, [.production l]⟩ rest' := by cases g'; cases e'; rfl
  rw [hg']
  refine (C10.build_succeeds_iff _ _).mpr ⟨?_, ?_, ?_⟩
  · intro r hr
    obtain ⟨i, hi⟩ := List.mem_iff_getElem?.mp hr
    exact h.fresh (i + 1) r (by simp) (by rw [e']; simpa using hi)
  · rw [← hg']
    have def_of : ∀ a, Reachable g.productions l a → ∃ q ∈ g'.productions, q.symbol = a := by
      intro a ha
      obtain ⟨q, hq, hs⟩ := has_rule hi e (reachable_trans hl ha)
      exact ⟨q, h.mem hq (by rw [hs]; exact ha), hs⟩
    intro r hr a ha
    rcases old_or_new h hr with rfl | ⟨hr, hrl⟩
    · simp at ha
      subst ha
      exact def_of _ .root
    · exact def_of a (.step hrl hr ha)
  · intro r hr
    rw [← e'] at hr ⊢
    rcases old_or_new h hr with rfl | ⟨hr, hrl⟩
    · exact .root
    · exact reachable_new h hrl

/-- **C82, partial.** If a grammar gets a table, then so does the grammar with another of its labels as the root.
(Missing: grammars with missing actions, for which this is false.) -/
theorem label_accepted_partial {t : LRTable} {n : Nat} (hg : WellFormed g) (hp : Productive g.productions)
    (hc : C07.ActionsComplete g) (hi : IndexedGrammar.build g = .ok ig) (ht : LRTable.build n ig = .ok t)
    (e : g.productions = root :: rest) (hl : Reachable g.productions root.symbol l)
    (h : RootedAt ρ s l g.productions g'.productions) :
    ∃ N, ∀ fuel ≥ N, ∃ p', SimParser.new fuel g' = .ok p' := by
  obtain ⟨ig', hi'⟩ := label_builds hi e hl h
  have hlr := C81.table_is_lr1_partial hg hp hi hc ht
  obtain ⟨is, δ, z, hform⟩ := reachable_form (C81.nodesProductive hi hg.noEndMarker hp) hl
  obtain ⟨N, hN⟩ := C81.lr1_gets_table (wellFormed hg h) (productive hi hp e hl h) hi' fun hn =>
    hlr (h.notLR1 (new_ne hi e hl h) (C81.rootUnused hi hp) (by rw [e]; rfl) hform hn)
  refine ⟨N, fun fuel hf => ?_⟩
  obtain ⟨t', ht'⟩ := hN fuel hf
  exact ⟨⟨ig', t'⟩, by simp [SimParser.new, hi', ht']⟩

/-- **C82.** The parser for a label accepts only what the label derives. -/
theorem label_sound {p' : SimParser T L} {n' m : Nat} (hg : WellFormed g) (hi : IndexedGrammar.build g = .ok ig)
    (e : g.productions = root :: rest) (hl : Reachable g.productions root.symbol l)
    (h : RootedAt ρ s l g.productions g'.productions) (hp' : SimParser.new n' g' = .ok p') (w : List T)
    (ha : (p'.parseStream m w : Outcome (LRTableError T L) _) = .ok true) : Derives g.productions [.production l] w := by
  obtain ⟨root', rest', e', hd⟩ := C01.accepts_only_sentences g' p' n' m w (wellFormed hg h) hp' ha
  obtain ⟨rest'', e''⟩ := cons h
  rw [e''] at e'
  cases e'
  exact (h.derives_iff (new_ne hi e hl h)).mp hd

/-- **C82, partial.** The parser for a label decides what the label derives. (Missing: grammars with missing actions.) -/
theorem label_decides_partial {p' : SimParser T L} {n' : Nat} (hg : WellFormed g) (hi : IndexedGrammar.build g = .ok ig)
    (e : g.productions = root :: rest) (hl : Reachable g.productions root.symbol l)
    (h : RootedAt ρ s l g.productions g'.productions) (hc' : C07.ActionsComplete g') (hp' : SimParser.new n' g' = .ok p')
    (w : List T) : ∃ b N, (b = true ↔ Derives g.productions [.production l] w) ∧
      ∀ fuel ≥ N, (p'.parseStream fuel w : Outcome (LRTableError T L) _) = .ok b := by
  obtain ⟨b, N, h1, h2⟩ := C44.trailing_epsilon_partial g' p' n' w (wellFormed hg h) hc' hp'
  refine ⟨b, N, h1.trans ?_, h2⟩
  rw [← h.derives_iff (new_ne hi e hl h)]
  obtain ⟨rest', e'⟩ := cons h
  constructor
  · rintro ⟨root', rest'', e'', hd⟩
    rw [e'] at e''
    cases e''
    exact hd
  · exact fun hd => ⟨_, _, e', hd⟩

end

section
variable {P V E F' σ : Type} [DecidableEq P] {lex : Lexer} {o : HashOrder} {gi gi' : GrammarInfo} {prog' : Program}
  {ρ : Nat → Nat} {s l : String} {sem sem' : Sem P V E σ}

/-- A tree of the label is worth the same in both grammars. -/
theorem value_label (h : RootedFile ρ s l gi gi') (hs : KeptBelow ρ sem sem') {m : Token P → Sym → Prop}
    {f : Forest (Token P)} {α : List (Node Sym String)} {W : List (Token P)} (hα : .production s ∉ α)
    (hp : ParsesM gi'.grammar.productions m f α W) (w : σ) : value gi' sem' f w = value gi sem (f.mapRules ρ) w := by
  unfold value
  induction hp generalizing w with
  | nil => rfl
  | tok _ _ ih => simp only [Forest.mapRules, eval, ih (by simp at hα; exact hα)]
  | eps _ ih => exact ih (by simp at hα; exact hα) w
  | @prod i r c f α u v hr _ _ ih1 ih2 =>
    simp only [List.mem_cons, Node.production.injEq, not_or] at hα
    have h0 : i ≠ 0 := by
      rintro rfl
      rw [h.grammar.root] at hr
      cases hr
      exact hα.1 rfl
    have hfresh := (h.grammar.fresh i r h0 hr).2
    have hr' : (gi'.productionRules.map ARule.toLr)[i]? = some r := hr
    rw [List.getElem?_map, Option.map_eq_some_iff] at hr'
    obtain ⟨ar, har, -⟩ := hr'
    simp only [Forest.mapRules, eval, ih1 hfresh, ih2 hα.2,
      C72.construct_congr (h.rules i ar h0 har) har (hs.body i h0) (hs.conv i h0)]

/-- What the new root makes of the value of the label. -/
theorem value_root (gi' : GrammarInfo) (sem' : Sem P V E σ) (c : Forest (Token P)) (w : σ) :
    value gi' sem' (.node 0 c .nil) w = andThen (value gi' sem' c w) fun us w =>
      andThen (construct gi' sem' 0 us w) fun v w => (.ok [v], w) := rfl

theorem tree_label (h : RootedFile ρ s l gi gi') (hsl : s ≠ l) (hs : KeptBelow ρ sem sem') {f : Forest (Token P)}
    {W : List (Token P)} (hf : ParseTreeM gi'.grammar (Matches sem' gi'.terminalType) f W) :
    ∃ c, f = .node 0 c .nil ∧ ParsesM gi'.grammar.productions (Matches sem' gi'.terminalType) c [.production l] W ∧
      ParsesM gi.grammar.productions (Matches sem gi.terminalType) (c.mapRules ρ) [.production l] W := by
  obtain ⟨root, rest, e, hd⟩ := hf
  obtain ⟨rest', e'⟩ := cons h.grammar
  rw [e'] at e
  cases e
  generalize hα : [Node.production s] = α at hd
  cases hd with
  | nil => cases hα
  | tok => cases hα
  | eps => cases hα
  | @prod i r c f α u w hr h1 h2 =>
    simp only [List.cons.injEq, Node.production.injEq] at hα
    obtain ⟨e, rfl⟩ := hα
    cases h2
    cases h.grammar.rootOnce i _ r h.grammar.root hr e.symm
    rw [h.grammar.root] at hr
    cases hr
    refine ⟨c, rfl, by simpa using h1, ?_⟩
    have := h.grammar.parses_old (by simpa using hsl) h1
    rw [h.terminals, ← C72.matches_congr hs.litVal hs.pat] at this
    simpa using this

/-- **C82.** A value that the generated parser for a label returns is what the new root makes of the value of a tree of
the label, as it is in the old grammar. -/
theorem label_value (h : RootedFile ρ s l gi gi') (hsl : s ≠ l) (hs : KeptBelow ρ sem sem')
    (hG' : Generated o lex gi' prog') (debug : Bool) (into : F' → E) (items : Nat → Option (Item P F')) (fuel : Nat)
    (w0 : σ) (run : Run P V E σ) (v : Val P V) (hrun : prog'.parseFallible debug sem' into items fuel w0 = .ok run)
    (hv : run.result = .ok v) :
    ∃ W f u w1, (∀ i a, W[i]? = some a → items i = some (.ok a)) ∧ items W.length = none ∧
      ParsesM gi.grammar.productions (Matches sem gi.terminalType) f [.production l] W ∧
      value gi sem f w0 = (.ok u, w1) ∧ construct gi' sem' 0 u w1 = (.ok v, run.world) := by
  obtain ⟨W, f, h1, h2, h3, h4⟩ := C18.ok_is_value_of_tree hG' debug sem' into items fuel w0 run v hrun hv
  obtain ⟨c, rfl, k1, k2⟩ := tree_label h hsl hs h3
  rw [value_root, value_label h hs (by simpa using hsl) k1] at h4
  rcases hx : value gi sem (c.mapRules ρ) w0 with ⟨e | u, w1⟩
  · rw [hx] at h4
    simp [andThen] at h4
  · rw [hx] at h4
    simp only [andThen] at h4
    refine ⟨W, _, u, w1, h1, h2, k2, hx, ?_⟩
    rcases hy : construct gi' sem' 0 u w1 with ⟨e | v', w2⟩
    · rw [hy] at h4
      simp at h4
    · rw [hy] at h4
      simp at h4
      rw [h4.1, h4.2]

/-- **C82, partial.** On what the label derives, the generated parser for the label evaluates the tree of the label as in
the old grammar and runs the constructor of the new root. (Missing: grammars with missing actions; overlapping
patterns.) -/
theorem label_evaluated_partial (h : RootedFile ρ s l gi gi') (hsl : s ≠ l) (hs : KeptBelow ρ sem sem')
    (hG' : Generated o lex gi' prog') (hD : gi'.Disjoint sem') (hc : C07.ActionsComplete gi'.grammar) (debug : Bool)
    (into : F' → E) (items : Nat → Option (Item P F')) (W : List (Token P)) (f : Forest (Token P)) (w0 : σ)
    (hW : ∀ i a, W[i]? = some a → items i = some (.ok a)) (hend : items W.length = none)
    (hf : ParsesM gi.grammar.productions (Matches sem gi.terminalType) f [.production l] W) :
    ∃ N run, (∀ fuel ≥ N, prog'.parseFallible debug sem' into items fuel w0 = .ok run) ∧
      ((∃ v, andThen (value gi sem f w0) (construct gi' sem' 0) = (.ok v, run.world) ∧ run.result = .ok v) ∨
        ∃ e, andThen (value gi sem f w0) (construct gi' sem' 0) = (.error e, run.world) ∧
          run.result = .error (.user e)) := by
  obtain ⟨c, k1, rfl⟩ := h.grammar.parses_new (fun a ha => by simp at ha; subst ha; exact .root) hf
  rw [C72.matches_congr hs.litVal hs.pat, ← h.terminals] at k1
  obtain ⟨rest', e'⟩ := cons h.grammar
  have ht : ParseTreeM gi'.grammar (Matches sem' gi'.terminalType) (.node 0 c .nil) W := by
    refine ⟨_, _, e', ?_⟩
    have := ParsesM.prod h.grammar.root k1 .nil
    simpa using this
  obtain ⟨N, run, hN, hres⟩ := C19.sentences_are_evaluated_partial hG' debug sem' into items W _ w0 hD hc hW hend ht
  refine ⟨N, run, hN, ?_⟩
  rw [value_root, value_label h hs (by simpa using hsl) k1] at hres
  rcases hx : value gi sem (c.mapRules ρ) w0 with ⟨e | u, w1⟩
  · rw [hx] at hres
    simpa [andThen] using hres
  · rw [hx] at hres
    simp only [andThen] at hres ⊢
    rcases hy : construct gi' sem' 0 u w1 with ⟨e | v', w2⟩
    · rw [hy] at hres
      simpa using hres
    · rw [hy] at hres
      simpa using hres

end

/-- `S -> A; A -> a A | !`. -/
def sampleA : Grammar Nat Nat :=
  ⟨[⟨0, [.production 1]⟩, ⟨1, [.terminal (.token 7), .production 1]⟩, ⟨1, [.terminal .epsilon]⟩]⟩

theorem reach_A {a : Nat} (h : Reachable sampleLR.productions 1 a) : a = 1 := by
  induction h with
  | root => rfl
  | @step r a _ hr ha ih =>
    simp only [sampleLR, List.mem_cons, List.not_mem_nil, or_false] at hr
    rcases hr with rfl | rfl | rfl | rfl <;> simp_all

theorem sampleA_rooted : RootedAt id 0 1 sampleLR.productions sampleA.productions where
  root := rfl
  fresh i r hi hr := by
    match i, hi with
    | 1, _ => cases hr; decide
    | 2, _ => cases hr; decide
  get i r hi hr := by
    match i, hi with
    | 1, _ => cases hr; rfl
    | 2, _ => cases hr; rfl
  inj i j _ _ e := e
  reach i r hi hr := by
    match i, hi with
    | 1, _ => cases hr; exact .root
    | 2, _ => cases hr; exact .root
  all j r hr hl := by
    have := reach_A hl
    match j with
    | 0 => cases hr; cases this
    | 1 => exact ⟨1, by simp, rfl, hr⟩
    | 2 => exact ⟨2, by simp, rfl, hr⟩
    | 3 => cases hr; cases this

/-- The hypotheses are met by `S -> A B; A -> a A | !; B -> c b` and `S -> A; A -> a A | !`. -/
example : ∃ N, ∀ fuel ≥ N, ∃ p', SimParser.new fuel sampleA = .ok p' := by
  obtain ⟨ig, t, h1, h2⟩ := C81.sampleLR_table
  exact label_accepted_partial sampleLR_wellFormed C81.sampleLR_productive sampleLR_complete.actions h1 h2 rfl
    (.step (r := ⟨0, [.production 1, .production 2]⟩) .root (by decide) (by simp)) sampleA_rooted

/-- Its parser accepts `a a` and rejects `c b`. -/
example : (do
    let p ← SimParser.new 20 sampleA
    let a ← p.parseStream 30 [7, 7]
    let b ← p.parseStream 30 [9, 8]
    pure (a, b)) = Outcome.ok (true, false) := by decide +kernel

/-- `S => Minus L` in place of `S => L`. -/
def minusRules : List ARule :=
  ⟨"S", some (.ident "T" .nil), [.symbol ⟨"Minus", .none⟩, .production "L"], some (.brace, Sample.hash "L")⟩ ::
    Sample.rules.drop 1

theorem reach_rules {a : String} (h : Reachable (minusRules.map ARule.toLr) "L" a) : a = "L" := by
  induction h with
  | root => rfl
  | @step r a _ hr ha ih =>
    have : ∀ r ∈ minusRules.map ARule.toLr, ∀ n ∈ r.rule, n = .production "L" ∨ ∀ l, n ≠ .production l := by
      intro r hr n hn
      simp only [minusRules, Sample.rules, List.drop_succ_cons, List.drop_zero, List.map_cons, List.map_nil,
        List.mem_cons, List.not_mem_nil, or_false] at hr
      rcases hr with rfl | rfl | rfl | rfl <;> simp [ARule.toLr, ANode.toLrNode] at hn <;> simp [hn]
      rcases hn with rfl | rfl <;> simp
      rcases hn with rfl | rfl <;> simp
    rcases this r hr _ ha with h | h
    · simpa using h
    · exact absurd rfl (h a)

theorem minus_rooted {gi gi' : GrammarInfo} (h : gi.productionRules = minusRules) (h' : gi'.productionRules = Sample.rules)
    (ht : gi'.terminalType = gi.terminalType) : RootedFile id "S" "L" gi gi' where
  terminals := ht
  rules i r hi hr := by
    obtain ⟨i, rfl⟩ : ∃ k, i = k + 1 := ⟨i - 1, by omega⟩
    rw [h'] at hr
    rw [h]
    exact hr
  grammar := by
    have e : gi.grammar.productions = minusRules.map ARule.toLr := by simp [GrammarInfo.grammar, h]
    have e' : gi'.grammar.productions = Sample.rules.map ARule.toLr := by simp [GrammarInfo.grammar, h']
    rw [e, e']
    have step : ∀ i r, i ≠ 0 → (Sample.rules.map ARule.toLr)[i]? = some r → i < 4 ∧ r.symbol = "L" ∧ .production "S" ∉ r.rule := by
      intro i r hi hr
      match i, hi with
      | 1, _ => cases hr; exact ⟨by simp, rfl, by decide⟩
      | 2, _ => cases hr; exact ⟨by simp, rfl, by decide⟩
      | 3, _ => cases hr; exact ⟨by simp, rfl, by decide⟩
    refine ⟨rfl, ?_, ?_, fun i j _ _ e => e, ?_, ?_⟩
    · intro i r hi hr
      obtain ⟨-, h2, h3⟩ := step i r hi hr
      exact ⟨by rw [h2]; decide, h3⟩
    · intro i r hi hr
      obtain ⟨i, rfl⟩ : ∃ k, i = k + 1 := ⟨i - 1, by omega⟩
      exact hr
    · intro i r hi hr
      rw [(step i r hi hr).2.1]
      exact .root
    · intro j r hr hl
      cases j with
      | zero =>
        cases hr
        have := reach_rules hl
        simp [ARule.toLr] at this
      | succ j => exact ⟨j + 1, by simp, rfl, hr⟩

/-- The hypotheses are met by `S => Minus L` and `S => L` with the same rules for `L`; the parser for `L` gives a value for
`Plus Num(5)`. -/
example : ∃ (gi gi' : GrammarInfo) (prog' : Program), Generated .id Sample.lexer gi' prog' ∧ RootedFile id "S" "L" gi gi' ∧
    KeptBelow id C72.telling C72.telling ∧ gi'.Disjoint C72.telling ∧ C07.ActionsComplete gi'.grammar ∧
    ∃ run, prog'.parseFallible true C72.telling id (Sample.stream [.unit "Plus", .data "Num" 5] none) 50 0 = .ok run ∧
      run.result = .ok (.user 0) := by
  obtain ⟨gi, -, -, -, h1, h2, -, -⟩ := Sample.runs_ok (o := .id) (rules := minusRules)
    (labels := ["S", "L"]) (sem := C72.telling) (ts := [.unit "Plus"])
    (r := .error (.parseError (some (.unit "Plus")))) (r' := .error (.parseError (some (.unit "Plus"))))
    (by unfold EpsilonLast; decide) (by decide +kernel)
  obtain ⟨gi', prog', h', -, h1', h2', hr', -⟩ := Sample.runs_ok (o := .id) (rules := Sample.rules)
    (labels := ["S", "L"]) (sem := C72.telling) (ts := [.unit "Plus", .data "Num" 5]) (r := .ok (.user 0))
    (r' := .ok (.user 0)) (by unfold EpsilonLast; decide) (by decide +kernel)
  have : Matches C72.telling gi'.terminalType = Matches Sample.sem gi'.terminalType :=
    C72.matches_congr (sem := C72.telling) (sem' := Sample.sem) rfl rfl
  exact ⟨gi, gi', prog', h', minus_rooted h1 h1' (h2'.trans h2.symm), ⟨rfl, rfl, fun _ _ => rfl, fun _ _ => rfl⟩,
    by unfold GrammarInfo.Disjoint; rw [this]; exact Sample.disjoint h1' h2', (Sample.firstComplete h1').actions, hr'⟩

/-- `S -> y L; L -> x B C c; B -> b; B -> Q; Q -> b; C -> D; D -> E; E -> !`. -/
def hidden : Grammar Nat Nat :=
  ⟨⟨9, [.terminal (.token 4), .production 0]⟩ :: C13.missed.productions⟩

/-- `S -> L` and the same rules for `L` and the labels below it. -/
def shown : Grammar Nat Nat := ⟨⟨9, [.production 0]⟩ :: C13.missed.productions⟩

theorem reach_L {a : Nat} (h : Reachable hidden.productions 0 a) : a ≠ 9 := by
  cases h with
  | root => decide
  | step _ hr ha =>
    rintro rfl
    have : ∀ r ∈ hidden.productions, Node.production 9 ∉ r.rule := by decide
    exact this _ hr ha

theorem below {r : Rule Nat Nat} (hr : r ∈ C13.missed.productions) : Reachable hidden.productions 0 r.symbol := by
  have h0 : Reachable hidden.productions 0 0 := .root
  have hB : Reachable hidden.productions 0 1 := .step
    (r := ⟨0, [.terminal (.token 1), .production 1, .production 2, .terminal (.token 3)]⟩) h0 (by decide) (by simp)
  have hC : Reachable hidden.productions 0 2 := .step
    (r := ⟨0, [.terminal (.token 1), .production 1, .production 2, .terminal (.token 3)]⟩) h0 (by decide) (by simp)
  have hQ : Reachable hidden.productions 0 3 := .step (r := ⟨1, [.production 3]⟩) hB (by decide) (by simp)
  have hD : Reachable hidden.productions 0 4 := .step (r := ⟨2, [.production 4]⟩) hC (by decide) (by simp)
  have hE : Reachable hidden.productions 0 5 := .step (r := ⟨4, [.production 5]⟩) hD (by decide) (by simp)
  simp only [C13.missed, List.mem_cons, List.not_mem_nil, or_false] at hr
  rcases hr with rfl | rfl | rfl | rfl | rfl | rfl | rfl
  exacts [h0, hB, hB, hQ, hC, hD, hE]

theorem shown_rooted : RootedAt id 9 0 hidden.productions shown.productions where
  root := rfl
  fresh i r hi hr := by
    obtain ⟨i, rfl⟩ : ∃ k, i = k + 1 := ⟨i - 1, by omega⟩
    have hr : r ∈ C13.missed.productions := List.mem_of_getElem? (by simpa [shown] using hr)
    have : ∀ r ∈ C13.missed.productions, r.symbol ≠ 9 ∧ Node.production 9 ∉ r.rule := by decide
    exact this r hr
  get i r hi hr := by
    obtain ⟨i, rfl⟩ : ∃ k, i = k + 1 := ⟨i - 1, by omega⟩
    simpa [shown, hidden] using hr
  inj i j _ _ e := e
  reach i r hi hr := by
    obtain ⟨i, rfl⟩ : ∃ k, i = k + 1 := ⟨i - 1, by omega⟩
    exact below (List.mem_of_getElem? (by simpa [shown] using hr))
  all j r hr hl := by
    cases j with
    | zero => cases hr; exact absurd rfl (reach_L hl)
    | succ j => exact ⟨j + 1, by simp, rfl, by simpa [shown, hidden] using hr⟩

theorem hidden_productive : Productive hidden.productions := by
  have mono : ∀ {α : List (Node Nat Nat)} {w : List Nat}, Derives C13.missed.productions α w →
      Derives hidden.productions α w := by
    intro α w h
    induction h with
    | nil => exact .nil
    | tok _ ih => exact .tok ih
    | eps _ ih => exact .eps ih
    | prod hr _ _ ih1 ih2 => exact .prod (List.mem_cons_of_mem _ hr) ih1 ih2
  intro r hr
  rcases List.mem_cons.mp hr with rfl | hr
  · obtain ⟨w, hw⟩ := C81.missed_productive _ (List.mem_cons_self (l := C13.missed.productions.tail))
    exact ⟨_, .prod (r := ⟨9, [.terminal (.token 4), .production 0]⟩) (w := []) (by simp [hidden]) (.tok (mono hw)) .nil⟩
  · obtain ⟨w, hw⟩ := C81.missed_productive r hr
    exact ⟨w, mono hw⟩

/-- **C82 is false in general.** The grammar `hidden` gets a table, but with `S -> L` in place of `S -> y L` a conflict
is reported, between rules of `B` and `Q`. -/
theorem label_accepted_refuted : WellFormed hidden ∧ Productive hidden.productions ∧
    (∃ ig t, IndexedGrammar.build hidden = .ok ig ∧ LRTable.build 30 ig = .ok t) ∧
    Reachable hidden.productions 9 0 ∧ RootedAt id 9 0 hidden.productions shown.productions ∧
    ∃ ig' e, IndexedGrammar.build shown = .ok ig' ∧ LRTable.build 30 ig' = .err e := by
  refine ⟨⟨?_, ?_⟩, hidden_productive, ?_,
    .step (r := ⟨9, [.terminal (.token 4), .production 0]⟩) .root (by simp [hidden]) (by simp), shown_rooted, ?_⟩
  · unfold Spec.EpsilonLast; decide
  · unfold Spec.NoEndMarker; decide
  · have h : (do let ig ← IndexedGrammar.build hidden; let _ ← LRTable.build 30 ig; pure ()) =
        (Outcome.ok () : Outcome (LRTableError Nat Nat) _) := by decide +kernel
    rw [Outcome.bind_eq_ok] at h
    obtain ⟨ig, h1, h⟩ := h
    rw [Outcome.bind_eq_ok] at h
    obtain ⟨t, h2, -⟩ := h
    exact ⟨ig, t, h1, h2⟩
  · obtain ⟨ig', hi⟩ : ∃ ig', IndexedGrammar.build shown = .ok ig' := ⟨_, rfl⟩
    have h : (do let ig ← IndexedGrammar.build shown; let _ ← LRTable.build 30 ig; pure ()) =
        (Outcome.err (.reduceConflict 4 2 (.token 3)) : Outcome (LRTableError Nat Nat) _) := by decide +kernel
    rw [hi, Outcome.ok_bind, Outcome.bind_eq_err] at h
    rcases h with h | ⟨a, -, h⟩
    · exact ⟨ig', _, hi, h⟩
    · cases h

end C82
end Verif
