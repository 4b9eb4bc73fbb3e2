import Verif.Spec.Results
import Verif.Proof.Rename
import Verif.Proof.GenFinish
import Verif.Proof.Order

/-!
# The parser of the user's grammar
-/

set_option linter.unusedSectionVars false
set_option autoImplicit false

namespace Verif
open Spec IndexedGrammar.Encodes

/-! ### The result is unique -/

section
variable {T L A V E σ : Type} {P : List (Rule T L)} {first : List (Node T L) → AugTok T → Prop} {m : A → T → Prop}
  {tok : A → V} {apply : Nat → List V → σ → Except E V × σ} {w0 : σ} {W : List A}

/-- What happens in the last configuration. -/
inductive LastStep (P : List (Rule T L)) (first : List (Node T L) → AugTok T → Prop) (m : A → T → Prop) (tok : A → V)
    (apply : Nat → List V → σ → Except E V × σ) (w0 : σ) (c : Config T L A) : End A V E → σ → Prop
  | accept {vs : List V} {w w' : σ} {v : V} : eval tok apply (Forest.ofTrees c.trees) w0 = (.ok vs, w) →
      Accepting P first m c → apply 0 vs w = (.ok v, w') → LastStep P first m tok apply w0 c (.value v) w'
  | acceptFail {vs : List V} {w w' : σ} {e : E} : eval tok apply (Forest.ofTrees c.trees) w0 = (.ok vs, w) →
      Accepting P first m c → apply 0 vs w = (.error e, w') → LastStep P first m tok apply w0 c (.failed e) w'
  | reduceFail {c' : Config T L A} {i : Nat} {vs : List V} {w w' : σ} {e : E} :
      eval tok apply (Forest.ofTrees c.trees) w0 = (.ok vs, w) → Step P first m c c' (some i) →
      eval tok apply (Forest.ofTrees c'.trees) w0 = (.error e, w') → LastStep P first m tok apply w0 c (.failed e) w'
  | stuck {vs : List V} {w : σ} : eval tok apply (Forest.ofTrees c.trees) w0 = (.ok vs, w) → Stuck P first m c →
      LastStep P first m tok apply w0 c (.unexpected c.input.head?) w

theorem ends_iff {r : End A V E} {w : σ} {z : List A} : Ends P first m tok apply w0 W r w z ↔
    ∃ c tr, Steps P first m (.start W) c tr ∧ LastStep P first m tok apply w0 c r w ∧ z = c.input := by
  constructor
  · rintro (⟨h1, h2, h3, h4⟩ | ⟨h1, h2, h3, h4⟩ | ⟨h1, h2, h3, h4⟩ | ⟨h1, h2, h3⟩)
    · exact ⟨_, _, h1, .accept h2 h3 h4, rfl⟩
    · exact ⟨_, _, h1, .acceptFail h2 h3 h4, rfl⟩
    · exact ⟨_, _, h1, .reduceFail h2 h3 h4, rfl⟩
    · exact ⟨_, _, h1, .stuck h2 h3, rfl⟩
  · rintro ⟨c, tr, h1, h2, rfl⟩
    cases h2 with
    | accept h2 h3 h4 => exact .accept h1 h2 h3 h4
    | acceptFail h2 h3 h4 => exact .acceptFail h1 h2 h3 h4
    | reduceFail h2 h3 h4 => exact .reduceFail h1 h2 h3 h4
    | stuck h2 h3 => exact .stuck h1 h2 h3

theorem LastStep.ok {c : Config T L A} {r : End A V E} {w : σ} (h : LastStep P first m tok apply w0 c r w) :
    ∃ vs w1, eval tok apply (Forest.ofTrees c.trees) w0 = (.ok vs, w1) := by
  cases h with
  | accept h => exact ⟨_, _, h⟩
  | acceptFail h => exact ⟨_, _, h⟩
  | reduceFail h => exact ⟨_, _, h⟩
  | stuck h => exact ⟨_, _, h⟩

/-- From the last configuration the parser does not get anywhere. -/
theorem LastStep.last (hn : NoConflict P first) (hm : Unique m) {c c' : Config T L A} {tr : List Nat} {r : End A V E}
    {w : σ} (h : LastStep P first m tok apply w0 c r w) (hs : Steps P first m c c' tr)
    (hok : ∃ vs w1, eval tok apply (Forest.ofTrees c'.trees) w0 = (.ok vs, w1)) : c = c' := by
  cases h with
  | accept _ h => exact (hs.final_eq hn hm (.inl h)).1
  | acceptFail _ h => exact (hs.final_eq hn hm (.inl h)).1
  | stuck _ h => exact (hs.final_eq hn hm (.inr h)).1
  | reduceFail _ h1 h2 =>
    cases hs with
    | refl => rfl
    | step h3 h4 =>
      obtain ⟨rfl, -⟩ := h1.det hn hm h3
      obtain ⟨vs, w1, h5⟩ := hok
      rw [h4.eval_error h2] at h5
      cases h5

theorem LastStep.det (hn : NoConflict P first) (hm : Unique m) {c : Config T L A} {r r' : End A V E} {w w' : σ}
    (h : LastStep P first m tok apply w0 c r w) (h' : LastStep P first m tok apply w0 c r' w') : r = r' ∧ w = w' := by
  have hex : Accepting P first m c → ¬ Stuck P first m c := fun h1 h2 => stuck_iff.mp h2 _ (accepting_iff.mp h1)
  cases h with
  | accept h1 h2 h3 =>
    cases h' with
    | accept g1 g2 g3 => rw [h1] at g1; cases g1; rw [h3] at g3; cases g3; exact ⟨rfl, rfl⟩
    | acceptFail g1 g2 g3 => rw [h1] at g1; cases g1; rw [h3] at g3; cases g3
    | reduceFail _ g2 => exact absurd h2 (g2.not_accepting hn hm)
    | stuck _ g2 => exact absurd g2 (hex h2)
  | acceptFail h1 h2 h3 =>
    cases h' with
    | accept g1 g2 g3 => rw [h1] at g1; cases g1; rw [h3] at g3; cases g3
    | acceptFail g1 g2 g3 => rw [h1] at g1; cases g1; rw [h3] at g3; cases g3; exact ⟨rfl, rfl⟩
    | reduceFail _ g2 => exact absurd h2 (g2.not_accepting hn hm)
    | stuck _ g2 => exact absurd g2 (hex h2)
  | reduceFail h1 h2 h3 =>
    cases h' with
    | accept _ g2 => exact absurd g2 (h2.not_accepting hn hm)
    | acceptFail _ g2 => exact absurd g2 (h2.not_accepting hn hm)
    | reduceFail g1 g2 g3 =>
      obtain ⟨rfl, -⟩ := h2.det hn hm g2
      rw [h3] at g3
      cases g3
      exact ⟨rfl, rfl⟩
    | stuck _ g2 => exact absurd g2 h2.not_stuck
  | stuck h1 h2 =>
    cases h' with
    | accept _ g2 => exact absurd h2 (hex g2)
    | acceptFail _ g2 => exact absurd h2 (hex g2)
    | reduceFail _ g2 => exact absurd h2 g2.not_stuck
    | stuck g1 g2 => rw [h1] at g1; cases g1; exact ⟨rfl, rfl⟩

/-- Without conflicts and with disjoint terminals, there is one result. -/
theorem Spec.Ends.unique (hn : NoConflict P first) (hm : Unique m) {r r' : End A V E} {w w' : σ} {z z' : List A}
    (h : Ends P first m tok apply w0 W r w z) (h' : Ends P first m tok apply w0 W r' w' z') :
    r = r' ∧ w = w' ∧ z = z' := by
  obtain ⟨c, tr, h1, h2, rfl⟩ := ends_iff.mp h
  obtain ⟨c', tr', h1', h2', rfl⟩ := ends_iff.mp h'
  have : c = c' := by
    rcases h1.linear hn hm h1' with ⟨tr2, h3, -⟩ | ⟨tr2, h3, -⟩
    · exact h2.last hn hm h3 h2'.ok
    · exact (h2'.last hn hm h3 h2.ok).symm
  subst this
  obtain ⟨rfl, rfl⟩ := h2.det hn hm h2'
  exact ⟨rfl, rfl, rfl⟩

theorem Spec.Ends.rest {r : End A V E} {w : σ} {z : List A} (h : Ends P first m tok apply w0 W r w z) :
    ∃ u, W = u ++ z := by
  obtain ⟨c, tr, h1, -, rfl⟩ := ends_iff.mp h
  exact h1.suffix

theorem Spec.Step.not_nil {c c' : Config T L A} (h : Step P first m c c' none) : c.input ≠ [] := by
  cases h with | shift => simp

theorem shifted_last (hn : NoConflict P first) (hm : Unique m) {c c' d d' : Config T L A} {tr : List Nat}
    (h1 : Step P first m c c' none) (h2 : c'.input = []) (h3 : Step P first m d d' none)
    (h : Steps P first m c d tr) : c' = d' := by
  cases h with
  | refl => exact (h1.det hn hm h3).1
  | step h4 h5 =>
    obtain ⟨rfl, -⟩ := h1.det hn hm h4
    obtain ⟨p, hp⟩ := h5.suffix
    rw [h2] at hp
    exact absurd (List.append_eq_nil_iff.mp hp.symm).2 h3.not_nil

/-- Without conflicts and with disjoint terminals, there is one result on an input that breaks off. -/
theorem Spec.BreaksOff.unique (hn : NoConflict P first) (hm : Unique m) {e : E} {r r' : End A V E} {w w' : σ}
    {z z' : List A} (h : BreaksOff P first m tok apply w0 W e r w z) (h' : BreaksOff P first m tok apply w0 W e r' w' z') :
    r = r' ∧ w = w' ∧ z = z' := by
  have hbn : ∀ {r : End A V E} {w : σ} {a : A} {z : List A}, Ends P first m tok apply w0 W r w (a :: z) → W ≠ [] := by
    intro r w a z h1 h2
    obtain ⟨u, hu⟩ := h1.rest
    simp [h2] at hu
  have hns : ∀ {c c' : Config T L A} {tr : List Nat}, Steps P first m (.start W) c tr → Step P first m c c' none →
      W ≠ [] := by
    intro c c' tr h1 h2 h3
    obtain ⟨u, hu⟩ := h1.suffix
    rw [show (Config.start W : Config T L A).input = W from rfl, h3] at hu
    exact h2.not_nil (List.append_eq_nil_iff.mp hu.symm).2
  have hbs : ∀ {r : End A V E} {w w2 : σ} {a : A} {z : List A} {c c' : Config T L A} {tr : List Nat} {vs : List V},
      Ends P first m tok apply w0 W r w (a :: z) → Steps P first m (.start W) c tr → Step P first m c c' none →
      c'.input = [] → eval tok apply (Forest.ofTrees c'.trees) w0 = (.ok vs, w2) → False := by
    intro r w w2 a z c c' tr vs h1 h2 h3 h4 h5
    obtain ⟨d, tr1, k1, k2, k3⟩ := ends_iff.mp h1
    rcases k1.linear hn hm (h2.snoc h3) with ⟨tr2, k4, -⟩ | ⟨tr2, k4, -⟩
    · cases k2.last hn hm k4 ⟨_, _, h5⟩
      rw [h4] at k3; cases k3
    · obtain ⟨u, hu⟩ := k4.suffix
      rw [h4, ← k3] at hu
      simp at hu
  cases h with
  | before h1 =>
    cases h' with
    | before g1 => exact h1.unique hn hm g1
    | nothing g1 => exact absurd g1 (hbn h1)
    | shifted g1 g2 g3 g4 => exact (hbs h1 g1 g2 g3 g4).elim
  | nothing h1 =>
    cases h' with
    | before g1 => exact absurd h1 (hbn g1)
    | nothing => exact ⟨rfl, rfl, rfl⟩
    | shifted g1 g2 => exact absurd h1 (hns g1 g2)
  | @shifted c c' tr vs w h1 h2 h3 h4 =>
    cases h' with
    | before g1 => exact (hbs g1 h1 h2 h3 h4).elim
    | nothing g1 => exact absurd g1 (hns h1 h2)
    | @shifted d d' tr' vs' w' g1 g2 g3 g4 =>
      have : c' = d' := by
        rcases h1.linear hn hm g1 with ⟨tr2, h5, -⟩ | ⟨tr2, h5, -⟩
        · exact shifted_last hn hm h2 h3 g2 h5
        · exact (shifted_last hn hm g2 g3 h2 h5).symm
      rw [this] at h4
      rw [h4] at g4
      cases g4
      exact ⟨rfl, rfl, rfl⟩

end

/-! ### Indexed and user's grammar -/

section
variable {T L A V E σ : Type} [DecidableEq T] [DecidableEq L] {g : Grammar T L} {ig : IndexedGrammar T L}
  {first : List (Node T L) → AugTok T → Prop} {first' : List INode → AugTokId → Prop} {M : A → T → Prop}

/-- A configuration of the parser of the user's grammar and one of the parser of the indexed grammar. -/
structure SameConfig (ig : IndexedGrammar T L) (d : Config T L A) (c : Config Nat Nat A) : Prop where
  stack : EncNodes ig d.stack c.stack
  trees : d.trees = c.trees.map (Tree.mapRules ig.orig)
  input : d.input = c.input

theorem SameConfig.start (W : List A) : SameConfig ig (.start W) (.start W) := ⟨.nil, rfl, rfl⟩

theorem reduceTrees_map (ρ : Nat → Nat) (i k : Nat) (ts : List (Tree A)) :
    (reduceTrees i k ts).map (Tree.mapRules ρ) = reduceTrees (ρ i) k (ts.map (Tree.mapRules ρ)) := by
  simp only [reduceTrees, List.map_append, List.map_take, List.map_cons, List.map_nil, List.length_map, Tree.mapRules,
    ofTrees_mapRules, List.map_drop]

theorem look_dec {z : List A} {x : AugTokId} (h : Look (idMatch ig M) z x) :
    ∃ t, EncTok ig.vocab.idMap t x ∧ Look M z t := by
  cases h with
  | eos => exact ⟨.eos, trivial, .eos⟩
  | tok h =>
    obtain ⟨t, h1, h2⟩ := h
    exact ⟨.token t, h1, .tok h2⟩

theorem look_enc {z : List A} {t : AugTok T} {x : AugTokId} (h : Look M z t) (he : EncTok ig.vocab.idMap t x) :
    Look (idMatch ig M) z x := by
  cases h with
  | eos => cases x <;> first | exact .eos | exact he.elim
  | tok h =>
    cases x with
    | token k => exact .tok ⟨_, he, h⟩
    | epsilon => exact he.elim
    | eos => exact he.elim

theorem demands_dec' (he : ig.Encodes g) (hf : SameFirst ig first first') {γ : List (Node T L)} {γ' : List INode}
    {t : AugTok T} {t' : AugTokId} {a' : Act} (hγ : EncNodes ig γ γ') (ht : EncTok ig.vocab.idMap t t')
    (hd : Demands ig.cfg first' γ' t' a') : Demands g.productions first γ t (origAct ig a') := by
  obtain ⟨γ1, t1, h1, h2, h3⟩ := demands_dec he hf hd
  cases encNodes_inj h1 hγ
  cases EncTok.inj' h2 ht
  exact h3

theorem encNodes_split {α : List (Node T L)} {β β' : List INode} (h : EncNodes ig α (β ++ β')) :
    ∃ α1 α2, α = α1 ++ α2 ∧ EncNodes ig α1 β ∧ EncNodes ig α2 β' := by
  induction β generalizing α with
  | nil => exact ⟨[], α, rfl, .nil, h⟩
  | cons n β ih =>
    cases h with
    | cons h1 h2 =>
      obtain ⟨α1, α2, rfl, h3, h4⟩ := ih h2
      exact ⟨_ :: α1, α2, rfl, .cons h1 h3, h4⟩

theorem step_dec (he : ig.Encodes g) (hf : SameFirst ig first first') {c c' : Config Nat Nat A} {o : Option Nat}
    (hs : Step ig.cfg first' (idMatch ig M) c c' o) {d : Config T L A} (hd : SameConfig ig d c) :
    ∃ d', Step g.productions first M d d' (o.map ig.orig) ∧ SameConfig ig d' c' := by
  obtain ⟨γ, ts, z⟩ := d
  obtain ⟨h1, h2, h3⟩ := hd
  dsimp only at h1 h2 h3
  cases hs with
  | @shift γ' ts' a z' k hm hdem =>
    obtain ⟨t, ht, hM⟩ := hm
    subst h2 h3
    refine ⟨_, .shift hM (demands_dec' (a' := .shift) (t := .token t) (t' := .token k) he hf h1 ht hdem), ?_, ?_, rfl⟩
    · exact List.rel_append h1 (.cons ht .nil)
    · simp [Tree.mapRules]
  | @reduce γ' ts' z' x i r hr hl hdem =>
    obtain ⟨t, ht, hl'⟩ := look_dec hl
    obtain ⟨p, hp⟩ := sameRule_of_indexed he hr
    subst h2 h3
    have hdem' := demands_dec' he hf h1 ht hdem
    obtain ⟨γ1, γ2, rfl, h4, h5⟩ := encNodes_split h1
    cases encNodes_inj h5 hp.nodes
    refine ⟨_, .reduce hp.user hl' hdem', ?_, ?_, rfl⟩
    · exact List.rel_append h4 (.cons hp.symbol .nil)
    · dsimp only
      rw [reduceTrees_map, rhs_length hp]

theorem steps_dec (he : ig.Encodes g) (hf : SameFirst ig first first') {c c' : Config Nat Nat A} {tr : List Nat}
    (hs : Steps ig.cfg first' (idMatch ig M) c c' tr) {d : Config T L A} (hd : SameConfig ig d c) :
    ∃ d', Steps g.productions first M d d' (tr.map ig.orig) ∧ SameConfig ig d' c' := by
  induction hs generalizing d with
  | refl => exact ⟨d, .refl _, hd⟩
  | @step c c1 c' o tr h1 _ ih =>
    obtain ⟨d1, h3, h4⟩ := step_dec he hf h1 hd
    obtain ⟨d', h5, h6⟩ := ih h4
    refine ⟨d', ?_, h6⟩
    have := Steps.step h3 h5
    cases o <;> simpa using this

theorem accepting_dec (he : ig.Encodes g) (hf : SameFirst ig first first') {c : Config Nat Nat A}
    (ha : Accepting ig.cfg first' (idMatch ig M) c) {d : Config T L A} (hd : SameConfig ig d c) :
    Accepting g.productions first M d := by
  obtain ⟨x, h1, h2⟩ := ha
  obtain ⟨t, ht, hl⟩ := look_dec h1
  exact ⟨t, hd.input ▸ hl, demands_dec' (a' := .accept) he hf hd.stack ht h2⟩

theorem stuck_dec (he : ig.Encodes g) (hf : SameFirst ig first first') {c : Config Nat Nat A}
    (hs : Stuck ig.cfg first' (idMatch ig M) c) {d : Config T L A} (hd : SameConfig ig d c) :
    Stuck g.productions first M d := by
  intro t a hl hdem
  obtain ⟨γ', t', a', h1, h2, rfl, h3⟩ := demands_enc he hf hdem
  cases encNodes_inj' he h1 hd.stack
  refine hs t' a' ?_ h3
  rw [← hd.input]
  exact look_enc hl h2

variable {tok : A → V} {apply : Nat → List V → σ → Except E V × σ} {w0 : σ} {W : List A}

theorem ends_dec (he : ig.Encodes g) (hf : SameFirst ig first first') {r : End A V E} {w : σ} {z : List A}
    (h : Ends ig.cfg first' (idMatch ig M) tok (fun i => apply (ig.orig i)) w0 W r w z) :
    Ends g.productions first M tok apply w0 W r w z := by
  have hev : ∀ {c : Config Nat Nat A} {d : Config T L A}, SameConfig ig d c → ∀ {x},
      eval tok (fun i => apply (ig.orig i)) (Forest.ofTrees c.trees) w0 = x →
      eval tok apply (Forest.ofTrees d.trees) w0 = x := by
    intro c d hd x hx
    rw [hd.trees, ← ofTrees_mapRules, eval_mapRules]
    exact hx
  have hz := orig_zero he
  cases h with
  | accept h1 h2 h3 h4 =>
    obtain ⟨d, h5, h6⟩ := steps_dec he hf h1 (.start W)
    rw [← h6.input]
    exact .accept h5 (hev h6 h2) (accepting_dec he hf h3 h6) (hz ▸ h4)
  | acceptFail h1 h2 h3 h4 =>
    obtain ⟨d, h5, h6⟩ := steps_dec he hf h1 (.start W)
    rw [← h6.input]
    exact .acceptFail h5 (hev h6 h2) (accepting_dec he hf h3 h6) (hz ▸ h4)
  | reduceFail h1 h2 h3 h4 =>
    obtain ⟨d, h5, h6⟩ := steps_dec he hf h1 (.start W)
    obtain ⟨d', h7, h8⟩ := step_dec he hf h3 h6
    rw [← h6.input]
    exact .reduceFail h5 (hev h6 h2) h7 (hev h8 h4)
  | stuck h1 h2 h3 =>
    obtain ⟨d, h5, h6⟩ := steps_dec he hf h1 (.start W)
    rw [← h6.input]
    exact .stuck h5 (hev h6 h2) (stuck_dec he hf h3 h6)

theorem breaksOff_dec (he : ig.Encodes g) (hf : SameFirst ig first first') {e : E} {r : End A V E} {w : σ} {z : List A}
    (h : BreaksOff ig.cfg first' (idMatch ig M) tok (fun i => apply (ig.orig i)) w0 W e r w z) :
    BreaksOff g.productions first M tok apply w0 W e r w z := by
  cases h with
  | before h => exact .before (ends_dec he hf h)
  | nothing h => exact .nothing h
  | shifted h1 h2 h3 h4 =>
    obtain ⟨d, h5, h6⟩ := steps_dec he hf h1 (.start W)
    obtain ⟨d', h7, h8⟩ := step_dec he hf h2 h6
    refine .shifted h5 h7 (h8.input.trans h3) (.trans ?_ h4)
    rw [h8.trees, ← ofTrees_mapRules, eval_mapRules]

end

/-! ### Rules in another order -/

namespace Moved
section
variable {T L A V E σ : Type} {π : Equiv.Perm Nat} {P P' : List (Rule T L)} (h : Moved π P P')
  {first first' : List (Node T L) → AugTok T → Prop} 
  (hd : ∀ γ t a, Demands P first γ t a ↔ Demands P' first' γ t (a.map π)) {M : A → T → Prop}
include h hd

/-- The same configuration with the new numbers of rules. -/
def config (π : Nat → Nat) (c : Config T L A) : Config T L A := ⟨c.stack, c.trees.map (Tree.mapRules π), c.input⟩

theorem step {c c' : Config T L A} {o : Option Nat} (hs : Step P first M c c' o) :
    Step P' first' M (config π c) (config π c') (o.map π) := by
  cases hs with
  | shift hm hx =>
    simp only [config, List.map_append, List.map_cons, List.map_nil, Tree.mapRules]
    exact .shift hm ((hd _ _ _).mp hx)
  | reduce hr hl hx =>
    simp only [config, reduceTrees_map]
    exact .reduce (h.at' hr) hl ((hd _ _ _).mp hx)

theorem steps {c c' : Config T L A} {tr : List Nat} (hs : Steps P first M c c' tr) :
    Steps P' first' M (config π c) (config π c') (tr.map π) := by
  induction hs with
  | refl => exact .refl _
  | @step c c1 c' o tr h1 _ ih =>
    have := Steps.step (h.step hd h1) ih
    cases o <;> simpa using this

theorem accepting {c : Config T L A} (ha : Accepting P first M c) : Accepting P' first' M (config π c) := by
  obtain ⟨x, h1, h2⟩ := ha
  exact ⟨x, h1, (hd _ _ _).mp h2⟩

theorem stuck {c : Config T L A} (hs : Stuck P first M c) : Stuck P' first' M (config π c) := by
  intro x a h1 h2
  refine hs x (a.map π.symm) h1 ((hd _ _ _).mpr ?_)
  rwa [act_map_symm]

variable {tok : A → V} {apply apply' : Nat → List V → σ → Except E V × σ} (ha : ∀ i, apply' (π i) = apply i)
  {w0 : σ} {W : List A}
include ha

theorem ends {r : End A V E} {w : σ} {z : List A} (he : Ends P first M tok apply w0 W r w z) :
    Ends P' first' M tok apply' w0 W r w z := by
  have hev : ∀ {c : Config T L A} {x}, eval tok apply (Forest.ofTrees c.trees) w0 = x →
      eval tok apply' (Forest.ofTrees (config π c).trees) w0 = x := by
    intro c x hx
    simp only [config]
    rw [← ofTrees_mapRules, eval_mapRules]
    simp only [ha]
    exact hx
  have h0 : apply' 0 = apply 0 := by
    have := ha 0
    rwa [h.root] at this
  cases he with
  | accept h1 h2 h3 h4 => exact .accept (c := config π _) (h.steps hd h1) (hev h2) (h.accepting hd h3) (h0 ▸ h4)
  | acceptFail h1 h2 h3 h4 => exact .acceptFail (c := config π _) (h.steps hd h1) (hev h2) (h.accepting hd h3) (h0 ▸ h4)
  | reduceFail h1 h2 h3 h4 => exact .reduceFail (c := config π _) (h.steps hd h1) (hev h2) (h.step hd h3) (hev h4)
  | stuck h1 h2 h3 => exact .stuck (c := config π _) (h.steps hd h1) (hev h2) (h.stuck hd h3)

end
end Moved
end Verif
