import Verif.Proof.Prefix

/-!
# Every action of the canonical LR(1) parser is needed for some sentence

All facts here are about the specification (no model function occurs).
-/

set_option linter.unusedSectionVars false
set_option autoImplicit false

namespace Verif.Spec

variable {T L A : Type} {P : List (Rule T L)} {first : List (Node T L) → AugTok T → Prop} {m : A → T → Prop}

/-! ### What a parser does for a tree -/

/-- A token is shifted, or a rule is reduced. -/
inductive Ev (A : Type) where
  | tok (a : A)
  | red (i : Nat)

/-- What a bottom-up parser does for the trees of a forest, in order. -/
def Forest.evs : Forest A → List (Ev A)
  | .nil => []
  | .tok a f => .tok a :: f.evs
  | .node i c f => c.evs ++ .red i :: f.evs

theorem evs_append (ts ts' : List (Tree A)) :
    (Forest.ofTrees (ts ++ ts')).evs = (Forest.ofTrees ts).evs ++ (Forest.ofTrees ts').evs := by
  induction ts with
  | nil => rfl
  | cons t ts ih => cases t <;> simp [Forest.ofTrees, Forest.evs, ih]

/-- What a step does. -/
theorem Step.evs {c c' : Config T L A} {o : Option Nat} (h : Step P first m c c' o) :
    ∃ e, (Forest.ofTrees c'.trees).evs = (Forest.ofTrees c.trees).evs ++ [e] ∧ ∀ i, e = .red i → o = some i := by
  cases h with
  | @shift _ _ a => exact ⟨.tok a, by simp [evs_append, Forest.ofTrees, Forest.evs], fun i h => by cases h⟩
  | @reduce γ ts z x i r _ _ _ =>
    refine ⟨.red i, ?_, fun j h => by cases h; rfl⟩
    simp only [reduceTrees, evs_append, Forest.ofTrees, Forest.evs]
    rw [← List.append_assoc, ← evs_append, List.take_append_drop]

theorem Steps.evs {c c' : Config T L A} {tr : List Nat} (h : Steps P first m c c' tr) :
    ∃ E, (Forest.ofTrees c'.trees).evs = (Forest.ofTrees c.trees).evs ++ E := by
  induction h with
  | refl => exact ⟨[], by simp⟩
  | step h1 _ ih =>
    obtain ⟨E, h2⟩ := ih
    obtain ⟨e, h3, -⟩ := h1.evs
    exact ⟨e :: E, by rw [h2, h3]; simp⟩

/-- The step that does a certain thing. -/
theorem Steps.at {c c' : Config T L A} {tr : List Nat} (h : Steps P first m c c' tr) :
    ∀ {E1 E2 : List (Ev A)} {i : Nat},
      (Forest.ofTrees c'.trees).evs = (Forest.ofTrees c.trees).evs ++ (E1 ++ .red i :: E2) →
      ∃ c1 c2 tr1, Steps P first m c c1 tr1 ∧
        (Forest.ofTrees c1.trees).evs = (Forest.ofTrees c.trees).evs ++ E1 ∧ Step P first m c1 c2 (some i) := by
  induction h with
  | refl c =>
    intro E1 E2 i h
    have := congrArg List.length h
    simp at this
  | @step c c1 c2 o tr h1 h2 ih =>
    intro E1 E2 i h
    obtain ⟨e, h3, h4⟩ := h1.evs
    obtain ⟨E, h5⟩ := h2.evs
    rw [h5, h3, List.append_assoc] at h
    have h := List.append_cancel_left h
    cases E1 with
    | nil =>
      obtain ⟨rfl, rfl⟩ := (List.cons.injEq ..).mp h
      cases h4 i rfl
      exact ⟨c, c1, [], .refl _, by simp, h1⟩
    | cons e' E1 =>
      obtain ⟨rfl, h9⟩ := (List.cons.injEq ..).mp h
      obtain ⟨k1, k2, tr1, h6, h7, h8⟩ := ih (E1 := E1) (E2 := E2) (i := i) (by rw [h5]; exact congrArg _ h9)
      exact ⟨k1, k2, _, .step h1 h6, by rw [h7, h3]; simp, h8⟩

/-- Number of trees that a rule takes. -/
def arity (P : List (Rule T L)) (i : Nat) : Nat :=
  match P[i]? with
  | some r => (rhs r).length
  | none => 0

/-- The trees that result from what a parser does. -/
def play (P : List (Rule T L)) : List (Ev A) → List (Tree A) → List (Tree A)
  | [], ts => ts
  | .tok a :: E, ts => play P E (ts ++ [.leaf a])
  | .red i :: E, ts => play P E (reduceTrees i (arity P i) ts)

theorem ParsesM.play {f : Forest A} {α : List (Node T L)} {w : List A} (h : ParsesM P m f α w) :
    ∀ (E : List (Ev A)) (ts : List (Tree A)), play P (f.evs ++ E) ts = play P E (ts ++ f.trees) := by
  induction h with
  | nil => intro E ts; simp [Forest.evs, Forest.trees]
  | tok _ _ ih =>
    intro E ts
    simp only [Forest.evs, List.cons_append, Spec.play, ih, Forest.trees, List.append_assoc, List.nil_append]
  | eps _ ih => exact ih
  | @prod i r c f α u w h1 h2 _ ih1 ih2 =>
    intro E ts
    have ha : c.trees.length = arity P i := by
      rw [h2.length, arity, h1]
      rfl
    simp only [Forest.evs, List.append_assoc, List.cons_append, ih1, Spec.play, reduceTrees_append ha, ih2, Forest.trees,
      Forest.ofTrees_trees, List.nil_append]

/-- A forest is determined by what a parser does for it. -/
theorem ParsesM.evs_inj {f f' : Forest A} {α α' : List (Node T L)} {w w' : List A} (h : ParsesM P m f α w)
    (h' : ParsesM P m f' α' w') (he : f.evs = f'.evs) : f = f' := by
  have h1 := h.play [] []
  have h2 := h'.play [] []
  rw [he, h2] at h1
  simp only [Spec.play, List.nil_append] at h1
  rw [← Forest.ofTrees_trees f, ← Forest.ofTrees_trees f', h1]

/-- A forest determines what it derives, and from what. -/
theorem ParsesM.det (hm : Unique m) {f : Forest A} {α α' : List (Node T L)} {w w' : List A} (h : ParsesM P m f α w)
    (h' : ParsesM P m f α' w') : strip α = strip α' ∧ w = w' := by
  rw [← ParsesM.strip_iff] at h'
  have hs : strip (strip α') = strip α' := by simp [strip]
  generalize strip α' = β at h' hs
  rw [← hs]
  clear hs
  induction h generalizing β w' with
  | nil =>
    generalize hf : (Forest.nil : Forest A) = f at h'
    induction h' with
    | nil => exact ⟨rfl, rfl⟩
    | eps _ ih => exact ih hf
    | tok => cases hf
    | prod => cases hf
  | @tok t a f α w h1 _ ih =>
    generalize hf : Forest.tok a f = f' at h'
    induction h' with
    | nil => cases hf
    | eps _ ih' => exact ih' hf
    | tok k1 k2 =>
      cases hf
      obtain ⟨e1, e2⟩ := ih _ k2
      simp only [strip_tok, e1, e2, hm _ _ _ h1 k1, and_self]
    | prod => cases hf
  | eps _ ih => exact ih _ h'
  | @prod i r c f α u w h1 h2 h3 ih1 ih2 =>
    generalize hf : Forest.node i c f = f' at h'
    induction h' with
    | nil => cases hf
    | eps _ ih' => exact ih' hf
    | tok => cases hf
    | prod k1 k2 k3 =>
      cases hf
      rw [h1] at k1
      cases k1
      obtain ⟨e1, e2⟩ := ih2 _ k3
      simp only [strip_prod, e1, e2, (ih1 _ k2).2, and_self]

/-! ### Sentences -/

theorem all_parses {α : List (Node T L)} (hα : ∀ n ∈ strip α, ∃ f w, ParsesM P m f [n] w) :
    ∃ f w, ParsesM P m f α w := by
  have key : ∀ α : List (Node T L), (∀ n ∈ α, ∃ f w, ParsesM P m f [n] w) → ∃ f w, ParsesM P m f α w := by
    intro α hα
    induction α with
    | nil => exact ⟨_, _, .nil⟩
    | cons n α ih =>
      obtain ⟨f, w, h⟩ := hα n List.mem_cons_self
      obtain ⟨f', w', h'⟩ := ih fun k hk => hα k (List.mem_cons_of_mem _ hk)
      obtain ⟨f'', h''⟩ := h.cons_append h'
      exact ⟨f'', _, h''⟩
  obtain ⟨f, w, h⟩ := key _ hα
  exact ⟨f, w, ParsesM.strip_iff.mp h⟩

/-- What a sequence may begin with begins something that it derives. -/
theorem First.parses (hp : ProductiveM P m) {α : List (Node T L)} {x : AugTok T} (h : First P α x) :
    (∀ n ∈ strip α, ∃ f w, ParsesM P m f [n] w) →
    (x = .epsilon ∧ ∃ f, ParsesM P m f α []) ∨ ∃ t a w f, x = .token t ∧ m a t ∧ ParsesM P m f α (a :: w) := by
  induction h with
  | nil => exact fun _ => .inl ⟨rfl, _, .nil⟩
  | eps _ ih =>
    intro hα
    rcases ih hα with ⟨h1, f, h2⟩ | ⟨t, a, w, f, h1, h2, h3⟩
    · exact .inl ⟨h1, f, .eps h2⟩
    · exact .inr ⟨t, a, w, f, h1, h2, .eps h3⟩
  | @term x α hx =>
    intro hα
    cases x with
    | epsilon => exact absurd rfl hx
    | eos =>
      obtain ⟨f, w, h⟩ := hα (.terminal .eos) (by simp)
      cases h
    | token t =>
      obtain ⟨f, w, h⟩ := hα (.terminal (.token t)) (by simp)
      obtain ⟨f', w', h'⟩ := all_parses (P := P) (m := m) (α := α) fun n hn => hα n (by simp [hn])
      cases h with
      | tok h1 _ => exact .inr ⟨t, _, _, _, rfl, h1, .tok h1 h'⟩
  | @skip r α x hr _ _ ih1 ih2 =>
    intro hα
    obtain ⟨i, hi⟩ := List.mem_iff_getElem?.mp hr
    obtain ⟨c, hc⟩ : ∃ f, ParsesM P m f r.rule [] := by
      rcases ih1 (fun n hn => hp r hr n hn) with ⟨-, h⟩ | ⟨t, a, w, f, h1, -⟩
      · exact h
      · cases h1
    rcases ih2 (fun n hn => hα n (by simp [hn])) with ⟨h1, f, h2⟩ | ⟨t, a, w, f, h1, h2, h3⟩
    · exact .inl ⟨h1, _, .prod hi hc h2⟩
    · exact .inr ⟨t, a, w, _, h1, h2, .prod hi hc h3⟩
  | @take r α x hr _ hx ih =>
    intro hα
    obtain ⟨i, hi⟩ := List.mem_iff_getElem?.mp hr
    rcases ih (fun n hn => hp r hr n hn) with ⟨h1, -⟩ | ⟨t, a, w, c, h1, h2, h3⟩
    · exact absurd h1 hx
    · obtain ⟨f', w', h'⟩ := all_parses (P := P) (m := m) (α := α) fun n hn => hα n (by simp [hn])
      exact .inr ⟨t, a, w ++ w', _, h1, h2, .prod hi h3 h'⟩

theorem node_of {i : Nat} {r : Rule T L} {f f' : Forest A} {β : List (Node T L)} {v w : List A} (hi : P[i]? = some r)
    (h : ParsesM P m f (rhs r) v) (h' : ParsesM P m f' β w) :
    ParsesM P m (.node i f f') (.production r.symbol :: β) (v ++ w) :=
  .prod hi (ParsesM.strip_iff.mp (by simpa [rhs_def] using h)) h'

/-- A valid item is part of a sentence. -/
theorem Valid.context (hp : ProductiveM P m) {γ : List (Node T L)} {i d : Nat} (h : Valid P γ i d) :
    ∀ {r root : Rule T L} {ts : List (Tree A)} {f : Forest A} {u v : List A}, P[i]? = some r → P[0]? = some root →
      ParsesM P m (Forest.ofTrees ts) γ u → ParsesM P m f ((rhs r).drop d) v →
      ∃ f' z E, ParsesM P m f' [.production root.symbol] (u ++ v ++ z) ∧
        f'.evs = (Forest.ofTrees ts).evs ++ f.evs ++ .red i :: E := by
  induction h with
  | root =>
    intro r root ts f u v hr hroot h1 h2
    rw [hr] at hroot
    cases hroot
    cases ts with
    | cons t ts => cases t <;> cases h1
    | nil =>
      cases h1
      refine ⟨.node 0 f .nil, [], [], ?_, by simp [Forest.evs, Forest.ofTrees]⟩
      simpa using node_of hr (by simpa using h2) .nil
  | @close γ i d j q r' β h1 h2 h3 h4 ih =>
    intro r root ts f u v hr hroot h5 h6
    rw [h4] at hr
    cases hr
    obtain ⟨f1, w, h7⟩ := hp.all (List.mem_of_getElem? h2) β fun n hn =>
      List.mem_of_mem_drop (l := rhs q) (i := d) (by rw [h3]; exact List.mem_cons_of_mem _ hn)
    have h8 : ParsesM P m (.node j f f1) ((rhs q).drop d) (v ++ w) := by
      rw [h3]
      exact node_of h4 (by simpa using h6) h7
    obtain ⟨f2, z, E, h9, h10⟩ := ih h2 hroot h5 h8
    exact ⟨f2, w ++ z, f1.evs ++ .red i :: E, by simpa using h9, by rw [h10]; simp [Forest.evs]⟩
  | @move γ i d q X β h1 h2 h3 ih =>
    intro r root ts f u v hr hroot h5 h6
    rw [h2] at hr
    cases hr
    obtain ⟨ts1, ts2, u1, u2, e, rfl, -, h7, h8⟩ := h5.append_inv
    have e := congrArg Forest.trees e
    simp only [Forest.trees_ofTrees] at e
    subst e
    rw [drop_succ_of_drop h3] at h6
    rw [← Forest.ofTrees_trees f] at h6
    have h9 := h8.append h6
    rw [List.singleton_append, ← h3] at h9
    obtain ⟨f3, z, E, h10, h11⟩ := ih h2 hroot h7 h9
    refine ⟨f3, z, E, by simpa using h10, ?_⟩
    rw [h11, evs_append, evs_append, Forest.ofTrees_trees]
    simp

/-- A valid item is part of a sentence in which it is followed by a lookahead of it. -/
theorem ValidLook.context (hp : ProductiveM P m) {γ : List (Node T L)} {i d : Nat} {x : AugTok T}
    (h : ValidLook P (InFirst P) γ i d x) :
    ∀ {r root : Rule T L} {ts : List (Tree A)} {f : Forest A} {u v : List A}, P[i]? = some r → P[0]? = some root →
      ParsesM P m (Forest.ofTrees ts) γ u → ParsesM P m f ((rhs r).drop d) v →
      ∃ f' z E, ParsesM P m f' [.production root.symbol] (u ++ v ++ z) ∧ Look m z x ∧
        f'.evs = (Forest.ofTrees ts).evs ++ f.evs ++ .red i :: E := by
  induction h with
  | root =>
    intro r root ts f u v hr hroot h1 h2
    rw [hr] at hroot
    cases hroot
    cases ts with
    | cons t ts => cases t <;> cases h1
    | nil =>
      cases h1
      refine ⟨.node 0 f .nil, [], [], ?_, .eos, by simp [Forest.evs, Forest.ofTrees]⟩
      simpa using node_of hr (by simpa using h2) .nil
  | @closeFirst γ i d j q r' β x h1 h2 h3 h4 hx hfst =>
    intro r root ts f u v hr hroot h5 h6
    rw [h4] at hr
    cases hr
    have hβ : ∀ n ∈ β, n ∈ rhs q := fun n hn =>
      List.mem_of_mem_drop (l := rhs q) (i := d) (by rw [h3]; exact List.mem_cons_of_mem _ hn)
    rcases First.parses hp (first_iff.mpr hfst) (fun n hn =>
      hp q (List.mem_of_getElem? h2) n (hβ n (List.mem_of_mem_filter hn))) with ⟨h7, -⟩ | ⟨t, a, w, f1, rfl, h7, h8⟩
    · exact absurd h7 hx
    · have h9 : ParsesM P m (.node j f f1) ((rhs q).drop d) (v ++ a :: w) := by
        rw [h3]
        exact node_of h4 (by simpa using h6) h8
      obtain ⟨f2, z, E, h10, h11⟩ := h1.context hp h2 hroot h5 h9
      exact ⟨f2, a :: w ++ z, f1.evs ++ .red i :: E, by simpa using h10, .tok h7, by rw [h11]; simp [Forest.evs]⟩
  | @closePass γ i d j q r' β x h1 h2 h3 h4 hfst ih =>
    intro r root ts f u v hr hroot h5 h6
    rw [h4] at hr
    cases hr
    have hβ : ∀ n ∈ β, n ∈ rhs q := fun n hn =>
      List.mem_of_mem_drop (l := rhs q) (i := d) (by rw [h3]; exact List.mem_cons_of_mem _ hn)
    rcases First.parses hp (first_iff.mpr hfst) (fun n hn =>
      hp q (List.mem_of_getElem? h2) n (hβ n (List.mem_of_mem_filter hn))) with ⟨-, f1, h7⟩ | ⟨t, a, w, f1, h7, -⟩
    · have h8 : ParsesM P m (.node j f f1) ((rhs q).drop d) (v ++ []) := by
        rw [h3]
        exact node_of h4 (by simpa using h6) h7
      obtain ⟨f2, z, E, h9, h10, h11⟩ := ih h2 hroot h5 h8
      exact ⟨f2, z, f1.evs ++ .red i :: E, by simpa using h9, h10, by rw [h11]; simp [Forest.evs]⟩
    · cases h7
  | @move γ i d q X β x h1 h2 h3 ih =>
    intro r root ts f u v hr hroot h5 h6
    rw [h2] at hr
    cases hr
    obtain ⟨ts1, ts2, u1, u2, e, rfl, -, h7, h8⟩ := h5.append_inv
    have e := congrArg Forest.trees e
    simp only [Forest.trees_ofTrees] at e
    subst e
    rw [drop_succ_of_drop h3] at h6
    rw [← Forest.ofTrees_trees f] at h6
    have h9 := h8.append h6
    rw [List.singleton_append, ← h3] at h9
    obtain ⟨f3, z, E, h10, h11, h12⟩ := ih h2 hroot h7 h9
    refine ⟨f3, z, E, by simpa using h10, h11, ?_⟩
    rw [h12, evs_append, evs_append, Forest.ofTrees_trees]
    simp

/-- The symbols of a viable prefix all derive something. -/
theorem Valid.prefix_parses (hp : ProductiveM P m) {γ : List (Node T L)} {i d : Nat} (h : Valid P γ i d) :
    ∃ (ts : List (Tree A)) (u : List A), ParsesM P m (Forest.ofTrees ts) γ u := by
  induction h with
  | root => exact ⟨[], [], .nil⟩
  | close _ _ _ _ ih => exact ih
  | @move γ i d r X β h1 h2 h3 ih =>
    obtain ⟨ts, u, h4⟩ := ih
    obtain ⟨f, w, h5⟩ := hp r (List.mem_of_getElem? h2) X
      (List.mem_of_mem_drop (l := rhs r) (i := d) (by rw [h3]; exact List.mem_cons_self))
    rw [← Forest.ofTrees_trees f] at h5
    exact ⟨_, _, h4.append h5⟩

theorem Valid.clean {γ : List (Node T L)} {i d : Nat} (h : Valid P γ i d) : strip γ = γ := by
  induction h with
  | root => rfl
  | close _ _ _ _ ih => exact ih
  | @move γ i d r X β h1 h2 h3 ih =>
    rw [strip_append, ih, strip_eq_self (α := [X])]
    intro hX
    rw [List.mem_singleton] at hX
    subst hX
    exact not_eps_of_mem_strip (α := r.rule) (List.mem_of_mem_drop (l := rhs r) (i := d) (by rw [h3]; simp))

/-- **Every action is needed.** If the parser builds every parse tree, then it has every action that it has with the true
FIRST sets. -/
theorem covers_of_trees (hp : ProductiveM P m) (hm : Unique m) {root : Rule T L} (hroot : P[0]? = some root)
    (h : ∀ f w, ParsesM P m f [.production root.symbol] w →
      ∃ c tr, Steps P first m (.start w) c tr ∧ f = .node 0 (Forest.ofTrees c.trees) .nil) : Covers P first := by
  intro γ x a hd
  cases hd with
  | shift h1 h2 h3 => exact .shift h1 h2 h3
  | accept h1 h2 h3 => exact .accept h1 h2 h3
  | @reduce i r hr h0 hv =>
    obtain ⟨ts, u, hu⟩ := hv.valid.prefix_parses hp
    obtain ⟨f, z, E, h1, h2, h3⟩ := hv.context hp hr hroot hu (f := .nil) (v := []) (by simpa using ParsesM.nil)
    obtain ⟨c, tr, h4, rfl⟩ := h _ _ h1
    simp only [Forest.evs, List.append_nil] at h3
    -- the last thing is the reduction by the root rule
    obtain ⟨E', rfl⟩ : ∃ E', E = E' ++ [.red 0] := by
      rcases List.eq_nil_or_concat E with rfl | ⟨E', e, rfl⟩
      · have := List.append_inj_right' h3 rfl
        simp only [List.cons.injEq, Ev.red.injEq, and_true] at this
        exact absurd this.symm h0
      · rw [List.concat_eq_append] at h3 ⊢
        have e2 : (Forest.ofTrees c.trees).evs ++ [.red 0] =
            ((Forest.ofTrees ts).evs ++ .red i :: E') ++ [e] := by rw [h3]; simp
        have := List.append_inj_right' e2 rfl
        simp only [List.cons.injEq, and_true] at this
        exact ⟨E', by rw [this]⟩
    have h5 : (Forest.ofTrees c.trees).evs = (Forest.ofTrees ts).evs ++ .red i :: E' := by
      have e2 : (Forest.ofTrees c.trees).evs ++ [.red 0] =
          ((Forest.ofTrees ts).evs ++ .red i :: E') ++ [.red 0] := by rw [h3]; simp
      exact List.append_cancel_right e2
    obtain ⟨c1, c2, tr1, h6, h7, h8⟩ := h4.at (E1 := (Forest.ofTrees ts).evs) (E2 := E') (i := i) (by
      rw [h5]; simp [Config.start, Forest.ofTrees, Forest.evs])
    have hs : Sane P m (u ++ [] ++ z) c1 := Sane.start.steps h6
    obtain ⟨u1, hu1, hw⟩ := hs.parses
    have e := hu1.evs_inj hu (by simpa [Config.start, Forest.ofTrees, Forest.evs] using h7)
    rw [e] at hu1
    obtain ⟨e1, rfl⟩ := hu1.det hm hu
    rw [hs.clean, hv.valid.clean] at e1
    rw [List.append_nil] at hw
    have hz := List.append_cancel_left hw
    have hw := h8.will
    cases hw with
    | mk k1 k2 =>
      rw [← hz] at k1
      rw [e1, k1.det hm h2] at k2
      exact k2

end Verif.Spec
