import Verif.Proof.Machine
import Verif.Spec.Rightmost
import Mathlib.Data.List.Forall2

/-!
# The canonical LR(1) parser: viable prefixes, one token of lookahead, rightmost derivations
-/

set_option linter.unusedSectionVars false
set_option autoImplicit false

namespace Verif.Spec

variable {T L A : Type} {P : List (Rule T L)} {first : List (Node T L) → AugTok T → Prop} {m : A → T → Prop}

/-! ### One token of lookahead -/

theorem Look.head {a : A} {z z' : List A} {x : AugTok T} (h : Look m (a :: z) x) : Look m (a :: z') x := by
  cases h with | tok h => exact .tok h

theorem Steps.suffix {c c' : Config T L A} {tr : List Nat} (h : Steps P first m c c' tr) :
    ∃ p, c.input = p ++ c'.input := by
  induction h with
  | refl c => exact ⟨[], rfl⟩
  | step h1 _ ih =>
    obtain ⟨p, hp⟩ := ih
    cases h1 with
    | @shift γ ts a z t _ _ => exact ⟨a :: p, by simpa using hp⟩
    | reduce => exact ⟨p, hp⟩

/-- A run that has not gone beyond looking at `a` does not depend on what follows. -/
theorem Steps.replay {c c' : Config T L A} {tr : List Nat} (h : Steps P first m c c' tr) :
    ∀ {p : List A} {a : A} {z : List A} (y : List A), c.input = p ++ a :: z → c'.input = a :: z →
      Steps P first m ⟨c.stack, c.trees, p ++ a :: y⟩ ⟨c'.stack, c'.trees, a :: y⟩ tr := by
  induction h with
  | refl c =>
    intro p a z y h1 h2
    rw [h2] at h1
    have : p = [] := by
      have := congrArg List.length h1
      simp at this
      exact this
    subst this
    exact .refl _
  | @step c c1 c' o tr h1 h2 ih =>
    intro p a z y h3 h4
    cases h1 with
    | @shift γ ts b z' t h5 h6 =>
      obtain ⟨q, hq⟩ := h2.suffix
      simp only at h3 hq ih
      cases p with
      | nil =>
        exfalso
        have := congrArg List.length hq
        rw [h4] at this
        have h3' := congrArg List.length h3
        simp at this h3'
        omega
      | cons b' p =>
        cases h3
        exact .step (.shift h5 h6) (ih y rfl h4)
    | @reduce γ ts z' x i r h5 h6 h7 =>
      simp only at h3 ih
      subst h3
      refine .step (.reduce h5 ?_ h7) (ih y rfl h4)
      cases p with
      | nil => exact h6.head
      | cons b p => exact h6.head

/-! ### Consumed input is a prefix of a sentence -/

/-- Every label derives something. -/
def ProductiveM (P : List (Rule T L)) (m : A → T → Prop) : Prop :=
  ∀ r ∈ P, ∀ n ∈ rhs r, ∃ f w, ParsesM P m f [n] w

theorem ParsesM.cons_append {n : Node T L} {α : List (Node T L)} {f f' : Forest A} {u v : List A}
    (h : ParsesM P m f [n] u) (h' : ParsesM P m f' α v) : ∃ f'', ParsesM P m f'' (n :: α) (u ++ v) := by
  rw [← Forest.ofTrees_trees f] at h
  rw [← Forest.ofTrees_trees f'] at h'
  exact ⟨_, h.append h'⟩

theorem ProductiveM.all (hp : ProductiveM P m) {r : Rule T L} (hr : r ∈ P) (α : List (Node T L))
    (hα : ∀ n ∈ α, n ∈ rhs r) : ∃ f w, ParsesM P m f α w := by
  induction α with
  | nil => exact ⟨_, _, .nil⟩
  | cons n α ih =>
    obtain ⟨f, w, h⟩ := hp r hr n (hα n List.mem_cons_self)
    obtain ⟨f', w', h'⟩ := ih fun k hk => hα k (List.mem_cons_of_mem _ hk)
    obtain ⟨f'', h''⟩ := h.cons_append h'
    exact ⟨f'', _, h''⟩

theorem Valid.sentence (hp : ProductiveM P m) {γ : List (Node T L)} {i d : Nat} (h : Valid P γ i d) :
    ∀ {r root : Rule T L} {f f' : Forest A} {u v : List A}, P[i]? = some r → P[0]? = some root →
      ParsesM P m f γ u → ParsesM P m f' ((rhs r).drop d) v →
      ∃ f'' z, ParsesM P m f'' [.production root.symbol] (u ++ v ++ z) := by
  induction h with
  | root =>
    intro r root f f' u v hr hroot h1 h2
    rw [hr] at hroot
    cases hroot
    cases h1
    refine ⟨.node 0 f' .nil, [], ?_⟩
    have h3 : ParsesM P m f' r.rule v := ParsesM.strip_iff.mp (by simpa [rhs_def] using h2)
    simpa using ParsesM.prod hr h3 .nil
  | @close γ i d j q r' β h1 h2 h3 h4 ih =>
    intro r root f f' u v hr hroot h5 h6
    rw [h4] at hr
    cases hr
    obtain ⟨f1, w, h7⟩ := hp.all (List.mem_of_getElem? h2) β fun n hn =>
      List.mem_of_mem_drop (l := rhs q) (i := d) (by rw [h3]; exact List.mem_cons_of_mem _ hn)
    have h8 : ParsesM P m (.node j f' f1) ((rhs q).drop d) (v ++ w) := by
      rw [h3]
      exact .prod h4 (ParsesM.strip_iff.mp (by simpa [rhs_def] using h6)) h7
    obtain ⟨f2, z, h9⟩ := ih h2 hroot h5 h8
    exact ⟨f2, w ++ z, by simpa using h9⟩
  | @move γ i d q X β h1 h2 h3 ih =>
    intro r root f f' u v hr hroot h5 h6
    rw [h2] at hr
    cases hr
    obtain ⟨ts, ts', u1, u2, -, rfl, -, h7, h8⟩ := h5.append_inv
    rw [drop_succ_of_drop h3] at h6
    obtain ⟨f2, h9⟩ := h8.cons_append h6
    rw [← h3] at h9
    obtain ⟨f3, z, h10⟩ := ih h2 hroot h7 h9
    exact ⟨f3, z, by simpa using h10⟩

/-- **Valid prefix property**: what has been read can be continued to a sentence. -/
theorem Sane.prefix (hp : ProductiveM P m) {w : List A} {c : Config T L A} {root : Rule T L}
    (h : Sane P m w c) (hroot : P[0]? = some root) :
    ∃ u f z, w = u ++ c.input ∧ ParsesM P m f [.production root.symbol] (u ++ z) := by
  obtain ⟨i, d, hv⟩ := h.viable
  obtain ⟨u, hu, rfl⟩ := h.parses
  have hr : ∃ r, P[i]? = some r := by
    generalize c.stack = γ at hv
    cases hv with
    | root => exact ⟨_, hroot⟩
    | close _ _ _ h => exact ⟨_, h⟩
    | move _ h _ => exact ⟨_, h⟩
  obtain ⟨r, hr⟩ := hr
  obtain ⟨f', v, h'⟩ := hp.all (List.mem_of_getElem? hr) ((rhs r).drop d) fun n hn => List.mem_of_mem_drop hn
  obtain ⟨f, z, h''⟩ := hv.sentence hp hr hroot hu h'
  exact ⟨u, f, v ++ z, rfl, by simpa using h''⟩

/-- **A rejected token cannot be continued**: if the parser is stuck looking at `a`, no sentence begins with
the consumed input followed by `a`. -/
theorem Stuck.no_sentence (hf : Covers P first) (hu : RootOk P) (ho : RootOnce P)
    (hn : NoConflict P first) (hm : Unique m) {u z : List A} {c : Config T L A} {tr : List Nat}
    {root : Rule T L} (hroot : P[0]? = some root) (hs : Steps P first m (.start (u ++ z)) c tr)
    (hz : c.input = z) (hst : Stuck P first m c) :
    ∀ f y, (z = [] → y = []) → (∀ a z', z = a :: z' → ∃ y', y = a :: y') →
      ¬ ParsesM P m f [.production root.symbol] (u ++ y) := by
  intro f y h1 h2 hp
  obtain ⟨c', tr', h3, -, h5⟩ := hp.accepted hf hu ho hroot
  cases z with
  | nil =>
    rw [h1 rfl] at h3
    have := (h3.unique hn hm (.inl h5) hs (.inr hst)).1
    rw [this, accepting_iff] at h5
    exact stuck_iff.mp hst _ h5
  | cons a z =>
    obtain ⟨y', rfl⟩ := h2 a z rfl
    have h6 := hs.replay y' rfl hz
    have hst' : Stuck P first m ⟨c.stack, c.trees, a :: y'⟩ := by
      intro x b hx hd
      exact hst x b (by rw [hz]; exact hx.head) hd
    have := (h3.unique hn hm (.inl h5) h6 (.inr hst')).1
    rw [this, accepting_iff] at h5
    exact stuck_iff.mp hst' _ h5

/-- The terminals matched by the tokens of a forest. -/
theorem ParsesM.derives {f : Forest A} {α : List (Node T L)} {w : List A} (h : ParsesM P m f α w) :
    ∃ v, List.Forall₂ m w v ∧ Derives P α v := by
  induction h with
  | nil => exact ⟨[], .nil, .nil⟩
  | tok hm _ ih =>
    obtain ⟨v, h1, h2⟩ := ih
    exact ⟨_, .cons hm h1, .tok h2⟩
  | eps _ ih =>
    obtain ⟨v, h1, h2⟩ := ih
    exact ⟨v, h1, .eps h2⟩
  | prod hr _ _ ih1 ih2 =>
    obtain ⟨v1, h1, h2⟩ := ih1
    obtain ⟨v2, h3, h4⟩ := ih2
    exact ⟨v1 ++ v2, List.rel_append h1 h3, .prod (List.mem_of_getElem? hr) h2 h4⟩

/-! ### Order of reductions -/

/-- Rules of a forest, children before their parent, from left to right. -/
def Forest.postorder : Forest A → List Nat
  | .nil => []
  | .tok _ f => f.postorder
  | .node i c f => c.postorder ++ i :: f.postorder

theorem postorder_append (ts ts' : List (Tree A)) :
    (Forest.ofTrees (ts ++ ts')).postorder = (Forest.ofTrees ts).postorder ++ (Forest.ofTrees ts').postorder := by
  induction ts with
  | nil => rfl
  | cons t ts ih => cases t <;> simp [Forest.ofTrees, Forest.postorder, ih]

theorem Step.postorder {c c' : Config T L A} {o : Option Nat}
    (h : Step P first m c c' o) :
    (Forest.ofTrees c'.trees).postorder = (Forest.ofTrees c.trees).postorder ++ o.toList := by
  cases h with
  | shift => simp [postorder_append, Forest.ofTrees, Forest.postorder]
  | @reduce γ ts z x i r _ _ _ =>
    simp only [reduceTrees, postorder_append, Forest.ofTrees, Forest.postorder, Option.toList]
    rw [← List.append_assoc, ← postorder_append, List.take_append_drop]

/-- The reductions of a run are those of the trees built, in postorder. -/
theorem Steps.postorder {c c' : Config T L A} {tr : List Nat} (h : Steps P first m c c' tr) :
    (Forest.ofTrees c'.trees).postorder = (Forest.ofTrees c.trees).postorder ++ tr := by
  induction h with
  | refl => simp
  | step h1 _ ih => rw [ih, h1.postorder, List.append_assoc]

theorem RmSteps.trans {is is' : List Nat} {α β γ : List (Node T L)} (h : RmSteps P is α β)
    (h' : RmSteps P is' β γ) : RmSteps P (is ++ is') α γ := by
  induction h with
  | refl => exact h'
  | step h1 _ ih => exact .step h1 (ih h')

theorem RmSteps.snoc {i : Nat} {is : List Nat} {α β γ : List (Node T L)} (h : RmSteps P is α β)
    (h' : RmStep P i β γ) : RmSteps P (is ++ [i]) α γ := h.trans (.step h' (.refl _))

/-- **Reductions replay a rightmost derivation.** -/
theorem Steps.rightmost (hm : Unique m) {c c' : Config T L A} {tr : List Nat} (h : Steps P first m c c' tr) :
    ∀ {v : List T}, List.Forall₂ m c.input v →
      ∃ v', List.Forall₂ m c'.input v' ∧
        RmSteps P tr.reverse (c'.stack ++ tokNodes v') (c.stack ++ tokNodes v) := by
  induction h with
  | refl c => intro v hv; exact ⟨v, hv, .refl _⟩
  | @step c c1 c' o tr h1 h2 ih =>
    intro v hv
    cases h1 with
    | @shift γ ts a z t h3 h4 =>
      cases hv with
      | @cons _ t' _ v h5 h6 =>
        cases hm _ _ _ h3 h5
        obtain ⟨v', h7, h8⟩ := ih h6
        exact ⟨v', h7, by simpa [tokNodes] using h8⟩
    | @reduce γ ts z x i r h3 h4 h5 =>
      obtain ⟨v', h7, h8⟩ := ih hv
      refine ⟨v', h7, ?_⟩
      simp only [Option.toList, List.cons_append, List.nil_append, List.reverse_cons]
      refine h8.snoc ?_
      simp only [List.append_assoc, List.singleton_append]
      rw [← List.append_assoc]
      exact .mk h3

end Verif.Spec
