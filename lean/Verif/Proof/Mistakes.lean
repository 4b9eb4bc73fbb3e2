import Verif.Proof.Useful
import Verif.Proof.Knuth
import Verif.Proof.Actions
import Verif.Spec.Mistakes

/-!
# The mistakes of Spec/Mistakes make grammars ambiguous
-/

set_option linter.unusedSectionVars false
set_option autoImplicit false

namespace Verif.Mistakes
open Spec

section
variable {T L : Type} [DecidableEq T] [DecidableEq L] {P : List (Rule T L)}

/-- Tokens are the terminals. -/
local notation "Par" => ParsesM (A := T) (T := T) (L := L) P (fun a t => a = t)

/-- Two trees of one label for the same tokens. -/
def Local (P : List (Rule T L)) (l : L) : Prop :=
  ∃ (f f' : Forest T) (w : List T), f ≠ f' ∧ ParsesM P (fun a t => a = t) f [.production l] w ∧
    ParsesM P (fun a t => a = t) f' [.production l] w

theorem ofTrees_inj {A : Type} {ts ts' : List (Tree A)} (h : Forest.ofTrees ts = Forest.ofTrees ts') : ts = ts' := by
  rw [← Forest.trees_ofTrees ts, h, Forest.trees_ofTrees]

theorem local_up {root l : L} (hp : ∀ r ∈ P, ∃ f w, Par f r.rule w) (h : Reachable P root l) : Local P l → Local P root := by
  induction h with
  | root => exact id
  | @step r l _ hr hm ih =>
    rintro ⟨f, f', w, hne, h1, h1'⟩
    obtain ⟨α, β, hab⟩ := List.append_of_mem hm
    obtain ⟨f0, w0, h3⟩ := hp r hr
    rw [hab] at h3
    obtain ⟨ts, ts', u, v, -, -, -, h4, h5⟩ := h3.append_inv
    obtain ⟨ts1, ts2, u', v', -, -, -, -, h6⟩ := ParsesM.append_inv (α := [.production l]) (β := β) h5
    rw [← Forest.ofTrees_trees f] at h1
    rw [← Forest.ofTrees_trees f'] at h1'
    have h7 := h4.append (h1.append h6)
    have h7' := h4.append (h1'.append h6)
    rw [List.singleton_append, ← hab] at h7 h7'
    obtain ⟨i, hi⟩ := List.mem_iff_getElem?.mp hr
    refine ih ⟨_, _, _, ?_, .prod hi h7 .nil, .prod hi h7' .nil⟩
    intro e
    injection e with _ e
    have := ofTrees_inj e
    simp only [List.append_cancel_left_eq, List.append_cancel_right_eq] at this
    exact hne (by rw [← Forest.ofTrees_trees f, this, Forest.ofTrees_trees])

theorem nodeT {i : Nat} {r : Rule T L} {ts : List (Tree T)} {v : List T} (hi : P[i]? = some r)
    (h : Par (Forest.ofTrees ts) (rhs r) v) :
    Par (Forest.ofTrees [.node i (Forest.ofTrees ts)]) [.production r.symbol] v := by
  have := node_of hi h .nil
  rwa [List.append_nil] at this

theorem ne_self {A : Type} {i : Nat} {x : Tree A} {ts ts' : List (Tree A)} :
    x ≠ .node i (Forest.ofTrees (ts ++ x :: ts')) := by
  intro e
  have h1 : ∀ (ts : List (Tree A)), sizeOf x < sizeOf (Forest.ofTrees (ts ++ x :: ts')) + 1 := by
    intro ts
    induction ts with
    | nil => cases x <;> simp [Forest.ofTrees]
    | cons t ts ih => cases t <;> simp [Forest.ofTrees] at ih ⊢ <;> omega
  have h2 := congrArg sizeOf e
  have h3 := h1 ts
  simp only [Tree.node.sizeOf_spec] at h2
  omega

theorem one {l : L} {f : Forest T} {w : List T} (h : Par f [.production l] w) :
    ∃ x, f = Forest.ofTrees [x] := by
  cases h with
  | prod _ _ h => cases h; exact ⟨.node _ _, rfl⟩

/-- Every sequence of nodes of rules derives something, as a list of trees. -/
theorem trees (hp : NodesProductive P) {i : Nat} {r : Rule T L} (hi : P[i]? = some r) :
    ∃ ts v, Par (Forest.ofTrees ts) (rhs r) v := by
  obtain ⟨f, w, h⟩ := all_parses (P := P) (m := fun (a t : T) => a = t) (α := rhs r) (by
    intro n hn
    rw [strip_rhs] at hn
    obtain ⟨v, hv⟩ := hp r (List.mem_of_getElem? hi) n hn
    obtain ⟨f, hf⟩ := hv.parses
    exact ⟨f, v, parses_iff_parsesM.mp hf⟩)
  exact ⟨f.trees, w, by rwa [Forest.ofTrees_trees]⟩

theorem twice_local (hp : NodesProductive P) (h : Twice P) : ∃ r ∈ P, Local P r.symbol := by
  obtain ⟨i, j, r, r', hij, hi, hj, hs, hr⟩ := h
  obtain ⟨ts, v, ht⟩ := trees hp hi
  refine ⟨r, List.mem_of_getElem? hi, _, _, v, ?_, nodeT hi ht, hs ▸ nodeT hj (hr ▸ ht)⟩
  intro e
  cases ofTrees_inj e
  exact hij rfl

theorem grow {l l' : L} (h : Turns P l l') {x : Tree T} {w : List T} (hx : Par (Forest.ofTrees [x]) [.production l'] w) :
    ∃ y, Par (Forest.ofTrees [y]) [.production l] w ∧ sizeOf x < sizeOf y := by
  obtain ⟨r, a, b, hr, rfl, hab, ha, hb⟩ := h
  obtain ⟨fa, ha⟩ := ha.parses
  obtain ⟨fb, hb⟩ := hb.parses
  rw [parses_iff_parsesM, ← Forest.ofTrees_trees fa] at ha
  rw [parses_iff_parsesM, ← Forest.ofTrees_trees fb] at hb
  have h1 := ha.append (hx.append hb)
  simp only [List.append_nil, List.nil_append, List.singleton_append] at h1
  rw [← hab] at h1
  obtain ⟨i, hi⟩ := List.mem_iff_getElem?.mp hr
  refine ⟨.node i (Forest.ofTrees (fa.trees ++ x :: fb.trees)), ?_, ?_⟩
  · have := ParsesM.prod hi h1 .nil
    rwa [List.append_nil] at this
  · have h1 : ∀ (ts : List (Tree T)), sizeOf x < sizeOf (Forest.ofTrees (ts ++ x :: fb.trees)) + 1 := by
      intro ts
      induction ts with
      | nil => cases x <;> simp [Forest.ofTrees]
      | cons t ts ih => cases t <;> simp [Forest.ofTrees] at ih ⊢ <;> omega
    have := h1 fa.trees
    simp only [Tree.node.sizeOf_spec]
    omega

theorem circle_local (hp : Productive P) (h : Circle P) : ∃ r ∈ P, Local P r.symbol := by
  obtain ⟨l, h⟩ := h
  have hr : ∃ r ∈ P, r.symbol = l := by
    rcases Relation.TransGen.head'_iff.mp h with ⟨_, ⟨r, _, _, hr, hs, -⟩, -⟩
    exact ⟨r, hr, hs⟩
  obtain ⟨r, hr, rfl⟩ := hr
  obtain ⟨w, hw⟩ := hp r hr
  obtain ⟨f, hf⟩ := hw.parses
  rw [parses_iff_parsesM] at hf
  obtain ⟨x, rfl⟩ := one hf
  have key : ∀ {l' : L}, Relation.TransGen (Turns P) l' r.symbol →
      ∃ y, Par (Forest.ofTrees [y]) [.production l'] w ∧ sizeOf x < sizeOf y := by
    intro l' h
    induction h using Relation.TransGen.head_induction_on with
    | single h => exact grow h hf
    | head h _ ih =>
      obtain ⟨y, h1, h2⟩ := ih
      obtain ⟨z, h3, h4⟩ := grow h h1
      exact ⟨z, h3, by omega⟩
  obtain ⟨y, h1, h2⟩ := key h
  refine ⟨r, hr, _, _, w, ?_, hf, h1⟩
  intro e
  cases ofTrees_inj e
  omega

theorem bothSides_local (hp : NodesProductive P) (h : BothSides P) : ∃ r ∈ P, Local P r.symbol := by
  obtain ⟨i, j, r, r', α, β, hi, hj, hs, h1, h2⟩ := h
  refine ⟨r, List.mem_of_getElem? hi, ?_⟩
  obtain ⟨ts, v, ht⟩ := trees hp hi
  obtain ⟨ts', v', ht'⟩ := trees hp hj
  have gi := @nodeT T L _ _ P i r
  have gj := @nodeT T L _ _ P j r'
  rw [h1] at ht gi
  rw [h2] at ht' gj
  rw [← hs] at gj
  obtain ⟨ta, tx, a, u, -, -, -, ha, hx⟩ := ht.append_inv
  obtain ⟨x, ex⟩ := one hx
  rw [ex] at hx
  obtain ⟨-, tb, -, b, -, -, -, -, hb⟩ := ParsesM.append_inv (α := [.production r.symbol]) (β := β) ht'
  by_cases hij : i = j
  · subst hij
    rw [hi] at hj
    cases hj
    rw [h1] at h2
    cases α with
    | nil =>
      refine ⟨_, _, _, ?_, hx, gi hi (ts := [x]) (by simpa using hx)⟩
      intro e
      have := ofTrees_inj e
      injection this with this
      exact ne_self (ts := []) (ts' := []) this
    | cons n α =>
      simp only [List.cons_append, List.cons.injEq] at h2
      obtain ⟨rfl, rfl⟩ := h2
      obtain ⟨-, s, -, c, -, -, -, -, hs⟩ := ParsesM.append_inv (α := [.production r.symbol]) (β := α) ha
      have base : Par (Forest.ofTrees (x :: s ++ [x])) (.production r.symbol :: α ++ [.production r.symbol]) (u ++ (c ++ u)) := by
        have := hx.append (hs.append hx)
        simpa using this
      have y := gi hi base
      have e1 : Par (Forest.ofTrees (x :: s ++ [.node i (Forest.ofTrees (x :: s ++ [x]))]))
          (.production r.symbol :: α ++ [.production r.symbol]) (u ++ (c ++ (u ++ (c ++ u)))) := by
        have := hx.append (hs.append y)
        simpa using this
      have e2 : Par (Forest.ofTrees (.node i (Forest.ofTrees (x :: s ++ [x])) :: s ++ [x]))
          (.production r.symbol :: α ++ [.production r.symbol]) (u ++ (c ++ (u ++ (c ++ u)))) := by
        have := y.append (hs.append hx)
        simpa using this
      refine ⟨_, _, _, ?_, gi hi e1, gi hi e2⟩
      intro e
      have := ofTrees_inj e
      injection this with this
      injection this with _ this
      have := ofTrees_inj this
      simp only [List.cons_append] at this
      injection this with this
      exact ne_self (ts := []) this
  · have e1 := gi hi (by
      have := ha.append (gj hj (by
        have := hx.append hb
        simpa using this))
      exact this)
    have e2 := gj hj (by
      have := (gi hi (ha.append hx)).append hb
      simpa using this)
    refine ⟨_, _, _, ?_, e1, e2⟩
    intro e
    have := ofTrees_inj e
    injection this with this
    injection this with this
    exact hij this

theorem dangling_local (hp : NodesProductive P) (h : Dangling P) : ∃ r ∈ P, Local P r.symbol := by
  obtain ⟨i, j, r, r', α, β, hij, hi, hj, hs, h1, h2⟩ := h
  refine ⟨r, List.mem_of_getElem? hi, ?_⟩
  obtain ⟨ts', v', ht'⟩ := trees hp hj
  have gi := @nodeT T L _ _ P i r
  have gj := @nodeT T L _ _ P j r'
  rw [h1] at gi
  rw [h2] at ht' gj
  rw [← hs] at gj
  obtain ⟨ta, tt, a, z, -, -, -, ha, ht⟩ := ht'.append_inv
  obtain ⟨tx, tb, u, b, -, -, -, hx, hb⟩ := ParsesM.append_inv (α := [.production r.symbol]) (β := β) ht
  have e1 := gi hi (ha.append (gj hj (by
    have := ha.append (hx.append hb)
    simpa using this)))
  have e2 := gj hj (by
    have := ha.append ((gi hi (ha.append hx)).append hb)
    simpa using this)
  refine ⟨_, _, _, ?_, e1, e2⟩
  intro e
  have := ofTrees_inj e
  injection this with this
  injection this with this
  exact hij this

theorem mistake_local (hq : Productive P) (hp : NodesProductive P) (h : Mistake P) : ∃ r ∈ P, Local P r.symbol := by
  rcases h with h | h | h | h
  exacts [twice_local hp h, circle_local hq h, bothSides_local hp h, dangling_local hp h]

/-- The grammar has two trees for some tokens. -/
theorem ambiguous (hq : Productive P) (hp : NodesProductive P) {root : L} (hc : ∀ r ∈ P, Reachable P root r.symbol)
    (h : Mistake P) : ∃ f f' w, f ≠ f' ∧ Parses P f [.production root] w ∧ Parses P f' [.production root] w := by
  obtain ⟨r, hr, h⟩ := mistake_local hq hp h
  obtain ⟨f, f', w, hne, h1, h2⟩ := local_up (root := root) (fun r hr => by
    obtain ⟨i, hi⟩ := List.mem_iff_getElem?.mp hr
    obtain ⟨ts, v, h⟩ := trees hp hi
    exact ⟨_, v, ParsesM.strip_iff.mp h⟩) (hc r hr) h
  exact ⟨f, f', w, hne, parses_iff_parsesM.mpr h1, parses_iff_parsesM.mpr h2⟩

end
end Verif.Mistakes
