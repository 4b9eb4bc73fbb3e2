import Verif.Spec.LR

/-!
# Specification: the canonical LR(1) parser

An abstract parser whose stack is spelled by symbols instead of states. It builds parse trees. Tokens of the
input (type `A`) are related to terminals of the grammar (type `T`) by `m`; the two are the same for the
simulator, whereas a generated parser matches its tokens against patterns.
-/

namespace Verif.Spec

variable {T L A : Type}

/-- `ParsesM P m f α w`: the forest `f` is a list of parse trees, one for each node of `α` other than
epsilon, with yield `w`; leaves match the terminals in `α`. -/
inductive ParsesM (P : List (Rule T L)) (m : A → T → Prop) :
    Forest A → List (Node T L) → List A → Prop
  | nil : ParsesM P m .nil [] []
  | tok {t : T} {a : A} {f : Forest A} {α : List (Node T L)} {w : List A} :
      m a t → ParsesM P m f α w → ParsesM P m (.tok a f) (.terminal (.token t) :: α) (a :: w)
  | eps {f : Forest A} {α : List (Node T L)} {w : List A} :
      ParsesM P m f α w → ParsesM P m f (.terminal .epsilon :: α) w
  | prod {i : Nat} {r : Rule T L} {c f : Forest A} {α : List (Node T L)} {u w : List A} :
      P[i]? = some r → ParsesM P m c r.rule u → ParsesM P m f α w →
      ParsesM P m (.node i c f) (.production r.symbol :: α) (u ++ w)

/-- A parse tree: a token, or a rule applied to a forest. -/
inductive Tree (A : Type) where
  | leaf (a : A)
  | node (rule : Nat) (children : Forest A)
deriving DecidableEq, Repr

/-- A forest as a list of trees. -/
def Forest.trees : Forest A → List (Tree A)
  | .nil => []
  | .tok a f => .leaf a :: f.trees
  | .node i c f => .node i c :: f.trees

/-- A list of trees as a forest. -/
def Forest.ofTrees : List (Tree A) → Forest A
  | [] => .nil
  | .leaf a :: ts => .tok a (ofTrees ts)
  | .node i c :: ts => .node i c (ofTrees ts)

/-- Configuration: symbols on the stack (bottom first), their trees, remaining input. -/
structure Config (T L A : Type) where
  stack : List (Node T L)
  trees : List (Tree A)
  input : List A

/-- `x` is a possible lookahead when `z` remains to be read. -/
inductive Look (m : A → T → Prop) : List A → AugTok T → Prop
  | eos : Look m [] .eos
  | tok {a : A} {z : List A} {t : T} : m a t → Look m (a :: z) (.token t)

/-- The trees after reducing `k` symbols with rule `i`. -/
def reduceTrees (i k : Nat) (ts : List (Tree A)) : List (Tree A) :=
  ts.take (ts.length - k) ++ [.node i (Forest.ofTrees (ts.drop (ts.length - k)))]

/-- Steps of the parser: shift or reduce, as demanded by the valid items. The last index names the rule of a
reduction. -/
inductive Step (P : List (Rule T L)) (first : List (Node T L) → AugTok T → Prop) (m : A → T → Prop) :
    Config T L A → Config T L A → Option Nat → Prop
  | shift {γ : List (Node T L)} {ts : List (Tree A)} {a : A} {z : List A} {t : T} :
      m a t → Demands P first γ (.token t) .shift →
      Step P first m ⟨γ, ts, a :: z⟩ ⟨γ ++ [.terminal (.token t)], ts ++ [.leaf a], z⟩ none
  | reduce {γ : List (Node T L)} {ts : List (Tree A)} {z : List A} {x : AugTok T} {i : Nat} {r : Rule T L} :
      P[i]? = some r → Look m z x → Demands P first (γ ++ rhs r) x (.reduce i) →
      Step P first m ⟨γ ++ rhs r, ts, z⟩
        ⟨γ ++ [.production r.symbol], reduceTrees i (rhs r).length ts, z⟩ (some i)

/-- Any number of steps; `tr` lists the rules of the reductions in order. -/
inductive Steps (P : List (Rule T L)) (first : List (Node T L) → AugTok T → Prop) (m : A → T → Prop) :
    Config T L A → Config T L A → List Nat → Prop
  | refl (c : Config T L A) : Steps P first m c c []
  | step {c c' c'' : Config T L A} {o : Option Nat} {tr : List Nat} :
      Step P first m c c' o → Steps P first m c' c'' tr → Steps P first m c c'' (o.toList ++ tr)

/-- The parser accepts in this configuration. -/
def Accepting (P : List (Rule T L)) (first : List (Node T L) → AugTok T → Prop)
    (m : A → T → Prop) (c : Config T L A) : Prop :=
  ∃ x, Look m c.input x ∧ Demands P first c.stack x .accept

/-- The parser has nothing to do on the lookahead. -/
def Stuck (P : List (Rule T L)) (first : List (Node T L) → AugTok T → Prop)
    (m : A → T → Prop) (c : Config T L A) : Prop :=
  ∀ x a, Look m c.input x → ¬ Demands P first c.stack x a

/-- Where the parser starts. -/
def Config.start (w : List A) : Config T L A := ⟨[], [], w⟩

end Verif.Spec
