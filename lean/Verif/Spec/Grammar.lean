import Verif.Model.Grammar

/-!
# Specification: context-free grammars, derivations and parse trees

Independent of the code: only the data types for rules and nodes are shared.
-/

namespace Verif.Spec

variable {T L : Type}

/-- `Derives P α w`: the node sequence `α` derives the token sequence `w` with the rules `P`. Epsilon
derives the empty sequence, the end-of-stream marker derives nothing. -/
inductive Derives (P : List (Rule T L)) : List (Node T L) → List T → Prop
  | nil : Derives P [] []
  | tok {t : T} {α : List (Node T L)} {w : List T} :
      Derives P α w → Derives P (.terminal (.token t) :: α) (t :: w)
  | eps {α : List (Node T L)} {w : List T} :
      Derives P α w → Derives P (.terminal .epsilon :: α) w
  | prod {r : Rule T L} {α : List (Node T L)} {u w : List T} :
      r ∈ P → Derives P r.rule u → Derives P α w → Derives P (.production r.symbol :: α) (u ++ w)

/-- The language of a grammar: what its first production's symbol derives. -/
def Language (g : Grammar T L) (w : List T) : Prop :=
  ∃ root rest, g.productions = root :: rest ∧ Derives g.productions [.production root.symbol] w

/-- Ordered forests of parse trees: leaves carry tokens, inner nodes the index of a rule. The forest is a
list of trees, written as a binary tree (children, remaining siblings). -/
inductive Forest (T : Type) where
  | nil
  | tok (t : T) (rest : Forest T)
  | node (rule : Nat) (children rest : Forest T)
deriving DecidableEq, Repr

/-- `Parses P f α w`: the forest `f` is a list of parse trees, one for each node of `α` other than epsilon,
with yield `w`. -/
inductive Parses (P : List (Rule T L)) : Forest T → List (Node T L) → List T → Prop
  | nil : Parses P .nil [] []
  | tok {t : T} {f : Forest T} {α : List (Node T L)} {w : List T} :
      Parses P f α w → Parses P (.tok t f) (.terminal (.token t) :: α) (t :: w)
  | eps {f : Forest T} {α : List (Node T L)} {w : List T} :
      Parses P f α w → Parses P f (.terminal .epsilon :: α) w
  | prod {i : Nat} {r : Rule T L} {c f : Forest T} {α : List (Node T L)} {u w : List T} :
      P[i]? = some r → Parses P c r.rule u → Parses P f α w →
      Parses P (.node i c f) (.production r.symbol :: α) (u ++ w)

/-- `f` is a parse tree of `w` for the grammar. -/
def ParseTree (g : Grammar T L) (f : Forest T) (w : List T) : Prop :=
  ∃ root rest, g.productions = root :: rest ∧ Parses g.productions f [.production root.symbol] w

/-- Labels that can be reached from `root` by replacing labels with their rules. -/
inductive Reachable (P : List (Rule T L)) (root : L) : L → Prop
  | root : Reachable P root root
  | step {r : Rule T L} {l : L} :
      Reachable P root r.symbol → r ∈ P → .production l ∈ r.rule → Reachable P root l

/-- Every rule is either free of epsilon or consists of epsilons only (the macro accepts only such
grammars, see C38). -/
def EpsilonAlone (g : Grammar T L) : Prop :=
  ∀ r ∈ g.productions, (∀ n ∈ r.rule, n = .terminal .epsilon) ∨ (.terminal .epsilon ∉ r.rule)

/-- In every rule, only epsilons follow an epsilon. This is what the theorems on tables and parsers need; it
is wider than `EpsilonAlone` (which the macro guarantees), and C44 shows that it cannot be dropped. -/
def EpsilonLast (g : Grammar T L) : Prop :=
  ∀ r ∈ g.productions, r.rule.Pairwise fun a b => a = .terminal .epsilon → b = .terminal .epsilon

theorem EpsilonAlone.last {g : Grammar T L} (h : EpsilonAlone g) : EpsilonLast g := by
  intro r hr
  rcases h r hr with h | h
  · exact List.pairwise_of_forall_mem_list fun a _ b hb _ => h b hb
  · exact List.pairwise_of_forall_mem_list fun a ha _ _ he => absurd (he ▸ ha) h

/-- No rule contains the end-of-stream marker. -/
def NoEndMarker (g : Grammar T L) : Prop :=
  ∀ r ∈ g.productions, .terminal .eos ∉ r.rule

/-- The first production does not mention its own symbol (the library checks this only for the other
productions). -/
def RootNotRecursive (g : Grammar T L) : Prop :=
  ∀ root rest, g.productions = root :: rest → .production root.symbol ∉ root.rule

/-- The productions of each label stand next to each other. -/
def Grouped (g : Grammar T L) : Prop :=
  ∀ (i j k : Nat) (p q r : Rule T L), i < j → j < k → g.productions[i]? = some p → g.productions[j]? = some q →
    g.productions[k]? = some r → p.symbol = r.symbol → q.symbol = p.symbol

/-- What a user of the library has to respect; guaranteed by the macro. -/
structure WellFormed (g : Grammar T L) : Prop where
  epsilonLast : EpsilonLast g
  noEndMarker : NoEndMarker g

theorem Parses.derives {P : List (Rule T L)} {f : Forest T} {α : List (Node T L)} {w : List T}
    (h : Parses P f α w) : Derives P α w := by
  induction h with
  | nil => exact .nil
  | tok _ ih => exact .tok ih
  | eps _ ih => exact .eps ih
  | prod hr _ _ ih1 ih2 => exact .prod (List.mem_of_getElem? hr) ih1 ih2

theorem Derives.parses {P : List (Rule T L)} {α : List (Node T L)} {w : List T}
    (h : Derives P α w) : ∃ f, Parses P f α w := by
  induction h with
  | nil => exact ⟨_, .nil⟩
  | tok _ ih => obtain ⟨f, hf⟩ := ih; exact ⟨_, .tok hf⟩
  | eps _ ih => obtain ⟨f, hf⟩ := ih; exact ⟨_, .eps hf⟩
  | prod hr _ _ ih1 ih2 =>
    obtain ⟨c, hc⟩ := ih1
    obtain ⟨f, hf⟩ := ih2
    obtain ⟨i, hi⟩ := List.mem_iff_getElem?.mp hr
    exact ⟨_, .prod hi hc hf⟩

/-- A token sequence is in the language exactly when it has a parse tree. -/
theorem language_iff_parseTree {g : Grammar T L} {w : List T} :
    Language g w ↔ ∃ f, ParseTree g f w := by
  constructor
  · rintro ⟨root, rest, h, hd⟩
    obtain ⟨f, hf⟩ := hd.parses
    exact ⟨f, root, rest, h, hf⟩
  · rintro ⟨f, root, rest, h, hf⟩
    exact ⟨root, rest, h, hf.derives⟩

end Verif.Spec
