import Verif.Proof.ArmRules
import Verif.Props.Generated

/-!
# C40: references in constructors
-/

set_option autoImplicit false

namespace Verif.C40
open Spec

/-- The constructor written for a rule is accepted exactly if it is in braces and all its references can be
resolved; what is generated is this body with the references, and nothing else, replaced. -/
theorem provided_exact (index : Nat) (rule : List ANode) (d : Delim) (body : TokenStream) (c : Ctor) :
    rewriteProvided index rule d body = .ok c ↔
      d = .brace ∧ ∃ out used, Replaced boundVariable rule body out used ∧ c = .provided index out := by
  unfold rewriteProvided
  split
  · rename_i hd
    constructor
    · intro h; cases h
    · rintro ⟨h, -⟩; exact absurd h hd
  · rename_i hd
    rw [Decidable.not_not] at hd
    simp only [Outcome.bind_eq_ok, Outcome.pure_eq, Outcome.ok.injEq]
    constructor
    · rintro ⟨out, h, rfl⟩
      obtain ⟨used, hu⟩ := SubstMap.substituteVars_sound body h
      exact ⟨hd, out, used, hu, rfl⟩
    · rintro ⟨-, out, used, hu, rfl⟩
      exact ⟨out, SubstMap.substituteVars_complete hu, rfl⟩

/-- Otherwise there is an error. -/
theorem ok_or_error (index : Nat) (rule : List ANode) (d : Delim) (body : TokenStream) :
    (∃ c, rewriteProvided index rule d body = .ok c) ∨ ∃ e, rewriteProvided index rule d body = .err e := by
  unfold rewriteProvided
  split
  · exact .inr ⟨_, rfl⟩
  · rcases SubstMap.substituteVars_safe rule body with ⟨out, h⟩ | ⟨e, h⟩
    · exact .inl ⟨_, by rw [h]; rfl⟩
    · exact .inr ⟨e, by rw [h]; rfl⟩

/-- Different nodes have different variables. -/
theorem variables_differ {i j : Nat} (h : boundVariable i = boundVariable j) : i = j :=
  boundVariable_injective h

/-- `Within t body`: the token sequence `t` is found in `body`, at any nesting depth. -/
inductive Within (t : TokenStream) : TokenStream → Prop
  | here : Within t t
  | inner {d : Delim} {inner rest : TokenStream} : Within t inner → Within t (.group d inner rest)
  | group {d : Delim} {inner rest : TokenStream} : Within t rest → Within t (.group d inner rest)
  | ident {name : String} {rest : TokenStream} : Within t rest → Within t (.ident name rest)
  | literal {text : String} {rest : TokenStream} : Within t rest → Within t (.literal text rest)
  | punct {ch : Char} {joint : Bool} {rest : TokenStream} : Within t rest → Within t (.punct ch joint rest)

theorem within_inv {t body : TokenStream} (h : Within t body) : t = body ∨ match body with
    | .nil => False
    | .group _ inner rest => Within t inner ∨ Within t rest
    | .ident _ rest => Within t rest
    | .literal _ rest => Within t rest
    | .punct _ _ rest => Within t rest := by
  cases h with
  | here => exact .inl rfl
  | inner h => exact .inr (.inl h)
  | group h => exact .inr (.inr h)
  | ident h => exact .inr h
  | literal h => exact .inr h
  | punct h => exact .inr h

/-- All references in a constructor that is accepted can be resolved. -/
theorem references_resolve {rule : List ANode} {body out : TokenStream} {used : List Nat}
    (h : Replaced boundVariable rule body out used) :
    (∀ x t, Within (.punct '#' false (.ident x t)) body → ∃ i ∈ used, NameRef rule x i) ∧
      (∀ x t, Within (.punct '#' false (.literal x t)) body → ∃ i ∈ used, IndexRef rule x i) := by
  induction h with
  | nil =>
    constructor <;>
    · intro x t h
      rcases within_inv h with h | h
      · cases h
      · exact h.elim
  | group _ _ ih1 ih2 =>
    constructor
    · intro x t h
      rcases within_inv h with h | h | h
      · cases h
      · obtain ⟨i, hi, hr⟩ := ih1.1 x t h
        exact ⟨i, by simp [hi], hr⟩
      · obtain ⟨i, hi, hr⟩ := ih2.1 x t h
        exact ⟨i, by simp [hi], hr⟩
    · intro x t h
      rcases within_inv h with h | h | h
      · cases h
      · obtain ⟨i, hi, hr⟩ := ih1.2 x t h
        exact ⟨i, by simp [hi], hr⟩
      · obtain ⟨i, hi, hr⟩ := ih2.2 x t h
        exact ⟨i, by simp [hi], hr⟩
  | ident _ ih =>
    constructor
    · intro x t h
      rcases within_inv h with h | h
      · cases h
      · exact ih.1 x t h
    · intro x t h
      rcases within_inv h with h | h
      · cases h
      · exact ih.2 x t h
  | literal _ ih =>
    constructor
    · intro x t h
      rcases within_inv h with h | h
      · cases h
      · exact ih.1 x t h
    · intro x t h
      rcases within_inv h with h | h
      · cases h
      · exact ih.2 x t h
  | punct hne _ ih =>
    constructor
    · intro x t h
      rcases within_inv h with h | h
      · cases h
        simp at hne
      · exact ih.1 x t h
    · intro x t h
      rcases within_inv h with h | h
      · cases h
        simp at hne
      · exact ih.2 x t h
  | @name n i rest rest' u hr _ ih =>
    constructor
    · intro x t h
      rcases within_inv h with h | h
      · cases h
        exact ⟨i, by simp, hr⟩
      · rcases within_inv h with h | h
        · cases h
        · obtain ⟨j, hj, hr'⟩ := ih.1 x t h
          exact ⟨j, by simp [hj], hr'⟩
    · intro x t h
      rcases within_inv h with h | h
      · cases h
      · rcases within_inv h with h | h
        · cases h
        · obtain ⟨j, hj, hr'⟩ := ih.2 x t h
          exact ⟨j, by simp [hj], hr'⟩
  | @index n i rest rest' u hr _ ih =>
    constructor
    · intro x t h
      rcases within_inv h with h | h
      · cases h
      · rcases within_inv h with h | h
        · cases h
        · obtain ⟨j, hj, hr'⟩ := ih.1 x t h
          exact ⟨j, by simp [hj], hr'⟩
    · intro x t h
      rcases within_inv h with h | h
      · cases h
        exact ⟨i, by simp, hr⟩
      · rcases within_inv h with h | h
        · cases h
        · obtain ⟨j, hj, hr'⟩ := ih.2 x t h
          exact ⟨j, by simp [hj], hr'⟩

/-- Names that are unknown or ambiguous, and numbers out of range, of an epsilon or that are no numbers, are
rejected wherever they are. -/
theorem bad_references_rejected (index : Nat) (rule : List ANode) (d : Delim) (body : TokenStream)
    (h : (∃ x t, Within (.punct '#' false (.ident x t)) body ∧ ∀ i, ¬ NameRef rule x i) ∨
      ∃ x t, Within (.punct '#' false (.literal x t)) body ∧ ∀ i, ¬ IndexRef rule x i) :
    ∃ e, rewriteProvided index rule d body = .err e := by
  rcases ok_or_error index rule d body with ⟨c, hc⟩ | h'
  · obtain ⟨-, out, used, hu, -⟩ := (provided_exact index rule d body c).mp hc
    have hr := references_resolve hu
    rcases h with ⟨x, t, hw, hn⟩ | ⟨x, t, hw, hn⟩
    · obtain ⟨i, -, hi⟩ := hr.1 x t hw
      exact absurd hi (hn i)
    · obtain ⟨i, -, hi⟩ := hr.2 x t hw
      exact absurd hi (hn i)
  · exact h'

/-- The code of a generated parser that runs the constructor of a rule: the variables that references were
replaced by are bound there. -/
def Bound (gi : GrammarInfo) (pops : List PopStep) (out : TokenStream) : Prop :=
  ∃ r ∈ gi.productionRules, ∃ body used, r.block = some (.brace, body) ∧
    Replaced boundVariable r.rule body out used ∧ ∀ i ∈ used, ∃ pop ∈ pops, pop.node = i

theorem bound_of_arm {gi : GrammarInfo} {k : Nat} {ar : ARule} {pops : List PopStep} {out : TokenStream}
    {j : Nat} (h : ArmOf gi k ar pops (.provided j out)) : Bound gi pops out := by
  have hc := h.ctor
  unfold buildConstructor GrammarInfo.productionRule at hc
  rw [Outcome.index_eq_ok.mpr h.rule] at hc
  simp only [Outcome.ok_bind] at hc
  split at hc
  · rename_i d body hb
    obtain ⟨rfl, out', used, hu, he⟩ := (provided_exact _ _ _ _ _).mp hc
    cases he
    exact ⟨ar, List.mem_of_getElem? h.rule, body, used, hb, hu, fun i hi => (h.bound i).mpr (hu.node i hi)⟩
  · split at hc
    · split at hc <;> cases hc
    · cases hc

/-- In generated parsers every variable that a reference was replaced by is bound. -/
theorem references_bound {o : HashOrder} {lex : Lexer} {gi : GrammarInfo} {prog : Program}
    (hg : IndexedGrammar.build gi.grammar = .ok gi.indexedGrammar)
    (hp : generateParser o lex gi = .ok prog) {code : StateCode} (hc : code ∈ prog.states) :
    (∀ arm ∈ code.reduces, ∀ j out, arm.ctor = .provided j out → Bound gi arm.pops out) ∧
      ∀ arm, code.accept = some arm → ∀ j out, arm.ctor = .provided j out → Bound gi arm.pops out := by
  obtain ⟨h1, h2⟩ := arms_of_rules hg hp hc
  constructor
  · intro arm harm j out ho
    obtain ⟨k, ar, h⟩ := h1 arm harm
    rw [ho] at h
    exact bound_of_arm h
  · intro arm harm j out ho
    obtain ⟨ar, h⟩ := h2 arm harm
    rw [ho] at h
    exact bound_of_arm h

/-- Default constructors refer to node 0. It is bound unless the rule is a typed epsilon rule. -/
theorem default_bound {o : HashOrder} {lex : Lexer} {gi : GrammarInfo} {prog : Program}
    (hg : IndexedGrammar.build gi.grammar = .ok gi.indexedGrammar)
    (hp : generateParser o lex gi = .ok prog)
    (hn : ∀ r ∈ gi.productionRules, r.rule = [.epsilon] → r.block = none → r.returnType = none) :
    prog.Compiles := by
  have key : ∀ {k : Nat} {ar : ARule} {pops : List PopStep} {ctor : Ctor}, ArmOf gi k ar pops ctor →
      ctor.Compiles pops := by
    intro k ar pops ctor h
    cases ctor with
    | provided _ _ => trivial
    | unit => trivial
    | tryInto j =>
      have hc := h.ctor
      unfold buildConstructor GrammarInfo.productionRule at hc
      rw [Outcome.index_eq_ok.mpr h.rule] at hc
      simp only [Outcome.ok_bind] at hc
      split at hc
      · obtain ⟨-, _, _, -, he⟩ := (provided_exact _ _ _ _ _).mp hc
        cases he
      · rename_i hb
        split at hc
        · rename_i ht
          split at hc
          · cases hc
          · rename_i hl
            rw [Decidable.not_not] at hl
            refine (h.bound 0).mpr ?_
            obtain ⟨n, hn'⟩ := List.length_eq_one_iff.mp hl
            refine ⟨n, by rw [hn']; rfl, ?_⟩
            rintro rfl
            have := hn ar (List.mem_of_getElem? h.rule) hn' hb
            rw [this] at ht
            cases ht
        · cases hc
  constructor
  · intro code hc arm harm
    obtain ⟨k, ar, h⟩ := (arms_of_rules hg hp hc).1 arm harm
    exact key h
  · intro code hc arm harm
    obtain ⟨ar, h⟩ := (arms_of_rules hg hp hc).2 arm harm
    exact key h

/-! ### Examples -/

/-- The body `f(#A, [#2 ##0])` for the nodes `A B x !`. -/
example : rewriteProvided 0 [.production "A", .production "B", .symbol ⟨"x", .none⟩, .epsilon] .brace
    (.ident "f" (.group .paren (.punct '#' false (.ident "A" (.punct ',' false
      (.group .bracket (.punct '#' false (.literal "2" (.punct '#' true (.punct '#' false (.literal "0" .nil))))) .nil))))
      .nil)) =
    .ok (.provided 0 (.ident "f" (.group .paren (.ident "__v0" (.punct ',' false
      (.group .bracket (.ident "__v2" (.punct '#' true (.ident "__v0" .nil))) .nil))) .nil))) := by decide +kernel

/-- The four kinds of bad references. -/
example : rewriteProvided 0 [.production "A", .production "A", .epsilon] .brace (.punct '#' false (.ident "A" .nil)) =
      .err .ambiguousLabel ∧
    rewriteProvided 0 [.production "A", .production "A", .epsilon] .brace
      (.group .brace (.punct '#' false (.ident "B" .nil)) .nil) = .err .unknownLabel ∧
    rewriteProvided 0 [.production "A", .production "A", .epsilon] .brace (.punct '#' false (.literal "3" .nil)) =
      .err .indexOutOfRange ∧
    rewriteProvided 0 [.production "A", .production "A", .epsilon] .brace (.punct '#' false (.literal "2" .nil)) =
      .err .indexOfEpsilon := by decide +kernel

/-- They meet the hypotheses of `bad_references_rejected`. -/
example : ∃ e, rewriteProvided 0 [.production "A", .production "A"] .brace
    (.group .brace (.punct '#' false (.ident "A" .nil)) .nil) = .err e :=
  bad_references_rejected _ _ _ _ (.inl ⟨"A", .nil, .inner .here, by
    rintro i ⟨-, h⟩
    have h0 := h 0 rfl
    have h1 := h 1 rfl
    omega⟩)

/-- The sample parser. -/
example : ∃ gi prog, IndexedGrammar.build gi.grammar = .ok gi.indexedGrammar ∧
    generateParser .id Sample.lexer gi = .ok prog ∧
    (∀ r ∈ gi.productionRules, r.rule = [.epsilon] → r.block = none → r.returnType = none) ∧
    ∃ r ∈ gi.productionRules, r.block = some (.brace, Sample.hash "L") := by
  obtain ⟨gi, prog, h, hr, -, -, -⟩ := Sample.generated
  refine ⟨gi, prog, h.grammar, h.program, ?_, ?_⟩ <;> rw [hr]
  · decide
  · exact ⟨_, List.mem_cons_self .., rfl⟩

/-- The rules `S: T => A {#A}; A: T => !;`. -/
def unboundRules : List ARule :=
  [⟨"S", some (.ident "T" .nil), [.production "A"], some (.brace, Sample.hash "A")⟩,
   ⟨"A", some (.ident "T" .nil), [.epsilon], none⟩]

/-- For typed epsilon rules without constructor the macro succeeds although the generated code refers to
a variable that is not bound, so that the parser does not compile. -/
theorem default_unbound_refuted : ∃ gi prog, gi.productionRules = unboundRules ∧
    IndexedGrammar.build gi.grammar = .ok gi.indexedGrammar ∧
    (∃ fuel, LRTable.build fuel gi.indexedGrammar = .ok gi.lrTable) ∧
    generateParser .id Sample.lexer gi = .ok prog ∧ ¬ prog.Compiles := by
  have h : (do
      let ig ← IndexedGrammar.build ⟨unboundRules.map ARule.toLr⟩
      let t ← (LRTable.build 20 ig : Outcome (LRTableError Sym String) LRTable)
      let gi : GrammarInfo := ⟨"Sample", .enum (.ident "Tok" .nil), none,
        [("S", some (.ident "T" .nil)), ("A", some (.ident "T" .nil))], unboundRules, ig, t⟩
      match generateParser .id Sample.lexer gi with
      | .ok prog => pure (prog.states.any fun code => code.reduces.any fun arm =>
          arm.ctor == .tryInto 1 && arm.pops.isEmpty)
      | _ => pure false) = Outcome.ok true := by decide +kernel
  obtain ⟨ig, h1, h⟩ := Outcome.bind_eq_ok.mp h
  obtain ⟨t, h2, h⟩ := Outcome.bind_eq_ok.mp h
  simp only at h
  split at h
  · rename_i prog hp
    simp only [Outcome.pure_eq, Outcome.ok.injEq, List.any_eq_true, Bool.and_eq_true, beq_iff_eq,
      List.isEmpty_iff] at h
    obtain ⟨code, hcode, arm, harm, hct, hpops⟩ := h
    refine ⟨⟨"Sample", .enum (.ident "Tok" .nil), none,
        [("S", some (.ident "T" .nil)), ("A", some (.ident "T" .nil))], unboundRules, ig, t⟩, prog, rfl, h1, ⟨20, h2⟩, hp, fun hk => ?_⟩
    have := hk.reduce code hcode arm harm
    rw [hct, hpops] at this
    obtain ⟨pop, hpop, -⟩ := this
    cases hpop
  · cases h

end Verif.C40
