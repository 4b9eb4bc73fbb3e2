import Verif.Spec.Scope
import Verif.Props.Typing

/-!
# C51, C52: names and paths in generated code
-/

set_option linter.unusedSectionVars false
set_option autoImplicit false
set_option linter.unusedSimpArgs false

namespace Verif
open Spec CodeGen Rust

/-- A property of all parts of code that are not composed. -/
def Code.All (Q : List (Ns × String) → Code → Prop) : List (Ns × String) → Code → Prop
  | Γ, .seq a b => a.All Q Γ ∧ b.All Q Γ
  | Γ, .bind names body => body.All Q (names ++ Γ)
  | Γ, c => Q Γ c

def Code.Simple : Code → Prop
  | .seq _ _ => False
  | .bind _ _ => False
  | _ => True

theorem Code.All.occurs {Q : List (Ns × String) → Code → Prop} {c leaf : Code} {Γ Δ : List (Ns × String)}
    (ho : Occurs c Δ leaf) (hl : leaf.Simple) (h : c.All Q Γ) : Q (Δ ++ Γ) leaf := by
  induction ho generalizing Γ with
  | @here c => cases c <;> first | exact hl.elim | exact h
  | left _ ih => exact ih hl h.1
  | right _ ih => exact ih hl h.2
  | bind _ ih =>
    have := ih hl h
    rwa [List.append_assoc]

namespace Emit

theorem all_cat {Q : List (Ns × String) → Code → Prop} {Γ : List (Ns × String)} {l : List Code}
    (ht : ∀ Γ s, Q Γ (.text s)) : (cat l).All Q Γ ↔ ∀ c ∈ l, c.All Q Γ := by
  induction l with
  | nil => simp [cat, Code.All, ht]
  | cons c l ih => simp [cat, Code.All, ih]

end Emit

namespace C51
open Emit

/-- Names that generated code takes from where the macro is used. -/
def prelude : List (Ns × String) :=
  [(.value, "Some"), (.value, "None"), (.value, "Ok"), (.value, "Err"), (.value, "matches"), (.value, "format"),
   (.type, "usize"), (.type, "Clone"), (.type, "Iterator"), (.type, "IntoIterator")]

/-- Types of generated code that code of the grammar file sees. -/
def TypeName (gi : GrammarInfo) (x : String) : Prop :=
  x = gi.name ∨ x = gi.name ++ "DfaStates" ∨ x ∈ ["I", "B", "E"] ∨
    x ∈ ["__parser_generator_I", "__parser_generator_B", "__parser_generator_E"]

theorem mem_identsOf {x : String} {t : TokenStream} : x ∈ identsOf t ↔ IdentIn x t := by
  constructor
  · intro h
    induction t with
    | nil => cases h
    | group d inner rest ih1 ih2 =>
      rcases List.mem_append.mp h with h | h
      · exact .inside (ih1 h)
      · exact .group (ih2 h)
    | ident y rest ih =>
      rcases List.mem_cons.mp h with rfl | h
      · exact .here
      · exact .ident (ih h)
    | literal text rest ih => exact .literal (ih h)
    | punct ch joint rest ih => exact .punct (ih h)
  · intro h
    induction h with
    | here => exact List.mem_cons_self
    | inside _ ih => exact List.mem_append_left _ ih
    | group _ ih => exact List.mem_append_right _ ih
    | ident _ ih => exact List.mem_cons_of_mem _ ih
    | literal _ ih => exact ih
    | punct _ ih => exact ih

/-- **C51.** The names that the scopes of these theorems record for a pattern of the grammar file are all the identifiers
in it, at any depth: no name that the pattern may bind is overlooked. -/
theorem pattern_names (retok : String → TokenStream) (text : String) (ns : Ns) (x : String) :
    (ns, x) ∈ (RPat.user text).vars retok ↔ ns = .value ∧ IdentIn x (retok text) := by
  simp only [RPat.vars, List.mem_map, Prod.mk.injEq, ← mem_identsOf]
  constructor
  · rintro ⟨y, h, rfl, rfl⟩
    exact ⟨rfl, h⟩
  · rintro ⟨rfl, h⟩
    exact ⟨x, h, rfl, rfl⟩

/-- `Point(a, [b])`. -/
example : IdentIn "b" (.ident "Point" (.group .paren (.ident "a" (.punct ',' false (.group .bracket (.ident "b" .nil) .nil)))
    .nil)) := .ident (.inside (.ident (.punct (.inside .here))))

/-- A pattern of the user for the lookahead of a reduction. -/
def Lookahead (prog : Program) (text : String) : Prop :=
  ∃ code ∈ prog.states, (∃ arm ∈ code.reduces, ∃ v, .token (.data v text) ∈ arm.matchers) ∨
    ∃ arm, code.accept = some arm ∧ ∃ v, arm.matcher = .token (.data v text)

/-- Values of generated code that code of the grammar file sees. -/
def ValueName (gi : GrammarInfo) (retok : String → TokenStream) (prog : Program) (x : String) : Prop :=
  x = gi.name ∨ (∃ s < prog.states.length, x = "parse_s" ++ Nat.repr s) ∨
    x ∈ ["__parser_generator_state", "__peeked_val"] ∨ (∃ i, x = "__v" ++ Nat.repr i) ∨
    ∃ text, Lookahead prog text ∧ IdentIn x (retok text)

section
variable {gi : GrammarInfo} {retok : String → TokenStream} {prog : Program}

/-- What is shown for each part. -/
def Fine (gi : GrammarInfo) (retok : String → TokenStream) (prog : Program) (Γ : List (Ns × String)) :
    Code → Prop
  | .use ns x => (ns, x) ∈ Γ ∨ (ns, x) ∈ prelude
  | .member x v => (.type, x) ∈ Γ ∧ x = enumName gi ∧ ∃ s < prog.stateTypes.length, v = variantName s
  | .variant t _ => t = tokenType gi ∧ ∀ x, (.type, x) ∈ Γ → TypeName gi x
  | .type _ => ∀ x, (.type, x) ∈ Γ → TypeName gi x
  | .pattern _ _ => ∀ x, ((.type, x) ∈ Γ → TypeName gi x) ∧ ((.value, x) ∈ Γ → ValueName gi retok prog x)
  | .user _ _ => ∀ x, ((.type, x) ∈ Γ → TypeName gi x) ∧ ((.value, x) ∈ Γ → ValueName gi retok prog x)
  | _ => True

/-- Conditions on scopes. -/
structure Types (gi : GrammarInfo) (Γ : List (Ns × String)) : Prop where
  types : ∀ x, (.type, x) ∈ Γ → TypeName gi x
  enum : (.type, enumName gi) ∈ Γ

@[inherit_doc Types]
structure Fn (gi : GrammarInfo) (retok : String → TokenStream) (prog : Program) (Γ : List (Ns × String)) : Prop
    extends Types gi Γ where
  state : (.value, prefixed "state") ∈ Γ
  values : ∀ x, (.value, x) ∈ Γ → ValueName gi retok prog x

theorem Types.value {Γ : List (Ns × String)} (h : Types gi Γ) {l : List (Ns × String)} (hl : ∀ p ∈ l, p.1 = .value) :
    Types gi (l ++ Γ) := by
  refine ⟨fun x hx => ?_, by simp [h.enum]⟩
  rcases List.mem_append.mp hx with hx | hx
  · cases hl _ hx
  · exact h.types x hx

theorem Fn.value {Γ : List (Ns × String)} (h : Fn gi retok prog Γ) {l : List (Ns × String)}
    (hl : ∀ p ∈ l, p.1 = .value ∧ ValueName gi retok prog p.2) : Fn gi retok prog (l ++ Γ) := by
  refine ⟨h.toTypes.value fun p hp => (hl p hp).1, by simp [h.state], fun x hx => ?_⟩
  rcases List.mem_append.mp hx with hx | hx
  · exact (hl _ hx).2
  · exact h.values x hx

theorem fine_text (Γ : List (Ns × String)) (s : List RTok) : Fine gi retok prog Γ (.text s) := trivial

abbrev Ok (gi : GrammarInfo) (retok : String → TokenStream) (prog : Program) (Γ : List (Ns × String)) (c : Code) :
    Prop := c.All (Fine gi retok prog) Γ

theorem ok_cat {Γ : List (Ns × String)} {l : List Code} : Ok gi retok prog Γ (cat l) ↔ ∀ c ∈ l, Ok gi retok prog Γ c :=
  all_cat fine_text

theorem ok_text {Γ : List (Ns × String)} {s : List RTok} : Ok gi retok prog Γ (.text s) := trivial

theorem ok_name {Γ : List (Ns × String)} {x : String} : Ok gi retok prog Γ (.name x) := trivial

theorem ok_value {Γ : List (Ns × String)} {x : String} :
    Ok gi retok prog Γ (value x) ↔ (.value, x) ∈ Γ ∨ (.value, x) ∈ prelude := Iff.rfl

theorem ok_use {Γ : List (Ns × String)} {ns : Ns} {x : String} :
    Ok gi retok prog Γ (.use ns x) ↔ (ns, x) ∈ Γ ∨ (ns, x) ∈ prelude := Iff.rfl

theorem ok_bind {Γ names : List (Ns × String)} {c : Code} :
    Ok gi retok prog Γ (.bind names c) ↔ Ok gi retok prog (names ++ Γ) c := Iff.rfl

theorem ok_type {Γ : List (Ns × String)} (h : ∀ x, (.type, x) ∈ Γ → TypeName gi x) {t : TokenStream} :
    Ok gi retok prog Γ (.type t) := h

theorem ok_variant {Γ : List (Ns × String)} (h : Types gi Γ) {v : String} :
    Ok gi retok prog Γ (.variant (tokenType gi) v) := ⟨rfl, h.types⟩

theorem ok_user {Γ : List (Ns × String)} (h : Fn gi retok prog Γ) {rule : Nat} {t : TokenStream} :
    Ok gi retok prog Γ (.user rule t) := fun x => ⟨h.types x, h.values x⟩

theorem ok_splice {Γ : List (Ns × String)} (h : Fn gi retok prog Γ) {text : String} {t : TokenStream} :
    Ok gi retok prog Γ (.pattern text t) := fun x => ⟨h.types x, h.values x⟩

theorem ok_state {Γ : List (Ns × String)} (h : Types gi Γ) {s : Nat} (hs : s < prog.stateTypes.length) :
    Ok gi retok prog Γ (stateName gi s).code := ⟨h.enum, rfl, s, hs, rfl⟩

theorem ok_stateMatcher {Γ : List (Ns × String)} (h : Types gi Γ) {s : Nat} (hs : s < prog.stateTypes.length) :
    Ok gi retok prog Γ ((stateMatcher gi s).code retok) := by
  unfold stateMatcher RPat.code
  simp [ok_cat, ok_text, ok_name, ok_state h hs]

theorem ok_anyOf {Γ : List (Ns × String)} {l : List RPat} (h : ∀ p ∈ l, Ok gi retok prog Γ (p.code retok)) :
    Ok gi retok prog Γ ((anyOf l).code retok) := by
  induction l with
  | nil => exact ok_text
  | cons p l ih =>
    cases l with
    | nil => exact h p (by simp)
    | cons q l =>
      simp only [anyOf, RPat.code, ok_cat, List.mem_cons, List.not_mem_nil, or_false, forall_eq_or_imp, forall_eq,
        ok_text, ok_name, true_and]
      exact ⟨h p (by simp), ih fun p hp => h p (List.mem_cons_of_mem _ hp)⟩

theorem vars_anyOf {l : List RPat} {v : Ns × String} (h : v ∈ (anyOf l).vars retok) : ∃ p ∈ l, v ∈ p.vars retok := by
  induction l with
  | nil => cases h
  | cons p l ih =>
    cases l with
    | nil => exact ⟨p, by simp, h⟩
    | cons q l =>
      simp only [anyOf, RPat.vars, List.mem_append] at h
      rcases h with h | h
      · exact ⟨p, by simp, h⟩
      · obtain ⟨r, hr, hv⟩ := ih h
        exact ⟨r, List.mem_cons_of_mem _ hr, hv⟩

theorem ok_arms {Γ : List (Ns × String)} {ety : Code} {l : List (RPat × Style × Expr)} {rest : Arms} :
    Ok gi retok prog Γ ((Arms.ofList l rest).code retok ety) ↔
      (∀ a ∈ l, Ok gi retok prog Γ (a.1.code retok) ∧
        Ok gi retok prog (a.1.vars retok ++ Γ) (a.2.2.code retok ety)) ∧ Ok gi retok prog Γ (rest.code retok ety) := by
  induction l with
  | nil => simp [Arms.ofList]
  | cons a l ih =>
    have : Arms.ofList (a :: l) rest = .cons a.1 a.2.1 a.2.2 (Arms.ofList l rest) := rfl
    rw [this]
    simp only [Arms.code, ok_cat, List.mem_cons, List.not_mem_nil, or_false, forall_eq_or_imp, forall_eq,
      ok_text, ok_name, true_and, ok_bind, ih, and_assoc]

theorem ok_errorType {Γ : List (Ns × String)} (h : ∀ x, (.type, x) ∈ Γ → TypeName gi x) :
    Ok gi retok prog Γ (errorType gi) := by
  unfold errorType
  split
  · exact ok_type h
  · exact ok_text

theorem ok_typeOrUnit {Γ : List (Ns × String)} (h : ∀ x, (.type, x) ∈ Γ → TypeName gi x) {ty : Option TokenStream} :
    Ok gi retok prog Γ (typeOrUnit ty) := by
  cases ty
  · exact ok_text
  · exact ok_type h

theorem lt_of_type {types : List (Option TokenStream)} {s : Nat} {ty : Option TokenStream}
    (h : types[s]? = some ty) : s < types.length := (List.getElem?_eq_some_iff.mp h).1

theorem ok_pattern {Γ : List (Ns × String)} (h : Fn gi retok prog Γ) {named : Bool} {p : Pat} :
    Ok gi retok prog Γ ((pattern gi named p).code retok) := by
  cases p <;> cases named <;>
    simp [pattern, RPat.code, Con.code, Atom.code, ok_cat, ok_text, ok_name, ok_value, ok_variant h.toTypes, ok_splice h, ok_name, prelude]

theorem ok_matcher {Γ : List (Ns × String)} (h : Fn gi retok prog Γ) {named : Bool} {m : Matcher} :
    Ok gi retok prog Γ ((matcher gi named m).code retok) := by
  cases m with
  | token p => exact ok_pattern h
  | eos => simp [matcher, RPat.code, Atom.code, ok_value, prelude]

theorem ok_constructor {Γ : List (Ns × String)} (h : Fn gi retok prog Γ) {ctor : Ctor}
    (hc : ∀ k, ctor = .tryInto k → (.value, boundVariable 0) ∈ Γ) :
    Ok gi retok prog Γ ((constructor ctor).code retok (errorType gi)) := by
  cases ctor with
  | provided k body =>
    simp [constructor, Expr.code, ok_cat, ok_text, ok_name, ok_value, ok_errorType h.types, ok_user h, prelude]
  | tryInto k => simp [constructor, Expr.code, ok_cat, ok_text, ok_name, ok_value, hc k rfl]
  | unit => exact ok_text

theorem ok_stateVar {Γ : List (Ns × String)} (h : Fn gi retok prog Γ) :
    Ok gi retok prog Γ (Emit.state.code retok (errorType gi)) := .inl h.state

theorem ok_unreachable {Γ : List (Ns × String)} : Ok gi retok prog Γ (unreachableArm.code retok (errorType gi)) := by
  simp [unreachableArm, Arms.code, RPat.code, Expr.code, ok_cat, ok_text, ok_name, ok_bind]

theorem ok_sum {Γ : List (Ns × String)} {l : List Expr}
    (h : ∀ e ∈ l, Ok gi retok prog Γ (e.code retok (errorType gi))) :
    Ok gi retok prog Γ ((sum l).code retok (errorType gi)) := by
  have hfold : ∀ (l : List Expr) (e : Expr), (∀ x ∈ e :: l, Ok gi retok prog Γ (x.code retok (errorType gi))) →
      Ok gi retok prog Γ ((l.foldl Expr.add e).code retok (errorType gi)) := by
    intro l
    induction l with
    | nil => intro e h; exact h e (by simp)
    | cons q l ih =>
      intro e h
      refine ih _ fun x hx => ?_
      rcases List.mem_cons.mp hx with rfl | hx
      · simp only [Expr.code, ok_cat, List.mem_cons, List.not_mem_nil, or_false, forall_eq_or_imp, forall_eq, ok_text, ok_name,
          true_and]
        exact ⟨h _ (by simp), h _ (by simp)⟩
      · exact h x (by simp [hx])
  cases l with
  | nil => exact ok_text
  | cons e l => exact hfold l e h

theorem ok_overlap {Γ : List (Ns × String)} (h : Fn gi retok prog Γ) (hp : (.value, peekedVal) ∈ Γ) {rest : Expr}
    (hr : Ok gi retok prog Γ (rest.code retok (errorType gi))) {ms : List Matcher} :
    Ok gi retok prog Γ ((overlapCheck gi rest ms).code retok (errorType gi)) := by
  unfold overlapCheck
  split
  · exact hr
  · simp only [Expr.code, ok_cat, List.mem_cons, List.not_mem_nil, or_false, forall_eq_or_imp, forall_eq, ok_text, ok_name,
      true_and, and_true, ok_value, ok_bind, Con.code]
    refine ⟨⟨ok_sum ?_, ?_⟩, hr⟩
    · intro e he
      obtain ⟨m, -, rfl⟩ := List.mem_map.mp he
      have := ok_matcher (named := false) (m := m) h
      simp_all [Expr.code, ok_cat, ok_text, ok_name, ok_value, ok_use, prelude]
    · simp_all [prelude]

theorem valueName_var {i : Nat} : ValueName gi retok prog (boundVariable i) := .inr (.inr (.inr (.inl ⟨i, rfl⟩)))

theorem ok_pops {Γ : List (Ns × String)} (h : Fn gi retok prog Γ) {r : ARule} {body : Expr} {l : List PopStep}
    (hl : ∀ pop ∈ l, PopTyped gi prog.stateTypes r pop)
    (hb : ∀ Δ, Fn gi retok prog Δ → (∀ p ∈ Γ, p ∈ Δ) → (∀ pop ∈ l, (.value, boundVariable pop.node) ∈ Δ) →
      Ok gi retok prog Δ (body.code retok (errorType gi))) :
    Ok gi retok prog Γ ((pops gi body l).code retok (errorType gi)) := by
  induction l generalizing Γ with
  | nil => exact hb Γ h (fun _ hp => hp) (by simp)
  | cons pop l ih =>
    have hh : Fn gi retok prog ([(.value, boundVariable pop.node)] ++ Γ) :=
      h.value (by intro p hp; rw [List.mem_singleton] at hp; subst hp; exact ⟨rfl, valueName_var⟩)
    have hrest : Ok gi retok prog ([(.value, boundVariable pop.node)] ++ Γ)
        ((pops gi body l).code retok (errorType gi)) := by
      refine ih hh (fun p hp => hl p (List.mem_cons_of_mem _ hp)) fun Δ hΔ hsub hv => hb Δ hΔ ?_ ?_
      · exact fun p hp => hsub p (List.mem_append_right _ hp)
      · intro p hp
        rcases List.mem_cons.mp hp with rfl | hp
        · exact hsub _ (List.mem_append_left _ (List.mem_singleton.mpr rfl))
        · exact hv p hp
    simp only [pops, Expr.code, ok_cat, List.mem_cons, List.not_mem_nil, or_false, forall_eq_or_imp, forall_eq, ok_text, ok_name,
      true_and, and_true, ok_bind, ok_stateVar h, ok_arms, ok_unreachable]
    refine ⟨?_, hrest⟩
    intro a ha
    obtain ⟨s, hs, rfl⟩ := List.mem_map.mp ha
    obtain ⟨n, τ, -, -, h3⟩ := (hl pop (List.mem_cons_self ..)).arms
    have hlt : s < prog.stateTypes.length := by
      generalize pop.variant = v at h3
      cases h3 s hs with
      | whole h4 => exact lt_of_type h4
      | part h4 => exact lt_of_type h4
    unfold popArm
    have hstate := ok_state (retok := retok) h.toTypes hlt
    unfold stateName at hstate ⊢
    cases pop.variant <;>
      simp_all [RPat.code, RPat.vars, Expr.code, Con.code, ok_cat, ok_text, ok_name, ok_value, ok_variant h.toTypes]

theorem ok_goto {Γ : List (Ns × String)} (h : Fn gi retok prog Γ) {ctor : Ctor}
    (hc : ∀ k, ctor = .tryInto k → (.value, boundVariable 0) ∈ Γ) {ty : Option TokenStream} {goto : GotoCode}
    (hg : GotoTyped prog.stateTypes ty goto) {rest : Expr}
    (hr : ∀ Δ, (∀ x ∈ Γ, x ∈ Δ) → Ok gi retok prog Δ (rest.code retok (errorType gi))) :
    Ok gi retok prog Γ ((gotoCode gi ctor rest goto).code retok (errorType gi)) := by
  cases goto with
  | direct next =>
    simp [gotoCode, Expr.code, ok_cat, ok_text, ok_name, ok_stateVar h, ok_state h.toTypes (lt_of_type hg), ok_constructor h hc,
      hr Γ fun _ hx => hx]
  | select arms =>
    have hT : Types gi ([(.value, "__constructed")] ++ Γ) := h.toTypes.value (by simp)
    have hS : ∀ x : Ns × String, x ∈ Γ → x ∈ [(.value, "__constructed")] ++ Γ := fun x hx => List.mem_append_right _ hx
    have hst : ∀ Δ, (∀ x ∈ Γ, x ∈ Δ) → Ok gi retok prog Δ (Emit.state.code retok (errorType gi)) :=
      fun Δ hΔ => .inl (hΔ _ h.state)
    simp only [gotoCode, Expr.code, ok_cat, List.mem_cons, List.not_mem_nil, or_false, forall_eq_or_imp, forall_eq,
      ok_text, ok_name, true_and, and_true, ok_bind, ok_constructor h hc, ok_arms, ok_unreachable, hst _ hS, hr _ hS]
    intro a ha
    obtain ⟨arm, harm, rfl⟩ := List.mem_map.mp ha
    obtain ⟨-, h2, h3⟩ := hg.2.2 arm harm
    have hT' : Types gi ((anyOf (arm.2.map (stateMatcher gi))).vars retok ++ ([(.value, "__constructed")] ++ Γ)) := by
      refine hT.value fun p hp => ?_
      obtain ⟨q, hq, hv⟩ := vars_anyOf hp
      obtain ⟨s, -, rfl⟩ := List.mem_map.mp hq
      cases hv
    constructor
    · refine ok_anyOf fun p hp => ?_
      obtain ⟨s, hs, rfl⟩ := List.mem_map.mp hp
      exact ok_stateMatcher hT (h3 s hs)
    · simp only [Expr.code, ok_cat, List.mem_cons, List.not_mem_nil, or_false, forall_eq_or_imp, forall_eq, ok_text, ok_name,
        true_and, and_true, ok_value, ok_state hT' (lt_of_type h2)]
      exact ⟨hst _ fun x hx => List.mem_append_right _ (hS x hx), .inl (List.mem_append_right _ (by simp))⟩

theorem vars_value {named : Bool} {m : Matcher} : ∀ p ∈ (matcher gi named m).vars retok, p.1 = .value := by
  intro p hp
  cases m with
  | eos => cases hp
  | token q =>
    cases q <;> cases named <;> simp [matcher, pattern, RPat.vars] at hp
    · rw [hp]
    · obtain ⟨_, -, rfl⟩ := hp; rfl
    · rcases hp with rfl | ⟨_, -, rfl⟩ <;> rfl

theorem ok_shiftArm {Γ : List (Ns × String)} (h : Fn gi retok prog Γ) {arm : ShiftArm}
    (ha : ShiftTyped gi prog.stateTypes arm) : Ok gi retok prog Γ ((shiftArm gi arm).1.code retok) ∧
      Ok gi retok prog ((shiftArm gi arm).1.vars retok ++ Γ) ((shiftArm gi arm).2.2.code retok (errorType gi)) := by
  have hT : Types gi ((matcher gi true arm.matcher).vars retok ++ Γ) := h.toTypes.value vars_value
  refine ⟨ok_matcher h, ?_⟩
  simp only [shiftArm, Expr.code, ok_cat, List.mem_cons, List.not_mem_nil, or_false, forall_eq_or_imp, forall_eq, ok_text, ok_name,
    true_and, and_true, ok_state hT (lt_of_type ha.next)]
  rcases ha.value with ⟨x, h1, h2⟩ | ⟨x, h1, h2⟩ | ⟨x, h1, h2⟩ | ⟨x, text, h1, h2⟩ <;> rw [h2]
  · exact ok_text
  · exact ok_variant hT
  · rw [h1] at hT ⊢
    have := ok_variant (retok := retok) (prog := prog) (v := x) hT
    simp only [matcher, pattern, RPat.vars, if_true] at this ⊢
    simp only [tokenExpr, Expr.code, Con.code, ok_cat, List.mem_cons, List.not_mem_nil, or_false, forall_eq_or_imp,
      forall_eq, ok_text, ok_name, true_and, and_true, ok_value, this]
    exact .inl (by simp)
  · rw [h1] at hT ⊢
    have := ok_variant (retok := retok) (prog := prog) (v := x) hT
    simp only [matcher, pattern, RPat.vars, if_true] at this ⊢
    simp only [tokenExpr, Expr.code, Con.code, ok_cat, List.mem_cons, List.not_mem_nil, or_false, forall_eq_or_imp,
      forall_eq, ok_text, ok_name, true_and, and_true, ok_value, this]
    exact .inl (by simp)

theorem vars_lookahead {m : Matcher} (hm : ∀ v text, m = .token (.data v text) → Lookahead prog text) :
    ∀ p ∈ (matcher gi false m).vars retok, p.1 = .value ∧ ValueName gi retok prog p.2 := by
  intro p hp
  cases m with
  | eos => cases hp
  | token q =>
    cases q with
    | data v text =>
      simp only [matcher, pattern, RPat.vars, Bool.false_eq_true, if_false, List.mem_map] at hp
      obtain ⟨x, hx, rfl⟩ := hp
      exact ⟨rfl, .inr (.inr (.inr (.inr ⟨text, hm v text rfl, mem_identsOf.mp hx⟩)))⟩
    | _ => simp [matcher, pattern, RPat.vars] at hp

theorem bound_zero {l : List PopStep} {ctor : Ctor} (hc : ctor.Compiles l)
    {Δ : List (Ns × String)} (hv : ∀ pop ∈ l, (.value, boundVariable pop.node) ∈ Δ) :
    ∀ k, ctor = .tryInto k → (.value, boundVariable 0) ∈ Δ := by
  rintro k rfl
  obtain ⟨pop, h1, h2⟩ := hc
  rw [← h2]
  exact hv pop h1

theorem prefixed_I : prefixed "I" = "__parser_generator_I" := by decide +kernel
theorem prefixed_B : prefixed "B" = "__parser_generator_B" := by decide +kernel
theorem prefixed_E : prefixed "E" = "__parser_generator_E" := by decide +kernel
theorem prefixed_state : prefixed "state" = "__parser_generator_state" := by decide +kernel

theorem typeName_plain {x : String} (h : x = "I" ∨ x = "B" ∨ x = "E") : TypeName gi x := by
  unfold TypeName
  simp [h]

theorem typeName_prefixed {x : String} (h : x = prefixed "I" ∨ x = prefixed "B" ∨ x = prefixed "E") :
    TypeName gi x := by
  rw [prefixed_I, prefixed_B, prefixed_E] at h
  unfold TypeName
  simp [h]

theorem typeName_name : TypeName gi gi.name := by simp [TypeName]

theorem typeName_enum : TypeName gi (enumName gi) := by simp [TypeName, enumName]

/-- What is in scope in the implementations. -/
def implScope (gi : GrammarInfo) : List (Ns × String) := [(.type, gi.name), (.value, gi.name)] ++ []

/-- What is in scope in the types of `parse_fallible`. -/
def fnScope (gi : GrammarInfo) : List (Ns × String) :=
  [(.type, prefixed "I"), (.type, prefixed "B"), (.type, prefixed "E")] ++ implScope gi

/-- What is in scope in the items of `parse_fallible`. -/
def bodyScope (gi : GrammarInfo) (n : Nat) : List (Ns × String) := Emit.items gi n ++ fnScope gi

theorem implScope_types : ∀ x, (.type, x) ∈ implScope gi → TypeName gi x := by
  intro x hx
  simp only [implScope, List.append_nil, List.mem_cons, Prod.mk.injEq, true_and, reduceCtorEq, false_and,
    List.not_mem_nil, or_false] at hx
  rw [hx]
  exact typeName_name

theorem fnScope_types : ∀ x, (.type, x) ∈ fnScope gi → TypeName gi x := by
  intro x hx
  rcases List.mem_append.mp hx with hx | hx
  · refine typeName_prefixed ?_
    simpa only [List.mem_cons, Prod.mk.injEq, true_and, List.not_mem_nil, or_false] using hx
  · exact implScope_types x hx

theorem bodyScope_types {n : Nat} : Types gi (bodyScope gi n) := by
  refine ⟨fun x hx => ?_, List.mem_append_left _ (List.mem_cons_self ..)⟩
  rcases List.mem_append.mp hx with hx | hx
  · simp only [Emit.items, List.mem_cons, Prod.mk.injEq, true_and, List.mem_map, reduceCtorEq, false_and, and_false,
      exists_false, or_false] at hx
    rw [hx]
    exact typeName_enum
  · exact fnScope_types x hx

theorem bodyScope_values : ∀ x, (.value, x) ∈ bodyScope gi prog.states.length → ValueName gi retok prog x := by
  intro x hx
  simp only [bodyScope, fnScope, implScope, Emit.items, List.mem_append, List.mem_cons, List.mem_map, List.mem_range,
    Prod.mk.injEq, reduceCtorEq, false_and, false_or, true_and, List.not_mem_nil, or_false] at hx
  rcases hx with ⟨s, hs, rfl⟩ | rfl
  · exact .inr (.inl ⟨s, hs, rfl⟩)
  · exact .inl rfl

variable (ht : ProgramTyped gi prog) (hc : prog.Compiles)
include ht hc

theorem ok_reduceArm {Γ : List (Ns × String)} (h : Fn gi retok prog Γ) {code : StateCode} (hcode : code ∈ prog.states)
    {arm : ReduceArm} (ha : arm ∈ code.reduces) : Ok gi retok prog Γ ((reduceArm gi arm).1.code retok) ∧
      Ok gi retok prog ((reduceArm gi arm).1.vars retok ++ Γ) ((reduceArm gi arm).2.2.code retok (errorType gi)) := by
  obtain ⟨k, r, ty, h1, -, h3⟩ := ht.reduce code hcode arm ha
  have hF : Fn gi retok prog ((reduceArm gi arm).1.vars retok ++ Γ) := h.value (by
    intro p hp
    obtain ⟨q, hq, hp⟩ := vars_anyOf hp
    obtain ⟨m, hm, rfl⟩ := List.mem_map.mp hq
    refine vars_lookahead ?_ p hp
    rintro v text rfl
    exact ⟨code, hcode, .inl ⟨arm, ha, v, hm⟩⟩)
  refine ⟨ok_anyOf fun p hp => ?_, ok_pops hF h1.pops ?_⟩
  · obtain ⟨m, -, rfl⟩ := List.mem_map.mp hp
    exact ok_matcher h
  · intro Δ hΔ hsub hv
    refine ok_goto hΔ (bound_zero (hc.reduce code hcode arm ha) hv) h3 fun Δ' hΔ' => ?_
    simp [Expr.code, Atom.code, Con.code, ok_cat, ok_text, ok_name, ok_value, prelude]

theorem ok_acceptArm {Γ : List (Ns × String)} (h : Fn gi retok prog Γ) {code : StateCode} (hcode : code ∈ prog.states)
    {arm : AcceptArm} (ha : code.accept = some arm) : Ok gi retok prog Γ ((Emit.acceptArm gi arm).1.code retok) ∧
      Ok gi retok prog ((Emit.acceptArm gi arm).1.vars retok ++ Γ)
        ((Emit.acceptArm gi arm).2.2.code retok (errorType gi)) := by
  obtain ⟨r, h1, -⟩ := ht.accept code hcode arm ha
  have hF : Fn gi retok prog ((Emit.acceptArm gi arm).1.vars retok ++ Γ) := h.value (by
    intro p hp
    refine vars_lookahead ?_ p hp
    intro v text hm
    exact ⟨code, hcode, .inr ⟨arm, ha, v, hm⟩⟩)
  refine ⟨ok_matcher h, ok_pops hF h1.pops ?_⟩
  intro Δ hΔ hsub hv
  simp [Expr.code, Con.code, ok_cat, ok_text, ok_name, ok_value, ok_stateVar hΔ, prelude,
    ok_constructor hΔ (bound_zero (hc.accept code hcode arm ha) hv)]

theorem ok_actions {Γ : List (Ns × String)} (h : Fn gi retok prog Γ) {code : StateCode} (hcode : code ∈ prog.states) :
    Ok gi retok prog Γ ((actions gi code).code retok (errorType gi)) := by
  have hF : Fn gi retok prog ([(.value, peekedVal)] ++ Γ) := h.value (by
    intro p hp
    rw [List.mem_singleton] at hp
    subst hp
    exact ⟨rfl, .inr (.inr (.inl (by simp [peekedVal])))⟩)
  have hpeek : Ok gi retok prog Γ (peekNext.code retok (errorType gi)) := by
    simp [peekNext, Expr.code, Arms.code, RPat.code, RPat.vars, Con.code, ok_cat, ok_text, ok_name, ok_value, ok_bind,
      ok_stateVar h, prelude]
  have harms : Ok gi retok prog ([(.value, peekedVal)] ++ Γ) ((Arms.ofList (code.reduces.map (reduceArm gi))
      (.ofList (code.accept.toList.map (Emit.acceptArm gi)) returnErr)).code retok (errorType gi)) := by
    rw [ok_arms, ok_arms]
    refine ⟨?_, ?_, ?_⟩
    · intro a ha
      obtain ⟨arm, harm, rfl⟩ := List.mem_map.mp ha
      exact ok_reduceArm ht hc hF hcode harm
    · intro a ha
      obtain ⟨arm, harm, rfl⟩ := List.mem_map.mp ha
      exact ok_acceptArm ht hc hF hcode (Option.mem_toList.mp harm)
    · simp [returnErr, Expr.code, Arms.code, RPat.code, RPat.vars, Con.code, Atom.code, ok_cat, ok_text, ok_name, ok_value,
        ok_bind, prelude]
  unfold actions
  simp only [Expr.code, ok_cat (l := [Code.text _, _, _, _, _, _]), List.mem_cons, List.not_mem_nil, or_false,
    forall_eq_or_imp, forall_eq, ok_text, ok_name, true_and, hpeek, ok_bind]
  refine ok_overlap hF (by simp) ?_
  split
  · simp only [Expr.code, ok_cat, List.mem_cons, List.not_mem_nil, or_false, forall_eq_or_imp, forall_eq, ok_text, ok_name,
      true_and, and_true, ok_value]
    exact ⟨.inl (by simp), harms⟩
  · simp only [Expr.code, ok_cat, List.mem_cons, List.not_mem_nil, or_false, forall_eq_or_imp, forall_eq, ok_text, ok_name,
      true_and, and_true, ok_value, ok_bind, ok_arms (rest := .ofList _ _), Con.code, Atom.code]
    refine ⟨⟨.inl (by simp), ?_, ok_arms.mp harms⟩, .inl (by simp [h.state]), ⟨.inl (by simp [h.state]), .inl (by simp)⟩, ?_⟩
    · intro a ha
      obtain ⟨arm, harm, rfl⟩ := List.mem_map.mp ha
      exact ok_shiftArm hF (ht.shift code hcode arm harm)
    · simp [prelude]

theorem ok_function {Γ : List (Ns × String)} (h : Types gi Γ)
    (hv : ∀ x, (.value, x) ∈ Γ → ValueName gi retok prog x) {p : StateCode × Nat} (hp : p.1 ∈ prog.states) :
    Ok gi retok prog Γ (function gi retok prog.resultType p) := by
  have hT : Types gi ([(.type, "I"), (.type, "B"), (.type, "E")] ++ Γ) := by
    refine ⟨fun x hx => ?_, List.mem_append_right _ h.enum⟩
    rcases List.mem_append.mp hx with hx | hx
    · refine typeName_plain ?_
      simpa using hx
    · exact h.types x hx
  have hF : Fn gi retok prog ([(.value, prefixed "state")] ++ ([(.type, "I"), (.type, "B"), (.type, "E")] ++ Γ)) := by
    refine ⟨hT.value (by simp), by simp, fun x hx => ?_⟩
    rcases List.mem_append.mp hx with hx | hx
    · simp only [List.mem_singleton, Prod.mk.injEq, true_and] at hx
      rw [hx, prefixed_state]
      unfold ValueName
      simp
    · exact hv x (by simpa using hx)
  simp only [function, ok_cat, List.mem_cons, List.not_mem_nil, or_false, forall_eq_or_imp, forall_eq, ok_text, ok_name,
    true_and, and_true, ok_bind, ok_use, ok_type hT.types, ok_errorType hT.types, ok_typeOrUnit hT.types,
    ok_actions ht hc hF hp, hT.enum, true_or]
  simp [prelude]

theorem ok_parser {isPub : Bool} : Ok gi retok prog [] (parser gi retok isPub prog) := by
  have h1 := implScope_types (gi := gi)
  have h2 := fnScope_types (gi := gi)
  have h3 := bodyScope_types (gi := gi) (n := prog.states.length)
  have hE := h3.value (l := [(.value, prefixed "input_stream")]) (by simp)
  have hloop : Ok gi retok prog ([(.value, prefixed "input_stream")] ++ bodyScope gi prog.states.length)
      ((parseLoop gi prog.states.length).code retok (errorType gi)) := by
    have hE' := hE.value (l := [(.value, "state")]) (by simp)
    have hroot : LRTable.rootState < prog.stateTypes.length := lt_of_type ht.root
    simp only [parseLoop, Expr.code, ok_cat, List.mem_cons, List.not_mem_nil, or_false, forall_eq_or_imp, forall_eq,
      ok_text, ok_name, true_and, and_true, ok_bind, ok_value, ok_state hE hroot, Atom.code, ok_arms]
    refine ⟨.inl (by simp), ⟨.inl (by simp), ?_, ok_text⟩, .inl (by simp), ?_⟩
    · intro a ha
      obtain ⟨s, hs, rfl⟩ := List.mem_map.mp ha
      rw [List.mem_range] at hs
      refine ⟨ok_stateMatcher hE' (ht.functions ▸ hs), ?_⟩
      simp only [Expr.code, ok_cat, List.mem_cons, List.not_mem_nil, or_false, forall_eq_or_imp, forall_eq, ok_text, ok_name,
        true_and, and_true, ok_value, stateMatcher, RPat.vars, List.nil_append]
      refine ⟨.inl ?_, .inl (by simp)⟩
      refine List.mem_append_right _ (List.mem_append_right _ (List.mem_append_left _ (List.mem_cons_of_mem _ ?_)))
      exact List.mem_map.mpr ⟨s, List.mem_range.mpr hs, rfl⟩
    · simp [Expr.code, Arms.code, RPat.code, RPat.vars, Con.code, Atom.code, ok_cat, ok_text, ok_name, ok_value,
        ok_bind, prelude]
  have hfns : Ok gi retok prog (bodyScope gi prog.states.length)
      (cat (prog.states.zipIdx.map (function gi retok prog.resultType))) := by
    rw [ok_cat]
    intro c hcm
    obtain ⟨p, hp, rfl⟩ := List.mem_map.mp hcm
    exact ok_function ht hc h3 bodyScope_values (List.fst_mem_of_mem_zipIdx hp)
  have henum : Ok gi retok prog (bodyScope gi prog.states.length) (statesEnum gi prog.stateTypes) := by
    simp only [statesEnum, ok_cat, List.mem_cons, List.not_mem_nil, or_false, forall_eq_or_imp, forall_eq, ok_text, ok_name,
      true_and, and_true]
    intro c hcm
    obtain ⟨p, -, rfl⟩ := List.mem_map.mp hcm
    simp [ok_cat, ok_text, ok_name, ok_typeOrUnit h3.types]
  have hbody : Ok gi retok prog (bodyScope gi prog.states.length) (cat [statesEnum gi prog.stateTypes,
      cat (prog.states.zipIdx.map (function gi retok prog.resultType)),
      .bind [(.value, prefixed "input_stream")] ((parseLoop gi prog.states.length).code retok (errorType gi))]) := by
    rw [ok_cat]
    simp only [List.mem_cons, List.not_mem_nil, or_false, forall_eq_or_imp, forall_eq]
    exact ⟨henum, hfns, hloop⟩
  generalize hcode : cat [statesEnum gi prog.stateTypes, cat (prog.states.zipIdx.map (function gi retok
    prog.resultType)), .bind [(.value, prefixed "input_stream")] ((parseLoop gi prog.states.length).code retok (errorType gi))] = body at hbody
  simp only [parser, hcode]
  have hI : (Ns.type, prefixed "I") ∈ fnScope gi := by simp [fnScope]
  have hB : (Ns.type, prefixed "B") ∈ fnScope gi := by simp [fnScope]
  have hE : (Ns.type, prefixed "E") ∈ fnScope gi := by simp [fnScope]
  have hN : (Ns.type, gi.name) ∈ implScope gi := by simp [implScope]
  have hp : (Ns.type, "usize") ∈ prelude ∧ (Ns.type, "IntoIterator") ∈ prelude ∧ (Ns.type, "Clone") ∈ prelude := by
    simp [prelude]
  have hsig : ∀ (c : Code) (Γ : List (Ns × String)), Γ = fnScope gi → Ok gi retok prog Γ c →
      Ok gi retok prog (fnScope gi) c := by rintro c Γ rfl h; exact h
  refine ⟨ok_text, ok_name, ok_text, ?_, ok_text⟩
  show Ok gi retok prog (implScope gi) _
  rw [ok_cat]
  simp only [List.mem_cons, List.not_mem_nil, or_false, forall_eq_or_imp, forall_eq, ok_text, ok_name, true_and, and_true,
    ok_use, hN, hp, true_or, or_true, ok_type h1, ok_errorType h1, ok_typeOrUnit h1]
  show Ok gi retok prog (fnScope gi) _
  rw [ok_cat]
  simp only [List.mem_cons, List.not_mem_nil, or_false, forall_eq_or_imp, forall_eq, ok_text, ok_name, true_and, and_true,
    ok_use, hI, hB, hE, hp, true_or, or_true, ok_type h2]
  exact hbody

end

/-- Rules whose default constructor would refer to a variable that does not exist; see C40. -/
def NoDefaultForEpsilon (gi : GrammarInfo) : Prop :=
  ∀ r ∈ gi.productionRules, r.rule = [.epsilon] → r.block = none → r.returnType = none

section
variable {o : HashOrder} {lex : Lexer} {tx : Text} {t : TokenStream} {fuel : Nat} {gi : GrammarInfo} {prog : Program}
  {Γ : List (Ns × String)}

theorem ok_macro (hj : JointOk t) (hb : buildGrammar o lex tx fuel t = .ok (gi, prog)) (hn : NoDefaultForEpsilon gi)
    (retok : String → TokenStream) (isPub : Bool) : Ok gi retok prog [] (parser gi retok isPub prog) := by
  refine ok_parser (C50.macro_typed hj hb) ?_
  obtain ⟨gi', hpar, hb⟩ := Outcome.bind_eq_ok.mp hb
  obtain ⟨prog', hgen, hb⟩ := Outcome.bind_eq_ok.mp hb
  cases hb
  obtain ⟨ss, f, -, -, -, -, hg, -⟩ := C37.accepted_is_file hj hpar
  exact C40.default_bound hg hgen hn

/-- **C51.** Every name that generated code looks up is one that the code itself introduces around that place,
or one of ten names of Rust's prelude. -/
theorem closed (hj : JointOk t) (hb : buildGrammar o lex tx fuel t = .ok (gi, prog)) (hn : NoDefaultForEpsilon gi)
    {retok : String → TokenStream} {isPub : Bool} {ns : Ns} {x : String}
    (h : Occurs (parser gi retok isPub prog) Γ (.use ns x)) : (ns, x) ∈ Γ ∨ (ns, x) ∈ prelude := by
  have := Code.All.occurs h trivial (ok_macro hj hb hn retok isPub)
  rwa [List.append_nil] at this

theorem occurs_cat {l : List Code} {c leaf : Code} {Γ : List (Ns × String)} (hm : c ∈ l) (h : Occurs c Γ leaf) :
    Occurs (cat l) Γ leaf := by
  induction l with
  | nil => cases hm
  | cons d l ih =>
    rcases List.mem_cons.mp hm with rfl | hm
    · exact .left h
    · exact .right (ih hm)

theorem occurs_body {retok : String → TokenStream} {isPub : Bool} {c leaf : Code}
    (hm : c ∈ [statesEnum gi prog.stateTypes, cat (prog.states.zipIdx.map (function gi retok prog.resultType)),
      .bind [(.value, prefixed "input_stream")] ((parseLoop gi prog.states.length).code retok (errorType gi))]) (h : Occurs c Γ leaf) :
    Occurs (parser gi retok isPub prog) (((Γ ++ Emit.items gi prog.states.length) ++ [(.type, prefixed "I"),
      (.type, prefixed "B"), (.type, prefixed "E")]) ++ [(.type, gi.name), (.value, gi.name)]) leaf := by
  unfold parser
  refine .right (.right (.right (.left (.bind ?_))))
  iterate 13 refine .right ?_
  refine .left (.bind ?_)
  iterate 27 refine .right ?_
  exact .left (.bind (occurs_cat hm h))

/-- **C51.** Every variant of the enum of states that generated code mentions is declared, with the data of its
state, and the enum is in scope. -/
theorem states_declared (hj : JointOk t) (hb : buildGrammar o lex tx fuel t = .ok (gi, prog))
    (hn : NoDefaultForEpsilon gi) {retok : String → TokenStream} {isPub : Bool} {x v : String}
    (h : Occurs (parser gi retok isPub prog) Γ (.member x v)) :
    (.type, x) ∈ Γ ∧ x = gi.name ++ "DfaStates" ∧ ∃ s < prog.stateTypes.length, v = "S" ++ Nat.repr s ∧
      ∃ Δ, Occurs (parser gi retok isPub prog) Δ (.name ("S" ++ Nat.repr s)) ∧ (.type, x) ∈ Δ := by
  have := Code.All.occurs h trivial (ok_macro hj hb hn retok isPub)
  rw [List.append_nil] at this
  obtain ⟨h1, h2, s, hs, h3⟩ := this
  refine ⟨h1, h2, s, hs, h3, _, occurs_body (c := statesEnum gi prog.stateTypes) (List.mem_cons_self ..)
    (.right (.right (.right (.left (occurs_cat
    (c := cat [.name (variantName s), .text rs!"(", typeOrUnit prog.stateTypes[s], .text rs!"),"])
    (List.mem_map.mpr ⟨(prog.stateTypes[s], s), ?_, rfl⟩) (.left .here)))))), by simp [Emit.items, h2]⟩
  rw [List.mk_mem_zipIdx_iff_getElem?]
  exact List.getElem?_eq_getElem hs

/-- **C51.** Code of the grammar file - the types, the patterns and the bodies of constructors - is put in places
where, of the names that generated code introduces, only those of `TypeName` and `ValueName` are in scope. The
documentation of `unique_prefixed_ident` promises more: only names with the prefix. -/
theorem hygiene_partial (hj : JointOk t) (hb : buildGrammar o lex tx fuel t = .ok (gi, prog))
    (hn : NoDefaultForEpsilon gi) {retok : String → TokenStream} {isPub : Bool} :
    (∀ ty, Occurs (parser gi retok isPub prog) Γ (.type ty) → ∀ x, (.type, x) ∈ Γ → TypeName gi x) ∧
    (∀ ty v, Occurs (parser gi retok isPub prog) Γ (.variant ty v) → ∀ x, (.type, x) ∈ Γ → TypeName gi x) ∧
    ∀ code, ((∃ rule, Occurs (parser gi retok isPub prog) Γ (.user rule code)) ∨
        ∃ text, Occurs (parser gi retok isPub prog) Γ (.pattern text code)) →
      ∀ x, ((.type, x) ∈ Γ → TypeName gi x) ∧ ((.value, x) ∈ Γ → ValueName gi retok prog x) := by
  have hok := ok_macro hj hb hn retok isPub
  refine ⟨fun ty h => ?_, fun ty v h => ?_, ?_⟩
  rotate_right
  · rintro code (⟨rule, h⟩ | ⟨text, h⟩) <;> have := Code.All.occurs h trivial hok <;>
      rw [List.append_nil] at this <;> exact this
  all_goals have := Code.All.occurs h trivial hok; rw [List.append_nil] at this
  · exact this
  · exact this.2

theorem repr_inj {a b : Nat} {s : String} (h : s ++ Nat.repr a = s ++ Nat.repr b) : a = b := by
  have h1 := congrArg String.toList h
  simp only [String.toList_append, List.append_cancel_left_eq] at h1
  have h2 : Nat.toDigits 10 a = Nat.toDigits 10 b := by
    rw [← Nat.toList_repr, ← Nat.toList_repr]
    exact h1
  have := congrArg (fun l => Nat.ofDigitChars 10 l 0) h2
  simpa only [Nat.ofDigitChars_ten_toDigits] using this

/-- **C51.** States have different variants and different functions. -/
theorem items_differ : (∀ a b, variantName a = variantName b → a = b) ∧
    (∀ a b, functionName a = functionName b → a = b) ∧ ∀ n, (Emit.items gi n).Nodup := by
  refine ⟨fun a b h => repr_inj h, fun a b h => repr_inj h, fun n => ?_⟩
  unfold Emit.items
  rw [List.nodup_cons]
  refine ⟨by simp, ?_⟩
  refine List.Nodup.map ?_ List.nodup_range
  intro a b h
  exact repr_inj (Prod.mk.inj h).2

/-! ### Captured types -/

/-- The type of tokens and the type of errors are repeated in the signatures of the functions for states, below
the generic parameters `I`, `B` and `E` of these functions. -/
theorem types_in_functions {retok : String → TokenStream} {isPub : Bool} (hs : prog.states ≠ []) {p : String}
    (hp : p ∈ ["I", "B", "E"]) :
    (∃ Γ, Occurs (parser gi retok isPub prog) Γ (.type (tokenType gi)) ∧ (.type, p) ∈ Γ) ∧
    ∀ ty, gi.errorType = some ty → ∃ Γ, Occurs (parser gi retok isPub prog) Γ (.type ty) ∧ (.type, p) ∈ Γ := by
  obtain ⟨code, rest, hcode⟩ := List.exists_cons_of_ne_nil hs
  have hmem : function gi retok prog.resultType (code, 0) ∈
      prog.states.zipIdx.map (function gi retok prog.resultType) :=
    List.mem_map.mpr ⟨_, by rw [hcode]; simp, rfl⟩
  have hin : (Ns.type, p) ∈ [(Ns.type, "I"), (Ns.type, "B"), (Ns.type, "E")] := by
    simpa using hp
  refine ⟨⟨_, occurs_body (List.mem_cons_of_mem _ (List.mem_cons_self ..)) (occurs_cat hmem
    (.right (.right (.left (.bind (.right (.left .here))))))), ?_⟩, fun ty hty => ⟨_, occurs_body (List.mem_cons_of_mem _
    (List.mem_cons_self ..)) (occurs_cat hmem (.right (.right (.left (.bind (.right (.right (.right (.right
    (.right (.left ?_)))))))))) (leaf := .type ty) (Γ := [] ++ [(Ns.type, "I"), (Ns.type, "B"), (Ns.type, "E")])), ?_⟩⟩
  · exact List.mem_append_left _ (List.mem_append_left _ (List.mem_append_left _ (List.mem_append_right _ hin)))
  · unfold errorType
    rw [hty]
    exact .here
  · exact List.mem_append_left _ (List.mem_append_left _ (List.mem_append_left _ (List.mem_append_right _ hin)))

end
end C51

namespace GrammarSample
open C51

/-- The sample with another type of errors or tokens. -/
def withTypes (terminal error : TokenStream) : TokenStream :=
  C37.fileTokens unprint { file with terminal := .enum terminal, error := some error }

theorem typed_epsilon (gi : GrammarInfo) (h : (gi.productionRules.all fun r =>
    !(decide (r.rule = [.epsilon]) && r.block.isNone && r.returnType.isSome)) = true) : NoDefaultForEpsilon gi := by
  intro r hr h1 h2
  have := List.all_eq_true.mp h r hr
  cases h3 : r.returnType with
  | none => rfl
  | some _ => simp [h1, h2, h3] at this

/-- The hypotheses of the theorems of C51 and C52 are met by the sample. -/
example : ∃ gi prog, buildGrammar .id lexer tx 1000 tokens = .ok (gi, prog) ∧ JointOk tokens ∧
    NoDefaultForEpsilon gi ∧ prog.states ≠ [] ∧ gi.terminalType = .enum (.ident "Token" .nil) ∧
    ExprPath (.ident "Token" .nil) := by
  have hk : (match buildGrammar .id lexer tx 1000 tokens with
      | .ok x => (x.1.productionRules.all fun r =>
          !(decide (r.rule = [.epsilon]) && r.block.isNone && r.returnType.isSome)) &&
          decide (x.1.terminalType = .enum (.ident "Token" .nil)) && !x.2.states.isEmpty
      | _ => false) = true := by decide +kernel
  cases h : buildGrammar .id lexer tx 1000 tokens with
  | ok x =>
    rw [h] at hk
    simp only [Bool.and_eq_true, decide_eq_true_eq] at hk
    refine ⟨x.1, x.2, rfl, tokens_joint, typed_epsilon _ hk.1.1, ?_, hk.1.2, .one⟩
    intro he
    rw [he] at hk
    simp at hk
  | _ => rw [h] at hk; cases hk

/-- **C51** refuted: a grammar file with `error_type: E;` is accepted, but where the parser mentions this type the
name `E` means a generic parameter of the generated function. So it does with `enum_terminal: B;`. -/
theorem hygiene_refuted :
    (∃ gi prog, buildGrammar .id lexer tx 1000 (withTypes (.ident "Token" .nil) (.ident "E" .nil)) = .ok (gi, prog) ∧
      ∀ retok isPub, ∃ Γ, Occurs (Emit.parser gi retok isPub prog) Γ (.type (.ident "E" .nil)) ∧ (.type, "E") ∈ Γ) ∧
    ∃ gi prog, buildGrammar .id lexer tx 1000 (withTypes (.ident "B" .nil) (.ident "Oops" .nil)) = .ok (gi, prog) ∧
      ∀ retok isPub, ∃ Γ, Occurs (Emit.parser gi retok isPub prog) Γ (.type (.ident "B" .nil)) ∧ (.type, "B") ∈ Γ := by
  have hk : (match buildGrammar .id lexer tx 1000 (withTypes (.ident "Token" .nil) (.ident "E" .nil)) with
      | .ok x => decide (x.1.errorType = some (.ident "E" .nil)) && !x.2.states.isEmpty
      | _ => false) = true ∧
      (match buildGrammar .id lexer tx 1000 (withTypes (.ident "B" .nil) (.ident "Oops" .nil)) with
      | .ok x => decide (Emit.tokenType x.1 = .ident "B" .nil) && !x.2.states.isEmpty
      | _ => false) = true := by decide +kernel
  obtain ⟨hk, hk'⟩ := hk
  constructor
  · cases h : buildGrammar .id lexer tx 1000 (withTypes (.ident "Token" .nil) (.ident "E" .nil)) with
    | ok x =>
      rw [h] at hk
      simp only [Bool.and_eq_true, decide_eq_true_eq] at hk
      refine ⟨x.1, x.2, rfl, fun retok isPub => (types_in_functions ?_ (by simp)).2 _ hk.1⟩
      intro he
      rw [he] at hk
      simp at hk
    | _ => rw [h] at hk; cases hk
  · cases h : buildGrammar .id lexer tx 1000 (withTypes (.ident "B" .nil) (.ident "Oops" .nil)) with
    | ok x =>
      rw [h] at hk'
      simp only [Bool.and_eq_true, decide_eq_true_eq] at hk'
      refine ⟨x.1, x.2, rfl, fun retok isPub => ?_⟩
      have := (types_in_functions (gi := x.1) (prog := x.2) (retok := retok) (isPub := isPub) (p := "B") ?_
        (by simp)).1
      · rwa [hk'.1] at this
      · intro he
        rw [he] at hk'
        simp at hk'
    | _ => rw [h] at hk'; cases hk'

end GrammarSample

namespace C52
open Emit

/-- The tokens of a path to a variant. -/
def path (ty : TokenStream) (variant : String) : TokenStream := ty.append (colons (.ident variant .nil))

/-- **C52.** If the type of tokens of an enum grammar can be the beginning of a path in an expression, all paths to
its variants that the parser contains are paths. -/
theorem paths_partial {o : HashOrder} {lex : Lexer} {tx : Text} {t : TokenStream} (hj : JointOk t) {fuel : Nat}
    {gi : GrammarInfo} {prog : Program} (hb : buildGrammar o lex tx fuel t = .ok (gi, prog))
    (hn : C51.NoDefaultForEpsilon gi) {tokenTy : TokenStream} (ht : gi.terminalType = .enum tokenTy)
    (hp : ExprPath tokenTy) {retok : String → TokenStream} {isPub : Bool} {Γ : List (Ns × String)}
    {ty : TokenStream} {v : String} (h : Occurs (parser gi retok isPub prog) Γ (.variant ty v)) :
    ty = tokenTy ∧ ExprPath (path ty v) := by
  have := Code.All.occurs h trivial (C51.ok_macro hj hb hn retok isPub)
  have h1 : ty = tokenTy := by
    rw [this.1]
    unfold tokenType
    rw [ht]
  subst h1
  exact ⟨rfl, .snoc hp⟩

/-- How paths begin. -/
theorem path_start {t : TokenStream} (h : ExprPath t) :
    (∃ x, t = .ident x .nil) ∨ (∃ x rest, t = .ident x (.punct ':' true rest)) ∨ ∃ rest, t = .punct ':' true rest := by
  induction h with
  | one => exact .inl ⟨_, rfl⟩
  | global => exact .inr (.inr ⟨_, rfl⟩)
  | snoc _ ih =>
    rcases ih with ⟨x, rfl⟩ | ⟨x, rest, rfl⟩ | ⟨rest, rfl⟩
    · exact .inr (.inl ⟨_, _, rfl⟩)
    · exact .inr (.inl ⟨_, _, rfl⟩)
    · exact .inr (.inr ⟨_, rfl⟩)
  | args _ ih =>
    rcases ih with ⟨x, rfl⟩ | ⟨x, rest, rfl⟩ | ⟨rest, rfl⟩
    · exact .inr (.inl ⟨_, _, rfl⟩)
    · exact .inr (.inl ⟨_, _, rfl⟩)
    · exact .inr (.inr ⟨_, rfl⟩)

theorem variant_occurs {gi : GrammarInfo} {prog : Program} {retok : String → TokenStream} {isPub : Bool}
    {code : StateCode} (hc : code ∈ prog.states) {arm : ShiftArm} (ha : arm ∈ code.shifts) {v : String}
    (hm : arm.matcher = .token (.unit v)) :
    ∃ Γ, Occurs (parser gi retok isPub prog) Γ (.variant (tokenType gi) v) := by
  obtain ⟨i, hi⟩ := List.mem_iff_getElem?.mp hc
  have hmem : function gi retok prog.resultType (code, i) ∈
      prog.states.zipIdx.map (function gi retok prog.resultType) :=
    List.mem_map.mpr ⟨_, List.mk_mem_zipIdx_iff_getElem?.mpr hi, rfl⟩
  have hpat : Occurs ((shiftArm gi arm).1.code retok) [] (.variant (tokenType gi) v) := by
    unfold shiftArm
    rw [hm]
    exact .right (.right (.left (.right (.left .here))))
  have harms : ∀ {l : List ShiftArm} {rest : Arms}, arm ∈ l →
      Occurs ((Arms.ofList (l.map (shiftArm gi)) rest).code retok (errorType gi)) [] (.variant (tokenType gi) v) := by
    intro l rest hl
    induction l with
    | nil => cases hl
    | cons a l ih =>
      rcases List.mem_cons.mp hl with rfl | hl
      · exact .left hpat
      · exact .right (.right (.right (.right (.left (ih hl)))))
  have hover : ∀ {rest : Expr} {ms : List Matcher} {Γ : List (Ns × String)},
      Occurs (rest.code retok (errorType gi)) Γ (.variant (tokenType gi) v) →
      Occurs ((overlapCheck gi rest ms).code retok (errorType gi)) Γ (.variant (tokenType gi) v) := by
    intro rest ms Γ h
    unfold overlapCheck
    split
    · exact h
    · exact .right (.left h)
  have hact : ∃ Γ, Occurs ((actions gi code).code retok (errorType gi)) Γ (.variant (tokenType gi) v) := by
    unfold actions
    cases hs : code.shifts with
    | nil => rw [hs] at ha; cases ha
    | cons a l =>
      exact ⟨_, .right (.right (.right (.right (.right (.left (.bind (hover (.right (.right (.right (.left (.right
        (.right (.right (.left (harms (hs ▸ ha)))))))))))))))))⟩
  obtain ⟨Γ, hact⟩ := hact
  refine ⟨_, C51.occurs_body (List.mem_cons_of_mem _ (List.mem_cons_self ..)) (C51.occurs_cat hmem (.right (.right
    (.left (.bind ?_))))) (Γ := Γ ++ [(.value, prefixed "state")] ++ [(.type, "I"), (.type, "B"), (.type, "E")])⟩
  iterate 33 refine .right ?_
  exact .left (.bind hact)

/-- The type `Tok<u8>`. -/
def generic : TokenStream := .ident "Tok" (.punct '<' false (.ident "u8" (.punct '>' false .nil)))

open GrammarSample in
/-- **C52** refuted: a grammar file with `enum_terminal: Tok<u8>;` is accepted, and the parser contains the path
`Tok<u8>::Plus`, which is no path of Rust in an expression or a pattern. -/
theorem paths_refuted : ∃ gi prog, buildGrammar .id lexer tx 1000 (withTypes generic (.ident "Oops" .nil)) =
      .ok (gi, prog) ∧
    ∀ retok isPub, ∃ Γ v, Occurs (parser gi retok isPub prog) Γ (.variant generic v) ∧ ¬ ExprPath (path generic v) := by
  have hk : (match buildGrammar .id lexer tx 1000 (withTypes generic (.ident "Oops" .nil)) with
      | .ok x => decide (tokenType x.1 = generic) &&
          x.2.states.any fun code => code.shifts.any fun arm => decide (arm.matcher = .token (.unit "Plus"))
      | _ => false) = true := by decide +kernel
  cases h : buildGrammar .id lexer tx 1000 (withTypes generic (.ident "Oops" .nil)) with
  | ok x =>
    rw [h] at hk
    simp only [Bool.and_eq_true, decide_eq_true_eq, List.any_eq_true] at hk
    obtain ⟨h1, code, h2, arm, h3, h4⟩ := hk
    refine ⟨x.1, x.2, rfl, fun retok isPub => ?_⟩
    obtain ⟨Γ, h5⟩ := variant_occurs (gi := x.1) (retok := retok) (isPub := isPub) h2 h3 h4
    rw [h1] at h5
    refine ⟨Γ, "Plus", h5, fun hp => ?_⟩
    rcases path_start hp with ⟨x, e⟩ | ⟨x, rest, e⟩ | ⟨rest, e⟩ <;>
      simp [path, generic, TokenStream.append] at e
  | _ => rw [h] at hk; cases hk

end C52
end Verif
