import Verif.Spec.RustSyntax
import Verif.Proof.Rust

/-!
# Generated code is read as it was meant

The parser of `Verif.Spec.RustSyntax` reads the tokens of code of `Verif.Model.Rust` as that code, under conditions
that generated code meets.
-/

set_option linter.unusedSectionVars false
set_option linter.unusedSimpArgs false
set_option autoImplicit false

namespace Verif.RustSyntax
open Rust Emit

/-- From some fuel on. -/
def Ev (P : Nat → Prop) : Prop := ∃ n, ∀ f, n ≤ f → P f

theorem Ev.step {P Q : Nat → Prop} (h : Ev P) (hs : ∀ f, P f → Q (f + 1)) : Ev Q := by
  obtain ⟨n, h⟩ := h
  refine ⟨n + 1, fun f hf => ?_⟩
  obtain ⟨f, rfl⟩ : ∃ g, f = g + 1 := ⟨f - 1, by omega⟩
  exact hs f (h f (by omega))

theorem Ev.map {P Q : Nat → Prop} (h : Ev P) (hs : ∀ f, P f → Q f) : Ev Q :=
  h.imp fun _ h f hf => hs f (h f hf)

theorem Ev.and {P Q : Nat → Prop} (h : Ev P) (h' : Ev Q) : Ev fun f => P f ∧ Q f := by
  obtain ⟨n, h⟩ := h
  obtain ⟨m, h'⟩ := h'
  exact ⟨max n m, fun f hf => ⟨h f (by omega), h' f (by omega)⟩⟩

theorem Ev.always {P : Nat → Prop} (h : ∀ f, P (f + 1)) : Ev P :=
  Ev.step (P := fun _ => True) ⟨0, fun _ _ => trivial⟩ fun f _ => h f

/-! ### Names, paths, patterns -/

/-- Identifiers that are not in the prelude. -/
def Name (x : String) : Prop := x ∉ reserved ∧ x ∉ ["Some", "None", "Ok", "Err"]

theorem Name.lookup {x : String} (h : Name x) : prelude.lookup x = none := by
  have := h.2
  simp only [List.mem_cons, List.not_mem_nil, or_false, not_or] at this
  obtain ⟨h1, h2, h3, h4⟩ := this
  simp [prelude, List.lookup_cons, beq_eq_false_iff_ne.mpr h1, beq_eq_false_iff_ne.mpr h2, beq_eq_false_iff_ne.mpr h3,
    beq_eq_false_iff_ne.mpr h4]

theorem Name.ne {x y : String} (h : Name x) (hy : y ∈ reserved) : x ≠ y := by
  rintro rfl
  exact h.1 hy

/-- The next token is there, and does not continue a name. -/
def NoCall (rest : List RTok) : Prop := ∃ a t, rest = a :: t ∧ a ≠ .op "(" ∧ a ≠ .op "::"

theorem NoCall.isCall {rest : List RTok} (h : NoCall rest) : isCall rest = false := by
  obtain ⟨a, t, rfl, h1, -⟩ := h
  cases a with
  | op s => simpa [RustSyntax.isCall] using h1
  | _ => rfl

theorem NoCall.skip {rest : List RTok} (h : NoCall rest) : skip rs!"::" rest = none := by
  obtain ⟨a, t, rfl, -, h1⟩ := h
  simp [RustSyntax.skip, Ne.symm h1]

theorem noCall_op {s : String} {t : List RTok} (h : s ≠ "(") (h' : s ≠ "::") : NoCall (.op s :: t) :=
  ⟨_, _, rfl, by simpa using h, by simpa using h'⟩

theorem path_var {x : String} (hx : Name x) {rest : List RTok} (h : NoCall rest) :
    path (.word x :: rest) = some (.var x, rest) := by
  simp [path, hx.1, hx.lookup, h.skip, h.isCall]

theorem path_fn {x : String} (hx : Name x) {rest : List RTok} :
    path (.word x :: .op "(" :: rest) = some (.fn x, .op "(" :: rest) := by
  simp [path, hx.1, hx.lookup, skip, isCall]

/-- Names in constructors are identifiers. -/
def ConOk : Con → Prop
  | .state enum _ => Name enum
  | _ => True

theorem segments_stop {a : RTok} {t : List RTok} (h : a ≠ .op "::") : segments (a :: t) = ([], a :: t) := by
  cases a with
  | op s =>
    have : s ≠ "::" := by simpa using h
    cases t with
    | nil => rfl
    | cons b t => cases b <;> simp [segments, this]
  | _ => simp [segments]

theorem path_con {k : Con} (hk : ConOk k) {rest : List RTok} :
    path (k.code.tokens ++ .op "(" :: rest) = some (.con k, .op "(" :: rest) := by
  cases k with
  | some => simp [Con.code, Emit.value, Code.tokens, path, prelude, reserved, List.lookup_cons]
  | ok => simp [Con.code, Emit.value, Code.tokens, path, prelude, reserved, List.lookup_cons]
  | err => simp [Con.code, Emit.value, Code.tokens, path, prelude, reserved, List.lookup_cons]
  | accept =>
    simp [Con.code, Code.tokens, path, segments, library, List.lookup_cons, segments_stop]
  | state enum v => simp [Con.code, Code.tokens, path, Name.lookup hk, hk.1, skip]
  | token ty v => simp [Con.code, Code.tokens, path, skip, isCall]

theorem path_atom {a : Atom} (ha : a ≠ .unit) {rest : List RTok} (h : NoCall rest) :
    path (a.code.tokens ++ rest) = some (.atom a, rest) := by
  cases a with
  | unit => exact absurd rfl ha
  | none => simp [Atom.code, Emit.value, Code.tokens, path, prelude, reserved, List.lookup_cons]
  | «continue» =>
    obtain ⟨b, t, rfl, h1, h2⟩ := h
    simp [Atom.code, Code.tokens, path, segments, library, List.lookup_cons, segments_stop h2]
  | lit text => simp [Atom.code, Code.tokens, path]
  | token ty v => simp [Atom.code, Code.tokens, path, skip, h.isCall]

/-! ### Patterns -/

section
variable {retok : String → TokenStream}

/-- What follows a pattern. -/
def PatEnd (rest : List RTok) : Prop := ∃ s t, rest = .op s :: t ∧ s ∈ [")", "=>"]

/-- What follows a pattern without alternatives. -/
def PatSep (rest : List RTok) : Prop := ∃ s t, rest = .op s :: t ∧ s ∈ [")", "=>", "|"]

theorem PatEnd.sep {rest : List RTok} (h : PatEnd rest) : PatSep rest := by
  obtain ⟨s, t, rfl, hs⟩ := h
  exact ⟨s, t, rfl, by simp at hs; rcases hs with rfl | rfl <;> simp⟩

theorem PatSep.noCall {rest : List RTok} (h : PatSep rest) : NoCall rest := by
  obtain ⟨s, t, rfl, hs⟩ := h
  refine noCall_op ?_ ?_ <;> rintro rfl <;> simp at hs

theorem PatEnd.skip {rest : List RTok} (h : PatEnd rest) : skip rs!"|" rest = none := by
  obtain ⟨s, t, rfl, hs⟩ := h
  have : "|" ≠ s := by rintro rfl; simp at hs
  simp [RustSyntax.skip, this]

/-- The tokens of a pattern are read as the pattern. -/
structure IsNoAlt (retok : String → TokenStream) (p : RPat) : Prop where
  head : ∃ a l, (p.code retok).tokens = a :: l ∧ a ≠ .op "}" ∧ a ≠ .op ".."
  parse : ∀ rest, PatSep rest → Ev fun f => patternNoAlt f ((p.code retok).tokens ++ rest) = some (p, rest)

@[inherit_doc IsNoAlt]
structure IsPat (retok : String → TokenStream) (p : RPat) : Prop where
  head : ∃ a l, (p.code retok).tokens = a :: l ∧ a ≠ .op "}" ∧ a ≠ .op ".."
  parse : ∀ rest, PatEnd rest → Ev fun f => pattern f ((p.code retok).tokens ++ rest) = some (p, rest)

theorem IsNoAlt.pat {p : RPat} (h : IsNoAlt retok p) : IsPat retok p := by
  refine ⟨h.head, fun rest hr => (h.parse rest hr.sep).step fun f hf => ?_⟩
  simp only [pattern, hf, Option.bind_eq_bind, Option.bind_some, hr.skip]

theorem IsPat.or {p q : RPat} (hp : IsNoAlt retok p) (hq : IsPat retok q) : IsPat retok (.or p q) := by
  refine ⟨?_, fun rest hr => ?_⟩
  · obtain ⟨a, l, h, h'⟩ := hp.head
    exact ⟨a, _, by simp [RPat.code, cat, Code.tokens, h]; rfl, h'⟩
  · refine ((hp.parse (.op "|" :: ((q.code retok).tokens ++ rest)) ⟨_, _, rfl, by simp⟩).and (hq.parse rest hr)).step
      fun f hf => ?_
    simp only [RPat.code, cat, Code.tokens, List.append_assoc, List.cons_append, List.nil_append]
    simp only [pattern, hf.1, Option.bind_eq_bind, Option.bind_some, skip, if_true, hf.2]

theorem IsPat.anyOf {l : List RPat} (hl : l ≠ []) (h : ∀ p ∈ l, IsNoAlt retok p) : IsPat retok (anyOf l) := by
  induction l with
  | nil => exact absurd rfl hl
  | cons p l ih =>
    cases l with
    | nil => exact (h p (by simp)).pat
    | cons q l => exact .or (h p (by simp)) (ih (by simp) fun r hr => h r (by simp [hr]))

theorem isNoAlt_wild : IsNoAlt retok .wild :=
  ⟨⟨_, _, rfl, by simp⟩, fun rest _ => Ev.always fun f => by simp [RPat.code, Code.tokens, patternNoAlt]⟩

theorem isNoAlt_user {text : String} : IsNoAlt retok (.user text) :=
  ⟨⟨_, _, rfl, by simp⟩, fun rest _ => Ev.always fun f => by simp [RPat.code, Code.tokens, patternNoAlt]⟩

theorem isNoAlt_ref {p : RPat} (h : IsNoAlt retok p) : IsNoAlt retok (.ref p) := by
  refine ⟨⟨_, _, rfl, by simp⟩, fun rest hr => (h.parse rest hr).step fun f hf => ?_⟩
  simp [RPat.code, cat, Code.tokens, patternNoAlt, hf]

theorem isNoAlt_named {x : String} (hx : x ∉ reserved) {p : RPat} (h : IsNoAlt retok p) :
    IsNoAlt retok (.named x p) := by
  refine ⟨⟨_, _, rfl, by simp⟩, fun rest hr => (h.parse rest hr).step fun f hf => ?_⟩
  simp [RPat.code, cat, Code.tokens, patternNoAlt, hf, ident, hx, skip]

/-- Patterns that begin with a name. -/
theorem isNoAlt_path {p : RPat} (hh : ∃ a l, (p.code retok).tokens = a :: l ∧ a ≠ .op "}" ∧ a ≠ .op ".." ∧
      a ≠ .op "&" ∧ a ≠ .word "_" ∧ a ≠ .word "ref" ∧ ∀ text, a ≠ .pattern text)
    (h : ∀ rest, PatSep rest → Ev fun f => patternPath f ((p.code retok).tokens ++ rest) = some (p, rest)) :
    IsNoAlt retok p := by
  obtain ⟨a, l, ht, h1, h2, h3, h4, h5, h6⟩ := hh
  refine ⟨⟨a, l, ht, h1, h2⟩, fun rest hr => (h rest hr).step fun f hf => ?_⟩
  rw [ht] at hf ⊢
  rw [List.cons_append] at hf ⊢
  cases a with
  | op s =>
    have : s ≠ "&" := by simpa using h3
    simp only [patternNoAlt, this, if_false, hf]
  | word x =>
    have h4 : x ≠ "_" := by simpa using h4
    have h5 : x ≠ "ref" := by simpa using h5
    simp only [patternNoAlt, h4, h5, if_false, hf]
  | pattern text => exact absurd rfl (h6 text)
  | _ => simp only [patternNoAlt, hf]

theorem isNoAlt_var {x : String} (hx : Name x) : IsNoAlt retok (.var x) := by
  refine isNoAlt_path ⟨_, _, rfl, by simp, by simp, by simp, ?_, ?_, by simp⟩ fun rest hr => Ev.always fun f => ?_
  · simpa using hx.ne (by simp [reserved])
  · simpa using hx.ne (by simp [reserved])
  · simp [RPat.code, Code.tokens, patternPath, path_var hx hr.noCall]

/-- The first token of a name, path or literal. -/
def PathHead (a : RTok) : Prop :=
  a = .op "::" ∨ (∃ x, a = .word x ∧ x ∉ reserved) ∨ (∃ ty, a = .type ty) ∨ ∃ text, a = .userLit text

theorem con_head {k : Con} (hk : ConOk k) : ∃ a l, k.code.tokens = a :: l ∧ PathHead a := by
  cases k with
  | state enum v => exact ⟨_, _, rfl, .inr (.inl ⟨enum, rfl, hk.1⟩)⟩
  | token ty v => exact ⟨_, _, rfl, .inr (.inr (.inl ⟨ty, rfl⟩))⟩
  | accept => exact ⟨_, _, rfl, .inl rfl⟩
  | _ => exact ⟨_, _, rfl, .inr (.inl ⟨_, rfl, by decide⟩)⟩

theorem atom_head {a : Atom} (ha : a ≠ .unit) : ∃ b l, a.code.tokens = b :: l ∧ PathHead b := by
  cases a with
  | unit => exact absurd rfl ha
  | none => exact ⟨_, _, rfl, .inr (.inl ⟨_, rfl, by decide⟩)⟩
  | «continue» => exact ⟨_, _, rfl, .inl rfl⟩
  | lit text => exact ⟨_, _, rfl, .inr (.inr (.inr ⟨text, rfl⟩))⟩
  | token ty v => exact ⟨_, _, rfl, .inr (.inr (.inl ⟨ty, rfl⟩))⟩

theorem PathHead.ne {a : RTok} (h : PathHead a) : (∀ s, s ≠ "::" → a ≠ .op s) ∧ (∀ x ∈ reserved, a ≠ .word x) ∧
    (∀ text, a ≠ .pattern text) ∧ ∀ rule, a ≠ .mark rule := by
  rcases h with rfl | ⟨x, rfl, hx⟩ | ⟨ty, rfl⟩ | ⟨text, rfl⟩
  · exact ⟨fun s hs => by simpa using Ne.symm hs, by simp, by simp, by simp⟩
  · exact ⟨by simp, fun y hy he => by injection he with he; exact hx (he ▸ hy), by simp, by simp⟩
  · simp
  · simp

theorem PathHead.pattern {a : RTok} (h : PathHead a) : a ≠ .op "}" ∧ a ≠ .op ".." ∧
      a ≠ .op "&" ∧ a ≠ .word "_" ∧ a ≠ .word "ref" ∧ ∀ text, a ≠ .pattern text :=
  ⟨h.ne.1 _ (by decide), h.ne.1 _ (by decide), h.ne.1 _ (by decide), h.ne.2.1 _ (by decide), h.ne.2.1 _ (by decide),
    h.ne.2.2.1⟩

theorem isNoAlt_atom {a : Atom} (ha : a ≠ .unit) : IsNoAlt retok (.atom a) := by
  obtain ⟨b, l, ht, hb⟩ := atom_head ha
  refine isNoAlt_path ⟨b, l, ht, hb.pattern⟩ fun rest hr => Ev.always fun f => ?_
  simp [RPat.code, Code.tokens, patternPath, path_atom ha hr.noCall]

theorem isNoAlt_rest {k : Con} (hk : ConOk k) : IsNoAlt retok (.rest k) := by
  obtain ⟨b, l, ht, hb⟩ := con_head hk
  refine isNoAlt_path ⟨b, _, by rw [RPat.code, cat, Code.tokens, ht]; rfl, hb.pattern⟩ fun rest hr =>
    Ev.always fun f => ?_
  simp [RPat.code, cat, Code.tokens, patternPath, path_con hk, skip]

theorem isNoAlt_con {k : Con} (hk : ConOk k) {p : RPat} (h : IsPat retok p) : IsNoAlt retok (.con k p) := by
  obtain ⟨b, l, ht, hb⟩ := con_head hk
  refine isNoAlt_path ⟨b, _, by rw [RPat.code, cat, Code.tokens, ht]; rfl, hb.pattern⟩ fun rest hr =>
    (h.parse (.op ")" :: rest) ⟨_, _, rfl, by simp⟩).step fun f hf => ?_
  obtain ⟨a, l', ht', -, hd⟩ := h.head
  simp only [RPat.code, cat, Code.tokens, List.append_assoc, List.cons_append, List.nil_append]
  simp only [patternPath, path_con hk, Option.bind_eq_bind, Option.bind_some]
  rw [ht', List.cons_append] at hf ⊢
  simp [skip, Ne.symm hd, hf]

end

/-! ### Expressions -/

section
variable {retok : String → TokenStream} {ety : Code} {error : RType}

/-- The tokens of an expression. -/
abbrev toks (retok : String → TokenStream) (ety : Code) (e : Expr) : List RTok := (e.code retok ety).tokens

/-- What follows a summand. -/
def Sep (rest : List RTok) : Prop := ∃ s t, rest = .op s :: t ∧ s ∈ [")", ",", ";", "}", "{", ">", "+"]

/-- What follows an expression. -/
def Stop (rest : List RTok) : Prop := ∃ s t, rest = .op s :: t ∧ s ∈ [")", ",", ";", "}", "{", ">"]

theorem stop_op {s : String} {t : List RTok} (h : s ∈ [")", ",", ";", "}", "{", ">"]) : Stop (.op s :: t) :=
  ⟨s, t, rfl, h⟩

theorem Stop.sep {rest : List RTok} (h : Stop rest) : Sep rest := by
  obtain ⟨s, t, rfl, hs⟩ := h
  exact ⟨s, t, rfl, by simp at hs; rcases hs with rfl | rfl | rfl | rfl | rfl | rfl <;> simp⟩

theorem Sep.noCall {rest : List RTok} (h : Sep rest) : NoCall rest := by
  obtain ⟨s, t, rfl, hs⟩ := h
  refine noCall_op ?_ ?_ <;> rintro rfl <;> simp at hs

theorem Sep.suffixes {rest : List RTok} (h : Sep rest) (f : Nat) (e : Expr) :
    suffixes error (f + 1) e rest = some (e, rest) := by
  obtain ⟨s, t, rfl, hs⟩ := h
  have h1 : s ≠ "?" := by rintro rfl; simp at hs
  have h2 : s ≠ "." := by rintro rfl; simp at hs
  simp [RustSyntax.suffixes, h1, h2]

theorem Stop.summands {rest : List RTok} (h : Stop rest) (f : Nat) (e : Expr) :
    summands error (f + 1) e rest = some (e, rest) := by
  obtain ⟨s, t, rfl, hs⟩ := h
  have h1 : "+" ≠ s := by rintro rfl; simp at hs
  simp [RustSyntax.summands, skip, h1]

/-- An expression without operators. -/
structure IsPrimary (retok : String → TokenStream) (ety : Code) (error : RType) (e : Expr) : Prop where
  head : ∃ a l, toks retok ety e = a :: l ∧ a ≠ .word "return"
  parse : ∀ rest, NoCall rest → Ev fun f => primary error f (toks retok ety e ++ rest) = some (e, rest)

/-- An expression without binary operators. -/
structure IsUnary (retok : String → TokenStream) (ety : Code) (error : RType) (e : Expr) : Prop where
  head : ∃ a l, toks retok ety e = a :: l ∧ a ≠ .word "return"
  parse : ∀ rest r, NoCall rest → (Ev fun f => suffixes error f e rest = some r) →
    Ev fun f => (primary error f (toks retok ety e ++ rest)).bind (fun p => suffixes error f p.1 p.2) = some r

/-- Sums. -/
def IsSum (retok : String → TokenStream) (ety : Code) (error : RType) (e : Expr) : Prop :=
  ∀ rest r, Sep rest → (Ev fun f => summands error f e rest = some r) →
    Ev fun f => expr error f (toks retok ety e ++ rest) = some r

def IsExpr (retok : String → TokenStream) (ety : Code) (error : RType) (e : Expr) : Prop :=
  ∀ rest, Stop rest → Ev fun f => expr error f (toks retok ety e ++ rest) = some (e, rest)

theorem IsPrimary.unary {e : Expr} (h : IsPrimary retok ety error e) : IsUnary retok ety error e :=
  ⟨h.head, fun rest r hr hs => ((h.parse rest hr).and hs).map fun f hf => by simp only [hf.1, Option.bind_some, hf.2]⟩

theorem IsUnary.sum {e : Expr} (h : IsUnary retok ety error e) : IsSum retok ety error e := by
  intro rest r hr hs
  obtain ⟨a, l, ht, ha⟩ := h.head
  refine ((h.parse rest (e, rest) hr.noCall (Ev.always fun f => hr.suffixes f e)).and hs).step fun f hf => ?_
  have hret : skip rs!"return" (toks retok ety e ++ rest) = none := by simp [ht, skip, Ne.symm ha]
  obtain ⟨p, h1, h2⟩ := Option.bind_eq_some_iff.mp hf.1
  simp only [expr, hret, h1, Option.bind_eq_bind, Option.bind_some, h2, hf.2]

theorem IsSum.expr {e : Expr} (h : IsSum retok ety error e) : IsExpr retok ety error e :=
  fun rest hr => h rest (e, rest) hr.sep (Ev.always fun f => hr.summands f e)

theorem IsUnary.expr {e : Expr} (h : IsUnary retok ety error e) : IsExpr retok ety error e := h.sum.expr

theorem IsPrimary.expr {e : Expr} (h : IsPrimary retok ety error e) : IsExpr retok ety error e := h.unary.expr

theorem IsSum.add {a b : Expr} (ha : IsSum retok ety error a) (hb : IsUnary retok ety error b) :
    IsSum retok ety error (.add a b) := by
  intro rest r hr hs
  have := ha (.op "+" :: (toks retok ety b ++ rest)) r ⟨_, _, rfl, by simp⟩
    (((hb.parse rest (b, rest) hr.noCall (Ev.always fun f => hr.suffixes f b)).and hs).step fun f hf => by
      obtain ⟨p, h1, h2⟩ := Option.bind_eq_some_iff.mp hf.1
      simp only [summands, skip, if_true, h1, Option.bind_eq_bind, Option.bind_some, h2, hf.2])
  refine this.map fun f hf => ?_
  simpa only [toks, Expr.code, cat, Code.tokens, List.append_assoc, List.cons_append, List.nil_append] using hf

theorem isExpr_ret {e : Expr} (h : IsExpr retok ety error e) : IsExpr retok ety error (.ret e) := by
  intro rest hr
  refine (h rest hr).step fun f hf => ?_
  simp only [toks, Expr.code, cat, Code.tokens, List.append_assoc, List.cons_append, List.nil_append]
  simp only [expr, skip, if_true, hf, Option.bind_eq_bind, Option.bind_some]

/-- Expressions that begin with a name. -/
theorem isPrimary_path {e : Expr} (hh : ∃ a l, toks retok ety e = a :: l ∧ PathHead a)
    (h : ∀ rest, NoCall rest → Ev fun f => primaryPath error f (toks retok ety e ++ rest) = some (e, rest)) :
    IsPrimary retok ety error e := by
  obtain ⟨a, l, ht, ha⟩ := hh
  refine ⟨⟨a, l, ht, ha.ne.2.1 _ (by decide)⟩, fun rest hr => (h rest hr).step fun f hf => ?_⟩
  rw [ht, List.cons_append] at hf ⊢
  have h1 := ha.ne.1
  have h2 := ha.ne.2.1
  cases a with
  | op s =>
    have e1 : s ≠ "{" := by simpa using h1 "{" (by decide)
    have e2 : s ≠ "#" := by simpa using h1 "#" (by decide)
    have e3 : s ≠ "(" := by simpa using h1 "(" (by decide)
    simp only [primary, e1, e2, e3, if_false, hf]
  | word x =>
    have e1 : x ≠ "match" := by simpa using h2 "match" (by decide)
    have e2 : x ≠ "if" := by simpa using h2 "if" (by decide)
    have e3 : x ≠ "loop" := by simpa using h2 "loop" (by decide)
    have e4 : x ≠ "unsafe" := by simpa using h2 "unsafe" (by decide)
    simp only [primary, e1, e2, e3, e4, if_false, hf]
  | _ => simp only [primary, hf]

theorem isPrimary_var {x : String} (hx : Name x) : IsPrimary retok ety error (.var x) := by
  refine isPrimary_path ⟨_, _, rfl, .inr (.inl ⟨x, rfl, hx.1⟩)⟩ fun rest hr => Ev.always fun f => ?_
  simp [toks, Expr.code, Emit.value, Code.tokens, primaryPath, path_var hx hr]

theorem isPrimary_atom {a : Atom} (ha : a ≠ .unit) : IsPrimary retok ety error (.atom a) := by
  refine isPrimary_path (atom_head ha) fun rest hr => Ev.always fun f => ?_
  simp [toks, Expr.code, primaryPath, path_atom ha hr]

theorem isPrimary_unit : IsPrimary retok ety error (.atom .unit) :=
  ⟨⟨_, _, rfl, by simp⟩, fun rest _ => Ev.always fun f => by
    simp [toks, Expr.code, Atom.code, Code.tokens, primary, skip]⟩

theorem isPrimary_con {k : Con} (hk : ConOk k) {e : Expr} (h : IsExpr retok ety error e) :
    IsPrimary retok ety error (.con k e) := by
  obtain ⟨b, l, ht, hb⟩ := con_head hk
  refine isPrimary_path ⟨b, _, by rw [toks, Expr.code, cat, Code.tokens, ht]; rfl, hb⟩ fun rest hr =>
    (h (.op ")" :: rest) (stop_op (by simp))).step fun f hf => ?_
  simp only [toks, Expr.code, cat, Code.tokens, List.append_assoc, List.cons_append, List.nil_append]
  simp only [primaryPath, path_con hk, Option.bind_eq_bind, Option.bind_some, skip, if_true, hf]

theorem isPrimary_call {x : String} (hx : Name x) {e : Expr} (h : IsExpr retok ety error e) :
    IsPrimary retok ety error (.call x e) := by
  refine isPrimary_path ⟨_, _, rfl, .inr (.inl ⟨x, rfl, hx.1⟩)⟩ fun rest hr =>
    (h (.op ")" :: rest) (stop_op (by simp))).step fun f hf => ?_
  simp only [toks, Expr.code, Emit.value, cat, Code.tokens, List.append_assoc, List.cons_append, List.nil_append]
  simp only [primaryPath, path_fn hx, Option.bind_eq_bind, Option.bind_some, skip, if_true, hf]

theorem path_library {names : List String} {p : Path} {l rest : List RTok}
    (hs : segments (.op "::" :: (l ++ .op "(" :: rest)) = (names, .op "(" :: rest))
    (h : library.lookup names = some p) :
    path (.op "::" :: (l ++ .op "(" :: rest)) = some (p, .op "(" :: rest) := by
  simp [path, hs, h]

theorem isPrimary_newState {a b : Expr} (ha : IsExpr retok ety error a) (hb : IsExpr retok ety error b) :
    IsPrimary retok ety error (.newState a b) := by
  refine isPrimary_path ⟨_, _, rfl, .inl rfl⟩ fun rest hr =>
    ((ha (.op "," :: (toks retok ety b ++ .op ")" :: rest)) (stop_op (by simp))).and
      (hb (.op ")" :: rest) (stop_op (by simp)))).step fun f hf => ?_
  simp only [toks, Expr.code, cat, Code.tokens, List.append_assoc, List.cons_append, List.nil_append]
  simp [primaryPath, path, segments, segments_stop, library, List.lookup_cons, skip, hf]

theorem isPrimary_parseError {e : Expr} (h : IsExpr retok ety error e) : IsPrimary retok ety error (.parseError e) := by
  refine isPrimary_path ⟨_, _, rfl, .inl rfl⟩ fun rest hr =>
    (h (.op ")" :: rest) (stop_op (by simp))).step fun f hf => ?_
  simp only [toks, Expr.code, cat, Code.tokens, List.append_assoc, List.cons_append, List.nil_append]
  simp [primaryPath, path, segments, segments_stop, library, List.lookup_cons, skip, hf]

theorem isPrimary_overlapping {e : Expr} (h : IsExpr retok ety error e) :
    IsPrimary retok ety error (.overlapping e) := by
  refine isPrimary_path ⟨_, _, rfl, .inl rfl⟩ fun rest hr =>
    (h (.op ")" :: .op ")" :: rest) (stop_op (by simp))).step fun f hf => ?_
  simp only [toks, Expr.code, Emit.value, cat, Code.tokens, List.append_assoc, List.cons_append, List.nil_append]
  simp [primaryPath, path, segments, segments_stop, library, List.lookup_cons, skip, hf]

/-- The type of errors is read as such. -/
def IsType (ety : Code) (error : RType) : Prop :=
  ∀ s t, s ≠ "::" → type (ety.tokens ++ .op s :: t) = some (error, .op s :: t)

theorem isPrimary_closure (hety : IsType ety error) {rule : Nat} {body : TokenStream} :
    IsPrimary retok ety error (.closure rule body) := by
  refine ⟨⟨_, _, rfl, by simp⟩, fun rest hr => Ev.always fun f => ?_⟩
  simp only [toks, Expr.code, Emit.value, cat, Code.tokens, List.append_assoc, List.cons_append, List.nil_append]
  simp [primary, skip, hety ">" _ (by decide), guard]

theorem isPrimary_count {e : Expr} (h : IsExpr retok ety error e) {p : RPat} (hp : IsPat retok p) :
    IsPrimary retok ety error (.count e p) := by
  refine ⟨⟨_, _, rfl, by simp⟩, fun rest hr => ?_⟩
  refine ((h (.op "," :: ((p.code retok).tokens ++ (rs!") as usize)" ++ rest))) (stop_op (by simp))).and
    (hp.parse (rs!") as usize)" ++ rest) ⟨_, _, rfl, by simp⟩)).step fun f hf => ?_
  simp only [toks, Expr.code, Emit.value, cat, Code.tokens, List.append_assoc, List.cons_append, List.nil_append] at hf ⊢
  simp [primary, skip, hf]

theorem isUnary_call0 {m : Method} {e : Expr} (h : IsUnary retok ety error e) :
    IsUnary retok ety error (.call0 m e) := by
  refine ⟨?_, fun rest r hr hs => ?_⟩
  · obtain ⟨a, l, ht, ha⟩ := h.head
    exact ⟨a, _, by rw [toks] at ht; rw [toks, Expr.code, cat, Code.tokens, ht]; rfl, ha⟩
  · have := h.parse (rs!"." ++ .word m.name :: (rs!"()" ++ rest)) r ⟨_, _, rfl, by simp, by simp⟩
      (hs.step fun f hf => by cases m <;> simp [suffixes, Method.name, methods, List.lookup_cons, skip, hf])
    refine this.map fun f hf => ?_
    simpa only [toks, Expr.code, cat, Code.tokens, List.append_assoc, List.cons_append, List.nil_append] using hf

theorem isUnary_push {e arg : Expr} (h : IsUnary retok ety error e) (ha : IsExpr retok ety error arg) :
    IsUnary retok ety error (.push e arg) := by
  refine ⟨?_, fun rest r hr hs => ?_⟩
  · obtain ⟨a, l, ht, ha⟩ := h.head
    exact ⟨a, _, by rw [toks] at ht; rw [toks, Expr.code, cat, Code.tokens, ht]; rfl, ha⟩
  · have := h.parse (rs!".push(" ++ (toks retok ety arg ++ .op ")" :: rest)) r ⟨_, _, rfl, by simp, by simp⟩
      ((hs.and (ha (.op ")" :: rest) (stop_op (by simp)))).step fun f hf => by simp [suffixes, skip, hf])
    refine this.map fun f hf => ?_
    simpa only [toks, Expr.code, cat, Code.tokens, List.append_assoc, List.cons_append, List.nil_append] using hf

theorem isUnary_map {e body : Expr} {x : String} (hx : x ∉ reserved) (h : IsUnary retok ety error e)
    (hb : IsExpr retok ety error body) : IsUnary retok ety error (.map e x body) := by
  refine ⟨?_, fun rest r hr hs => ?_⟩
  · obtain ⟨a, l, ht, ha⟩ := h.head
    exact ⟨a, _, by rw [toks] at ht; rw [toks, Expr.code, cat, Code.tokens, ht]; rfl, ha⟩
  · have := h.parse (rs!".map(|" ++ .word x :: .op "|" :: (toks retok ety body ++ .op ")" :: rest)) r
      ⟨_, _, rfl, by simp, by simp⟩
      ((hs.and (hb (.op ")" :: rest) (stop_op (by simp)))).step fun f hf => by
        simp [suffixes, skip, ident, hx, hf])
    refine this.map fun f hf => ?_
    simpa only [toks, Expr.code, cat, Code.tokens, List.append_assoc, List.cons_append, List.nil_append] using hf

theorem isUnary_convert {e : Expr} {rule : Nat} (h : IsUnary retok ety error e) :
    IsUnary retok ety error (.convert rule e) := by
  refine ⟨?_, fun rest r hr hs => ?_⟩
  · obtain ⟨a, l, ht, ha⟩ := h.head
    exact ⟨a, _, by rw [toks] at ht; rw [toks, Expr.code, cat, Code.tokens, ht]; rfl, ha⟩
  · have := h.parse (.mark rule :: (rs!".try_into().map_err(
        ::parser_generator::error::ParserUserErrorOrInfallible::<_, _>::into_user_error)" ++ rest)) r
      ⟨_, _, rfl, by simp, by simp⟩ (hs.step fun f hf => by simp [suffixes, skip, hf])
    refine this.map fun f hf => ?_
    simpa only [toks, Expr.code, cat, Code.tokens, List.append_assoc, List.cons_append, List.nil_append] using hf

theorem isUnary_question {e : Expr} (h : IsUnary retok ety error e) : IsUnary retok ety error (.question e) := by
  refine ⟨?_, fun rest r hr hs => ?_⟩
  · obtain ⟨a, l, ht, ha⟩ := h.head
    exact ⟨a, _, by rw [toks] at ht; rw [toks, Expr.code, cat, Code.tokens, ht]; rfl, ha⟩
  · have := h.parse (.op "?" :: rest) r (noCall_op (by simp) (by simp)) (hs.step fun f hf => by simp [suffixes, hf])
    refine this.map fun f hf => ?_
    simpa only [toks, Expr.code, cat, Code.tokens, List.append_assoc, List.cons_append, List.nil_append] using hf

/-! ### Blocks -/

/-- Expressions that can be statements without semicolon. -/
structure IsWhole (retok : String → TokenStream) (ety : Code) (error : RType) (e : Expr) : Prop where
  head : ∃ a l, toks retok ety e = a :: l ∧ startsBlock [a] = true
  parse : ∀ rest, Ev fun f => primary error f (toks retok ety e ++ rest) = some (e, rest)

/-- The contents of a block. -/
def IsBlock (retok : String → TokenStream) (ety : Code) (error : RType) (e : Expr) : Prop :=
  ∀ rest, Ev fun f => block error f (toks retok ety e ++ .op "}" :: rest) = some (e, .op "}" :: rest)

def IsArms (retok : String → TokenStream) (ety : Code) (error : RType) (a : Arms) : Prop :=
  ∀ rest, Ev fun f => arms error f ((a.code retok ety).tokens ++ .op "}" :: rest) = some (a, .op "}" :: rest)

theorem startsBlock_ne {a : RTok} (h : startsBlock [a] = true) : a ≠ .word "return" ∧ a ≠ .word "let" ∧ a ≠ .op "}" := by
  refine ⟨?_, ?_, ?_⟩ <;> rintro rfl <;> simp [startsBlock] at h

theorem startsBlock_cons {a : RTok} {t : List RTok} : startsBlock (a :: t) = startsBlock [a] := by
  cases a <;> rfl

theorem IsWhole.primary {e : Expr} (h : IsWhole retok ety error e) : IsPrimary retok ety error e := by
  obtain ⟨a, l, ht, ha⟩ := h.head
  exact ⟨⟨a, l, ht, (startsBlock_ne ha).1⟩, fun rest _ => h.parse rest⟩

theorem isWhole_cases {e : Expr} {a : Arms} (h : IsExpr retok ety error e) (ha : IsArms retok ety error a) :
    IsWhole retok ety error (.cases e a) := by
  refine ⟨⟨_, _, rfl, by simp [startsBlock]⟩, fun rest => ?_⟩
  refine ((h (.op "{" :: ((a.code retok ety).tokens ++ .op "}" :: rest)) (stop_op (by simp))).and (ha rest)).step
    fun f hf => ?_
  simp only [toks, Expr.code, cat, Code.tokens, List.append_assoc, List.cons_append, List.nil_append] at hf ⊢
  simp [RustSyntax.primary, skip, hf]

theorem isWhole_ifMany {e b : Expr} (h : IsExpr retok ety error e) (hb : IsBlock retok ety error b) :
    IsWhole retok ety error (.ifMany e b) := by
  refine ⟨⟨_, _, rfl, by simp [startsBlock]⟩, fun rest => ?_⟩
  refine ((h (rs!"> 1 {" ++ (toks retok ety b ++ .op "}" :: rest)) (stop_op (by simp))).and (hb rest)).step
    fun f hf => ?_
  simp only [toks, Expr.code, cat, Code.tokens, List.append_assoc, List.cons_append, List.nil_append] at hf ⊢
  simp [RustSyntax.primary, skip, hf]

theorem isWhole_loop {b : Expr} (hb : IsBlock retok ety error b) : IsWhole retok ety error (.loop b) := by
  refine ⟨⟨_, _, rfl, by simp [startsBlock]⟩, fun rest => (hb rest).step fun f hf => ?_⟩
  simp only [toks, Expr.code, cat, Code.tokens, List.append_assoc, List.cons_append, List.nil_append] at hf ⊢
  simp [RustSyntax.primary, skip, hf]

theorem isWhole_debug {b : Expr} (hb : IsBlock retok ety error b) : IsWhole retok ety error (.debug b) := by
  refine ⟨⟨_, _, rfl, by simp [startsBlock]⟩, fun rest => (hb rest).step fun f hf => ?_⟩
  simp only [toks, Expr.code, cat, Code.tokens, List.append_assoc, List.cons_append, List.nil_append] at hf ⊢
  simp [RustSyntax.primary, skip, hf]

theorem isWhole_block {b : Expr} (hb : IsBlock retok ety error b) : IsWhole retok ety error (.block b) := by
  refine ⟨⟨_, _, rfl, by simp [startsBlock]⟩, fun rest => (hb rest).step fun f hf => ?_⟩
  simp only [toks, Expr.code, cat, Code.tokens, List.append_assoc, List.cons_append, List.nil_append] at hf ⊢
  simp [RustSyntax.primary, skip, hf]

theorem isWhole_unreachable : IsWhole retok ety error .unreachable := by
  refine ⟨⟨_, _, rfl, by simp [startsBlock]⟩, fun rest => Ev.always fun f => ?_⟩
  simp [toks, Expr.code, Code.tokens, RustSyntax.primary, skip]

/-- The first token begins neither a block nor a declaration, nor does it end a block. -/
def Plain (retok : String → TokenStream) (ety : Code) (e : Expr) : Prop :=
  ∃ a l, toks retok ety e = a :: l ∧ startsBlock [a] = false ∧ a ≠ .word "let" ∧ a ≠ .op "}"

theorem isBlock_nothing : IsBlock retok ety error .nothing := fun rest => Ev.always fun f => by
  simp [toks, Expr.code, Code.tokens, block]

theorem isBlock_let {isMut : Bool} {x : String} (hx : x ∉ reserved) {e rest : Expr} (h : IsExpr retok ety error e)
    (hr : IsBlock retok ety error rest) : IsBlock retok ety error (.letIn isMut x e rest) := by
  intro t
  refine ((h (.op ";" :: (toks retok ety rest ++ .op "}" :: t)) (stop_op (by simp))).and (hr t)).step fun f hf => ?_
  have hm : x ≠ "mut" := by rintro rfl; exact hx (by decide)
  simp only [toks, Expr.code, cat, Code.tokens, List.append_assoc, List.cons_append, List.nil_append] at hf ⊢
  cases isMut <;> simp [block, skip, ident, hx, Ne.symm hm, hf]

theorem isBlock_seq {e rest : Expr} (hp : Plain retok ety e) (h : IsExpr retok ety error e)
    (hr : IsBlock retok ety error rest) : IsBlock retok ety error (.seq e rest) := by
  intro t
  obtain ⟨a, l, ht, h1, h2, h3⟩ := hp
  refine ((h (.op ";" :: (toks retok ety rest ++ .op "}" :: t)) (stop_op (by simp))).and (hr t)).step fun f hf => ?_
  simp only [toks, Expr.code, cat, Code.tokens, List.append_assoc, List.cons_append, List.nil_append] at hf ht ⊢
  rw [ht, List.cons_append] at hf ⊢
  simp only [block, List.head?_cons, Option.some.injEq, h3, if_false, skip, Ne.symm h2, startsBlock_cons, h1,
    Bool.false_eq_true, hf, Option.bind_eq_bind, Option.bind_some, if_true]

theorem isBlock_tail {e : Expr} (hp : Plain retok ety e) (h : IsExpr retok ety error e) : IsBlock retok ety error e := by
  intro t
  obtain ⟨a, l, ht, h1, h2, h3⟩ := hp
  refine (h (.op "}" :: t) (stop_op (by simp))).step fun f hf => ?_
  rw [ht, List.cons_append] at hf ⊢
  simp [block, List.head?_cons, h3, skip, Ne.symm h2, startsBlock_cons, h1, hf]

theorem isBlock_whole {e : Expr} (h : IsWhole retok ety error e) : IsBlock retok ety error e := by
  intro t
  obtain ⟨a, l, ht, h1⟩ := h.head
  refine (h.parse (.op "}" :: t)).step fun f hf => ?_
  rw [ht, List.cons_append] at hf ⊢
  simp [block, List.head?_cons, (startsBlock_ne h1).2.2, skip, Ne.symm (startsBlock_ne h1).2.1, startsBlock_cons, h1, hf]

theorem isBlock_stmt {e rest : Expr} (h : IsWhole retok ety error e) (hr : IsBlock retok ety error rest)
    (hne : ∃ a l, toks retok ety rest = a :: l ∧ a ≠ .op "}") : IsBlock retok ety error (.stmt e rest) := by
  intro t
  obtain ⟨a, l, ht, h1⟩ := h.head
  obtain ⟨b, l', ht', hb⟩ := hne
  refine ((h.parse (toks retok ety rest ++ .op "}" :: t)).and (hr t)).step fun f hf => ?_
  simp only [toks, Expr.code, cat, Code.tokens, List.append_assoc, List.cons_append, List.nil_append] at hf ht ht' ⊢
  rw [ht, ht', List.cons_append, List.cons_append] at hf
  rw [ht, ht', List.cons_append, List.cons_append]
  simp [block, List.head?_cons, (startsBlock_ne h1).2.2, skip, Ne.symm (startsBlock_ne h1).2.1, startsBlock_cons, h1, hf,
    hb]

/-! ### Arms -/

theorem isArms_nil : IsArms retok ety error .nil := fun rest => Ev.always fun f => by
  simp [Arms.code, Code.tokens, arms]

theorem isArms_block {p : RPat} {e : Expr} {rest : Arms} (hp : IsPat retok p) (h : IsBlock retok ety error e)
    (hr : IsArms retok ety error rest) : IsArms retok ety error (.cons p .block e rest) := by
  intro t
  obtain ⟨a, l, ht, h1, -⟩ := hp.head
  refine ((hp.parse (rs!"=> {" ++ (toks retok ety e ++ .op "}" :: ((rest.code retok ety).tokens ++ .op "}" :: t)))
    ⟨_, _, rfl, by simp⟩).and ((h ((rest.code retok ety).tokens ++ .op "}" :: t)).and (hr t))).step fun f hf => ?_
  simp only [toks, Arms.code, if_true, cat, Code.tokens, List.append_assoc, List.cons_append, List.nil_append] at hf ⊢
  rw [ht, List.cons_append] at hf ⊢
  simp [arms, List.head?_cons, h1, hf, skip]

/-- The first token does not begin a block. -/
def NoBrace (retok : String → TokenStream) (ety : Code) (e : Expr) : Prop :=
  ∃ a l, toks retok ety e = a :: l ∧ a ≠ .op "{"

theorem isArms_comma {p : RPat} {e : Expr} {rest : Arms} (hp : IsPat retok p) (hb : NoBrace retok ety e)
    (h : IsExpr retok ety error e) (hr : IsArms retok ety error rest) :
    IsArms retok ety error (.cons p .comma e rest) := by
  intro t
  obtain ⟨a, l, ht, h1, -⟩ := hp.head
  obtain ⟨b, l', ht', h2⟩ := hb
  refine ((hp.parse (rs!"=>" ++ (toks retok ety e ++ .op "," :: ((rest.code retok ety).tokens ++ .op "}" :: t)))
    ⟨_, _, rfl, by simp⟩).and ((h (.op "," :: ((rest.code retok ety).tokens ++ .op "}" :: t))
    (stop_op (by simp))).and (hr t))).step fun f hf => ?_
  simp only [toks, Arms.code, reduceCtorEq, if_false, cat, Code.tokens, List.append_assoc, List.cons_append, List.nil_append] at hf ht' ⊢
  rw [ht, ht', List.cons_append, List.cons_append] at hf
  rw [ht, ht', List.cons_append, List.cons_append]
  simp [arms, List.head?_cons, h1, hf, skip, Ne.symm h2]

theorem isArms_last {p : RPat} {e : Expr} (hp : IsPat retok p) (hb : NoBrace retok ety e)
    (h : IsExpr retok ety error e) : IsArms retok ety error (.cons p .last e .nil) := by
  intro t
  obtain ⟨a, l, ht, h1, -⟩ := hp.head
  obtain ⟨b, l', ht', h2⟩ := hb
  refine ((hp.parse (rs!"=>" ++ (toks retok ety e ++ .op "}" :: t)) ⟨_, _, rfl, by simp⟩).and
    (h (.op "}" :: t) (stop_op (by simp)))).step fun f hf => ?_
  simp only [toks, Arms.code, reduceCtorEq, if_false, cat, Code.tokens, List.append_assoc, List.cons_append, List.nil_append] at hf ht' ⊢
  rw [ht, ht', List.cons_append, List.cons_append] at hf
  rw [ht, ht', List.cons_append, List.cons_append]
  simp [arms, List.head?_cons, h1, hf, skip, Ne.symm h2]

end

theorem isArms_ofList {retok : String → TokenStream} {ety : Code} {error : RType} {l : List (RPat × Style × Expr)}
    {rest : Arms} (h : ∀ a ∈ l, IsPat retok a.1 ∧ ((a.2.1 = .comma ∧ NoBrace retok ety a.2.2 ∧
      IsExpr retok ety error a.2.2) ∨ (a.2.1 = .block ∧ IsBlock retok ety error a.2.2)))
    (hr : IsArms retok ety error rest) : IsArms retok ety error (.ofList l rest) := by
  induction l with
  | nil => exact hr
  | cons a l ih =>
    obtain ⟨p, style, e⟩ := a
    have hl := ih fun a ha => h a (by simp [ha])
    obtain ⟨hp, ⟨h1, h2, h3⟩ | ⟨h1, h2⟩⟩ := h (p, style, e) (by simp)
    · cases h1
      exact isArms_comma hp h2 h3 hl
    · cases h1
      exact isArms_block hp h2 hl

/-! ### Generated code -/

theorem name_of_take {x : String} {n : Nat} {l : List Char} (hx : x.toList.take n = l)
    (h : (reserved ++ ["Some", "None", "Ok", "Err"]).all (fun y => y.toList.take n != l) = true) : Name x := by
  rw [List.all_eq_true] at h
  constructor <;> intro hm
  · have := h x (List.mem_append_left _ hm)
    simp [hx] at this
  · have := h x (List.mem_append_right _ hm)
    simp [hx] at this

theorem name_bound {i : Nat} : Name (boundVariable i) := by
  refine name_of_take (n := 3) (l := ['_', '_', 'v']) ?_ (by decide +kernel)
  unfold boundVariable
  rw [String.toList_append]
  rfl

theorem name_prefixed {x : String} : Name (prefixed x) := by
  refine name_of_take (n := 3) (l := ['_', '_', 'p']) ?_ (by decide +kernel)
  unfold prefixed
  rw [String.toList_append]
  rfl

theorem name_function {s : Nat} : Name (functionName s) := by
  refine name_of_take (n := 3) (l := ['p', 'a', 'r']) ?_ (by decide +kernel)
  unfold functionName
  rw [String.toList_append]
  rfl

theorem name_variant {s : Nat} : variantName s ∉ reserved := by
  have hx : (variantName s).toList.take 1 = ['S'] := by
    unfold variantName
    rw [String.toList_append]
    rfl
  intro h
  have hall : reserved.all (fun y => y.toList.take 1 != ['S'] || y == "Self") = true := by decide +kernel
  have := List.all_eq_true.mp hall _ h
  simp only [hx, bne_self_eq_false, Bool.false_or, beq_iff_eq] at this
  have h2 := congrArg String.toList this
  unfold variantName at h2
  rw [String.toList_append, Nat.toList_repr] at h2
  have h3 : Nat.toDigits 10 s = ['e', 'l', 'f'] := by simpa using h2
  have hd : ∀ c ∈ Nat.toDigits 10 s, c.isDigit = true := fun c hc => Nat.isDigit_of_mem_toDigits (by omega) (by omega) hc
  have := hd 'e' (by rw [h3]; simp)
  simp at this

theorem name_enum {gi : GrammarInfo} : Name (enumName gi) := by
  have hlen : 9 ≤ (enumName gi).length := by
    unfold enumName
    rw [String.length_append]
    have : "DfaStates".length = 9 := by decide +kernel
    omega
  have h : (reserved ++ ["Some", "None", "Ok", "Err"]).all (fun y => decide (y.length < 9)) = true := by decide +kernel
  rw [List.all_eq_true] at h
  constructor <;> intro hm
  · have := h _ (List.mem_append_left _ hm)
    simp at this
    omega
  · have := h _ (List.mem_append_right _ hm)
    simp at this
    omega

theorem name_lit {x : String} (h : (decide (x ∉ reserved) && decide (x ∉ ["Some", "None", "Ok", "Err"])) = true) :
    Name x := by simpa [Name] using h

section
variable {gi : GrammarInfo} {retok : String → TokenStream}

/-- The type of errors. -/
def errType (gi : GrammarInfo) : RType :=
  match gi.errorType with
  | some ty => .user ty
  | none => .path ["parser_generator", "error", "NoUserErrorType"]

theorem isType_error : IsType (errorType gi) (errType gi) := by
  intro s t hs
  unfold errorType errType
  cases gi.errorType with
  | some ty => simp [Code.tokens, type]
  | none => simp [Code.tokens, type, segments, segments_stop, hs]

/-- A type, or `()`. -/
def typeOrUnit' : Option TokenStream → RType
  | some ty => .user ty
  | none => .unit

theorem isType_unit {ty : Option TokenStream} : IsType (typeOrUnit ty) (typeOrUnit' ty) := by
  intro s t _
  cases ty with
  | some ty => simp [typeOrUnit, typeOrUnit', Code.tokens, type]
  | none => simp [typeOrUnit, typeOrUnit', Code.tokens, type, skip]

local notation "isExpr" => IsExpr retok (errorType gi) (errType gi)
local notation "isUnary" => IsUnary retok (errorType gi) (errType gi)
local notation "isPrimary" => IsPrimary retok (errorType gi) (errType gi)
local notation "isBlock" => IsBlock retok (errorType gi) (errType gi)
local notation "isWhole" => IsWhole retok (errorType gi) (errType gi)
local notation "isArms" => IsArms retok (errorType gi) (errType gi)

theorem conOk_state {s : Nat} : ConOk (stateName gi s) := name_enum

theorem read_stateMatcher {s : Nat} : IsNoAlt retok (stateMatcher gi s) := isNoAlt_rest conOk_state

theorem name_wildcard : Name wildcardVar := name_lit (by decide +kernel)
theorem name_peeked : Name peekedVal := name_lit (by decide +kernel)

theorem read_pattern {named : Bool} {p : Pat} : IsNoAlt retok (Emit.pattern gi named p) := by
  cases p with
  | lit text => exact isNoAlt_con (by trivial) (isNoAlt_ref (isNoAlt_atom (by simp))).pat
  | unit v => exact isNoAlt_con (by trivial) (isNoAlt_ref (isNoAlt_atom (by simp))).pat
  | any v =>
    cases named
    · exact isNoAlt_con (by trivial) (isNoAlt_rest (by trivial)).pat
    · exact isNoAlt_con (by trivial) (isNoAlt_con (by trivial) (isNoAlt_var name_wildcard).pat).pat
  | data v text =>
    cases named
    · exact isNoAlt_con (by trivial) (isNoAlt_ref (isNoAlt_con (by trivial) isNoAlt_user.pat)).pat
    · exact isNoAlt_con (by trivial) (isNoAlt_ref (isNoAlt_con (by trivial) (isNoAlt_named name_wildcard.1 isNoAlt_user).pat)).pat

theorem read_matcher {named : Bool} {m : Matcher} : IsNoAlt retok (matcher gi named m) := by
  cases m with
  | token p => exact read_pattern
  | eos => exact isNoAlt_atom (by simp)

theorem read_state : isPrimary Emit.state := isPrimary_var name_prefixed

theorem read_tokenExpr {e : TokExpr} : isPrimary (tokenExpr gi e) := by
  cases e with
  | lit text => exact isPrimary_atom (by simp)
  | unit v => exact isPrimary_atom (by simp)
  | data v => exact isPrimary_con (by trivial) (isUnary_call0 (isPrimary_var name_wildcard).unary).expr

theorem read_constructor {ctor : Ctor} : isUnary (constructor ctor) := by
  cases ctor with
  | provided rule body => exact isUnary_question (isPrimary_closure isType_error).unary
  | tryInto rule =>
    refine (isWhole_block (isBlock_tail ?_ (isUnary_question (isUnary_convert
      (isPrimary_var name_bound).unary)).expr)).primary.unary
    exact ⟨.word (boundVariable 0), _, rfl, by decide +kernel, by decide +kernel, by simp⟩
  | unit => exact isPrimary_unit.unary

theorem read_unreachable : isArms unreachableArm :=
  isArms_last isNoAlt_wild.pat ⟨_, _, rfl, by simp⟩ isWhole_unreachable.primary.expr

theorem head_state {e : Expr} {l : List RTok} (h : toks retok (errorType gi) e = .word (prefixed "state") :: l) :
    Plain retok (errorType gi) e := ⟨_, l, h, by decide +kernel, by decide +kernel, by simp⟩

theorem name_v : Name "v" := name_lit (by decide +kernel)

theorem read_pops {body : Expr} (hb : isBlock body) {l : List PopStep} : isBlock (pops gi body l) := by
  induction l with
  | nil => exact hb
  | cons pop l ih =>
    refine isBlock_let name_bound.1 (isWhole_cases (isUnary_call0 read_state.unary).expr
      (isArms_ofList ?_ read_unreachable)).primary.expr ih
    intro a ha
    obtain ⟨s, -, rfl⟩ := List.mem_map.mp ha
    refine ⟨(isNoAlt_con conOk_state ?_).pat, .inl ⟨rfl, ⟨_, _, rfl, by simp⟩, (isPrimary_var name_v).expr⟩⟩
    cases pop.variant with
    | none => exact (isNoAlt_var name_v).pat
    | some v => exact (isNoAlt_con (by trivial) (isNoAlt_var name_v).pat).pat

theorem name_constructed : Name "__constructed" := name_lit (by decide +kernel)

theorem read_goto {ctor : Ctor} {rest : Expr} (hr : isBlock rest)
    (hne : ∃ a l, toks retok (errorType gi) rest = a :: l ∧ a ≠ .op "}") {goto : GotoCode}
    (hg : ∀ arms, goto = .select arms → ∀ a ∈ arms, a.2 ≠ []) : isBlock (gotoCode gi ctor rest goto) := by
  cases goto with
  | direct next =>
    exact isBlock_seq (head_state rfl)
      (isUnary_push read_state.unary (isPrimary_con conOk_state read_constructor.expr).expr).expr hr
  | select arms =>
    refine isBlock_let name_constructed.1 read_constructor.expr (isBlock_stmt (isWhole_cases
      (isUnary_call0 read_state.unary).expr (isArms_ofList ?_ read_unreachable)) hr hne)
    intro a ha
    obtain ⟨arm, harm, rfl⟩ := List.mem_map.mp ha
    refine ⟨IsPat.anyOf (by simpa using hg arms rfl arm harm) ?_, .inl ⟨rfl, ⟨_, _, rfl, by simp⟩,
      (isUnary_push read_state.unary (isPrimary_con conOk_state (isPrimary_var name_constructed).expr).expr).expr⟩⟩
    intro p hp
    obtain ⟨s, -, rfl⟩ := List.mem_map.mp hp
    exact read_stateMatcher

theorem plain_word {e : Expr} {x : String} {l : List RTok} (h : toks retok (errorType gi) e = .word x :: l)
    (hx : (startsBlock [.word x] || decide (x = "let")) = false) : Plain retok (errorType gi) e := by
  simp only [Bool.or_eq_false_iff, decide_eq_false_iff_not] at hx
  exact ⟨_, l, h, hx.1, by simpa using hx.2, by simp⟩

theorem read_reduceArm {arm : ReduceArm} (hm : arm.matchers ≠ [])
    (hg : ∀ arms, arm.goto = .select arms → ∀ a ∈ arms, a.2 ≠ []) :
    IsPat retok (reduceArm gi arm).1 ∧ (reduceArm gi arm).2.1 = .block ∧ isBlock (reduceArm gi arm).2.2 := by
  refine ⟨IsPat.anyOf (by simpa using hm) ?_, rfl, read_pops (read_goto ?_ ⟨_, _, rfl, by simp⟩ hg)⟩
  · intro p hp
    obtain ⟨m, -, rfl⟩ := List.mem_map.mp hp
    exact read_matcher
  · exact isBlock_seq (plain_word rfl (by decide +kernel))
      (isExpr_ret (isPrimary_con (by trivial) (isPrimary_atom (by simp)).expr).expr) isBlock_nothing

theorem read_acceptArm {arm : AcceptArm} : IsPat retok (Emit.acceptArm gi arm).1 ∧
    (Emit.acceptArm gi arm).2.1 = .block ∧ isBlock (Emit.acceptArm gi arm).2.2 := by
  refine ⟨read_matcher.pat, rfl, read_pops (isBlock_seq (head_state rfl) (isUnary_call0 read_state.unary).expr
    (isBlock_seq (plain_word rfl (by decide +kernel)) (isExpr_ret (isPrimary_con (by trivial)
      (isPrimary_con (by trivial) read_constructor.expr).expr).expr) isBlock_nothing))⟩

theorem read_peekNext : isExpr peekNext := by
  have ht : Name "token" := name_lit (by decide +kernel)
  have he : Name "err" := name_lit (by decide +kernel)
  refine (isUnary_question (isUnary_call0 (isUnary_map ht.1 (isUnary_call0 (isUnary_call0 read_state.unary))
    (isWhole_cases (isPrimary_var ht).expr (isArms_comma (isNoAlt_con (by trivial) (isNoAlt_var ht).pat).pat
      ⟨_, _, rfl, by simp⟩ (isPrimary_con (by trivial) (isUnary_call0 (isPrimary_var ht).unary).expr).expr
      (isArms_comma (isNoAlt_con (by trivial) (isNoAlt_var he).pat).pat ⟨_, _, rfl, by simp⟩
        (isPrimary_con (by trivial) (isUnary_call0 (isUnary_call0 (isPrimary_var he).unary)).expr).expr
        isArms_nil))).primary.expr))).expr

theorem read_sum {l : List Expr} (hl : l ≠ []) (h : ∀ e ∈ l, isPrimary e) : isExpr (sum l) := by
  have hfold : ∀ (l : List Expr) (e : Expr), IsSum retok (errorType gi) (errType gi) e → (∀ e ∈ l, isPrimary e) →
      IsSum retok (errorType gi) (errType gi) (l.foldl .add e) := by
    intro l
    induction l with
    | nil => exact fun e he _ => he
    | cons a l ih => exact fun e he h => ih _ (he.add (h a (by simp)).unary) fun x hx => h x (by simp [hx])
  cases l with
  | nil => exact absurd rfl hl
  | cons a l => exact (hfold l a (h a (by simp)).unary.sum fun x hx => h x (by simp [hx])).expr

theorem read_overlap {rest : Expr} (hr : isBlock rest)
    (hne : ∃ a l, toks retok (errorType gi) rest = a :: l ∧ a ≠ .op "}") {ms : List Matcher} :
    isBlock (overlapCheck gi rest ms) := by
  unfold overlapCheck
  split
  · exact hr
  · rename_i hms
    have hc : Name "count_matches" := name_lit (by decide +kernel)
    refine isBlock_stmt (isWhole_debug (isBlock_let hc.1 (read_sum (by simpa using hms) ?_) (isBlock_whole
      (isWhole_ifMany (isPrimary_var hc).expr (isBlock_seq (plain_word rfl (by decide +kernel)) (isExpr_ret
        (isPrimary_con (by trivial) (isPrimary_overlapping (isPrimary_var name_peeked).expr).expr).expr)
        isBlock_nothing))))) hr hne
    intro e he
    obtain ⟨m, -, rfl⟩ := List.mem_map.mp he
    exact isPrimary_count (isPrimary_var name_peeked).expr read_matcher.pat

theorem read_returnErr : isArms returnErr := by
  have hp : Name "peeked_token" := name_lit (by decide +kernel)
  refine isArms_comma (isNoAlt_con (by trivial) (isNoAlt_var hp).pat).pat ⟨_, _, rfl, by simp⟩ (isExpr_ret (isPrimary_con
    (by trivial) (isPrimary_parseError (isPrimary_con (by trivial) (isUnary_call0 (isPrimary_var hp).unary).expr).expr).expr).expr)
    (isArms_comma (isNoAlt_atom (by simp)).pat ⟨_, _, rfl, by simp⟩ (isExpr_ret (isPrimary_con (by trivial)
      (isPrimary_parseError (isPrimary_atom (by simp)).expr).expr).expr) isArms_nil)

theorem read_actions {code : StateCode} (hs : StateCode.Sound code) : isBlock (actions gi code) := by
  have harms : isArms (.ofList (code.reduces.map (reduceArm gi)) (.ofList (code.accept.toList.map
      (Emit.acceptArm gi)) returnErr)) := by
    refine isArms_ofList ?_ (isArms_ofList ?_ read_returnErr)
    · intro a ha
      obtain ⟨arm, harm, rfl⟩ := List.mem_map.mp ha
      obtain ⟨h1, h2⟩ := read_reduceArm (gi := gi) (retok := retok) (hs.matchers arm harm) (hs.gotos arm harm)
      exact ⟨h1, .inr h2⟩
    · intro a ha
      obtain ⟨arm, -, rfl⟩ := List.mem_map.mp ha
      obtain ⟨h1, h2⟩ := read_acceptArm (gi := gi) (retok := retok) (arm := arm)
      exact ⟨h1, .inr h2⟩
  unfold actions
  refine isBlock_let name_peeked.1 read_peekNext (read_overlap ?_ ?_)
  · split
    · exact isBlock_whole (isWhole_cases (isPrimary_var name_peeked).expr harms)
    · have hn : Name "next_state" := name_lit (by decide +kernel)
      refine isBlock_let hn.1 (isWhole_cases (isPrimary_var name_peeked).expr (isArms_ofList ?_ harms)).primary.expr
        (isBlock_seq (head_state rfl) (isUnary_call0 (isUnary_call0 read_state.unary)).expr (isBlock_seq (head_state rfl)
          (isUnary_push read_state.unary (isPrimary_var hn).expr).expr (isBlock_tail (plain_word rfl (by decide +kernel))
            (isPrimary_con (by trivial) (isPrimary_atom (by simp)).expr).expr)))
      intro a ha
      obtain ⟨arm, -, rfl⟩ := List.mem_map.mp ha
      exact ⟨read_matcher.pat, .inl ⟨rfl, ⟨_, _, rfl, by simp⟩, (isPrimary_con conOk_state read_tokenExpr.expr).expr⟩⟩
  · split <;> exact ⟨_, _, rfl, by simp⟩

theorem read_parseLoop {n : Nat} : isBlock (parseLoop gi n) := by
  have hs : Name "state" := name_lit (by decide +kernel)
  have ha : Name "action" := name_lit (by decide +kernel)
  have hr : Name "result" := name_lit (by decide +kernel)
  refine isBlock_let hs.1 (isPrimary_newState (isUnary_call0 (isPrimary_var name_prefixed).unary).expr (isPrimary_con
    conOk_state isPrimary_unit.expr).expr).expr (isBlock_whole (isWhole_loop (isBlock_let ha.1 (isUnary_question
      (isWhole_cases (isUnary_call0 (isPrimary_var hs).unary).expr (isArms_ofList ?_ isArms_nil)).primary.unary).expr
      (isBlock_whole (isWhole_cases (isPrimary_var ha).expr (isArms_comma
        (isNoAlt_con (by trivial) (isNoAlt_var hr).pat).pat ⟨_, _, rfl, by simp⟩ (isExpr_ret (isPrimary_con (by trivial)
          (isPrimary_var hr).expr).expr) (isArms_block (isNoAlt_atom (by simp)).pat isBlock_nothing isArms_nil)))))))
  intro a ha
  obtain ⟨s, -, rfl⟩ := List.mem_map.mp ha
  exact ⟨read_stateMatcher.pat, .inl ⟨rfl, ⟨_, _, rfl, by simp⟩, (isPrimary_call name_function (isPrimary_var hs).expr).expr⟩⟩

end
end Verif.RustSyntax
