import Verif.Spec.Check
import Verif.Proof.RustItem
import Verif.Proof.Patterns

/-!
# Checking generated code
-/

set_option linter.unusedSectionVars false
set_option autoImplicit false

namespace Verif
open Spec Rust RustSyntax Emit

/-- Nodes have one type. -/
theorem Spec.NodeTy.det' {gi : GrammarInfo} {n : ANode} {τ τ' : Ty} (h : NodeTy gi n τ) (h' : NodeTy gi n τ') :
    τ = τ' := by
  cases h with
  | label h1 => cases h' with | label h2 => rw [h1] at h2; cases h2; rfl
  | token => cases h' with
    | token => rfl
    | data h2 => exact absurd rfl h2
  | data h1 => cases h' with
    | token => exact absurd rfl h1
    | data => rfl

namespace Rust

/-! ### Types -/

theorem CTy.join_self : ∀ t : CTy, t.join t = some t
  | .option t => by simp [CTy.join, join_self t]
  | .result t e => by simp [CTy.join, join_self t, join_self e]
  | .control t => by simp [CTy.join, join_self t]
  | .ref t => by simp [CTy.join, join_self t]
  | .hole => rfl
  | .unit => rfl
  | .usize => rfl
  | .user _ => by simp [CTy.join]
  | .path _ => by simp [CTy.join]
  | .data _ => by simp [CTy.join]
  | .states => rfl
  | .refMut _ => by simp [CTy.join]
  | .parserError => rfl
  | .owner => rfl
  | .streamError => rfl
  | .input => rfl
  | .iter => rfl
  | .parserState => rfl
  | .parserStream => rfl

theorem CTy.fits_self (t : CTy) : t.fits t = true := by simp [CTy.fits, join_self]

theorem CTy.hole_join (t : CTy) : CTy.hole.join t = some t := by cases t <;> rfl

theorem CTy.join_hole (t : CTy) : t.join .hole = some t := by cases t <;> rfl

theorem CTy.hole_fits (t : CTy) : CTy.hole.fits t = true := by simp [CTy.fits, hole_join]

theorem code_known (τ : Ty) : τ.code.known = true := by rcases τ with (_ | _) | _ <;> rfl

theorem code_shares (τ : Ty) : τ.code.shares = false := by rcases τ with (_ | _) | _ <;> rfl

theorem code_excludes (τ : Ty) : τ.code.excludes = false := by rcases τ with (_ | _) | _ <;> rfl

theorem ofType_code (ty : Option TokenStream) : CTy.ofType (typeOrUnit' ty) = (Ty.plain ty).code := by cases ty <;> rfl

theorem tokenTy_code (gi : GrammarInfo) : (Ty.plain (tokenTy gi)).code = .user (tokenType gi) := rfl

/-! ### Variables -/

namespace Vars

theorem lookup_mark {x y : String} {st : Status} {Γ : Vars} :
    (mark x st Γ).lookup y = if x = y then (Γ.lookup y).map fun s => { s with status := st } else Γ.lookup y := by
  induction Γ with
  | nil => simp [mark]
  | cons p Γ ih =>
    obtain ⟨z, s⟩ := p
    by_cases hxz : x = z
    · subst hxz
      by_cases hxy : x = y
      · subst hxy
        simp [mark]
      · have : ¬ y = x := fun h => hxy h.symm
        simp only [mark, if_true, List.lookup_cons, show (y == x) = false by simpa using this, if_neg hxy]
    · simp only [mark, if_neg hxz, List.lookup_cons]
      by_cases hyz : y = z
      · subst hyz
        simp [hxz]
      · simp only [show (y == z) = false by simpa using hyz, ih]

theorem lookup_map {f : String → Slot → Slot} {x : String} {Γ : Vars} :
    List.lookup x (Γ.map fun p => (p.1, f p.1 p.2)) = (Γ.lookup x).map (f x) := by
  induction Γ with
  | nil => rfl
  | cons p Γ ih =>
    obtain ⟨z, s⟩ := p
    simp only [List.map_cons, List.lookup_cons]
    by_cases h : x = z
    · subst h
      simp
    · simp only [show (x == z) = false by simpa using h, ih]

theorem lookup_disturb {isMut : Bool} {x : String} {Γ : Vars} : (disturb isMut Γ).lookup x = (Γ.lookup x).map fun s =>
    if s.status = .ready && (s.ty.excludes || (isMut && s.ty.shares)) then { s with status := .stale } else s :=
  lookup_map (f := fun _ s =>
    if s.status = .ready && (s.ty.excludes || (isMut && s.ty.shares)) then { s with status := .stale } else s)

theorem lookup_spend {x : String} {Γ : Vars} : (spend Γ).lookup x = (Γ.lookup x).map fun s =>
    if isBound x then { s with status := .moved } else s :=
  lookup_map (f := fun x s => if isBound x then { s with status := .moved } else s)

/-- The variables `__v..` are there, and are not references. -/
def Whole (Γ : Vars) : Prop := ∀ p ∈ Γ, isBound p.1 = true →
  p.2.status = .ready ∧ p.2.ty.excludes = false ∧ p.2.ty.shares = false

theorem Whole.whole {Γ : Vars} (h : Γ.Whole) : Γ.whole = true := by
  rw [Vars.whole, List.all_eq_true]
  rintro ⟨x, s⟩ hp
  cases hx : isBound x with
  | false => simp [hx]
  | true => have h1 : s.status = .ready := (h _ hp hx).1; simp [h1]

theorem Whole.disturb {Γ : Vars} (h : Γ.Whole) (isMut : Bool) : (Γ.disturb isMut).Whole := by
  intro p hp hx
  obtain ⟨q, hq, rfl⟩ := List.mem_map.mp hp
  obtain ⟨h1, h2, h3⟩ := h q hq hx
  simp [h1, h2, h3]

theorem Whole.mark {Γ : Vars} (h : Γ.Whole) {x : String} (hx : isBound x = false) (st : Status) : (mark x st Γ).Whole := by
  induction Γ with
  | nil => exact h
  | cons q Γ ih =>
    obtain ⟨y, s⟩ := q
    simp only [Vars.mark]
    split
    · rename_i hxy
      subst hxy
      intro p hp hb
      rcases List.mem_cons.mp hp with rfl | hp
      · rw [hx] at hb
        cases hb
      · exact h p (List.mem_cons_of_mem _ hp) hb
    · intro p hp hb
      rcases List.mem_cons.mp hp with rfl | hp
      · exact h _ (by simp) hb
      · exact ih (fun p hp => h p (List.mem_cons_of_mem _ hp)) p hp hb

theorem Whole.cons {Γ : Vars} (h : Γ.Whole) {x : String} {s : Slot} (hx : isBound x = false) : Whole ((x, s) :: Γ) := by
  intro p hp hb
  rcases List.mem_cons.mp hp with rfl | hp
  · rw [hx] at hb
    cases hb
  · exact h p hp hb

theorem Whole.bind {Γ : Vars} (h : Γ.Whole) {x : String} {t : CTy} {m : Bool} (h1 : t.excludes = false)
    (h2 : t.shares = false) : Whole ((x, ⟨t, m, .ready⟩) :: Γ) := by
  intro p hp hb
  rcases List.mem_cons.mp hp with rfl | hp
  · exact ⟨rfl, h1, h2⟩
  · exact h p hp hb

theorem isBound_false {x : String} : isBound x = false ↔ x.toList.take 3 ≠ ['_', '_', 'v'] := by
  simp [isBound]

theorem merge_self : ∀ Γ : Vars, Γ.merge Γ = some Γ
  | [] => rfl
  | (x, s) :: Γ => by
    have : s.status.worst s.status = s.status := by cases s.status <;> rfl
    simp [merge, merge_self Γ, this]

theorem mark_length {x : String} {st : Status} {Γ : Vars} : (mark x st Γ).length = Γ.length := by
  induction Γ with
  | nil => rfl
  | cons p Γ ih =>
    simp only [mark]
    split <;> simp [ih]

/-- A variable that can be used. -/
def Ready (Γ : Vars) (x : String) (t : CTy) : Prop := ∃ isMut, Γ.lookup x = some ⟨t, isMut, .ready⟩

theorem Ready.mark {Γ : Vars} {x y : String} {t : CTy} {st : Status} (h : Γ.Ready x t) (hne : y ≠ x) :
    (mark y st Γ).Ready x t := by
  obtain ⟨m, h⟩ := h
  exact ⟨m, by rw [lookup_mark, if_neg hne, h]⟩

theorem Ready.disturb {Γ : Vars} {x : String} {t : CTy} {isMut : Bool} (h : Γ.Ready x t) (h1 : t.excludes = false)
    (h2 : t.shares = false ∨ isMut = false) : (disturb isMut Γ).Ready x t := by
  obtain ⟨m, h⟩ := h
  refine ⟨m, ?_⟩
  rw [lookup_disturb, h]
  rcases h2 with h2 | h2 <;> simp [h1, h2]

theorem Ready.cons {Γ : Vars} {x y : String} {t : CTy} {s : Slot} (h : Γ.Ready x t) (hne : x ≠ y) :
    Ready ((y, s) :: Γ) x t := by
  obtain ⟨m, h⟩ := h
  refine ⟨m, ?_⟩
  rw [List.lookup_cons, show (x == y) = false by simpa using hne]
  exact h

theorem ready_head {Γ : Vars} {x : String} {t : CTy} {m : Bool} : Ready ((x, ⟨t, m, .ready⟩) :: Γ) x t :=
  ⟨m, by simp⟩

theorem Ready.spend {Γ : Vars} {x : String} {t : CTy} (h : Γ.Ready x t) (hx : x.toList.take 3 ≠ ['_', '_', 'v']) :
    (spend Γ).Ready x t := by
  obtain ⟨m, h⟩ := h
  exact ⟨m, by rw [lookup_spend, h]; simp only [Option.map_some, isBound_false.mpr hx, Bool.false_eq_true, if_false]⟩

theorem Ready.env {Γ : Vars} {i : Nat} {t : CTy} (h : Γ.Ready (boundVariable i) t) : Γ.env i = some t := by
  obtain ⟨m, h⟩ := h
  simp [Vars.env, h]

theorem Ready.use {Γ : Vars} {x : String} {t : CTy} (h : Γ.Ready x t) :
    Γ.use x = some (t, if t.copy then Γ else Γ.mark x .moved) := by
  obtain ⟨m, h⟩ := h
  simp [Vars.use, h]

/-- The parser's state can be used. -/
abbrev HasState (Γ : Vars) : Prop := Γ.Ready (prefixed "state") (.refMut .parserState)

theorem HasState.isParser {Γ : Vars} (h : Γ.HasState) (isMut : Bool) : Γ.isParser isMut (prefixed "state") = true := by
  obtain ⟨m, h⟩ := h
  simp [Vars.isParser, h]

theorem HasState.access {Γ : Vars} (h : Γ.HasState) (isMut : Bool) :
    Γ.access isMut (prefixed "state") = some (Γ.disturb isMut) := by
  simp [Vars.access, h.isParser]

theorem HasState.disturb {Γ : Vars} (h : Γ.HasState) (isMut : Bool) : (Γ.disturb isMut).HasState :=
  Ready.disturb h rfl (.inl rfl)

theorem remark {Γ : Vars} (h : Γ.HasState) {Δ : Vars} (hΔ : Δ.lookup (prefixed "state") =
    (Γ.mark (prefixed "state") .moved).lookup (prefixed "state")) : (Δ.mark (prefixed "state") .ready).HasState := by
  obtain ⟨m, h⟩ := h
  refine ⟨m, ?_⟩
  rw [lookup_mark, if_pos rfl, hΔ, lookup_mark, if_pos rfl, h]
  rfl

end Vars

open Vars

/-! ### Match arms -/

section
variable {D : Decls} {debug : Bool} {ret : Option CTy}

theorem either_self {t : CTy} {Γ : Vars} : either (some (t, some Γ)) (some (t, some Γ)) = some (t, some Γ) := by
  simp [either, CTy.join_self, merge_self]

theorem either_never {r : CTy × Option Vars} : either (some (.hole, none)) (some r) = some r := by
  obtain ⟨t, o⟩ := r
  simp [either, CTy.hole_join]

theorem never_either {r : CTy × Option Vars} : either (some r) (some (.hole, none)) = some r := by
  obtain ⟨t, _ | Γ⟩ := r <;> simp [either, CTy.join_hole]

/-- Arms that do not come back. -/
theorem check_never {α : Type} {f : α → RPat × Style × Expr} {l : List α} {rest : Arms} {t : CTy} {Γ : Vars}
    {r : CTy × Option Vars}
    (hl : ∀ a ∈ l, ∃ b, (f a).1.check D .move t = some b ∧
      (f a).2.2.check D debug ret (fresh b ++ Γ) = some (.hole, none))
    (hr : rest.check D debug ret t Γ = some r) :
    (Arms.ofList (l.map f) rest).check D debug ret t Γ = some r := by
  induction l with
  | nil => exact hr
  | cons a l ih =>
    obtain ⟨b, h1, h2⟩ := hl a (by simp)
    have := ih fun a ha => hl a (List.mem_cons_of_mem _ ha)
    simp only [Arms.ofList] at this
    simp only [List.map_cons, Arms.ofList, List.foldr_cons, Arms.check, h1, h2, this, leave, Option.map_some, Option.map_none,
      either_never]

/-- Arms that all end alike. -/
theorem check_alike {α : Type} {f : α → RPat × Style × Expr} {l : List α} {rest : Arms} {t u : CTy} {Γ Δ : Vars}
    (hne : l ≠ [])
    (hl : ∀ a ∈ l, ∃ b, (f a).1.check D .move t = some b ∧
      leave b.length ((f a).2.2.check D debug ret (fresh b ++ Γ)) = some (u, some Δ))
    (hr : rest.check D debug ret t Γ = some (.hole, none)) :
    (Arms.ofList (l.map f) rest).check D debug ret t Γ = some (u, some Δ) := by
  induction l with
  | nil => exact absurd rfl hne
  | cons a l ih =>
    obtain ⟨b, h1, h2⟩ := hl a (by simp)
    have ih' := ih
    simp only [Arms.ofList] at ih
    simp only [List.map_cons, Arms.ofList, List.foldr_cons, Arms.check, h1, h2]
    cases l with
    | nil =>
      simp only [List.map_nil, List.foldr_nil]
      rw [hr, never_either]
    | cons a' l =>
      rw [ih (by simp) fun a ha => hl a (List.mem_cons_of_mem _ ha), either_self]

theorem pats_ofList {l : List (RPat × Style × Expr)} {rest : Arms} :
    (Arms.ofList l rest).pats = l.map Prod.fst ++ rest.pats := by
  induction l with
  | nil => rfl
  | cons a l ih =>
    simp only [Arms.ofList] at ih
    simp [Arms.ofList, Arms.pats, ih]

theorem exhaustive_total {t : CTy} {ps : List RPat} {p : RPat} (hp : p ∈ ps) (ht : p = .wild ∨ ∃ x, p = .var x) :
    exhaustive D t ps = true := by
  have : (ps.flatMap RPat.alternatives).any RPat.total = true := by
    rw [List.any_eq_true]
    refine ⟨p, List.mem_flatMap.mpr ⟨p, hp, ?_⟩, ?_⟩
    · rcases ht with rfl | ⟨x, rfl⟩ <;> simp [RPat.alternatives]
    · rcases ht with rfl | ⟨x, rfl⟩ <;> rfl
  simp [exhaustive, this]

theorem check_unreachable {t : CTy} {Γ : Vars} :
    unreachableArm.check D debug ret t Γ = some (.hole, none) := rfl

end

/-! ### What is declared by a generated parser -/

/-- The declarations of a parser. -/
def declsOf (gi : GrammarInfo) (prog : Program) (u : UserDecls) : Decls where
  token := tokenType gi
  error := .ofType (errType gi)
  value := .ofType (typeOrUnit' prog.resultType)
  enum := enumName gi
  variants := (prog.stateTypes.zipIdx.map fun p => (variantName p.2, typeOrUnit' p.1)).map fun v => (v.1, .ofType v.2)
  functions := (Emit.functions gi prog).map Prod.fst
  user := u

section
variable {gi : GrammarInfo} {prog : Program} {u : UserDecls} {debug : Bool} {ret : Option CTy} {Γ : Vars}

theorem lookup_variants {l : List (Option TokenStream)} {k s : Nat} :
    (((l.zipIdx k).map fun p => (variantName p.2, typeOrUnit' p.1)).map fun v => (v.1, CTy.ofType v.2)).lookup
      (variantName (k + s)) = (l[s]?).map fun ty => (Ty.plain ty).code := by
  induction l generalizing k s with
  | nil => simp
  | cons a l ih =>
    simp only [List.zipIdx_cons, List.map_cons, List.lookup_cons]
    cases s with
    | zero => simp [ofType_code]
    | succ s =>
      have : ¬ variantName (k + (s + 1)) = variantName k := fun h => by have := variantName_inj h; omega
      rw [show (variantName (k + (s + 1)) == variantName k) = false by simpa using this]
      simp only [List.getElem?_cons_succ]
      rw [← ih (k := k + 1), show k + (s + 1) = k + 1 + s by omega]

theorem variant_type {s : Nat} : (declsOf gi prog u).variants.lookup (variantName s) =
    (prog.stateTypes[s]?).map fun ty => (Ty.plain ty).code := by
  have := lookup_variants (l := prog.stateTypes) (k := 0) (s := s)
  rwa [Nat.zero_add] at this

theorem stateName_ty {s : Nat} {ty : Option TokenStream} (h : prog.stateTypes[s]? = some ty) :
    (stateName gi s).ty (declsOf gi prog u) (Ty.plain ty).code = some .states := by
  simp only [stateName, Con.ty]
  rw [if_pos (show enumName gi = (declsOf gi prog u).enum from rfl), variant_type, h]
  simp [CTy.fits_self]

theorem stateName_fieldTy {s : Nat} {ty : Option TokenStream} (h : prog.stateTypes[s]? = some ty) :
    (stateName gi s).fieldTy (declsOf gi prog u) .states = some (Ty.plain ty).code := by
  simp only [stateName, Con.fieldTy]
  rw [if_pos (show enumName gi = (declsOf gi prog u).enum from rfl), variant_type, h]
  rfl

/-! ### Patterns -/

/-- What is known of the matchers of a parser. -/
inductive MatcherFits (gi : GrammarInfo) (u : UserDecls) : Matcher → Prop
  | eos : MatcherFits gi u .eos
  | lit {x : String} : u.literal x = true → MatcherFits gi u (.token (.lit x))
  | unit {x : String} : u.unitVariant x = true → MatcherFits gi u (.token (.unit x))
  | any {x : String} : u.dataVariant x = true → MatcherFits gi u (.token (.any x))
  | data {x text : String} : u.dataVariant x = true → u.pattern x text = true → MatcherFits gi u (.token (.data x text))

/-- The type of the lookahead. -/
def lookTy (gi : GrammarInfo) : CTy := .option (.ref (.user (tokenType gi)))

/-- The variables of a matcher. -/
def matcherVars (named : Bool) : Matcher → List (String × CTy)
  | .token (.any v) => if named then [(wildcardVar, .ref (.data v))] else []
  | .token (.data v _) => if named then [(wildcardVar, .ref (.data v))] else []
  | _ => []

theorem check_matcher {m : Matcher} (h : MatcherFits gi u m) (named : Bool) :
    (matcher gi named m).check (declsOf gi prog u) .move (lookTy gi) = some (matcherVars named m) := by
  cases h with
  | eos => simp [matcher, RPat.check, Atom.ty, through, lookTy, CTy.fits, CTy.join, matcherVars]
  | lit h =>
    simp [matcher, Emit.pattern, RPat.check, Con.fieldTy, through, lookTy, Atom.ty, declsOf, h, CTy.fits, CTy.join, matcherVars]
  | unit h =>
    simp [matcher, Emit.pattern, RPat.check, Con.fieldTy, through, lookTy, Atom.ty, declsOf, h, CTy.fits, CTy.join, matcherVars]
  | any h =>
    cases named <;> simp [matcher, Emit.pattern, RPat.check, Con.fieldTy, through, lookTy, declsOf, h, matcherVars]
  | data h h' =>
    cases named <;> simp [matcher, Emit.pattern, RPat.check, Con.fieldTy, through, lookTy, declsOf, h, h', matcherVars]

theorem matcherVars_false (m : Matcher) : matcherVars false m = [] := by
  unfold matcherVars
  split <;> rfl

theorem check_anyOf {D : Decls} {t : CTy} {ps : List RPat} (h : ∀ p ∈ ps, p.check D .move t = some []) :
    (anyOf ps).check D .move t = some [] := by
  induction ps with
  | nil => rfl
  | cons p ps ih =>
    cases ps with
    | nil => exact h p (by simp)
    | cons q ps =>
      have h1 := h p (by simp)
      have h2 := ih fun p hp => h p (List.mem_cons_of_mem _ hp)
      simp only [anyOf, RPat.check] at h2 ⊢
      rw [h1, h2]
      rfl

theorem check_stateMatcher {s : Nat} (h : s < prog.stateTypes.length) :
    (stateMatcher gi s).check (declsOf gi prog u) .move (.ref .states) = some [] := by
  simp only [stateMatcher, RPat.check, through]
  rw [stateName_fieldTy (List.getElem?_eq_getElem h)]
  rfl

/-! ### Popping states -/

/-- The type of what the arms for a state give. -/
theorem check_popArm {variant : Option String} {τ : Ty} {s : Nat}
    (h : ArmTy gi prog.stateTypes s variant τ) (hv : ∀ x, variant = some x → u.dataVariant x = true) :
    (popArm gi variant s).1.check (declsOf gi prog u) .move .states = some [("v", τ.code)] := by
  cases h with
  | whole h =>
    simp only [popArm, RPat.check, through]
    rw [stateName_fieldTy h]
  | part h =>
    simp only [popArm, RPat.check, through]
    rw [stateName_fieldTy h, tokenTy_code]
    simp [Con.fieldTy, declsOf, hv _ rfl, Ty.code]
    rfl

/-- The variables of the nodes that have been taken from the stack. -/
structure Bound (gi : GrammarInfo) (r : ARule) (done : List PopStep) (Γ : Vars) : Prop where
  state : Γ.HasState
  whole : Γ.Whole
  vars : ∀ pop ∈ done, ∀ n τ, r.rule[pop.node]? = some n → NodeTy gi n τ → Γ.Ready (boundVariable pop.node) τ.code

theorem Bound.keep {r : ARule} {done : List PopStep} (h : Bound gi r done Γ) {x : String} {s : Slot}
    (hx : x.toList.take 3 ≠ ['_', '_', 'v']) (hs : x ≠ prefixed "state") : Bound gi r done ((x, s) :: Γ) :=
  ⟨h.state.cons (Ne.symm hs), h.whole.cons (isBound_false.mpr hx), fun pop hp n τ hn hτ => (h.vars pop hp n τ hn hτ).cons (boundVariable_ne hx)⟩

theorem Bound.disturb {r : ARule} {done : List PopStep} (h : Bound gi r done Γ) (isMut : Bool) :
    Bound gi r done (Γ.disturb isMut) :=
  ⟨h.state.disturb isMut, h.whole.disturb isMut, fun pop hp n τ hn hτ =>
    (h.vars pop hp n τ hn hτ).disturb (code_excludes τ) (.inl (code_shares τ))⟩

theorem check_pops {r : ARule} {body : Expr} {l done : List PopStep} (hu : UserFits gi u) (hr : r ∈ gi.productionRules)
    (h : Bound gi r done Γ) (hl : ∀ pop ∈ l, PopTyped gi prog.stateTypes r pop)
    (hd : ((done.reverse ++ l).map PopStep.node).Nodup)
    (hb : ∀ Γ', Bound gi r (l.reverse ++ done) Γ' → body.check (declsOf gi prog u) debug ret Γ' = some (.hole, none)) :
    (pops gi body l).check (declsOf gi prog u) debug ret Γ = some (.hole, none) := by
  induction l generalizing Γ done with
  | nil => exact hb Γ h
  | cons pop l ih =>
    obtain ⟨n, τ, hn, hτ, harms⟩ := (hl pop (by simp)).arms
    have hv : ∀ x, pop.variant = some x → u.dataVariant x = true := by
      intro x hx
      obtain ⟨s, hs⟩ := List.exists_mem_of_ne_nil _ (hl pop (by simp)).nonempty
      have := harms s hs
      rw [hx] at this
      cases this with
      | part =>
        cases hτ with
        | data hp => exact hu.data r hr x _ (List.mem_of_getElem? hn) hp
    have hcases : (Expr.cases (.call0 .popState state) (.ofList (pop.states.map (popArm gi pop.variant))
        unreachableArm)).check (declsOf gi prog u) debug ret Γ = some (τ.code, some (Γ.disturb true)) := by
      simp only [Expr.check, Method.onState, state, Expr.place, h.state.access, Option.map_some, next]
      rw [if_pos (exhaustive_total (p := .wild) (by
        rw [pats_ofList]; exact List.mem_append_right _ (by simp [unreachableArm, Arms.pats])) (.inl rfl))]
      refine check_alike (hl pop (by simp)).nonempty (fun s hs => ⟨_, check_popArm (harms s hs) hv, ?_⟩)
        check_unreachable
      simp only [popArm, Expr.check, fresh, List.map_cons, List.map_nil, List.cons_append, List.nil_append]
      rw [(ready_head (Γ := Γ.disturb true) (x := "v") (t := τ.code) (m := false)).use]
      cases hc : τ.code.copy <;> simp [leave, Vars.mark]
    simp only [pops, Expr.check] at hcases ⊢
    rw [hcases]
    simp only [next, code_known, if_true]
    have hnodes := hd
    rw [List.map_append, List.map_cons, List.nodup_append] at hnodes
    have := ih (Γ := (boundVariable pop.node, ⟨τ.code, true, .ready⟩) :: Γ.disturb true) (done := pop :: done)
      ⟨(h.state.disturb true).cons (Ne.symm (state_ne _)), (h.whole.disturb true).bind (code_excludes τ) (code_shares τ), ?_⟩ (fun p hp => hl p (List.mem_cons_of_mem _ hp))
      (by simpa using hd) (fun Γ' h' => hb Γ' (by simpa using h'))
    · rw [this]
      rfl
    · intro p hp n' τ' hn' hτ'
      rcases List.mem_cons.mp hp with rfl | hp
      · rw [hn] at hn'
        cases hn'
        cases hτ.det' hτ'
        exact ready_head
      · refine ((h.disturb true).vars p hp n' τ' hn' hτ').cons fun e => ?_
        exact hnodes.2.2 p.node (List.mem_map_of_mem (by simpa using hp)) pop.node (by simp) (boundVariable_inj e)

/-! ### Constructors -/

theorem check_constructor {k : Nat} {r : ARule} {l : List PopStep} {ctor : Ctor} (hu : UserFits gi u)
    (ht : RuleTyped gi prog.stateTypes k r l ctor) {ty : Option TokenStream} (hty : gi.labelTypes.lookup r.name = some ty)
    (hnone : ty = none ↔ r.returnType = none) (hc : ctor.Compiles l) {res : CTy} (hret : ret = some (.result res .parserError))
    (hwhole : Γ.Whole)
    (hvars : ∀ pop ∈ l, ∀ n τ, r.rule[pop.node]? = some n → NodeTy gi n τ → Γ.Ready (boundVariable pop.node) τ.code) :
    ∃ Γ', (Emit.constructor ctor).check (declsOf gi prog u) debug ret Γ = some ((Ty.plain ty).code, some Γ') ∧
      ∀ x, x.toList.take 3 ≠ ['_', '_', 'v'] → Γ'.lookup x = Γ.lookup x := by
  subst hret
  have hctor := ht.ctor
  have hctor' := ht.ctor
  unfold buildConstructor GrammarInfo.productionRule at hctor
  rw [Outcome.bind_eq_ok] at hctor
  obtain ⟨r', hr', hctor⟩ := hctor
  rw [Outcome.index_eq_ok, ht.rule] at hr'
  cases hr'
  have henv : ∀ i n τ, r.rule[i]? = some n → NodeTy gi n τ → Γ.Ready (boundVariable i) τ.code := by
    intro i n τ hn hτ
    have hne : n ≠ .epsilon := by rintro rfl; cases hτ
    obtain ⟨pop, hpop, rfl⟩ := (ht.bound i).mpr ⟨n, hn, hne⟩
    exact hvars pop hpop n τ hn hτ
  cases hblock : r.block with
  | some p =>
    obtain ⟨delim, body⟩ := p
    rw [hblock] at hctor
    simp only [rewriteProvided] at hctor
    split at hctor
    · cases hctor
    · rw [Outcome.bind_eq_ok] at hctor
      obtain ⟨out, -, hctor⟩ := hctor
      cases hctor
      have hbody := hu.body k r ty out Γ.env ht.rule hty hctor' fun i n τ hn hτ => (henv i n τ hn hτ).env
      refine ⟨Γ.spend, ?_, fun x hx => ?_⟩
      · simp only [Emit.constructor, Expr.check, Option.isSome_some, hwhole.whole, and_self, if_true]
        rw [show (declsOf gi prog u).user.body = u.body from rfl, hbody]
        simp [next]
      · rw [lookup_spend]
        simp only [isBound_false.mpr hx, Bool.false_eq_true, if_false]
        cases List.lookup x Γ <;> rfl
  | none =>
    rw [hblock] at hctor
    cases hret : r.returnType with
    | none =>
      rw [hret] at hctor
      cases hctor
      cases hnone.mpr hret
      exact ⟨Γ, rfl, fun _ _ => rfl⟩
    | some rty =>
      rw [hret] at hctor
      simp only [Option.isSome_some, if_true] at hctor
      split at hctor
      · cases hctor
      · cases hctor
        rename_i hlen
        obtain ⟨pop, hpop, hnode⟩ := hc
        obtain ⟨n, τ, hn, hτ, -⟩ := (ht.pops pop hpop).arms
        have hn' := hn
        rw [hnode] at hn
        obtain ⟨n', hrule⟩ := List.length_eq_one_iff.mp (not_not.mp hlen)
        rw [hrule] at hn
        cases hn
        have hready := hvars pop hpop n τ hn' hτ
        rw [hnode] at hready
        refine ⟨if τ.code.copy then Γ else Γ.mark (boundVariable 0) .moved, ?_, fun x hx => ?_⟩
        · simp only [Emit.constructor, Expr.check]
          rw [hready.use]
          simp only [Option.map_some, next]
          rw [show (declsOf gi prog u).user.conv = u.conv from rfl, hu.conv k r ty n τ ht.rule hty hctor' hrule hτ]
          simp
        · split
          · rfl
          · rw [lookup_mark, if_neg (boundVariable_ne hx)]

/-! ### Reductions -/

theorem state_take : (prefixed "state").toList.take 3 ≠ ['_', '_', 'v'] := by decide +kernel

theorem take_constructed : "__constructed".toList.take 3 ≠ ['_', '_', 'v'] := by decide +kernel

theorem constructed_ne : "__constructed" ≠ prefixed "state" := by decide +kernel

/-- `return Ok(ParserControl::Continue);`. -/
theorem check_continue : (Expr.seq (.ret (.con .ok (.atom .continue))) .nothing).check (declsOf gi prog u) debug
    (some (declsOf gi prog u).control) Γ = some (.hole, none) := by
  simp [Expr.check, Atom.ty, Con.ty, next, Decls.control, CTy.fits, CTy.join]

/-- Pushing a state, the value of which is computed without the parser's state. -/
theorem check_push {arg : Expr} {Δ : Vars} (h : Γ.HasState)
    (ha : arg.check (declsOf gi prog u) debug ret (Γ.mark (prefixed "state") .moved) = some (.states, some Δ))
    (hΔ : Δ.lookup (prefixed "state") = (Γ.mark (prefixed "state") .moved).lookup (prefixed "state")) :
    (Expr.push state arg).check (declsOf gi prog u) debug ret Γ =
      some (.unit, some ((Δ.mark (prefixed "state") .ready).disturb true)) := by
  simp only [Expr.check, state, Expr.place, h.isParser, if_true, ha, next, CTy.fits_self]
  rw [(remark h hΔ).access]
  rfl

theorem check_state {s : Nat} {ty : Option TokenStream} {e : Expr} {Δ : Vars} (h : prog.stateTypes[s]? = some ty)
    (he : e.check (declsOf gi prog u) debug ret Γ = some ((Ty.plain ty).code, some Δ)) :
    (Expr.con (stateName gi s) e).check (declsOf gi prog u) debug ret Γ = some (.states, some Δ) := by
  simp only [Expr.check, he, next]
  rw [stateName_ty h]
  rfl

theorem check_cases {D : Decls} {e : Expr} {arms : Arms} {t : CTy} {Δ : Vars} {r : Checked}
    (he : e.check D debug ret Γ = some (t, some Δ)) (hx : exhaustive D t arms.pats = true)
    (ha : arms.check D debug ret t Δ = r) : (Expr.cases e arms).check D debug ret Γ = r := by
  simp only [Expr.check, he, next, hx, if_true, ha]

theorem check_letIn {D : Decls} {isMut : Bool} {x : String} {e rest : Expr} {t : CTy} {Δ : Vars} {r : Checked}
    (he : e.check D debug ret Γ = some (t, some Δ)) (hk : t.known = true)
    (hr : leave 1 (rest.check D debug ret ((x, ⟨t, isMut, .ready⟩) :: Δ)) = r) :
    (Expr.letIn isMut x e rest).check D debug ret Γ = r := by
  simp only [Expr.check, he, next, hk, if_true, hr]

theorem check_stmt {D : Decls} {e rest : Expr} {t : CTy} {Δ : Vars} {r : Checked}
    (he : e.check D debug ret Γ = some (t, some Δ)) (hk : t.fits .unit = true)
    (hr : rest.check D debug ret Δ = r) : (Expr.stmt e rest).check D debug ret Γ = r := by
  simp only [Expr.check, he, next, hk, if_true, hr]

theorem check_seq {D : Decls} {e rest : Expr} {t : CTy} {Δ : Vars} {r : Checked}
    (he : e.check D debug ret Γ = some (t, some Δ)) (hk : t.known = true)
    (hr : rest.check D debug ret Δ = r) : (Expr.seq e rest).check D debug ret Γ = r := by
  simp only [Expr.check, he, hk, if_true, hr]

/-- A method of the parser's state is called. -/
theorem check_onState {D : Decls} {m : Method} {isMut : Bool} {t : CTy} (hm : m.onState = some (isMut, t))
    (h : Γ.HasState) : (Expr.call0 m state).check D debug ret Γ = some (t, some (Γ.disturb isMut)) := by
  simp only [Expr.check, hm, state, Expr.place, h.access, Option.map_some]

theorem check_goto {k : Nat} {r : ARule} {l : List PopStep} {ctor : Ctor} (hu : UserFits gi u)
    (ht : RuleTyped gi prog.stateTypes k r l ctor) {ty : Option TokenStream} (hty : gi.labelTypes.lookup r.name = some ty)
    (hnone : ty = none ↔ r.returnType = none) (hc : ctor.Compiles l) {goto : GotoCode}
    (hg : GotoTyped prog.stateTypes ty goto) (h : Bound gi r l Γ) :
    (gotoCode gi ctor (.seq (.ret (.con .ok (.atom .continue))) .nothing) goto).check (declsOf gi prog u) debug
      (some (declsOf gi prog u).control) Γ = some (.hole, none) := by
  cases goto with
  | direct next =>
    obtain ⟨Δ, h1, h2⟩ := check_constructor (debug := debug) (Γ := Γ.mark (prefixed "state") .moved) hu ht hty hnone hc
      (ret := some (declsOf gi prog u).control) rfl (h.whole.mark (isBound_false.mpr state_take) _)
      fun pop hp n τ hn hτ => (h.vars pop hp n τ hn hτ).mark (Ne.symm (state_ne _))
    exact check_seq (check_push h.state (check_state hg h1) (h2 _ state_take)) rfl check_continue
  | select arms =>
    obtain ⟨hlen, -, harms⟩ := hg
    obtain ⟨Δ, h1, h2⟩ := check_constructor (debug := debug) (Γ := Γ) hu ht hty hnone hc
      (ret := some (declsOf gi prog u).control) rfl h.whole h.vars
    have hΔ : Δ.HasState := by
      obtain ⟨m, hm⟩ := h.state
      exact ⟨m, by rw [h2 _ state_take]; exact hm⟩
    have hΔ' : Vars.HasState (("__constructed", ⟨(Ty.plain ty).code, false, .ready⟩) :: Δ) :=
      hΔ.cons (Ne.symm constructed_ne)
    have hΘ := hΔ'.disturb false
    have hv := (ready_head (Γ := Δ) (x := "__constructed") (t := (Ty.plain ty).code) (m := false)).disturb
      (code_excludes _) (isMut := false) (.inr rfl)
    have hstate := check_onState (D := declsOf gi prog u) (debug := debug)
      (ret := some (declsOf gi prog u).control) (m := .state) rfl hΔ'
    generalize Vars.disturb false (("__constructed", ⟨(Ty.plain ty).code, false, .ready⟩) :: Δ) = Θ at hΘ hv hstate
    have hv' := hv.mark (y := prefixed "state") (st := .moved) (Ne.symm constructed_ne)
    obtain ⟨Θ', hpush⟩ : ∃ Θ', ∀ s, prog.stateTypes[s]? = some ty →
        (Expr.push state (.con (stateName gi s) (.var "__constructed"))).check (declsOf gi prog u) debug
          (some (declsOf gi prog u).control) Θ = some (.unit, some Θ') := ⟨_, fun s hs =>
      check_push hΘ (check_state hs (by simp only [Expr.check]; rw [hv'.use]; rfl)) (by
        split
        · rfl
        · rw [lookup_mark, if_neg constructed_ne])⟩
    have hall : ∀ arm ∈ arms, ∃ b, (anyOf (arm.2.map (stateMatcher gi))).check (declsOf gi prog u) .move (.ref .states) =
        some b ∧ leave b.length ((Expr.push state (.con (stateName gi arm.1) (.var "__constructed"))).check
          (declsOf gi prog u) debug (some (declsOf gi prog u).control) (fresh b ++ Θ)) = some (.unit, some Θ') := by
      refine fun arm ha => ⟨[], check_anyOf fun p hp => ?_, ?_⟩
      · obtain ⟨s, hs, rfl⟩ := List.mem_map.mp hp
        exact check_stateMatcher ((harms arm ha).2.2 s hs)
      · simp only [fresh, List.map_nil, List.nil_append, List.length_nil]
        rw [hpush _ (harms arm ha).2.1]
        rfl
    refine check_letIn h1 (code_known _) ?_
    rw [check_stmt (check_cases hstate (exhaustive_total (p := .wild) (by
      rw [pats_ofList]; exact List.mem_append_right _ (by simp [unreachableArm, Arms.pats])) (.inl rfl))
      (check_alike (by rintro rfl; simp at hlen) hall check_unreachable)) (CTy.fits_self _) check_continue]
    rfl

/-! ### Arms -/

theorem check_reduceArm {arm : ReduceArm} (hu : UserFits gi u) {k : Nat} {r : ARule}
    (ht : RuleTyped gi prog.stateTypes k r arm.pops arm.ctor) {ty : Option TokenStream}
    (hty : gi.labelTypes.lookup r.name = some ty) (hnone : ty = none ↔ r.returnType = none)
    (hc : arm.ctor.Compiles arm.pops) (hg : GotoTyped prog.stateTypes ty arm.goto) (h : Γ.HasState) (hw : Γ.Whole)
    (hm : ∀ m ∈ arm.matchers, MatcherFits gi u m) :
    ∃ b, (reduceArm gi arm).1.check (declsOf gi prog u) .move (lookTy gi) = some b ∧
      (reduceArm gi arm).2.2.check (declsOf gi prog u) debug (some (declsOf gi prog u).control) (fresh b ++ Γ) =
        some (.hole, none) := by
  refine ⟨[], check_anyOf fun p hp => ?_, ?_⟩
  · obtain ⟨m, hm', rfl⟩ := List.mem_map.mp hp
    rw [check_matcher (hm m hm'), matcherVars_false]
  · refine check_pops (done := []) hu (List.mem_of_getElem? ht.rule) ⟨h, hw, by simp⟩ ht.pops ?_ fun Γ' h' => ?_
    · exact ht.order.imp fun h => Nat.ne_of_gt h
    · exact check_goto hu ht hty hnone hc hg ⟨h'.state, h'.whole, fun pop hp => h'.vars pop (by simpa using hp)⟩

theorem check_acceptArm {arm : AcceptArm} (hu : UserFits gi u) {k : Nat} {r : ARule}
    (ht : RuleTyped gi prog.stateTypes k r arm.pops arm.ctor)
    (hty : gi.labelTypes.lookup r.name = some prog.resultType) (hnone : prog.resultType = none ↔ r.returnType = none)
    (hc : arm.ctor.Compiles arm.pops) (h : Γ.HasState) (hw : Γ.Whole) (hm : MatcherFits gi u arm.matcher) :
    ∃ b, (Emit.acceptArm gi arm).1.check (declsOf gi prog u) .move (lookTy gi) = some b ∧
      (Emit.acceptArm gi arm).2.2.check (declsOf gi prog u) debug (some (declsOf gi prog u).control) (fresh b ++ Γ) =
        some (.hole, none) := by
  refine ⟨[], ?_, ?_⟩
  · show (matcher gi false arm.matcher).check _ _ _ = _
    rw [check_matcher hm, matcherVars_false]
  · refine check_pops (done := []) hu (List.mem_of_getElem? ht.rule) ⟨h, hw, by simp⟩ ht.pops ?_ fun Γ' h' => ?_
    · exact ht.order.imp fun h => Nat.ne_of_gt h
    · refine check_seq (check_onState (m := .verifyEmptyStack) rfl h'.state) rfl ?_
      obtain ⟨Δ, h1, -⟩ := check_constructor (debug := debug) (Γ := Γ'.disturb false) hu ht hty hnone hc
        (ret := some (declsOf gi prog u).control) rfl (h'.whole.disturb false)
        fun pop hp => (h'.disturb false).vars pop (by simpa using hp)
      have : (Ty.plain prog.resultType).code = (declsOf gi prog u).value := (ofType_code _).symm
      simp only [Expr.check, h1, next, Con.ty, Option.map_some, this]
      simp [Decls.control, CTy.fits, CTy.join, CTy.join_self]

theorem check_shiftArm {arm : ShiftArm} (ht : ShiftTyped gi prog.stateTypes arm) (hm : MatcherFits gi u arm.matcher) :
    ∃ b, (shiftArm gi arm).1.check (declsOf gi prog u) .move (lookTy gi) = some b ∧
      leave b.length ((shiftArm gi arm).2.2.check (declsOf gi prog u) debug ret (fresh b ++ Γ)) =
        some (.states, some Γ) := by
  refine ⟨_, check_matcher hm true, ?_⟩
  have : ∀ {b : List (String × CTy)} {e : Expr},
      e.check (declsOf gi prog u) debug ret (fresh b ++ Γ) = some (.user (tokenType gi), some (fresh b ++ Γ)) →
      leave b.length ((Expr.con (stateName gi arm.next) e).check (declsOf gi prog u) debug ret (fresh b ++ Γ)) =
        some (.states, some Γ) := fun {b e} h => by
    rw [check_state ht.next (h.trans (by rw [tokenTy_code]))]
    simp [leave, fresh]
  refine this ?_
  rcases ht.value with ⟨x, h1, h2⟩ | ⟨x, h1, h2⟩ | ⟨x, h1, h2⟩ | ⟨x, text, h1, h2⟩ <;> rw [h1] at hm ⊢ <;> rw [h2]
  · cases hm with | lit hx => simp [tokenExpr, Expr.check, Atom.ty, declsOf, hx]
  · cases hm with | unit hx => simp [tokenExpr, Expr.check, Atom.ty, declsOf, hx]
  · cases hm with
    | any hx =>
      simp [tokenExpr, Expr.check, Method.onState, Method.ty, next, matcherVars, fresh, Vars.use, CTy.copy, Con.ty,
        declsOf, hx]
  · cases hm with
    | data hx =>
      simp [tokenExpr, Expr.check, Method.onState, Method.ty, next, matcherVars, fresh, Vars.use, CTy.copy, Con.ty,
        declsOf, hx]

/-! ### Functions -/

theorem check_peekNext (h : Γ.HasState) : peekNext.check (declsOf gi prog u) debug
    (some (declsOf gi prog u).control) Γ = some (lookTy gi, some ((Γ.disturb false).disturb true)) := by
  simp only [peekNext, Expr.check, Method.onState, state, Expr.place, h.access, Option.map_some, next, Method.ty]
  simp [Expr.check, Arms.check, Arms.pats, exhaustive, RPat.alternatives, RPat.total, RPat.covers, through, RPat.check,
    Con.fieldTy, fresh, Vars.use, CTy.copy, Con.ty, Method.ty, Method.onState, next, leave, either, CTy.join, Vars.merge,
    Status.worst, Decls.control, lookTy, declsOf]

theorem check_sum {es : List Expr} {e : Expr} {D : Decls}
    (h : ∀ a ∈ e :: es, a.check D debug ret Γ = some (.usize, some Γ)) :
    (sum (e :: es)).check D debug ret Γ = some (.usize, some Γ) := by
  simp only [sum]
  induction es generalizing e with
  | nil => exact h e (by simp)
  | cons a es ih =>
    refine ih fun b hb => ?_
    rcases List.mem_cons.mp hb with rfl | hb
    · simp [Expr.check, h e (by simp), h a (by simp), next]
    · exact h b (by simp [hb])

theorem check_overlap {ms : List Matcher} {rest : Expr} (hm : ∀ m ∈ ms, MatcherFits gi u m)
    (h : Γ.Ready peekedVal (lookTy gi)) :
    (overlapCheck gi rest ms).check (declsOf gi prog u) debug (some (declsOf gi prog u).control) Γ =
      rest.check (declsOf gi prog u) debug (some (declsOf gi prog u).control) Γ := by
  cases ms with
  | nil => rfl
  | cons m ms =>
    have hcopy : (lookTy gi).copy = true := rfl
    refine check_stmt (t := .unit) (Δ := Γ) ?_ rfl rfl
    cases debug with
    | false => simp [Expr.check]
    | true =>
      have hcount : ∀ (es : List Expr), es = (m :: ms).map (fun m => .count (.var peekedVal) (matcher gi false m)) →
          (sum es).check (declsOf gi prog u) true (some (declsOf gi prog u).control) Γ = some (.usize, some Γ) := by
        rintro _ rfl
        rw [List.map_cons]
        refine check_sum fun a ha => ?_
        rw [← List.map_cons (f := fun m => Expr.count (.var peekedVal) (matcher gi false m))] at ha
        obtain ⟨m', hm', rfl⟩ := List.mem_map.mp ha
        simp only [Expr.check]
        rw [h.use]
        simp only [hcopy, if_true, Option.map_some, next]
        rw [check_matcher (hm m' hm')]
        rfl
      have hr : Vars.Ready (("count_matches", ⟨.usize, false, .ready⟩) :: Γ) peekedVal (lookTy gi) :=
        h.cons (by decide +kernel)
      have hlet := check_letIn (debug := true) (isMut := false) (x := "count_matches")
        (rest := .ifMany (.var "count_matches") (.seq (.ret (.con .err (.overlapping (.var peekedVal)))) .nothing))
        (hcount _ rfl) rfl rfl
      simp only [Expr.check, if_true] at hlet ⊢
      rw [hlet, (ready_head (Γ := Γ) (x := "count_matches") (t := .usize) (m := false)).use]
      simp only [show CTy.usize.copy = true from rfl, if_true, Option.map_some, next]
      rw [hr.use]
      have hty : lookTy gi = .option (.ref (.user (declsOf gi prog u).token)) := rfl
      simp only [if_true, Option.map_some, hty, Con.ty]
      simp [Decls.control, CTy.fits, CTy.join, either, leave]

theorem check_returnErr : returnErr.check (declsOf gi prog u) debug (some (declsOf gi prog u).control) (lookTy gi) Γ =
    some (.hole, none) := by
  simp [returnErr, Arms.check, RPat.check, Con.fieldTy, through, lookTy, fresh, Expr.check, Vars.use, CTy.copy, next,
    Method.onState, Method.ty, declsOf, Con.ty, CTy.fits, CTy.join, Decls.control, leave, either, Atom.ty]

theorem exhaustive_option {D : Decls} {t : CTy} {ps : List RPat} {x : String} (h1 : .con .some (.var x) ∈ ps)
    (h2 : .atom .none ∈ ps) : exhaustive D (.option t) ps = true := by
  have h3 : (.con .some (.var x)) ∈ ps.flatMap RPat.alternatives :=
    List.mem_flatMap.mpr ⟨_, h1, by simp [RPat.alternatives]⟩
  have h4 : (.atom .none) ∈ ps.flatMap RPat.alternatives := List.mem_flatMap.mpr ⟨_, h2, by simp [RPat.alternatives]⟩
  have h5 : (ps.flatMap RPat.alternatives).any (RPat.covers .some) = true :=
    List.any_eq_true.mpr ⟨_, h3, by simp [RPat.covers, RPat.total]⟩
  simp only [exhaustive, through, h5, Bool.and_true, Bool.or_eq_true]
  exact .inr (List.contains_iff_mem.mpr h4)

/-- What is known of the code of a state. -/
structure CodeFits (gi : GrammarInfo) (prog : Program) (u : UserDecls) (code : StateCode) : Prop where
  matchers : ∀ m ∈ code.matchers, MatcherFits gi u m
  shift : ∀ arm ∈ code.shifts, ShiftTyped gi prog.stateTypes arm
  reduce : ∀ arm ∈ code.reduces, ∃ k r ty,
    RuleTyped gi prog.stateTypes k r arm.pops arm.ctor ∧ gi.labelTypes.lookup r.name = some ty ∧
    (ty = none ↔ r.returnType = none) ∧ arm.ctor.Compiles arm.pops ∧ GotoTyped prog.stateTypes ty arm.goto
  accept : ∀ arm, code.accept = some arm → ∃ r,
    RuleTyped gi prog.stateTypes 0 r arm.pops arm.ctor ∧ gi.labelTypes.lookup r.name = some prog.resultType ∧
    (prog.resultType = none ↔ r.returnType = none) ∧ arm.ctor.Compiles arm.pops

theorem check_actions {code : StateCode} (hu : UserFits gi u) (h : CodeFits gi prog u code) :
    checkFunction (declsOf gi prog u) debug (declsOf gi prog u).control (prefixed "state") (.refMut .parserState)
      (actions gi code) = true := by
  have hs : Vars.HasState (fresh [(prefixed "state", .refMut .parserState)]) := ready_head
  have hΓ : Vars.HasState ((peekedVal, ⟨lookTy gi, false, .ready⟩) ::
      Vars.disturb true (Vars.disturb false (fresh [(prefixed "state", .refMut .parserState)]))) :=
    ((hs.disturb false).disturb true).cons (by decide +kernel)
  have hp : Vars.Ready ((peekedVal, ⟨lookTy gi, false, .ready⟩) ::
      Vars.disturb true (Vars.disturb false (fresh [(prefixed "state", .refMut .parserState)]))) peekedVal (lookTy gi) := ready_head
  have hw : Vars.Whole ((peekedVal, ⟨lookTy gi, false, .ready⟩) ::
      Vars.disturb true (Vars.disturb false (fresh [(prefixed "state", .refMut .parserState)]))) := by
    refine (Whole.disturb (Whole.disturb ?_ _) _).cons (by decide +kernel)
    exact Whole.cons (Γ := []) (fun p hp => by cases hp) (by decide +kernel)
  generalize hΓ' : (peekedVal, (⟨lookTy gi, false, .ready⟩ : Slot)) ::
      Vars.disturb true (Vars.disturb false (fresh [(prefixed "state", .refMut .parserState)])) = Γ at hΓ hp hw
  have harms : (Arms.ofList (code.reduces.map (reduceArm gi)) (.ofList (code.accept.toList.map (Emit.acceptArm gi))
      returnErr)).check (declsOf gi prog u) debug (some (declsOf gi prog u).control) (lookTy gi) Γ = some (.hole, none) := by
    refine check_never (fun arm ha => ?_) (check_never (fun arm ha => ?_) check_returnErr)
    · obtain ⟨k, r, ty, h1, h2, h3, h4, h5⟩ := h.reduce arm ha
      exact check_reduceArm hu h1 h2 h3 h4 h5 hΓ hw fun m hm => h.matchers m (by
        simp only [StateCode.matchers, List.mem_append, List.mem_flatMap]
        exact .inl (.inr ⟨arm, ha, hm⟩))
    · obtain ⟨r, h1, h2, h3, h4⟩ := h.accept arm (by simpa using ha)
      exact check_acceptArm hu h1 h2 h3 h4 hΓ hw (h.matchers _ (by
        simp only [StateCode.matchers, List.mem_append, List.mem_map]
        exact .inr ⟨arm, ha, rfl⟩))
  have hx : ∀ l, exhaustive (declsOf gi prog u) (lookTy gi) (Arms.ofList l (Arms.ofList (code.reduces.map (reduceArm gi))
      (.ofList (code.accept.toList.map (Emit.acceptArm gi)) returnErr))).pats = true := fun l =>
    exhaustive_option (x := "peeked_token") (by simp [pats_ofList, returnErr, Arms.pats])
      (by simp [pats_ofList, returnErr, Arms.pats])
  have hvar : (Expr.var peekedVal).check (declsOf gi prog u) debug (some (declsOf gi prog u).control) Γ =
      some (lookTy gi, some Γ) := by
    simp only [Expr.check, hp.use]
    rfl
  have hmain : ∃ r : CTy × Option Vars, (actions gi code).check (declsOf gi prog u) debug
      (some (declsOf gi prog u).control) (fresh [(prefixed "state", .refMut .parserState)]) = some r ∧
      r.1.fits (declsOf gi prog u).control = true := by
    have hov := fun rest => check_overlap (rest := rest) (prog := prog) (debug := debug) (ms := code.overlap) (u := u)
      (fun m hm => h.matchers m (by simp only [StateCode.matchers, List.mem_append]; exact .inl (.inl (.inl hm)))) hp
    unfold actions
    cases hsh : code.shifts with
    | nil =>
      refine ⟨_, check_letIn (check_peekNext hs) rfl (r := some (.hole, none)) ?_, CTy.hole_fits _⟩
      rw [hΓ']
      simp only
      rw [hov, check_cases (arms := .ofList (code.reduces.map _) _) hvar (hx []) harms]
      rfl
    | cons arm shifts =>
      have hstate : Vars.HasState (("next_state", ⟨.states, false, .ready⟩) :: Γ) := hΓ.cons (by decide +kernel)
      have hnext : Vars.Ready (("next_state", ⟨.states, false, .ready⟩) :: Γ) "next_state" .states := ready_head
      have hadv : (Expr.call0 .advance (.call0 .streamMut state)).check (declsOf gi prog u) debug
          (some (declsOf gi prog u).control) (("next_state", ⟨.states, false, .ready⟩) :: Γ) =
          some (.unit, some (Vars.disturb true (Vars.disturb true (("next_state", ⟨.states, false, .ready⟩) :: Γ)))) := by
        simp only [Expr.check, Method.onState, state, Expr.place, hstate.access, Option.map_some, next, Method.ty, if_true]
      have hstate' := (hstate.disturb true).disturb true
      have hnext' := (hnext.disturb (isMut := true) rfl (.inl rfl)).disturb (isMut := true) rfl (.inl rfl)
      generalize Vars.disturb true (Vars.disturb true (("next_state", ⟨.states, false, .ready⟩) :: Γ)) = Θ at hadv hstate' hnext'
      have hpush := check_push (gi := gi) (prog := prog) (u := u) (debug := debug)
        (ret := some (declsOf gi prog u).control) (arg := .var "next_state") hstate' (by
          simp only [Expr.check]
          rw [(hnext'.mark (y := prefixed "state") (st := .moved) (by decide +kernel)).use]
          rfl) (by
          rw [if_neg (by decide), lookup_mark, if_neg (by decide +kernel)])
      have hcases := check_cases hvar (hx _) (check_alike (l := arm :: shifts) (f := shiftArm gi) (Γ := Γ) (by simp)
        (fun a ha => check_shiftArm (debug := debug) (ret := some (declsOf gi prog u).control) (Γ := Γ) (h.shift a (hsh ▸ ha)) (h.matchers _ (by
          simp only [StateCode.matchers, List.mem_append, List.mem_map]
          exact .inl (.inl (.inr ⟨a, hsh ▸ ha, rfl⟩))))) harms)
      have hlast := fun Δ => show (Expr.con .ok (.atom .continue)).check (declsOf gi prog u) debug
        (some (declsOf gi prog u).control) Δ = some (.result (.control .hole) .hole, some Δ) by
          simp [Expr.check, Atom.ty, next, Con.ty]
      have hinner := hov (.letIn false "next_state" (.cases (.var peekedVal) (.ofList ((arm :: shifts).map (shiftArm gi))
          (.ofList (code.reduces.map (reduceArm gi)) (.ofList (code.accept.toList.map (Emit.acceptArm gi)) returnErr))))
          (.seq (.call0 .advance (.call0 .streamMut state)) (.seq (.push state (.var "next_state")) (.con .ok (.atom .continue)))))
      rw [check_letIn hcases rfl rfl, check_seq hadv rfl (check_seq hpush rfl (hlast _))] at hinner
      have houter := check_letIn (isMut := false) (x := peekedVal) (check_peekNext (debug := debug) hs) rfl
        (congrArg (leave 1) (hΓ'.symm ▸ hinner))
      refine ⟨_, houter, ?_⟩
      simp [Decls.control, CTy.fits, CTy.join]
  obtain ⟨⟨t, o⟩, h1, h2⟩ := hmain
  simp only [checkFunction, h1]
  exact h2

/-! ### The loop -/

theorem code_value : ((Ty.plain prog.resultType).code) = (declsOf gi prog u).value := (ofType_code _).symm

theorem check_parseLoop (hlen : prog.states.length = prog.stateTypes.length) (hroot : prog.stateTypes[0]? = some none) :
    checkFunction (declsOf gi prog u) debug (declsOf gi prog u).result (prefixed "input_stream") .input
      (parseLoop gi prog.states.length) = true := by
  have hpos : 0 < prog.states.length := by
    rw [hlen]
    exact (List.getElem?_eq_some_iff.mp hroot).1
  have hnew : (Expr.newState (.call0 .intoIter (.var (prefixed "input_stream")))
      (.con (stateName gi LRTable.rootState) (.atom .unit))).check (declsOf gi prog u) debug
      (some (declsOf gi prog u).result) (fresh [(prefixed "input_stream", .input)]) =
      some (.parserState, some [(prefixed "input_stream", ⟨.input, false, .moved⟩)]) := by
    have := check_state (gi := gi) (u := u) (debug := debug) (ret := some (declsOf gi prog u).result) (e := .atom .unit)
      (Γ := [(prefixed "input_stream", ⟨.input, false, .moved⟩)]) hroot (Δ := _) rfl
    simp only [Expr.check] at this ⊢
    simp only [Method.onState, fresh, List.map_cons, List.map_nil, Vars.use, List.lookup_cons, beq_self_eq_true, if_true,
      CTy.copy, Bool.false_eq_true, if_false, Vars.mark, Option.map_some, next, Method.ty, reduceCtorEq]
    simp only [LRTable.rootState]
    simp only [next] at this
    rw [this]
    simp [CTy.fits_self, Vars.disturb]
  generalize hΓ : ([("state", (⟨.parserState, true, .ready⟩ : Slot)),
    (prefixed "input_stream", ⟨.input, false, .moved⟩)] : Vars) = Γ
  have hacc : ∀ b, Vars.access b "state" Γ = some Γ := by
    subst hΓ
    intro b
    cases b <;> simp [Vars.access, Vars.isParser, Vars.disturb, CTy.excludes, CTy.shares]
  have hlook : (List.lookup "state" Γ).any (fun s => decide (s.ty = .parserState)) = true := by
    subst hΓ
    simp
  have hstate : (Expr.call0 .state (.var "state")).check (declsOf gi prog u) debug
      (some (declsOf gi prog u).result) Γ = some (.ref .states, some Γ) := by
    simp only [Expr.check, Method.onState, Expr.place, hacc, Option.map_some]
  have hx : exhaustive (declsOf gi prog u) (.ref .states) (Arms.ofList ((List.range prog.states.length).map fun s =>
      (stateMatcher gi s, Style.comma, Expr.call (functionName s) (.var "state"))) .nil).pats = true := by
    have : (declsOf gi prog u).variants.all (fun v => ((Arms.ofList ((List.range prog.states.length).map fun s =>
      (stateMatcher gi s, Style.comma, Expr.call (functionName s) (.var "state"))) .nil).pats.flatMap
        RPat.alternatives).any (RPat.covers (.state (declsOf gi prog u).enum v.1))) = true := by
      rw [List.all_eq_true]
      intro v hv
      simp only [declsOf, List.mem_map] at hv
      obtain ⟨_, ⟨⟨ty, s⟩, hs, rfl⟩, rfl⟩ := hv
      have hs' : s < prog.states.length := by
        rw [hlen]
        exact (List.getElem?_eq_some_iff.mp (List.mk_mem_zipIdx_iff_getElem?.mp hs)).1
      rw [List.any_eq_true]
      refine ⟨stateMatcher gi s, List.mem_flatMap.mpr ⟨stateMatcher gi s, ?_, ?_⟩, ?_⟩
      · rw [pats_ofList]
        simp only [List.map_map, List.mem_append, List.mem_map, List.mem_range]
        exact .inl ⟨s, hs', rfl⟩
      · simp [stateMatcher, RPat.alternatives]
      · simp [stateMatcher, RPat.covers, stateName, declsOf]
    simp only [exhaustive, through, this, Bool.or_true]
  have hcases := check_cases hstate hx (check_alike (t := .ref .states) (u := (declsOf gi prog u).control) (Δ := Γ)
    (l := List.range prog.states.length) (rest := .nil)
    (by rw [← List.length_pos_iff]; simpa using hpos) (fun s hs => ⟨[], check_stateMatcher (by
      rw [← hlen]; simpa using hs), by
        have hf : functionName s ∈ (declsOf gi prog u).functions := by
          simp only [declsOf, Emit.functions, List.map_map, List.mem_map]
          have hs' : s < prog.states.length := by simpa using hs
          exact ⟨(prog.states[s], s), List.mk_mem_zipIdx_iff_getElem?.mpr (List.getElem?_eq_getElem hs'), rfl⟩
        simp only [fresh, List.map_nil, List.nil_append, Expr.check, Expr.place, hlook, and_true, hf, if_true, hacc,
          Option.map_some]
        rfl⟩) rfl)
  have hvalue : (declsOf gi prog u).value.known = true := by
    rw [← code_value]
    exact code_known _
  have hbody : (Expr.letIn false "action" (.question (.cases (.call0 .state (.var "state")) (.ofList
        ((List.range prog.states.length).map fun s => (stateMatcher gi s, .comma, .call (functionName s) (.var "state"))) .nil)))
      (.cases (.var "action")
        (.cons (.con .accept (.var "result")) .comma (.ret (.con .ok (.var "result")))
        (.cons (.atom .continue) .block .nothing .nil)))).check (declsOf gi prog u) debug
      (some (declsOf gi prog u).result) Γ = some (.unit, some Γ) := by
    have hq : (Expr.question (.cases (.call0 .state (.var "state")) (.ofList
        ((List.range prog.states.length).map fun s => (stateMatcher gi s, .comma, .call (functionName s) (.var "state")))
        .nil))).check (declsOf gi prog u) debug (some (declsOf gi prog u).result) Γ =
        some (.control (declsOf gi prog u).value, some Γ) := by
      simp only [Expr.check] at hcases ⊢
      rw [hcases]
      simp [next, Decls.control, Decls.result]
    refine check_letIn hq hvalue ?_
    simp [Expr.check, Vars.use, CTy.copy, next, exhaustive, Arms.pats, RPat.alternatives, RPat.total, RPat.covers, through,
      Arms.check, RPat.check, Con.fieldTy, fresh, Con.ty, Decls.result, CTy.fits, CTy.join, CTy.join_self, CTy.join_hole,
      Atom.ty, leave, either, Vars.mark]
  have hmain : (parseLoop gi prog.states.length).check (declsOf gi prog u) debug (some (declsOf gi prog u).result)
      (fresh [(prefixed "input_stream", .input)]) = some (.hole, none) := by
    refine check_letIn hnew rfl ?_
    simp only [Expr.check] at hbody ⊢
    rw [hΓ, hbody]
    simp [CTy.fits_self, leave]
  simp only [checkFunction, hmain, CTy.hole_fits]

/-! ### Parsers -/

theorem nodup_names {α : Type} {f : Nat → String} (hf : ∀ a b, f a = f b → a = b) (l : List α) (k : Nat) :
    ((l.zipIdx k).map fun p => f p.2).Nodup := by
  induction l generalizing k with
  | nil => simp
  | cons a l ih =>
    simp only [List.zipIdx_cons, List.map_cons, List.nodup_cons, List.mem_map, not_exists, not_and]
    refine ⟨fun p hp h => ?_, ih _⟩
    have := List.le_snd_of_mem_zipIdx hp
    have := hf _ _ h
    omega

theorem checks_emitted {isPub : Bool} (hu : UserFits gi u) (hlen : prog.states.length = prog.stateTypes.length)
    (hroot : prog.stateTypes[0]? = some none) (hc : ∀ code ∈ prog.states, CodeFits gi prog u code) :
    (emitted gi isPub prog).checks u debug = true := by
  have hd : (emitted gi isPub prog).decls u = some (declsOf gi prog u) := rfl
  simp only [RustSyntax.Item.checks, hd, Bool.and_eq_true, List.all_eq_true, decide_eq_true_eq]
  refine ⟨⟨⟨fun f hf => ?_, check_parseLoop hlen hroot⟩, ?_⟩, ?_⟩
  · simp only [emitted, Emit.functions, List.mem_map] at hf
    obtain ⟨⟨code, s⟩, hs, rfl⟩ := hf
    exact check_actions hu (hc code (List.mem_of_getElem? (List.mk_mem_zipIdx_iff_getElem?.mp hs)))
  · have := nodup_names (f := functionName) (fun _ _ => functionName_inj) prog.states 0
    simpa [emitted, Emit.functions, List.map_map, Function.comp_def] using this
  · have := nodup_names (f := variantName) (fun _ _ => variantName_inj) prog.stateTypes 0
    simpa [emitted, List.map_map, Function.comp_def] using this

end
end Rust
end Verif
