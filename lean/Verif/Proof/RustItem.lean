import Verif.Proof.RustSyntax

/-!
# All declarations of a generated parser are read as they were meant
-/

set_option linter.unusedSectionVars false
set_option linter.unusedSimpArgs false
set_option autoImplicit false

namespace Verif.RustSyntax
open Rust Emit

theorem isType_user {ty : TokenStream} : IsType (.type ty) (.user ty) := by
  intro s t _
  simp [Code.tokens, type]

theorem IsType.the {c : Code} {ty : RType} (h : IsType c ty) {s : String} (hs : s ≠ "::") {t : List RTok} :
    theType ty (c.tokens ++ .op s :: t) = some (.op s :: t) := by
  simp [theType, h s t hs, guard]

theorem type_user {ty : TokenStream} {t : List RTok} : type (.type ty :: t) = some (.user ty, t) := by simp [type]

theorem the_user {ty : TokenStream} {t : List RTok} : theType (.user ty) (.type ty :: t) = some t := by
  simp [theType, type, guard]

theorem ident_of {x : String} (h : x ∉ reserved) {t : List RTok} : ident (.word x :: t) = some (x, t) := by
  simp [ident, h]

theorem theIdent_of {x : String} (h : x ∉ reserved) {t : List RTok} : theIdent x (.word x :: t) = some t := by
  simp [theIdent, ident, h, guard]

/-- The code of the list of variants. -/
theorem read_variants {l : List (Option TokenStream)} {k : Nat} {rest : List RTok} :
    Ev fun f => variants f ((cat ((l.zipIdx k).map fun p =>
        cat [.name (variantName p.2), .text rs!"(", typeOrUnit p.1, .text rs!"),"])).tokens ++ .op "}" :: rest) =
      some ((l.zipIdx k).map fun p => (variantName p.2, typeOrUnit' p.1), .op "}" :: rest) := by
  induction l generalizing k with
  | nil => exact Ev.always fun f => by simp [cat, Code.tokens, variants]
  | cons a l ih =>
    refine (ih (k := k + 1)).step fun f hf => ?_
    simp only [List.zipIdx_cons, List.map_cons, cat, Code.tokens, List.append_assoc, List.cons_append,
      List.nil_append] at hf ⊢
    rw [variants, if_neg (by simp), ident_of name_variant]
    simp only [bind, Option.bind, skip, if_true]
    rw [isType_unit ")" _ (by decide)]
    simp only [skip, if_true]
    rw [hf]

section
variable {gi : GrammarInfo} {retok : String → TokenStream} {result : Option TokenStream}

theorem read_functions {l : List StateCode} (hl : ∀ code ∈ l, StateCode.Sound code) {k : Nat} {rest : List RTok}
    (hr : ∃ a t, rest = a :: t ∧ a ≠ .word "fn") :
    Ev fun f => functions (.user (tokenType gi)) (typeOrUnit' result) (errType gi) (enumName gi) f
        ((cat ((l.zipIdx k).map (function gi retok result))).tokens ++ rest) =
      some ((l.zipIdx k).map fun p => (functionName p.2, prefixed "state", actions gi p.1), rest) := by
  induction l generalizing k with
  | nil =>
    refine Ev.always fun f => ?_
    obtain ⟨a, t, rfl, ha⟩ := hr
    simp [cat, Code.tokens, functions, skip, Ne.symm ha]
  | cons a l ih =>
    refine (((ih (fun c hc => hl c (by simp [hc])) (k := k + 1))).and (read_actions (gi := gi) (retok := retok)
      (hl a (by simp)) ((cat ((l.zipIdx (k + 1)).map (function gi retok result))).tokens ++ rest))).step
      fun f ⟨hf, hb⟩ => ?_
    have hn : prefixed "state" ∉ reserved := name_prefixed.1
    have hfn : functionName k ∉ reserved := name_function.1
    have he : enumName gi ∉ reserved := name_enum.1
    rw [toks] at hb
    rw [List.zipIdx_cons, List.map_cons, List.map_cons, cat, Code.tokens, List.append_assoc]
    rw [function]
    simp only [cat, Code.tokens, List.append_assoc, List.cons_append, List.nil_append]
    simp only [functions, skip, if_true, bind, Option.bind, ident_of hfn, the_user, isType_error.the (s := ">") (by decide),
      isType_error.the (s := ",") (by decide), isType_unit.the (s := ">") (by decide), ident_of hn, theIdent_of he]
    rw [hb]
    simp only [skip, if_true]
    rw [hf]

variable {isPub : Bool} {prog : Program}

/-- What is declared. -/
def emitted (gi : GrammarInfo) (isPub : Bool) (prog : Program) : RustSyntax.Item where
  isPub := isPub
  name := gi.name
  tableSize := Nat.repr gi.lrTable.numStates ++ "usize"
  token := .user (tokenType gi)
  value := typeOrUnit' prog.resultType
  error := errType gi
  enum := enumName gi
  variants := prog.stateTypes.zipIdx.map fun p => (variantName p.2, typeOrUnit' p.1)
  functions := Emit.functions gi prog
  param := prefixed "input_stream"
  body := parseLoop gi prog.states.length

theorem read_parser (hname : gi.name ∉ reserved) (hs : ∀ code ∈ prog.states, StateCode.Sound code) :
    Ev fun f => item f (Emit.parser gi retok isPub prog).tokens = some (emitted gi isPub prog) := by
  have hloop := read_parseLoop (gi := gi) (retok := retok) (n := prog.states.length) rs!"}"
  have hstart : ∃ t, toks retok (errorType gi) (parseLoop gi prog.states.length) = .word "let" :: t := ⟨_, rfl⟩
  have hf := read_functions (gi := gi) (retok := retok) (result := prog.resultType) hs (k := 0)
    (rest := toks retok (errorType gi) (parseLoop gi prog.states.length) ++ rs!"} }") (by
      obtain ⟨t, ht⟩ := hstart
      exact ⟨_, _, by rw [ht]; rfl, by simp⟩)
  have hv := read_variants (l := prog.stateTypes) (k := 0) (rest :=
    (cat ((prog.states.zipIdx 0).map (function gi retok prog.resultType))).tokens ++
      (toks retok (errorType gi) (parseLoop gi prog.states.length) ++ rs!"} }"))
  refine (hloop.and (hf.and hv)).map fun f ⟨hloop, hf, hv⟩ => ?_
  have hI : prefixed "I" ∉ reserved := name_prefixed.1
  have hB : prefixed "B" ∉ reserved := name_prefixed.1
  have hE : prefixed "E" ∉ reserved := name_prefixed.1
  have hin : prefixed "input_stream" ∉ reserved := name_prefixed.1
  have he : enumName gi ∉ reserved := name_enum.1
  have hp : ∀ rest, visibility ((if isPub then rs!"pub struct" else rs!"struct") ++ rest) =
      (isPub, .word "struct" :: rest) := by
    intro rest
    cases isPub <;> simp [visibility, skip]
  rw [Emit.parser]
  simp only [cat, Code.tokens, List.append_assoc, List.append_nil]
  rw [item, hp]
  simp only [List.cons_append, List.nil_append, statesEnum, cat, Code.tokens, List.append_assoc]
  simp only [toks, cat, List.cons_append, List.nil_append] at hloop hf hv
  simp only [skip, if_true, bind, Option.bind, ident_of hname, theIdent_of hname, type_user, isType_unit ";" _ (by decide),
    isType_error ";" _ (by decide), signature, generics, ident_of hI, ident_of hB, ident_of hE, ident_of hin,
    theIdent_of hI, theIdent_of hB, theIdent_of hE, the_user, ident_of he]
  rw [hv]
  simp only [skip, if_true]
  rw [hf]
  simp only [skip, if_true]
  rw [hloop]
  simp only [skip, if_true, guard]
  rfl

end
end Verif.RustSyntax
