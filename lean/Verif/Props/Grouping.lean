import Verif.Proof.LocatedFile
import Verif.Spec.Related
import Verif.Props.Macro

/-!
# C93: alternatives can be written as declarations of their own
-/

set_option autoImplicit false
set_option linter.unusedSectionVars false

namespace Verif
open Spec

section
variable {tx : Text}

/-- The map after several rules. -/
def LabelTypes.addRules (tx : Text) (m : LabelTypes) : List ARule → Outcome MacroError LabelTypes
  | [] => .ok m
  | r :: rs => do
    let m ← m.add tx r.name r.returnType
    addRules tx m rs

theorem LabelTypes.addRules_append (m : LabelTypes) (rs rs' : List ARule) :
    m.addRules tx (rs ++ rs') = m.addRules tx rs >>= fun m => m.addRules tx rs' := by
  induction rs generalizing m with
  | nil => rfl
  | cons r rs ih =>
    simp only [List.cons_append, addRules]
    rcases Located.add_outcome tx m r.name r.returnType with ⟨m', h⟩ | h
    · rw [h, Outcome.ok_bind, Outcome.ok_bind, ih]
    · rw [h]; rfl

/-- Adding a type again changes nothing. -/
theorem LabelTypes.add_again {m m' : LabelTypes} {l : String} {ty : Option TokenStream} (h : m.add tx l ty = .ok m') :
    m'.add tx l ty = .ok m' := by
  have hrefl : typesEqual tx ty ty = true := by cases ty <;> simp [typesEqual, cmpTokens]
  unfold LabelTypes.add at h
  cases hl : m.lookup l with
  | some old =>
    rw [hl] at h
    simp only at h
    split at h
    · rename_i ht
      cases h
      simp [LabelTypes.add, hl, ht]
    · cases ho : ty.or old <;> rw [ho] at h <;> cases h
  | none =>
    rw [hl] at h
    cases h
    simp [LabelTypes.add, hrefl]

theorem LabelTypes.addRules_same {l : String} {ty : Option TokenStream} {rs : List ARule}
    (h : ∀ r ∈ rs, r.name = l ∧ r.returnType = ty) {m m' : LabelTypes} (hm : m.add tx l ty = .ok m') :
    m'.addRules tx rs = .ok m' := by
  induction rs with
  | nil => rfl
  | cons r rs ih =>
    obtain ⟨h1, h2⟩ := h r (List.mem_cons_self ..)
    simp only [addRules, h1, h2, add_again hm, Outcome.ok_bind]
    exact ih fun r hr => h r (List.mem_cons_of_mem _ hr)

/-- A declaration adds the type of its label once, which is as good as once for each alternative. -/
theorem LabelTypes.addAll_rules (m : LabelTypes) (ds : List Declaration) (h : ∀ d ∈ ds, d.alternatives ≠ []) :
    m.addAll tx ds = m.addRules tx (ds.flatMap Declaration.rules) := by
  induction ds generalizing m with
  | nil => rfl
  | cons d ds ih =>
    obtain ⟨l, ty, as⟩ := d
    have ih := fun m => ih m fun d hd => h d (List.mem_cons_of_mem _ hd)
    cases as with
    | nil => exact absurd rfl (h _ (List.mem_cons_self ..))
    | cons a as =>
      simp only [addAll, List.flatMap_cons, Declaration.rules, List.map_cons, List.cons_append, addRules]
      rcases Located.add_outcome tx m l ty with ⟨m', hm⟩ | hm
      · rw [hm, Outcome.ok_bind, Outcome.ok_bind, addRules_append, addRules_same (l := l) (ty := ty) _ hm, Outcome.ok_bind, ih]
        intro r hr
        obtain ⟨_, -, rfl⟩ := List.mem_map.mp hr
        exact ⟨rfl, rfl⟩
      · rw [hm]; rfl

/-- What the loop over declarations returns. -/
theorem parseDeclarations_exact {ss : List Symbol} {ds : List Declaration} (h : DeclarationsSyntax tx ss ds) {fuel : Nat}
    (hf : ds.length < fuel) (rules : List ARule) (m : LabelTypes) :
    parseDeclarations tx fuel rules m (items ss) =
      m.addAll tx ds >>= fun m' => .ok (rules ++ ds.flatMap Declaration.rules, m') := by
  induction h generalizing fuel rules m with
  | nil =>
    cases fuel with
    | zero => cases hf
    | succ fuel => simp [parseDeclarations, items, LabelTypes.addAll]
  | @cons s ss d ds hd hds ih =>
    cases fuel with
    | zero => cases hf
    | succ fuel =>
      have h1 : parseDeclarations tx (fuel + 1) rules m (items (s ++ ss)) =
          parseDeclaration tx m (items (s ++ ss)) >>= fun p => parseDeclarations tx fuel (rules ++ p.1) p.2.1 p.2.2 := by
        cases hs : items (s ++ ss) with
        | nil =>
          have := DeclarationSyntax_length hd
          simp [items, this] at hs
        | cons i l => rfl
      rw [h1, show items (s ++ ss) = items s ++ items ss by simp [items]]
      rcases Located.add_outcome tx m d.label d.type with ⟨m', hm⟩ | hm
      · rw [parseDeclaration_complete hd hm, Outcome.ok_bind, ih (by simpa using hf)]
        simp only [LabelTypes.addAll, hm, Outcome.ok_bind, List.flatMap_cons, List.append_assoc]
      · rw [Located.parseDeclaration_mismatch tx hd hm]
        simp only [LabelTypes.addAll, hm]
        rfl

theorem declarations_alternatives {ss : List Symbol} {ds : List Declaration} (h : DeclarationsSyntax tx ss ds) :
    ∀ d ∈ ds, d.alternatives ≠ [] := by
  induction h with
  | nil => intro d hd; cases hd
  | cons h _ ih =>
    intro d hd
    rcases List.mem_cons.mp hd with rfl | hd
    · cases h with
      | mk _ _ _ _ _ h _ => cases h <;> simp
    · exact ih d hd

/-- What the macro's parser returns for a file is determined by its options and its rules. -/
theorem parseGrammar_exact {t : TokenStream} {ss : List Symbol} {f : GrammarFile} (hl : Lexes tx t ss)
    (hf : FileSyntax tx ss f) (hne : f.rules ≠ []) (fuel : Nat) :
    parseGrammar tx fuel (tokenize tx .empty t) = (do
      let m ← LabelTypes.addRules tx [] f.rules
      let ig ← (IndexedGrammar.build f.grammar).mapErr MacroError.table
      let table ← (LRTable.build fuel ig).mapErr MacroError.table
      pure ⟨f.name, f.terminal, f.error, m, f.rules, ig, table⟩) := by
  have hne' : f.declarations ≠ [] := by
    intro e
    exact hne (by simp [GrammarFile.rules, e])
  obtain ⟨s1, s2, ds, h1, h2, h3, hd⟩ := C37.syntax_parses hl hf hne'
  have h4 := parseDeclarations_exact hd (fuel := (items ds).length + 1)
    (by have := DeclarationsSyntax_length hd; simp only [items, List.length_map]; omega) [] []
  rw [LabelTypes.addAll_rules _ _ (declarations_alternatives hd)] at h4
  unfold parseGrammar
  simp only [h1, Outcome.ok_bind, h2, h3, h4, List.nil_append]
  change ((LabelTypes.addRules tx [] f.rules >>= _) >>= _) = _
  cases LabelTypes.addRules tx [] f.rules <;> rfl

end

namespace C93
variable {tx : Text} {lex : Lexer} {o : HashOrder}

/-- **C93.** Two files with the same options and the same rules, however these are grouped into declarations: the macro returns
the same for both, be it a parser or an error. -/
theorem same_rules {t t' : TokenStream} {ss ss' : List Symbol} {f f' : GrammarFile} (hl : Lexes tx t ss)
    (hf : FileSyntax tx ss f) (hl' : Lexes tx t' ss') (hf' : FileSyntax tx ss' f') (hn : f'.name = f.name)
    (ht : f'.terminal = f.terminal) (he : f'.error = f.error) (hr : f'.rules = f.rules) (hne : f.rules ≠ []) (fuel : Nat) :
    buildGrammar o lex tx fuel t' = buildGrammar o lex tx fuel t := by
  have hg : f'.grammar = f.grammar := by simp only [GrammarFile.grammar, hr]
  unfold buildGrammar
  rw [parseGrammar_exact hl hf hne, parseGrammar_exact hl' hf' (hr ▸ hne), hn, ht, he, hr, hg]

theorem split_rules (f : GrammarFile) : f.split.rules = f.rules := by
  simp only [GrammarFile.rules, GrammarFile.split, List.flatMap_assoc]
  congr 1
  funext d
  simp only [List.flatMap_map, Declaration.rules, List.map_cons, List.map_nil]
  exact (List.map_eq_flatMap ..).symm

/-- **C93.** Writing each alternative as a declaration of its own changes nothing. -/
theorem split_same {t t' : TokenStream} {ss ss' : List Symbol} {f : GrammarFile} (hl : Lexes tx t ss)
    (hf : FileSyntax tx ss f) (hl' : Lexes tx t' ss') (hf' : FileSyntax tx ss' f.split) (hne : f.rules ≠ []) (fuel : Nat) :
    buildGrammar o lex tx fuel t' = buildGrammar o lex tx fuel t :=
  same_rules hl hf hl' hf' rfl rfl rfl (split_rules f) hne fuel

theorem split_printable {unprint : String → TokenStream} {f : GrammarFile} (h : C37.PrintableFile tx unprint f) :
    C37.PrintableFile tx unprint f.split where
  keywords := h.keywords
  name := h.name
  terminal := h.terminal
  error := h.error
  declarations := by
    intro d hd
    obtain ⟨d, hm, hd⟩ := List.mem_flatMap.mp hd
    obtain ⟨a, ha, rfl⟩ := List.mem_map.mp hd
    have hd := h.declarations d hm
    refine ⟨hd.label, hd.type, fun b hb => ?_, by simp⟩
    cases List.mem_singleton.mp hb
    exact hd.rules a ha

open GrammarSample in
/-- The sample has a label with two alternatives; written as two declarations they give the same parser. -/
example : ∃ gi prog, buildGrammar .id lexer GrammarSample.tx 1000 tokens = .ok (gi, prog) ∧
    buildGrammar .id lexer GrammarSample.tx 1000 (C37.fileTokens unprint file.split) = .ok (gi, prog) ∧
    file.split.declarations.length = 4 ∧ file.declarations.length = 3 := by
  obtain ⟨gi, prog, hb⟩ := built
  obtain ⟨ss, hl, hf⟩ := file_syntax
  obtain ⟨-, ss', hl', hf'⟩ := C37.file_print (split_printable printable)
  exact ⟨gi, prog, hb, (split_same hl hf hl' hf' (by decide) 1000).trans hb, rfl, rfl⟩

end C93
end Verif
