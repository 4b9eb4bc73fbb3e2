import Verif.Props.BracketFold
import Verif.Props.OptionalFold
import Verif.Props.RepairGen

/-!
# C98, C100, C102, C105, C106 with the change of C88

With complete FIRST sets, inputs are evaluated as the claims say, whatever the grammar is.
-/

set_option linter.unusedSectionVars false
set_option autoImplicit false

namespace Verif.C98
open Spec

section
variable {P V E F' σ : Type} [DecidableEq P] {lex : Lexer} {o : HashOrder} {gi : GrammarInfo} {prog : Program}
  {S X l : String} {k : Sym} {sem : Sem P V E σ} {e m : Nat}

/-- **C98 with the change of C88.** Generated parsers evaluate all inputs of this form, if patterns do not overlap. -/
theorem generated_evaluated_repaired (h : ListOf S X l k gi.grammar.productions)
    (he : gi.grammar.productions[e]? = some ⟨X, [.terminal .epsilon]⟩)
    (hm : gi.grammar.productions[m]? = some ⟨X, [.production X, .production l, .terminal (.token k)]⟩)
    (hG : GeneratedRepaired o lex gi prog) (hD : gi.Disjoint sem) (debug : Bool)
    (into : F' → E) (items : Nat → Option (Item P F')) (its : List (ListItem (Token P))) (w0 : σ)
    (hW : ∀ i b, (ListItem.all its)[i]? = some b → items i = some (.ok b))
    (hend : items (ListItem.all its).length = none)
    (hits : ∀ it ∈ its, Matches sem gi.terminalType it.close k ∧
      ParsesM gi.grammar.productions (Matches sem gi.terminalType) it.tree [.production l] it.tokens) :
    ∃ N run, (∀ fuel ≥ N, prog.parseFallible debug sem into items fuel w0 = .ok run) ∧
      ((∃ v, andThen (foldItems gi sem e m its w0) (fun u w => construct gi sem 0 [u] w) = (.ok v, run.world) ∧
          run.result = .ok v) ∨
        ∃ x, andThen (foldItems gi sem e m its w0) (fun u w => construct gi sem 0 [u] w) = (.error x, run.world) ∧
          run.result = .error (.user x)) := by
  obtain ⟨rest, e1⟩ := C97.nonempty (g := gi.grammar) h
  obtain ⟨i, c, h1, h2⟩ := list_tree (sem := sem) he hm its hits
  have ht : ParseTreeM gi.grammar (Matches sem gi.terminalType) (.node 0 (.node i c .nil) .nil) (ListItem.all its) := by
    refine ⟨_, _, e1, ?_⟩
    have h2 := ParsesM.prod h.root h1 .nil
    simpa using h2
  obtain ⟨N, run, hN, hall, -⟩ := C88.generated_evaluates_sentences hG debug sem into items (ListItem.all its) w0 hD hW hend
  have hres := hall _ ht
  refine ⟨N, run, hN, ?_⟩
  rw [value_root i c its h2] at hres
  rcases hx : andThen (foldItems gi sem e m its w0) (fun u w => construct gi sem 0 [u] w) with ⟨e | v', w1⟩
  · rw [hx] at hres
    simpa [andThen] using hres
  · rw [hx] at hres
    simpa [andThen] using hres

end
end Verif.C98

namespace Verif.C100
open Spec C98

section
variable {P V E F' σ : Type} [DecidableEq P] {lex : Lexer} {o : HashOrder} {gi : GrammarInfo} {prog : Program}
  {S X l : String} {k : Sym} {sem : Sem P V E σ} {e m : Nat}

/-- **C100 with the change of C88.** Generated parsers evaluate all inputs of this form, if patterns do not overlap. -/
theorem generated_evaluated_repaired (h : SepList S X l k gi.grammar.productions)
    (he : gi.grammar.productions[e]? = some ⟨X, [.production l]⟩)
    (hm : gi.grammar.productions[m]? = some ⟨X, [.production X, .terminal (.token k), .production l]⟩)
    (hG : GeneratedRepaired o lex gi prog) (hD : gi.Disjoint sem) (debug : Bool)
    (into : F' → E) (items : Nat → Option (Item P F')) (g : Forest (Token P)) (W0 : List (Token P))
    (its : List (SepItem (Token P))) (w0 : σ)
    (hW : ∀ i b, (SepItem.all W0 its)[i]? = some b → items i = some (.ok b))
    (hend : items (SepItem.all W0 its).length = none)
    (hg : ParsesM gi.grammar.productions (Matches sem gi.terminalType) g [.production l] W0)
    (hits : ∀ it ∈ its, Matches sem gi.terminalType it.sep k ∧
      ParsesM gi.grammar.productions (Matches sem gi.terminalType) it.tree [.production l] it.tokens) :
    ∃ N run, (∀ fuel ≥ N, prog.parseFallible debug sem into items fuel w0 = .ok run) ∧
      ((∃ v, andThen (foldSep gi sem e m g its w0) (fun u w => construct gi sem 0 [u] w) = (.ok v, run.world) ∧
          run.result = .ok v) ∨
        ∃ x, andThen (foldSep gi sem e m g its w0) (fun u w => construct gi sem 0 [u] w) = (.error x, run.world) ∧
          run.result = .error (.user x)) := by
  obtain ⟨rest, e1⟩ := C99.nonempty (g := gi.grammar) h
  obtain ⟨i, c, h1, h2⟩ := list_tree (sem := sem) he hm g W0 its hg hits
  have ht : ParseTreeM gi.grammar (Matches sem gi.terminalType) (.node 0 (.node i c .nil) .nil) (SepItem.all W0 its) := by
    refine ⟨_, _, e1, ?_⟩
    have h2 := ParsesM.prod h.root h1 .nil
    simpa using h2
  obtain ⟨N, run, hN, hall, -⟩ := C88.generated_evaluates_sentences hG debug sem into items (SepItem.all W0 its) w0 hD hW hend
  have hres := hall _ ht
  refine ⟨N, run, hN, ?_⟩
  rw [value_root i c g its h2] at hres
  rcases hx : andThen (foldSep gi sem e m g its w0) (fun u w => construct gi sem 0 [u] w) with ⟨e | v', w1⟩
  · rw [hx] at hres
    simpa [andThen] using hres
  · rw [hx] at hres
    simpa [andThen] using hres

end
end Verif.C100

namespace Verif.C102
open Spec C98

section
variable {P V E F' σ : Type} [DecidableEq P] {lex : Lexer} {o : HashOrder} {gi : GrammarInfo} {prog : Program}
  {S X l : String} {k : Sym} {sem : Sem P V E σ} {e m : Nat}

/-- **C102 with the change of C88.** Generated parsers evaluate all inputs of this form, if patterns do not overlap. -/
theorem generated_evaluated_repaired (h : RightList S X l k gi.grammar.productions)
    (he : gi.grammar.productions[e]? = some ⟨X, [.production l]⟩)
    (hm : gi.grammar.productions[m]? = some ⟨X, [.production l, .terminal (.token k), .production X]⟩)
    (hG : GeneratedRepaired o lex gi prog) (hD : gi.Disjoint sem) (debug : Bool)
    (into : F' → E) (items : Nat → Option (Item P F')) (g : Forest (Token P)) (W0 : List (Token P))
    (its : List (ListItem (Token P))) (w0 : σ)
    (hW : ∀ i b, ((ListItem.all its ++ W0))[i]? = some b → items i = some (.ok b))
    (hend : items ((ListItem.all its ++ W0)).length = none)
    (hg : ParsesM gi.grammar.productions (Matches sem gi.terminalType) g [.production l] W0)
    (hits : ∀ it ∈ its, Matches sem gi.terminalType it.close k ∧
      ParsesM gi.grammar.productions (Matches sem gi.terminalType) it.tree [.production l] it.tokens) :
    ∃ N run, (∀ fuel ≥ N, prog.parseFallible debug sem into items fuel w0 = .ok run) ∧
      ((∃ v, andThen (foldRight gi sem e m g its w0) (fun u w => construct gi sem 0 [u] w) = (.ok v, run.world) ∧
          run.result = .ok v) ∨
        ∃ x, andThen (foldRight gi sem e m g its w0) (fun u w => construct gi sem 0 [u] w) = (.error x, run.world) ∧
          run.result = .error (.user x)) := by
  obtain ⟨rest, e1⟩ := C101.nonempty (g := gi.grammar) h
  obtain ⟨i, c, h1, h2⟩ := list_tree (sem := sem) he hm its g W0 hg hits
  have ht : ParseTreeM gi.grammar (Matches sem gi.terminalType) (.node 0 (.node i c .nil) .nil) ((ListItem.all its ++ W0)) := by
    refine ⟨_, _, e1, ?_⟩
    have h2 := ParsesM.prod h.root h1 .nil
    simpa using h2
  obtain ⟨N, run, hN, hall, -⟩ := C88.generated_evaluates_sentences hG debug sem into items ((ListItem.all its ++ W0)) w0 hD hW hend
  have hres := hall _ ht
  refine ⟨N, run, hN, ?_⟩
  rw [value_root i c g its h2] at hres
  rcases hx : andThen (foldRight gi sem e m g its w0) (fun u w => construct gi sem 0 [u] w) with ⟨e | v', w1⟩
  · rw [hx] at hres
    simpa [andThen] using hres
  · rw [hx] at hres
    simpa [andThen] using hres

end
end Verif.C102

namespace Verif.C105
open Spec C98

section
variable {P V E F' σ : Type} [DecidableEq P] {lex : Lexer} {o : HashOrder} {gi : GrammarInfo} {prog : Program}
  {S X l : String} {op cl : Sym} {sem : Sem P V E σ} {e m : Nat}

/-- **C105 with the change of C88.** Generated parsers evaluate all inputs of this form, if patterns do not overlap. -/
theorem generated_evaluated_repaired (h : Brackets S X l op cl gi.grammar.productions)
    (he : gi.grammar.productions[e]? = some ⟨X, [.production l]⟩)
    (hm : gi.grammar.productions[m]? = some ⟨X, [.terminal (.token op), .production X, .terminal (.token cl)]⟩)
    (hG : GeneratedRepaired o lex gi prog) (hD : gi.Disjoint sem) (debug : Bool)
    (into : F' → E) (items : Nat → Option (Item P F')) (g : Forest (Token P)) (W0 : List (Token P))
    (ps : List (Token P × Token P)) (w0 : σ)
    (hW : ∀ i b, (inBrackets W0 ps)[i]? = some b → items i = some (.ok b))
    (hend : items (inBrackets W0 ps).length = none)
    (hg : ParsesM gi.grammar.productions (Matches sem gi.terminalType) g [.production l] W0)
    (hps : ∀ p ∈ ps, Matches sem gi.terminalType p.1 op ∧ Matches sem gi.terminalType p.2 cl) :
    ∃ N run, (∀ fuel ≥ N, prog.parseFallible debug sem into items fuel w0 = .ok run) ∧
      ((∃ v, andThen (insideOut gi sem e m g ps w0) (fun u w => construct gi sem 0 [u] w) = (.ok v, run.world) ∧
          run.result = .ok v) ∨
        ∃ x, andThen (insideOut gi sem e m g ps w0) (fun u w => construct gi sem 0 [u] w) = (.error x, run.world) ∧
          run.result = .error (.user x)) := by
  obtain ⟨rest, e1⟩ := C104.nonempty (g := gi.grammar) h
  obtain ⟨i, c, h1, h2⟩ := brackets_tree (sem := sem) he hm ps g W0 hg hps
  have ht : ParseTreeM gi.grammar (Matches sem gi.terminalType) (.node 0 (.node i c .nil) .nil) (inBrackets W0 ps) := by
    refine ⟨_, _, e1, ?_⟩
    have h2 := ParsesM.prod h.root h1 .nil
    simpa using h2
  obtain ⟨N, run, hN, hall, -⟩ := C88.generated_evaluates_sentences hG debug sem into items (inBrackets W0 ps) w0 hD hW hend
  have hres := hall _ ht
  refine ⟨N, run, hN, ?_⟩
  rw [value_root i c g ps h2] at hres
  rcases hx : andThen (insideOut gi sem e m g ps w0) (fun u w => construct gi sem 0 [u] w) with ⟨e | v', w1⟩
  · rw [hx] at hres
    simpa [andThen] using hres
  · rw [hx] at hres
    simpa [andThen] using hres

end
end Verif.C105

namespace Verif.C106
open Spec C98

section
variable {P V E F' σ : Type} [DecidableEq P] {lex : Lexer} {o : HashOrder} {gi : GrammarInfo} {prog : Program}
  {S X l : String} {sem : Sem P V E σ} {e m : Nat}

/-- **C106 with the change of C88.** Generated parsers evaluate all inputs of this form, if patterns do not overlap. -/
theorem generated_evaluated_repaired (h : Spec.Optional S X l gi.grammar.productions)
    (he : gi.grammar.productions[e]? = some ⟨X, [.terminal .epsilon]⟩)
    (hm : gi.grammar.productions[m]? = some ⟨X, [.production l]⟩)
    (hG : GeneratedRepaired o lex gi prog) (hD : gi.Disjoint sem) (debug : Bool)
    (into : F' → E) (items : Nat → Option (Item P F')) (g : Option (Forest (Token P)))
    (W0 : List (Token P)) (w0 : σ)
    (hW : ∀ i b, W0[i]? = some b → items i = some (.ok b))
    (hend : items W0.length = none)
    (hg : OptionalTree (fun g W => ParsesM gi.grammar.productions (Matches sem gi.terminalType) g [.production l] W) W0 g) :
    ∃ N run, (∀ fuel ≥ N, prog.parseFallible debug sem into items fuel w0 = .ok run) ∧
      ((∃ v, andThen (optionValue gi sem e m g w0) (fun u w => construct gi sem 0 [u] w) = (.ok v, run.world) ∧
          run.result = .ok v) ∨
        ∃ x, andThen (optionValue gi sem e m g w0) (fun u w => construct gi sem 0 [u] w) = (.error x, run.world) ∧
          run.result = .error (.user x)) := by
  obtain ⟨rest, e1⟩ := C103.nonempty (g := gi.grammar) h
  obtain ⟨i, c, h1, h2⟩ := option_tree (sem := sem) he hm g W0 hg
  have ht : ParseTreeM gi.grammar (Matches sem gi.terminalType) (.node 0 (.node i c .nil) .nil) W0 := by
    refine ⟨_, _, e1, ?_⟩
    have h2 := ParsesM.prod h.root h1 .nil
    simpa using h2
  obtain ⟨N, run, hN, hall, -⟩ := C88.generated_evaluates_sentences hG debug sem into items W0 w0 hD hW hend
  have hres := hall _ ht
  refine ⟨N, run, hN, ?_⟩
  rw [value_root i c g h2] at hres
  rcases hx : andThen (optionValue gi sem e m g w0) (fun u w => construct gi sem 0 [u] w) with ⟨e | v', w1⟩
  · rw [hx] at hres
    simpa [andThen] using hres
  · rw [hx] at hres
    simpa [andThen] using hres

end
end Verif.C106

/-! ## Concrete cases -/

namespace Verif.FoldRepaired
open Spec

theorem generated {rules : List ARule} {labels : List String} (he : EpsilonLast ⟨rules.map ARule.toLr⟩)
    (h : (do
      let ig ← IndexedGrammar.build ⟨rules.map ARule.toLr⟩
      let t ← LRTable.buildRepaired 30 ig
      match generateParser .id Sample.lexer
        ⟨"Sample", .enum (.ident "Tok" .nil), none, labels.map fun l => (l, none), rules, ig, t⟩ with
      | .ok prog => pure (Sample.compilesB prog)
      | _ => pure false : Outcome (LRTableError Sym String) Bool) = .ok true) :
    ∃ gi prog, GeneratedRepaired .id Sample.lexer gi prog ∧ gi.productionRules = rules ∧
      gi.terminalType = .enum (.ident "Tok" .nil) := by
  obtain ⟨ig, h1, h⟩ := Outcome.bind_eq_ok.mp h
  obtain ⟨t, h2, h⟩ := Outcome.bind_eq_ok.mp h
  split at h
  · rename_i prog hp
    simp only [Outcome.pure_eq, Outcome.ok.injEq] at h
    exact ⟨⟨"Sample", .enum (.ident "Tok" .nil), none, labels.map fun l => (l, none), rules, ig, t⟩, prog,
      ⟨h1, ⟨30, h2⟩, he, hp, Sample.compiles_of h⟩, rfl, rfl⟩
  · cases h

/-- `Open Plus Close`, which the generated parser of the repository refuses (`C105.generated_evaluated_refuted`), is
evaluated. -/
example : ∃ (gi : GrammarInfo) (prog : Program), GeneratedRepaired .id Sample.lexer gi prog ∧
    gi.productionRules = C105.late ∧ ∃ N run, (∀ fuel ≥ N, prog.parseFallible true Sample.sem1 id
      (fun i => ([.unit "Open", .unit "Plus", .unit "Close"] : List (Token Nat))[i]?.map .ok) fuel 0 = .ok run) ∧
    ∀ tok, run.result ≠ .error (.parseError tok) := by
  obtain ⟨gi, prog, h, h1, h2⟩ := generated (rules := C105.late)
    (labels := ["S", "X", "L", "Y", "B", "A", "A1", "A2"]) (by unfold EpsilonLast; decide) (by decide +kernel)
  have hg : gi.grammar.productions = C105.lateP := by simp only [GrammarInfo.grammar, h1]; rfl
  obtain ⟨N, run, hN, hres⟩ := C105.generated_evaluated_repaired (e := 1) (m := 2) (sem := Sample.sem1)
    (by rw [hg]; exact C105.late_brackets) (by rw [hg]; rfl) (by rw [hg]; rfl) h (C105.late_disjoint h1 h2) true id
    (fun i => ([.unit "Open", .unit "Plus", .unit "Close"] : List (Token Nat))[i]?.map .ok) C105.latePlus [.unit "Plus"]
    [(.unit "Open", .unit "Close")] 0 (fun i b hb => by simp only [inBrackets] at hb; exact congrArg (Option.map Except.ok) hb)
    (by simp [inBrackets]) (by rw [hg, h2]; exact C105.latePlus_parses .unit) (by
      intro p hp
      rw [List.mem_singleton] at hp
      subst hp
      rw [h2]
      exact ⟨.unit, .unit⟩)
  refine ⟨gi, prog, h, h1, N, run, hN, fun tok ht => ?_⟩
  rcases hres with ⟨v, -, hv⟩ | ⟨x, -, hv⟩ <;> rw [ht] at hv <;> cases hv

theorem file_generated {a b : List ANode} (he : EpsilonLast ⟨(FoldRefuted.file a b).map ARule.toLr⟩)
    (hab : ∀ s, .symbol s ∈ a ++ b → s = ⟨"Minus", .none⟩)
    (h : (do
      let ig ← IndexedGrammar.build ⟨(FoldRefuted.file a b).map ARule.toLr⟩
      let t ← LRTable.buildRepaired 30 ig
      match generateParser .id Sample.lexer ⟨"Sample", .enum (.ident "Tok" .nil), none,
        ["S", "X", "L", "Y", "B", "A"].map fun l => (l, none), FoldRefuted.file a b, ig, t⟩ with
      | .ok prog => pure (Sample.compilesB prog)
      | _ => pure false : Outcome (LRTableError Sym String) Bool) = .ok true) :
    ∃ gi prog, GeneratedRepaired .id Sample.lexer gi prog ∧ gi.productionRules = FoldRefuted.file a b ∧
      gi.Disjoint Sample.sem1 := by
  obtain ⟨gi, prog, h, h1, h2⟩ := generated he h
  exact ⟨gi, prog, h, h1, FoldRefuted.disjoint h1 h2 hab⟩

/-- The hypotheses on the generated parser are met by the other files that the parsers of the repository refuse. -/
example : ∀ f ∈ [FoldRefuted.file [.epsilon] [.production "X", .production "L", .symbol ⟨"Minus", .none⟩],
    FoldRefuted.file [.production "L"] [.production "X", .symbol ⟨"Minus", .none⟩, .production "L"],
    FoldRefuted.file [.production "L"] [.production "L", .symbol ⟨"Minus", .none⟩, .production "X"],
    FoldRefuted.file [.epsilon] [.production "L"]],
    ∃ gi prog, GeneratedRepaired .id Sample.lexer gi prog ∧ gi.productionRules = f ∧ gi.Disjoint Sample.sem1 := by
  intro f hf
  simp only [List.mem_cons, List.not_mem_nil, or_false] at hf
  rcases hf with rfl | rfl | rfl | rfl
  · exact file_generated (by unfold EpsilonLast; decide) (by simp) (by decide +kernel)
  · exact file_generated (by unfold EpsilonLast; decide) (by simp) (by decide +kernel)
  · exact file_generated (by unfold EpsilonLast; decide) (by simp) (by decide +kernel)
  · exact file_generated (by unfold EpsilonLast; decide) (by simp) (by decide +kernel)

end Verif.FoldRepaired
