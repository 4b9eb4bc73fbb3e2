import Verif.Props.GrammarPrint

/-!
# C37, C38, C39 in concrete cases

```
name: Calc; enum_terminal: Token; error_type: Oops;
<S>: u64 => <O> <L> { #L };
<O> => !;
<L>: u64 => Num(..) { #0 } | <L> Plus Num(x) { #1 };
```
-/

set_option autoImplicit false

namespace Verif.GrammarSample
open Spec C37

/-- Tokens as text. -/
def printTokens : TokenStream → String
  | .nil => ""
  | .group .paren i r => "(" ++ printTokens i ++ ")" ++ printTokens r
  | .group .brace i r => "{" ++ printTokens i ++ "}" ++ printTokens r
  | .group .bracket i r => "[" ++ printTokens i ++ "]" ++ printTokens r
  | .group .none i r => printTokens i ++ printTokens r
  | .ident n r => n ++ " " ++ printTokens r
  | .literal t r => t ++ " " ++ printTokens r
  | .punct c j r => String.ofList [c] ++ (if j then "" else " ") ++ printTokens r

def tx : Text where
  alphabetic := Char.isAlpha
  alphanumeric := Char.isAlphanum
  print := printTokens

/-- The tokens of the only pattern of the sample. -/
def unprint (_ : String) : TokenStream := .ident "x" .nil

def file : GrammarFile where
  name := "Calc"
  terminal := .enum (.ident "Token" .nil)
  error := some (.ident "Oops" .nil)
  declarations :=
    [⟨"S", some (.ident "u64" .nil),
      [([.production "O", .production "L"], some (.brace, .punct '#' false (.ident "L" .nil)))]⟩,
     ⟨"O", none, [([.epsilon], none)]⟩,
     ⟨"L", some (.ident "u64" .nil),
      [([.symbol ⟨"Num", .wildcard⟩], some (.brace, .punct '#' false (.literal "0" .nil))),
       ([.production "L", .symbol ⟨"Plus", .none⟩, .symbol ⟨"Num", .pattern "x "⟩],
        some (.brace, .punct '#' false (.ident "L" .nil)))]⟩]

theorem ident_of {s : String} (h : tx.isIdentifier s = true) : Identifier tx s := isIdentifier_iff.mp h

theorem type_of {s : String} (h : tx.isIdentifier s = true) : PrintableType tx (.ident s .nil) := by
  refine ⟨trivial, [⟨.ident s, .ident s .nil⟩], lexes_one (.ident (ident_of h)), ?_⟩
  exact .mk (a := ⟨.ident s, .ident s .nil⟩) (ss := []) (by simp)

/-- The sample can be written. -/
theorem printable : PrintableFile tx unprint file where
  keywords := ⟨ident_of (by decide +kernel), ident_of (by decide +kernel), ident_of (by decide +kernel),
    ident_of (by decide +kernel)⟩
  name := ident_of (by decide +kernel)
  terminal := by
    rintro ty (h | h) <;> cases h
    exact type_of (by decide +kernel)
  error := by
    rintro ty h
    cases h
    exact type_of (by decide +kernel)
  declarations := by
    have hw : ¬ Wildcard (.ident "x" .nil) := by rintro (h | h) <;> cases h
    intro d hd
    simp only [file, List.mem_cons, List.not_mem_nil, or_false] at hd
    rcases hd with rfl | rfl | rfl
    · refine ⟨ident_of (by decide +kernel), ?_, ?_, by simp⟩
      · rintro ty h; cases h; exact type_of (by decide +kernel)
      · intro a ha
        simp only [List.mem_cons, List.not_mem_nil, or_false] at ha
        subst ha
        refine ⟨?_, by simp, by simp [Alone], by simp⟩
        intro n hn
        simp only [List.mem_cons, List.not_mem_nil, or_false] at hn
        rcases hn with rfl | rfl <;> exact ident_of (by decide +kernel)
    · refine ⟨ident_of (by decide +kernel), by simp, ?_, by simp⟩
      intro a ha
      simp only [List.mem_cons, List.not_mem_nil, or_false] at ha
      subst ha
      exact ⟨by simp [PrintableNode], by simp, by simp [Alone], by simp⟩
    · refine ⟨ident_of (by decide +kernel), ?_, ?_, by simp⟩
      · rintro ty h; cases h; exact type_of (by decide +kernel)
      · intro a ha
        simp only [List.mem_cons, List.not_mem_nil, or_false] at ha
        rcases ha with rfl | rfl
        · refine ⟨?_, by simp, by simp [Alone], by simp⟩
          intro n hn
          simp only [List.mem_cons, List.not_mem_nil, or_false] at hn
          subst hn; exact ident_of (by decide +kernel)
        · refine ⟨?_, by simp, by simp [Alone], by simp⟩
          intro n hn
          simp only [List.mem_cons, List.not_mem_nil, or_false] at hn
          rcases hn with rfl | rfl | rfl
          · exact ident_of (by decide +kernel)
          · exact .inl (ident_of (by decide +kernel))
          · exact ⟨ident_of (by decide +kernel), by decide +kernel, hw⟩

/-- The tokens of the sample. -/
def tokens : TokenStream := fileTokens unprint file

theorem tokens_joint : JointOk tokens := by
  simp [tokens, fileTokens, file, cat, opTokens, typeOptionTokens, declarationTokens, rulesTokens, ruleTokens,
    nodeTokens, JointOk, TokenStream.append, unprint]

/-- The sample is accepted. -/
theorem accepted : ∃ gi, parseGrammar tx 1000 (tokenize tx .empty tokens) = .ok gi := by
  have h : (match parseGrammar tx 1000 (tokenize tx .empty tokens) with | .ok _ => true | _ => false) = true := by
    decide +kernel
  revert h
  cases parseGrammar tx 1000 (tokenize tx .empty tokens) <;> simp

/-- It is read as it was written. -/
theorem reads : ∃ gi, parseGrammar tx 1000 (tokenize tx .empty tokens) = .ok gi ∧ Reads gi file :=
  ⟨_, accepted.choose_spec, (round_trip printable 1000).1 _ accepted.choose_spec⟩

/-! Errors: two types for one label, `!` among other nodes, a missing semicolon. -/

/-- The tokens of a file with the given declarations. -/
def withDeclarations (ds : List Declaration) : TokenStream := fileTokens unprint { file with declarations := ds }

example : (match parseGrammar tx 1000 (tokenize tx .empty (withDeclarations
    [⟨"S", some (.ident "u64" .nil), [([.production "A"], none)]⟩,
     ⟨"A", some (.ident "u64" .nil), [([.symbol ⟨"a", .none⟩], none)]⟩,
     ⟨"A", some (.ident "u32" .nil), [([.symbol ⟨"b", .none⟩], none)]⟩])) with
    | .err .typeMismatch => true | _ => false) = true := by
  decide +kernel

example : (match parseGrammar tx 1000 (tokenize tx .empty (withDeclarations
    [⟨"S", none, [([.epsilon, .symbol ⟨"a", .none⟩], none)]⟩])) with
    | .err .epsilonNotAlone => true | _ => false) = true := by
  decide +kernel

example : (match parseGrammar tx 1000 (tokenize tx .empty (.ident "name" (.punct ':' false (.ident "Calc"
    (.ident "terminal" .nil))))) with
    | .err .unexpectedToken => true | _ => false) = true := by
  decide +kernel

end Verif.GrammarSample
