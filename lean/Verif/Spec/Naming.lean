import Verif.Model.IndexedGrammar
import Verif.Spec.GrammarSyntax

/-!
# Specification: the same grammar with other names

Tokens are renamed by `σ`, labels by `τ`; the types of the new names may differ from those of the old ones.
-/

namespace Verif.Spec

variable {T L T' L' : Type}

/-- A token or marker with its new name. -/
def renameTok (σ : T → T') : AugTok T → AugTok T'
  | .token t => .token (σ t)
  | .epsilon => .epsilon
  | .eos => .eos

/-- A node with its new name. -/
def renameNode (σ : T → T') (τ : L → L') : Node T L → Node T' L'
  | .terminal t => .terminal (renameTok σ t)
  | .production l => .production (τ l)

/-- A rule with new names. -/
def renameRule (σ : T → T') (τ : L → L') (r : Rule T L) : Rule T' L' :=
  ⟨τ r.symbol, r.rule.map (renameNode σ τ)⟩

/-- A grammar with new names; the order of its rules is kept. -/
def renameGrammar (σ : T → T') (τ : L → L') (g : Grammar T L) : Grammar T' L' :=
  ⟨g.productions.map (renameRule σ τ)⟩

/-- An error with new names. -/
def renameError (σ : T → T') (τ : L → L') : LRTableError T L → LRTableError T' L'
  | .emptyGrammar => .emptyGrammar
  | .rootProductionRepeated => .rootProductionRepeated
  | .rootProductionReferenced => .rootProductionReferenced
  | .notConnected ls => .notConnected (ls.map τ)
  | .unrecognizedLabel l => .unrecognizedLabel (τ l)
  | .shiftConflict t => .shiftConflict (renameTok σ t)
  | .shiftReduceConflict r t => .shiftReduceConflict r (renameTok σ t)
  | .reduceConflict r1 r2 t => .reduceConflict r1 r2 (renameTok σ t)
  | .unresolvedStates => .unresolvedStates
  | .stateResolveConflict => .stateResolveConflict

/-- The outcome of a run whose names were changed: the value is mapped by `f`, the error by `fe`. -/
def mapOutcome {ε ε' α β : Type} (fe : ε → ε') (f : α → β) : Outcome ε α → Outcome ε' β
  | .ok a => .ok (f a)
  | .err e => .err (fe e)
  | .panic => .panic
  | .ub => .ub
  | .timeout => .timeout

end Verif.Spec

namespace Verif
variable {T L T' L' : Type}

/-- A vocabulary with new names; the numbers are kept. -/
def Vocab.rename (σ : T → T') (v : Vocab T) : Vocab T' := ⟨v.tokenMap.map fun p => (σ p.1, p.2), v.idMap.map σ⟩

/-- An indexed grammar with new names: its rules, which consist of numbers, are kept. -/
def IndexedGrammar.rename (σ : T → T') (τ : L → L') (ig : IndexedGrammar T L) : IndexedGrammar T' L' :=
  ⟨ig.rules, ig.ruleMetadata.map fun m => ⟨m.startIndex, m.endIndex, τ m.originalLabel⟩, ig.vocab.rename σ⟩

end Verif

namespace Verif.Spec
variable {T L T' L' : Type}

/-- The token occurs in the grammar. -/
def TokenOf (g : Grammar T L) (t : T) : Prop :=
  ∃ r ∈ g.productions, .terminal (.token t) ∈ r.rule

/-- The label occurs in the grammar, on either side of a rule. -/
def LabelOf (g : Grammar T L) (l : L) : Prop :=
  ∃ r ∈ g.productions, r.symbol = l ∨ .production l ∈ r.rule

/-! ### Files -/

/-- A node of a file with its new name. -/
def renameANode (τ : String → String) : ANode → ANode
  | .production l => .production (τ l)
  | .symbol s => .symbol s
  | .epsilon => .epsilon

/-- The body of a constructor with new names: `#label` becomes `#` and the new label. -/
def renameBody (τ : String → String) : TokenStream → TokenStream
  | .nil => .nil
  | .group d inner rest => .group d (renameBody τ inner) (renameBody τ rest)
  | .punct ch joint rest =>
    match rest with
    | .ident name rest' =>
      .punct ch joint (.ident (if joint = false ∧ ch = '#' then τ name else name) (renameBody τ rest'))
    | rest => .punct ch joint (renameBody τ rest)
  | .ident name rest => .ident name (renameBody τ rest)
  | .literal text rest => .literal text (renameBody τ rest)

/-- An alternative with new names. -/
def renameAlternative (τ : String → String) (a : Alternative) : Alternative :=
  (a.1.map (renameANode τ), a.2.map fun b => (b.1, renameBody τ b.2))

/-- A declaration with new names. -/
def renameDeclaration (τ : String → String) (d : Declaration) : Declaration :=
  ⟨τ d.label, d.type, d.alternatives.map (renameAlternative τ)⟩

/-- A file with new names for its labels. -/
def renameFile (τ : String → String) (f : GrammarFile) : GrammarFile :=
  ⟨f.name, f.terminal, f.error, f.declarations.map (renameDeclaration τ)⟩

end Verif.Spec
