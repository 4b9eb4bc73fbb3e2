import Verif.Spec.Results
import Verif.Spec.GrammarSyntax

/-!
# Specification: results of two parsers that are related

Two parsers for the same rules, with other constructors and types, on inputs whose tokens correspond. Values of a node of a
rule are compared by `RV`, which may depend on the node, worlds by `Rw`, errors of constructors by `RE`. The first parser's
constructors may fail with an error in `Free` whatever the second parser's do.
-/

set_option autoImplicit false

namespace Verif.Spec

variable {T L A A' V V' E E' σ σ' : Type}

/-- The values belong to the nodes, and correspond. -/
inductive Values (RV : Node T L → V → V' → Prop) : List (Node T L) → List V → List V' → Prop
  | nil : Values RV [] [] []
  | cons {X : Node T L} {γ : List (Node T L)} {v : V} {v' : V'} {vs : List V} {vs' : List V'} :
      RV X v v' → Values RV γ vs vs' → Values RV (X :: γ) (v :: vs) (v' :: vs')

/-- Both are well and correspond, or both fail, or the first fails with an error that the second need not have. -/
inductive Outcomes {α α' : Type} (R : α → α' → Prop) (RE : E → E' → Prop) (Rw : σ → σ' → Prop) (Free : E → Prop) :
    Except E α × σ → Except E' α' × σ' → Prop
  | ok {a : α} {a' : α'} {w : σ} {w' : σ'} : R a a' → Rw w w' → Outcomes R RE Rw Free (.ok a, w) (.ok a', w')
  | error {e : E} {e' : E'} {w : σ} {w' : σ'} : RE e e' → Rw w w' → Outcomes R RE Rw Free (.error e, w) (.error e', w')
  | free {e : E} {w : σ} {x : Except E' α' × σ'} : Free e → Outcomes R RE Rw Free (.error e, w) x

/-- The constructors of rule `i` of both parsers do corresponding things to corresponding values. -/
def Constructors (P : List (Rule T L)) (RV : Node T L → V → V' → Prop) (RE : E → E' → Prop) (Rw : σ → σ' → Prop)
    (Free : E → Prop) (apply : Nat → List V → σ → Except E V × σ) (apply' : Nat → List V' → σ' → Except E' V' × σ') : Prop :=
  ∀ (i : Nat) (r : Rule T L) vs vs' w w', P[i]? = some r → Values RV (rhs r) vs vs' → Rw w w' →
    Outcomes (RV (.production r.symbol)) RE Rw Free (apply i vs w) (apply' i vs' w')

/-- Two ends of a parse correspond. -/
inductive EndsAlike (RA : A → A' → Prop) (R : V → V' → Prop) (RE : E → E' → Prop) : End A V E → End A' V' E' → Prop
  | value {v : V} {v' : V'} : R v v' → EndsAlike RA R RE (.value v) (.value v')
  | failed {e : E} {e' : E'} : RE e e' → EndsAlike RA R RE (.failed e) (.failed e')
  | unexpected {a : A} {a' : A'} : RA a a' → EndsAlike RA R RE (.unexpected (some a)) (.unexpected (some a'))
  | ended : EndsAlike RA R RE (.unexpected none) (.unexpected none)

/-- The file without types, constructors and error type. -/
def GrammarFile.bare (f : GrammarFile) : GrammarFile :=
  { f with error := none, declarations := f.declarations.map fun d => ⟨d.label, none, d.alternatives.map fun a => (a.1, none)⟩ }

/-- The file with each alternative as a declaration of its own. -/
def GrammarFile.split (f : GrammarFile) : GrammarFile :=
  { f with declarations := f.declarations.flatMap fun d => d.alternatives.map fun a => ⟨d.label, d.type, [a]⟩ }

end Verif.Spec
