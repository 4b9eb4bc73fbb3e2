import Verif.Spec.Symbols

/-!
# Specification: the syntax of the grammar language

```text
file     ::= "name" ":" ident ";" ("terminal" | "enum_terminal") ":" type ";" ("error_type" ":" type ";")? decl*
decl     ::= "<" ident ">" (":" type)? "=>" rule ("|" rule)* ";"
rule     ::= node+ block?
node     ::= "<" ident ">" | "!" | literal | ident | ident "(" ".." ")" | ident "(" pattern ")"
type     ::= symbol (any symbol but "=>" and ";")*
```
-/

set_option autoImplicit false

namespace Verif.Spec

/-- An alternative of a declaration: nodes and constructor. -/
abbrev Alternative := List ANode × Option (Delim × TokenStream)

/-- A declaration: label, type, alternatives. -/
structure Declaration where
  label : String
  type : Option TokenStream
  alternatives : List Alternative

/-- A grammar file. -/
structure GrammarFile where
  name : String
  terminal : TerminalType
  error : Option TokenStream
  declarations : List Declaration

/-- The contents of a wildcard's parentheses: `..` (or a punctuation `_`). -/
def Wildcard (t : TokenStream) : Prop :=
  t = .punct '.' true (.punct '.' false .nil) ∨ t = .punct '_' false .nil

/-- `Is k s`: the symbol `s` is the symbol `k`. -/
def Is (k : SymT) (s : Symbol) : Prop := s.sym = k

/-- `node` of the grammar above. -/
inductive NodeSyntax (tx : Text) : List Symbol → ANode → Prop
  | production {a b c : Symbol} {name : String} : Is (.op .beginProd) a → Is (.ident name) b →
      Is (.op .endProd) c → NodeSyntax tx [a, b, c] (.production name)
  | epsilon {a : Symbol} : Is (.op .bang) a → NodeSyntax tx [a] .epsilon
  | literal {a : Symbol} {text : String} : Is (.literal text) a → NodeSyntax tx [a] (.symbol ⟨text, .none⟩)
  | plain {a : Symbol} {name : String} : Is (.ident name) a → NodeSyntax tx [a] (.symbol ⟨name, .none⟩)
  | wildcard {a b : Symbol} {name : String} {inner : TokenStream} : Is (.ident name) a →
      Is (.paren inner) b → Wildcard inner → NodeSyntax tx [a, b] (.symbol ⟨name, .wildcard⟩)
  | pattern {a b : Symbol} {name : String} {inner : TokenStream} : Is (.ident name) a →
      Is (.paren inner) b → ¬ Wildcard inner →
      NodeSyntax tx [a, b] (.symbol ⟨name, .pattern (tx.print inner)⟩)

/-- `node*`. -/
inductive NodesSyntax (tx : Text) : List Symbol → List ANode → Prop
  | nil : NodesSyntax tx [] []
  | cons {s ss : List Symbol} {n : ANode} {ns : List ANode} : NodeSyntax tx s n → NodesSyntax tx ss ns →
      NodesSyntax tx (s ++ ss) (n :: ns)

/-- Epsilon stands alone in its rule. -/
def Alone (nodes : List ANode) : Prop := .epsilon ∈ nodes → nodes = [.epsilon]

/-- `rule`. -/
inductive RuleSyntax (tx : Text) : List Symbol → Alternative → Prop
  | bare {ss : List Symbol} {ns : List ANode} : NodesSyntax tx ss ns → ns ≠ [] → Alone ns →
      RuleSyntax tx ss (ns, none)
  | block {ss : List Symbol} {b : Symbol} {ns : List ANode} {d : Delim} {inner : TokenStream} :
      NodesSyntax tx ss ns → ns ≠ [] → Alone ns → Is (.group d inner) b →
      RuleSyntax tx (ss ++ [b]) (ns, some (d, inner))

/-- `type`: it stands for the tokens it is written with. -/
inductive TypeSyntax : List Symbol → TokenStream → Prop
  | mk {a : Symbol} {ss : List Symbol} :
      (∀ s ∈ ss, ¬ Is (.op .arrow) s ∧ ¬ Is (.op .semicolon) s) → TypeSyntax (a :: ss) (tokensOf (a :: ss))

/-- `(":" type)?`. -/
inductive ReturnTypeSyntax : List Symbol → Option TokenStream → Prop
  | none : ReturnTypeSyntax [] none
  | some {a : Symbol} {ss : List Symbol} {ty : TokenStream} : Is (.op .colon) a → TypeSyntax ss ty →
      ReturnTypeSyntax (a :: ss) (some ty)

/-- `rule ("|" rule)*`. -/
inductive RulesSyntax (tx : Text) : List Symbol → List Alternative → Prop
  | one {ss : List Symbol} {a : Alternative} : RuleSyntax tx ss a → RulesSyntax tx ss [a]
  | cons {ss rest : List Symbol} {a : Alternative} {as : List Alternative} {p : Symbol} :
      RuleSyntax tx ss a → Is (.op .pipe) p → RulesSyntax tx rest as →
      RulesSyntax tx (ss ++ p :: rest) (a :: as)

/-- `decl`. -/
inductive DeclarationSyntax (tx : Text) : List Symbol → Declaration → Prop
  | mk {a b c arrow semi : Symbol} {ts rs : List Symbol} {label : String} {ty : Option TokenStream}
      {as : List Alternative} : Is (.op .beginProd) a → Is (.ident label) b → Is (.op .endProd) c →
      ReturnTypeSyntax ts ty → Is (.op .arrow) arrow → RulesSyntax tx rs as → Is (.op .semicolon) semi →
      DeclarationSyntax tx (a :: b :: c :: (ts ++ arrow :: (rs ++ [semi]))) ⟨label, ty, as⟩

/-- `decl*`. -/
inductive DeclarationsSyntax (tx : Text) : List Symbol → List Declaration → Prop
  | nil : DeclarationsSyntax tx [] []
  | cons {s ss : List Symbol} {d : Declaration} {ds : List Declaration} : DeclarationSyntax tx s d →
      DeclarationsSyntax tx ss ds → DeclarationsSyntax tx (s ++ ss) (d :: ds)

/-- `keyword ":" type ";"`. -/
inductive TypeOptionSyntax (keyword : String) : List Symbol → TokenStream → Prop
  | mk {k colon semi : Symbol} {ss : List Symbol} {ty : TokenStream} : Is (.ident keyword) k →
      Is (.op .colon) colon → TypeSyntax ss ty → Is (.op .semicolon) semi →
      TypeOptionSyntax keyword (k :: colon :: (ss ++ [semi])) ty

/-- The options at the beginning of a file. -/
inductive NameSyntax : List Symbol → String → Prop
  | mk {k colon n semi : Symbol} {name : String} : Is (.ident "name") k → Is (.op .colon) colon →
      Is (.ident name) n → Is (.op .semicolon) semi → NameSyntax [k, colon, n, semi] name

@[inherit_doc NameSyntax]
inductive TerminalSyntax : List Symbol → TerminalType → Prop
  | raw {ss : List Symbol} {ty : TokenStream} : TypeOptionSyntax "terminal" ss ty → TerminalSyntax ss (.raw ty)
  | enum {ss : List Symbol} {ty : TokenStream} : TypeOptionSyntax "enum_terminal" ss ty →
      TerminalSyntax ss (.enum ty)

@[inherit_doc NameSyntax]
inductive ErrorSyntax : List Symbol → Option TokenStream → Prop
  | none : ErrorSyntax [] none
  | some {ss : List Symbol} {ty : TokenStream} : TypeOptionSyntax "error_type" ss ty → ErrorSyntax ss (some ty)

/-- `file`. -/
inductive FileSyntax (tx : Text) : List Symbol → GrammarFile → Prop
  | mk {n t e ds : List Symbol} {f : GrammarFile} : NameSyntax n f.name → TerminalSyntax t f.terminal →
      ErrorSyntax e f.error → DeclarationsSyntax tx ds f.declarations → FileSyntax tx (n ++ (t ++ (e ++ ds))) f

/-- Types that are written alike. -/
def SameType (tx : Text) : Option TokenStream → Option TokenStream → Prop
  | some a, some b => tx.print a = tx.print b
  | none, none => True
  | _, _ => False

/-- All declarations of a label have the same type. -/
def ConsistentTypes (tx : Text) (ds : List Declaration) : Prop :=
  ∀ d ∈ ds, ∀ d' ∈ ds, d.label = d'.label → SameType tx d.type d'.type

/-- The rules of a declaration: each has the label and type of the declaration. -/
def Declaration.rules (d : Declaration) : List ARule :=
  d.alternatives.map fun a => ⟨d.label, d.type, a.1, a.2⟩

end Verif.Spec
