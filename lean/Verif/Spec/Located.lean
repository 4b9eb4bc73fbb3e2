import Verif.Model.Located
import Verif.Spec.GrammarSyntax

/-!
# Where errors of the macro should be

The forms of `Verif.Spec.GrammarSyntax`, with the places of symbols.
-/

set_option autoImplicit false

namespace Verif.Located

open Verif.Spec

variable {S : Type}

/-- Symbols as items of a stream. -/
abbrev okItems (pre : List (LSymbol S)) : List (LItem S) := pre.map .ok

/-- Symbols without spans. -/
abbrev syms (pre : List (LSymbol S)) : List Symbol := pre.map (·.symbol)

/-- The error blames the item: it is the error of the tokenizer, perhaps with more text, or the symbol was not expected. -/
def Blames (e : Diag S) (x : LItem S) : Prop :=
  match x with
  | .error d => e.kind = d.kind ∧ e.span = d.span ∧ ∃ more, e.message = d.message ++ more
  | .ok y => e.kind = .unexpectedToken ∧ e.span = y.span

/-- The span of a type (type_symbol.rs:33): the spans of its symbols joined. -/
def typeSpan (sp : Spans S) : List (LSymbol S) → S
  | [] => sp.callSite
  | x :: r => r.foldl (fun a y => sp.merge a y.span) x.span

/-- What is read begins a node that is not epsilon. -/
def NodePre (tx : Text) (p : List Symbol) : Prop := ∃ ext n, NodeSyntax tx (p ++ ext) n ∧ n ≠ .epsilon

/-- What is read of a rule are nodes and perhaps the beginning of another; there is epsilon and something else. -/
def Mixed (tx : Text) (ns : List ANode) (p : List Symbol) : Prop :=
  ∃ b c ns', p = b ++ c ∧ NodesSyntax tx b ns' ∧ .epsilon ∈ ns ++ ns' ∧ (1 < (ns ++ ns').length ∨ c ≠ []) ∧
    NodePre tx c

/-- The error is at the first `!` of a rule with other nodes; the symbols of the rule (and of its constructor) are `p`. -/
def EpsReason (tx : Text) (p : List (LSymbol S)) (e : Diag S) : Prop :=
  (e.kind = .epsilonNotAlone ∧ e.message = "Epsilon may only appear in a rule by itself") ∧
  ∃ b1 y b2 blk ns, p = b1 ++ y :: b2 ++ blk ∧ NodesSyntax tx (syms (b1 ++ y :: b2)) ns ∧
    1 < ns.length ∧ Is (.op .bang) y.symbol ∧ (∀ z ∈ b1, ¬ Is (.op .bang) z.symbol) ∧
    (∀ z ∈ blk, ∃ d i, Is (.group d i) z.symbol) ∧ e.span = y.span

/-- `p` is the beginning of something in `L`, or of something in `L` but for its last rule, which mixes epsilon with other
nodes. -/
def Begins (tx : Text) (L : List Symbol → Prop) (p : List Symbol) : Prop :=
  (∃ ext, L (p ++ ext)) ∨
    ∃ a k b ext, p = a ++ k :: b ∧ (Is (.op .arrow) k ∨ Is (.op .pipe) k) ∧ L (a ++ k :: ext) ∧ Mixed tx [] b

/-- The error is at the first `!` of the last rule of `p`, which has other nodes; up to that rule, `p` is the beginning of
something in `L`. -/
def EpsIn (tx : Text) (L : List Symbol → Prop) (p : List (LSymbol S)) (e : Diag S) : Prop :=
  ∃ a k b ext, p = a ++ k :: b ∧ (Is (.op .arrow) k.symbol ∨ Is (.op .pipe) k.symbol) ∧
    L (syms a ++ k.symbol :: ext) ∧ EpsReason tx b e

/-- `(":" type)?`, with the span of the type. -/
def RetAt (sp : Spans S) (ts : List (LSymbol S)) (ty : Option (LType S)) : Prop :=
  (ts = [] ∧ ty = none) ∨ ∃ colon r t, ts = colon :: r ∧ Is (.op .colon) colon.symbol ∧ TypeSyntax (syms r) t.1 ∧
    t.2 = typeSpan sp r ∧ ty = some t

/-- `decl`. -/
abbrev DeclL (tx : Text) (q : List Symbol) : Prop := ∃ d, DeclarationSyntax tx q d

/-- Among the declarations `w` is one with the label and the type. -/
def DeclaredAt (sp : Spans S) (tx : Text) (w : List (LSymbol S)) (label : String) (ty : Option (LType S)) : Prop :=
  ∃ w1 w2 a b c ts arrow r, w = w1 ++ (a :: b :: c :: (ts ++ arrow :: r)) ++ w2 ∧
    (∃ ds, DeclarationsSyntax tx (syms w1) ds) ∧ Is (.op .beginProd) a.symbol ∧ Is (.ident label) b.symbol ∧
    Is (.op .endProd) c.symbol ∧ RetAt sp ts ty ∧ Is (.op .arrow) arrow.symbol ∧
    DeclL tx (syms (a :: b :: c :: (ts ++ arrow :: r)))

/-- `decl*`. -/
abbrev DeclsL (tx : Text) (q : List Symbol) : Prop := ∃ ds, DeclarationsSyntax tx q ds

/-- The type of the declaration at the end of `p` disagrees with that of an earlier declaration of the same label. The error
is at the type, or if there is none at that of the earlier declaration. -/
def TypeIn (sp : Spans S) (tx : Text) (p : List (LSymbol S)) (e : Diag S) : Prop :=
  (e.kind = .typeMismatch ∧ e.message = "Production rules for the same label have different return types") ∧
  ∃ w a b c ts label ty old t, p = w ++ a :: b :: c :: ts ∧ DeclsL tx (syms w) ∧
    Is (.op .beginProd) a.symbol ∧ Is (.ident label) b.symbol ∧ Is (.op .endProd) c.symbol ∧ RetAt sp ts ty ∧
    DeclaredAt sp tx w label old ∧ ¬ SameType tx (old.map (·.1)) (ty.map (·.1)) ∧ ty.or old = some t ∧ e.span = t.2

/-- `file`. -/
abbrev FileL (tx : Text) (q : List Symbol) : Prop := ∃ f, FileSyntax tx q f

/-- The options at the beginning of a file. -/
def OptionsL (o : List Symbol) : Prop :=
  ∃ n t e name tt et, o = n ++ (t ++ e) ∧ NameSyntax n name ∧ TerminalSyntax t tt ∧ ErrorSyntax e et

/-- One token stream after another. -/
def LTokens.append : LTokens S → LTokens S → LTokens S
  | .nil, u => u
  | .group d span spanOpen inner rest, u => .group d span spanOpen inner (rest.append u)
  | .ident name span rest, u => .ident name span (rest.append u)
  | .literal text span rest, u => .literal text span (rest.append u)
  | .punct ch joint span rest, u => .punct ch joint span (rest.append u)

/-- A span at the beginning of tokens: that of the first token, or if it is a punctuation character joined to a second one that
of the second or of both. -/
inductive AtHead (sp : Spans S) : LTokens S → S → Prop
  | group (d : Delim) (span spanOpen : S) (inner rest : LTokens S) : AtHead sp (.group d span spanOpen inner rest) span
  | open (d : Delim) (span spanOpen : S) (inner rest : LTokens S) : AtHead sp (.group d span spanOpen inner rest) spanOpen
  | ident (name : String) (span : S) (rest : LTokens S) : AtHead sp (.ident name span rest) span
  | literal (text : String) (span : S) (rest : LTokens S) : AtHead sp (.literal text span rest) span
  | punct (ch : Char) (joint : Bool) (span : S) (rest : LTokens S) : AtHead sp (.punct ch joint span rest) span
  | second (ch ch' : Char) (joint : Bool) (a b : S) (rest : LTokens S) :
      AtHead sp (.punct ch true a (.punct ch' joint b rest)) b
  | both (ch ch' : Char) (joint : Bool) (a b : S) (rest : LTokens S) :
      AtHead sp (.punct ch true a (.punct ch' joint b rest)) (sp.merge a b)

end Verif.Located
