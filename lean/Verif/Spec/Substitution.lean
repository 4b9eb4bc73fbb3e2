import Verif.Model.Annotated

/-!
# Specification: references in constructor bodies
-/

namespace Verif.Spec

/-- Decimal numerals and their values. -/
inductive Numeral : List Char → Nat → Prop
  | digit {d : Nat} : d < 10 → Numeral [Char.ofNat (48 + d)] d
  | more {s : List Char} {n d : Nat} : Numeral s n → d < 10 → Numeral (s ++ [Char.ofNat (48 + d)]) (10 * n + d)

/-- The name `name` denotes node `i` of a rule: it is the only node that refers to this production. -/
def NameRef (rule : List ANode) (name : String) (i : Nat) : Prop :=
  rule[i]? = some (.production name) ∧ ∀ j, rule[j]? = some (.production name) → j = i

/-- The literal `text` denotes node `i` of a rule: it is the number of a node, which is not epsilon. (Numbers
that do not fit into 64 bits are not numbers of nodes.) -/
def IndexRef (rule : List ANode) (text : String) (i : Nat) : Prop :=
  (Numeral text.toList i ∨ ∃ s, text.toList = '+' :: s ∧ Numeral s i) ∧ i < 2 ^ 64 ∧
    ∃ node, rule[i]? = some node ∧ node ≠ .epsilon

/-- `Replaced var rule body out used`: `out` is `body` with its references to nodes of `rule` replaced by the
variables of these nodes, and `used` lists the nodes referred to. A reference is a `#`, not joined to another
punctuation character, and an identifier or a literal. -/
inductive Replaced (var : Nat → String) (rule : List ANode) : TokenStream → TokenStream → List Nat → Prop
  | nil : Replaced var rule .nil .nil []
  | group {d : Delim} {inner inner' rest rest' : TokenStream} {u u' : List Nat} :
      Replaced var rule inner inner' u → Replaced var rule rest rest' u' →
      Replaced var rule (.group d inner rest) (.group d inner' rest') (u ++ u')
  | ident {name : String} {rest rest' : TokenStream} {u : List Nat} :
      Replaced var rule rest rest' u → Replaced var rule (.ident name rest) (.ident name rest') u
  | literal {text : String} {rest rest' : TokenStream} {u : List Nat} :
      Replaced var rule rest rest' u → Replaced var rule (.literal text rest) (.literal text rest') u
  | punct {ch : Char} {joint : Bool} {rest rest' : TokenStream} {u : List Nat} :
      ch ≠ '#' ∨ joint = true → Replaced var rule rest rest' u →
      Replaced var rule (.punct ch joint rest) (.punct ch joint rest') u
  | name {name : String} {i : Nat} {rest rest' : TokenStream} {u : List Nat} :
      NameRef rule name i → Replaced var rule rest rest' u →
      Replaced var rule (.punct '#' false (.ident name rest)) (.ident (var i) rest') (i :: u)
  | index {text : String} {i : Nat} {rest rest' : TokenStream} {u : List Nat} :
      IndexRef rule text i → Replaced var rule rest rest' u →
      Replaced var rule (.punct '#' false (.literal text rest)) (.ident (var i) rest') (i :: u)

end Verif.Spec
