import Verif.Model.Derive
import Verif.Spec.RustSyntax

/-!
# Specification: impls of the traits for errors

Which impls tokens declare, when the impls of a crate compile, and which conversions between errors a crate has. From the
Rust reference: an impl names a type with the right number of arguments, no two impls are for the same trait and type, and
the supertraits of a trait are implemented. Only impls without parameters of their own; types are compared as written.
The traits are `From`, `Error`, `Clone` and `ParserUserError: Error + From<Infallible> + Clone` (src/error.rs:7).
-/

set_option autoImplicit false

namespace Verif.Derive
open Rust RustSyntax

/-- A type: a path and its arguments (told apart by numbers). -/
structure ETy where
  names : List String
  args : List Nat
deriving DecidableEq, Repr

def infallible : ETy := ⟨["std", "convert", "Infallible"], []⟩

/-- The error type of a grammar without `error_type` (src/error.rs:19). -/
def noUserError : ETy := ⟨["parser_generator", "error", "NoUserErrorType"], []⟩

inductive ETrait where
  | from (src : ETy)
  | error
  | clone
  | parserUserError
deriving DecidableEq, Repr

structure EImpl where
  trait : ETrait
  self : ETy
deriving DecidableEq, Repr

/-! ### Reading impls -/

/-- A path with or without `::` at the beginning. -/
def path (t : List RTok) : Option (List String × List RTok) :=
  match ident t with
  | some (x, t) => some (x :: (segments t).1, (segments t).2)
  | none =>
    match segments t with
    | ([], _) => none
    | (l, t) => some (l, t)

/-- `impl From<A> for B { fn from(value: A) -> Self { match value {} } }` or `impl Trait for B {}`. -/
def impl (t : List RTok) : Option (EImpl × List RTok) := do
  let t ← skip rs!"impl" t
  let (tr, t) ← path t
  match skip rs!"<" t with
  | some t =>
    let (src, t) ← path t
    let t ← skip rs!"> for" t
    let (self, t) ← path t
    let t ← skip rs!"{ fn from(value:" t
    let (src', t) ← path t
    let t ← skip rs!") -> Self { match value {} } }" t
    if tr = ["From"] ∧ src = src' then some (⟨.from ⟨src, []⟩, ⟨self, []⟩⟩, t) else none
  | none =>
    let t ← skip rs!"for" t
    let (self, t) ← path t
    let t ← skip rs!"{}" t
    if tr = ["parser_generator", "error", "ParserUserError"] then some (⟨.parserUserError, ⟨self, []⟩⟩, t) else none

/-- All tokens are impls. -/
def impls : Nat → List RTok → Option (List EImpl)
  | _, [] => some []
  | 0, _ => none
  | n + 1, t => do
    let (i, t) ← impl t
    let l ← impls n t
    some (i :: l)

/-! ### Crates -/

/-- The types of a crate with their parameters, and its impls. -/
structure Crate where
  types : List (String × List GenericParam)
  impls : List EImpl

/-- `ty` has the right number of arguments; types of other crates are taken to be right. -/
def Crate.Applied (C : Crate) (ty : ETy) : Prop :=
  ∀ x gs, ty.names = [x] → (x, gs) ∈ C.types →
    (gs.filter (·.required)).length ≤ ty.args.length ∧ ty.args.length ≤ gs.length

/-- Trait bounds that hold in a crate. -/
inductive Crate.Implements (C : Crate) : ETrait → ETy → Prop
  | impl {t : ETrait} {ty : ETy} : ⟨t, ty⟩ ∈ C.impls → Implements C t ty
  /-- `impl<T> From<T> for T` -/
  | same {ty : ETy} : Implements C (.from ty) ty
  /-- standard library -/
  | infallible {t : ETrait} : t = .error ∨ t = .clone → Implements C t infallible
  /-- src/error.rs:19-33 -/
  | noUserError {t : ETrait} : t = .error ∨ t = .clone ∨ t = .from Derive.infallible ∨ t = .parserUserError →
      Implements C t noUserError

structure Crate.Compiles (C : Crate) : Prop where
  /-- E0107: wrong number of generic arguments -/
  applied : ∀ i ∈ C.impls, C.Applied i.self ∧ ∀ src, i.trait = .from src → C.Applied src
  /-- E0119: conflicting implementations -/
  coherent : C.impls.Nodup ∧ ∀ ty, ⟨.from ty, ty⟩ ∉ C.impls
  /-- impls of foreign traits are for own types, or from own types -/
  orphan : ∀ i ∈ C.impls, (∃ x gs, i.self.names = [x] ∧ (x, gs) ∈ C.types) ∨
    ∃ src x gs, i.trait = .from src ∧ src.names = [x] ∧ (x, gs) ∈ C.types
  /-- E0277: supertraits -/
  super : ∀ ty, ⟨.parserUserError, ty⟩ ∈ C.impls →
    C.Implements .error ty ∧ C.Implements .clone ty ∧ C.Implements (.from infallible) ty

/-- Declaring further impls. -/
def Crate.add (C : Crate) (l : List EImpl) : Crate := ⟨C.types, C.impls ++ l⟩

/-- `F: ParserUserErrorOrInfallible<T, E>` (src/error.rs:13): `E: ParserUserError`, `F: Into<E> + Error`. -/
def Crate.Converts (C : Crate) (F E : ETy) : Prop :=
  C.Implements .parserUserError E ∧ C.Implements (.from F) E ∧ C.Implements .error F

/-- `E` can be the error type of a grammar (src/parser.rs:8 `type Error: ParserUserError + Clone`), and `parse`, which
calls `parse_fallible` with a stream that cannot fail, compiles (src/parser.rs:18-24). -/
def Crate.Usable (C : Crate) (E : ETy) : Prop :=
  C.Implements .parserUserError E ∧ C.Implements .clone E ∧ C.Converts infallible E ∧ C.Implements .clone infallible

/-- Streams with errors `F` can be parsed by `parse_fallible` (src/parser.rs:10-16). -/
def Crate.Streams (C : Crate) (F E : ETy) : Prop := C.Converts F E ∧ C.Implements .clone F

/-- How `From::from` converts. -/
inductive Conversion where
  /-- the error itself -/
  | same
  /-- by an impl of the crate -/
  | crate
  /-- by the impl of the runtime library -/
  | library

/-- The impls of `From<F>` for `E`. -/
inductive Crate.Conv (C : Crate) (F E : ETy) : Conversion → Prop
  | same : F = E → Conv C F E .same
  | crate : ⟨.from F, E⟩ ∈ C.impls → Conv C F E .crate
  | library : F = infallible → E = noUserError → Conv C F E .library

end Verif.Derive
