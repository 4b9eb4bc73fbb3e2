import Verif.Spec.RustSyntax
import Verif.Spec.Typing

/-!
# Specification: what the Rust compiler checks

A checker of types, moves and borrows for the part of Rust in which generated parsers are written. It is stricter than
Rust: code that it accepts has a type for each expression, uses no variable after it was moved, uses no reference to
the inside of the parser's state after the state was changed, changes only what is `mut`, and has an arm for each
value in each `match`. It knows the types of the runtime library; what user code is like is a parameter (`UserDecls`).

All references are references into the one `ParserState` there is. A change of the state makes the variables that hold
such references unusable; this is the rule of the borrow checker, seen from the point where a reference ends.
-/

set_option autoImplicit false

namespace Verif.Rust
open RustSyntax (RType)

/-- Types. -/
inductive CTy where
  /-- not determined -/
  | hole
  | unit
  | usize
  /-- a type of the grammar file -/
  | user (t : TokenStream)
  | path (names : List String)
  /-- the type of the field of a variant of the type of tokens -/
  | data (variant : String)
  /-- the enum of states -/
  | states
  | option (t : CTy)
  | result (t e : CTy)
  /-- `ParserControl` -/
  | control (t : CTy)
  | ref (t : CTy)
  | refMut (t : CTy)
  /-- `ParserError` -/
  | parserError
  /-- the type parameters for what tokens are borrowed from, and for errors of the stream -/
  | owner
  | streamError
  /-- the input, before and after `into_iter` -/
  | input
  | iter
  | parserState
  | parserStream
deriving DecidableEq, Repr

/-- The type that is written. -/
def CTy.ofType : RType → CTy
  | .user t => .user t
  | .unit => .unit
  | .path names => .path names

namespace CTy

/-- No part is undetermined. -/
def known : CTy → Bool
  | .hole => false
  | .option t => t.known
  | .result t e => t.known && e.known
  | .control t => t.known
  | .ref t => t.known
  | .refMut t => t.known
  | _ => true

/-- Values are copied and not moved. Nothing is known about types of the grammar file; `()` is not needed twice. -/
def copy : CTy → Bool
  | .usize => true
  | .ref _ => true
  | .option t => t.copy
  | .result t e => t.copy && e.copy
  | _ => false

/-- Values hold a shared reference into the parser's state. -/
def shares : CTy → Bool
  | .ref _ => true
  | .option t => t.shares
  | .result t e => t.shares || e.shares
  | .control t => t.shares
  | _ => false

/-- Values hold an exclusive reference into the parser's state. -/
def excludes : CTy → Bool
  | .refMut t => t = .parserStream
  | .option t => t.excludes
  | .result t e => t.excludes || e.excludes
  | .control t => t.excludes
  | _ => false

/-- The type that both types are, if what is undetermined in one is taken from the other. -/
def join : CTy → CTy → Option CTy
  | .hole, t => some t
  | t, .hole => some t
  | .option a, .option b => (a.join b).map .option
  | .result a e, .result b f => do
    let t ← a.join b
    let e ← e.join f
    some (.result t e)
  | .control a, .control b => (a.join b).map .control
  | .ref a, .ref b => (a.join b).map .ref
  | a, b => if a = b then some a else none

/-- A type can be taken for another one. -/
def fits (a b : CTy) : Bool := a.join b = some b

end CTy

/-! ### Variables -/

inductive Status where
  | ready
  | moved
  /-- holds a reference to something that was changed -/
  | stale
deriving DecidableEq, Repr

def Status.worst : Status → Status → Status
  | .ready, s => s
  | s, .ready => s
  | .stale, .stale => .stale
  | _, _ => .moved

structure Slot where
  ty : CTy
  isMut : Bool
  status : Status
deriving DecidableEq, Repr

/-- Variables in scope, innermost first. -/
abbrev Vars := List (String × Slot)

namespace Vars

/-- Changes the status of a variable. -/
def mark (x : String) (st : Status) : Vars → Vars
  | [] => []
  | (y, s) :: Γ => if x = y then (y, { s with status := st }) :: Γ else (y, s) :: mark x st Γ

/-- Using the value of a variable. -/
def use (x : String) (Γ : Vars) : Option (CTy × Vars) :=
  match Γ.lookup x with
  | some s => if s.status = .ready then some (s.ty, if s.ty.copy then Γ else mark x .moved Γ) else none
  | none => none

/-- The variable is a parser's state, or a `&mut` reference to it, that can be read or changed. -/
def isParser (isMut : Bool) (x : String) (Γ : Vars) : Bool :=
  match Γ.lookup x with
  | some s => s.status = .ready && (s.ty = .refMut .parserState || (s.ty = .parserState && (!isMut || s.isMut)))
  | none => false

/-- The parser's state is read, which ends exclusive references into it, or changed, which ends all references. -/
def disturb (isMut : Bool) (Γ : Vars) : Vars :=
  Γ.map fun (x, s) =>
    (x, if s.status = .ready && (s.ty.excludes || (isMut && s.ty.shares)) then { s with status := .stale } else s)

/-- A method of the parser's state is called. -/
def access (isMut : Bool) (x : String) (Γ : Vars) : Option Vars :=
  if isParser isMut x Γ then some (disturb isMut Γ) else none

/-- The types of the variables `__v0`, `__v1`, .. that can be used. -/
def env (Γ : Vars) : Nat → Option CTy := fun i =>
  match Γ.lookup (boundVariable i) with
  | some s => if s.status = .ready then some s.ty else none
  | none => none

/-- Whether a name is one of `__v0`, `__v1`, .. -/
def isBound (x : String) : Bool := x.toList.take 3 = ['_', '_', 'v']

/-- None of the variables `__v..` was moved. -/
def whole (Γ : Vars) : Bool := Γ.all fun (x, s) => !isBound x || s.status = .ready

/-- All variables `__v..` are moved into a closure. -/
def spend (Γ : Vars) : Vars :=
  Γ.map fun (x, s) => (x, if isBound x then { s with status := .moved } else s)

/-- After one of two branches. -/
def merge : Vars → Vars → Option Vars
  | [], [] => some []
  | (x, s) :: Γ, (y, t) :: Δ =>
    if x = y ∧ s.ty = t.ty ∧ s.isMut = t.isMut then
      (merge Γ Δ).map fun Γ => (x, { s with status := s.status.worst t.status }) :: Γ
    else none
  | _, _ => none

end Vars

/-! ### What is declared -/

/-- What user code is like. -/
structure UserDecls where
  /-- variants of the type of tokens without and with a field; the type of tokens, and of fields, can be cloned -/
  unitVariant : String → Bool
  dataVariant : String → Bool
  /-- literals that have the type of tokens -/
  literal : String → Bool
  /-- patterns for the field of a variant, which bind no variables -/
  pattern : String → String → Bool
  /-- the type of the body of the constructor of a rule, given the types of the variables `__v0`, `__v1`, ..; it
  mentions no other variables of generated code -/
  body : Nat → TokenStream → (Nat → Option CTy) → Option CTy
  /-- the type to which a value is converted for a rule without constructor; the error can be converted to the error
  of the parser -/
  conv : Nat → CTy → Option CTy

/-- What is declared where code is checked. -/
structure Decls where
  token : TokenStream
  error : CTy
  value : CTy
  enum : String
  variants : List (String × CTy)
  /-- functions that take a `&mut` reference to a parser's state and return a `ParserControl` -/
  functions : List String
  user : UserDecls

namespace Decls

/-- `ParserResult<ParserControl<value>, ..>`. -/
def control (D : Decls) : CTy := .result (.control D.value) .parserError

/-- `ParserResult<value, ..>`. -/
def result (D : Decls) : CTy := .result D.value .parserError

end Decls

section
variable (D : Decls)

/-- The type of a constant. -/
def Atom.ty : Atom → Option CTy
  | .unit => Option.some .unit
  | .none => Option.some (.option .hole)
  | .continue => Option.some (.control .hole)
  | .lit text => if D.user.literal text then Option.some (.user D.token) else Option.none
  | .token ty v => if ty = D.token ∧ D.user.unitVariant v then Option.some (.user D.token) else Option.none

/-- The type of a value, given the type of the field. -/
def Con.ty : Con → CTy → Option CTy
  | .some, t => Option.some (.option t)
  | .ok, t => Option.some (.result t .hole)
  | .err, t => Option.some (.result .hole t)
  | .accept, t => Option.some (.control t)
  | .state enum v, t =>
    if enum = D.enum then
      match D.variants.lookup v with
      | Option.some t' => if t.fits t' then Option.some .states else Option.none
      | Option.none => Option.none
    else Option.none
  | .token ty v, t => if ty = D.token ∧ D.user.dataVariant v ∧ t = .data v then Option.some (.user D.token) else Option.none

/-- The type of the field, given the type of a value. -/
def Con.fieldTy : Con → CTy → Option CTy
  | .some, .option t => Option.some t
  | .ok, .result t _ => Option.some t
  | .err, .result _ e => Option.some e
  | .accept, .control t => Option.some t
  | .state enum v, .states => if enum = D.enum then D.variants.lookup v else Option.none
  | .token ty v, .user t => if t = D.token ∧ ty = D.token ∧ D.user.dataVariant v then Option.some (.data v) else Option.none
  | _, _ => Option.none

/-! ### Patterns -/

/-- What variables of a pattern get: values, references because the pattern does not mention that a reference is
matched (default binding mode), or something behind a reference that the pattern mentions. -/
inductive Mode where
  | move
  | ref
  | place
deriving DecidableEq, Repr

/-- A pattern that is not `&p` looks through references. -/
def through : Mode → CTy → Mode × CTy
  | _, .ref t => (.ref, t)
  | m, t => (m, t)

/-- The variables of a pattern and their types. -/
def RPat.check : RPat → Mode → CTy → Option (List (String × CTy))
  | .wild, _, _ => some []
  | .var x, .move, t => some [(x, t)]
  | .var x, .ref, t => some [(x, .ref t)]
  -- E0507: cannot move out of a shared reference (what can be copied is left out)
  | .var _, .place, _ => none
  | .atom a, m, t =>
    match a.ty D with
    | some t' => if t'.fits (through m t).2 then some [] else none
    | none => none
  | .con k p, m, t =>
    match k.fieldTy D (through m t).2 with
    | some t' => p.check (through m t).1 t'
    | none => none
  | .rest k, m, t => (k.fieldTy D (through m t).2).map fun _ => []
  | .ref _, .ref, _ => none
  | .ref p, _, .ref t => p.check .place t
  | .ref _, _, _ => none
  | .named x p, .place, t => if p.check .place t = some [] then some [(x, .ref t)] else none
  | .named _ _, _, _ => none
  | .user text, m, t =>
    match (through m t).2 with
    | .data v => if D.user.pattern v text then some [] else none
    | _ => none
  | .or p q, m, t => if p.check m t = q.check m t then p.check m t else none

/-- Every value matches. -/
def RPat.total : RPat → Bool
  | .wild => true
  | .var _ => true
  | .named _ p => p.total
  | .or p q => p.total || q.total
  | _ => false

/-- The alternatives of a pattern. -/
def RPat.alternatives : RPat → List RPat
  | .or p q => p.alternatives ++ q.alternatives
  | p => [p]

/-- Every value with the constructor matches. -/
def RPat.covers (k : Con) : RPat → Bool
  | .con k' p => k' = k && p.total
  | .rest k' => k' = k
  | _ => false

/-- Every value of a type matches one of the patterns. -/
def exhaustive (t : CTy) (ps : List RPat) : Bool :=
  let ps := ps.flatMap RPat.alternatives
  ps.any RPat.total ||
    match (through .move t).2 with
    | .option _ => ps.contains (.atom .none) && ps.any (RPat.covers .some)
    | .result _ _ => ps.any (RPat.covers .ok) && ps.any (RPat.covers .err)
    | .control _ => ps.contains (.atom .continue) && ps.any (RPat.covers .accept)
    | .states => D.variants.all fun v => ps.any (RPat.covers (.state D.enum v.1))
    | _ => false

/-- The patterns of match arms. -/
def Arms.pats : Arms → List RPat
  | .nil => []
  | .cons p _ _ rest => p :: rest.pats

/-! ### Methods -/

/-- Methods of `ParserState`: whether they take `&mut self`, and what they return (src/parser_state.rs:24-47). -/
def Method.onState : Method → Option (Bool × CTy)
  | .stream => some (false, .ref .parserStream)
  | .streamMut => some (true, .refMut .parserStream)
  | .state => some (false, .ref .states)
  | .popState => some (true, .states)
  | .verifyEmptyStack => some (false, .unit)
  | _ => none

/-- Other methods. -/
def Method.ty : Method → CTy → Option CTy
  -- parser_stream.rs:15-22
  | .peekNext, .ref .parserStream => some (.option (.ref (.result .owner .streamError)))
  | .advance, .refMut .parserStream => some .unit
  | .intoIter, .input => some .iter
  -- `Borrow` is declared for the type parameter
  | .borrow, .ref .owner => some (.ref (.user D.token))
  | .clone, .ref (.user t) => if t = D.token then some (.user t) else none
  | .clone, .ref (.data v) => some (.data v)
  | .clone, .ref .streamError => some .streamError
  | .transpose, .option (.result t e) => some (.result (.option t) e)
  -- error.rs:9-17
  | .intoUserError, .streamError => some .parserError
  | _, _ => none

/-! ### Expressions -/

/-- The type of an expression, and the variables afterwards, unless the code after it is not reached. -/
abbrev Checked := Option (CTy × Option Vars)

/-- Going on after an expression that can end with a value. -/
def next (r : Checked) (k : CTy → Vars → Checked) : Checked :=
  match r with
  | some (t, some Γ) => k t Γ
  | _ => none

/-- Leaving the scope of the innermost variables. -/
def leave (n : Nat) (r : Checked) : Checked := r.map fun (t, o) => (t, o.map (List.drop n))

/-- The result of one of two branches. -/
def either (a b : Checked) : Checked := do
  let (t, o) ← a
  let (u, o') ← b
  let t ← t.join u
  match o, o' with
  | none, o => some (t, o)
  | o, none => some (t, o)
  | some Γ, some Δ => (Γ.merge Δ).map fun Γ => (t, some Γ)

/-- Variables that are introduced. -/
def fresh (l : List (String × CTy)) : Vars := l.map fun (x, t) => (x, ⟨t, false, .ready⟩)

/-- The variable that an expression is. -/
def Expr.place : Expr → Option String
  | .var x => some x
  | _ => none

mutual

/-- Checks an expression in a function that returns `ret`; nothing is returned in closures. -/
def Expr.check (debug : Bool) (ret : Option CTy) : Expr → Vars → Checked
  | .var x, Γ => (Γ.use x).map fun (t, Γ) => (t, some Γ)
  | .atom a, Γ => (a.ty D).map fun t => (t, some Γ)
  | .con k e, Γ => next (e.check debug ret Γ) fun t Γ => (k.ty D t).map fun t => (t, some Γ)
  | .call0 m e, Γ =>
    match m.onState with
    | some (isMut, t) =>
      match e.place with
      | some x => (Γ.access isMut x).map fun Γ => (t, some Γ)
      | none => none
    | none => next (e.check debug ret Γ) fun t Γ => (m.ty D t).map fun t => (t, some (if m = .advance then Γ.disturb true else Γ))
  -- the state is borrowed before the argument is evaluated, so that it cannot be used there
  | .push e arg, Γ =>
    match e.place with
    | some x =>
      if Γ.isParser true x then
        next (arg.check debug ret (Γ.mark x .moved)) fun t Γ =>
          if t.fits .states then ((Γ.mark x .ready).access true x).map fun Γ => (.unit, some Γ) else none
      else none
    | none => none
  | .newState input initial, Γ =>
    next (input.check debug ret Γ) fun t Γ => next (initial.check debug ret Γ) fun u Γ =>
      if t = .iter ∧ u.fits .states then some (.parserState, some (Γ.disturb true)) else none
  | .call f e, Γ =>
    match e.place with
    | some x =>
      if f ∈ D.functions ∧ (Γ.lookup x).any (fun s => s.ty = .parserState) then
        (Γ.access true x).map fun Γ => (D.control, some Γ)
      else none
    | none => none
  -- a closure that uses its parameter only, whatever it does to the parser's state
  | .map e x body, Γ => next (e.check debug ret Γ) fun t Γ =>
    match t with
    | .option t => next (body.check debug none (fresh [(x, t)])) fun t _ => some (.option t, some (Γ.disturb true))
    | _ => none
  | .parseError e, Γ => next (e.check debug ret Γ) fun t Γ =>
    if t.fits (.option (.user D.token)) then some (.parserError, some Γ) else none
  | .overlapping e, Γ => next (e.check debug ret Γ) fun t Γ =>
    if t = .option (.ref (.user D.token)) then some (.parserError, some Γ) else none
  -- a closure that takes all variables `__v..`
  | .closure rule body, Γ =>
    if ret.isSome ∧ Γ.whole then (D.user.body rule body Γ.env).map fun t => (.result t D.error, some Γ.spend) else none
  | .convert rule e, Γ => next (e.check debug ret Γ) fun t Γ =>
    (D.user.conv rule t).map fun t => (.result t .parserError, some Γ)
  | .block e, Γ => e.check debug ret Γ
  | .question e, Γ => next (e.check debug ret Γ) fun t Γ =>
    match t, ret with
    | .result t e, some (.result _ .parserError) =>
      if e = D.error ∨ e = .parserError then some (t, some Γ) else none
    | _, _ => none
  | .ret e, Γ => next (e.check debug ret Γ) fun t _ =>
    match ret with
    | some r => if t.fits r then some (.hole, none) else none
    | none => none
  | .letIn isMut x e rest, Γ => next (e.check debug ret Γ) fun t Γ =>
    if t.known then leave 1 (rest.check debug ret ((x, ⟨t, isMut, .ready⟩) :: Γ)) else none
  | .seq e rest, Γ =>
    match e.check debug ret Γ with
    | some (t, some Γ) => if t.known then rest.check debug ret Γ else none
    -- no code that is not reached
    | some (_, none) => match rest with | .nothing => some (.hole, none) | _ => none
    | none => none
  | .stmt e rest, Γ => next (e.check debug ret Γ) fun t Γ =>
    if t.fits .unit then rest.check debug ret Γ else none
  | .nothing, Γ => some (.unit, some Γ)
  | .cases e arms, Γ => next (e.check debug ret Γ) fun t Γ =>
    if exhaustive D t arms.pats then arms.check debug ret t Γ else none
  | .unreachable, _ => some (.hole, none)
  | .count e p, Γ => next (e.check debug ret Γ) fun t Γ => (p.check D .move t).map fun _ => (.usize, some Γ)
  | .add a b, Γ => next (a.check debug ret Γ) fun t Γ => next (b.check debug ret Γ) fun u Γ =>
    if t = .usize ∧ u = .usize then some (.usize, some Γ) else none
  | .ifMany e then_, Γ => next (e.check debug ret Γ) fun t Γ =>
    if t = .usize then
      match either (then_.check debug ret Γ) (some (.unit, some Γ)) with
      | some (t, o) => if t = .unit then some (t, o) else none
      | none => none
    else none
  | .debug e, Γ =>
    if debug then
      match e.check debug ret Γ with
      | some (t, o) => if t.fits .unit then some (.unit, o) else none
      | none => none
    else some (.unit, some Γ)
  | .loop e, Γ =>
    match e.check debug ret Γ with
    | some (t, o) => if t.fits .unit ∧ (o = none ∨ o = some Γ) then some (.hole, none) else none
    | none => none

/-- Checks match arms for a value of a type. -/
def Arms.check (debug : Bool) (ret : Option CTy) : Arms → CTy → Vars → Checked
  | .nil, _, _ => some (.hole, none)
  | .cons p _ e rest, t, Γ =>
    match p.check D .move t with
    | some l => either (leave l.length (e.check debug ret (fresh l ++ Γ))) (rest.check debug ret t Γ)
    | none => none

end

/-- Checks the body of a function with one parameter. -/
def checkFunction (debug : Bool) (ret : CTy) (param : String) (t : CTy) (body : Expr) : Bool :=
  match body.check D debug (some ret) (fresh [(param, t)]) with
  | some (t, _) => t.fits ret
  | none => false

end
end Verif.Rust

namespace Verif.RustSyntax
open Rust

/-- What is declared inside of `parse_fallible`. -/
def Item.decls (it : Item) (u : UserDecls) : Option Decls :=
  match it.token with
  | .user t => some ⟨t, .ofType it.error, .ofType it.value, it.enum, it.variants.map fun v => (v.1, .ofType v.2),
      it.functions.map Prod.fst, u⟩
  | _ => none

/-- The declarations are accepted, with debug assertions or without. -/
def Item.checks (it : Item) (u : UserDecls) (debug : Bool) : Bool :=
  match it.decls u with
  | some D => it.functions.all (fun f => checkFunction D debug D.control f.2.1 (.refMut .parserState) f.2.2) &&
      checkFunction D debug D.result it.param .input it.body &&
      decide ((it.functions.map Prod.fst).Nodup) && decide ((it.variants.map Prod.fst).Nodup)
  | none => false

end Verif.RustSyntax

namespace Verif.Spec
open Rust RustSyntax

/-- Types of the grammar as types of code. -/
def Ty.code : Ty → CTy
  | .plain (some ty) => .user ty
  | .plain none => .unit
  | .data v => .data v

/-- User code is as the grammar says: tokens can be written as terminals are, constructors have the types of their
labels if they are given variables of the types of the nodes, and where there is no constructor the conversion
exists. -/
structure UserFits (gi : GrammarInfo) (u : UserDecls) : Prop where
  literal : ∀ r ∈ gi.productionRules, ∀ x p, .symbol ⟨x, p⟩ ∈ r.rule → ∀ ty, gi.terminalType = .raw ty → u.literal x
  unit : ∀ r ∈ gi.productionRules, ∀ x, .symbol ⟨x, .none⟩ ∈ r.rule → ∀ ty, gi.terminalType = .enum ty → u.unitVariant x
  data : ∀ r ∈ gi.productionRules, ∀ x p, .symbol ⟨x, p⟩ ∈ r.rule → p ≠ .none → u.dataVariant x
  pattern : ∀ r ∈ gi.productionRules, ∀ x text, .symbol ⟨x, .pattern text⟩ ∈ r.rule → u.pattern x text
  body : ∀ k r ty out env, gi.productionRules[k]? = some r → gi.labelTypes.lookup r.name = some ty →
    buildConstructor gi k = .ok (.provided k out) →
    (∀ i n τ, r.rule[i]? = some n → NodeTy gi n τ → env i = some τ.code) → u.body k out env = some (Ty.plain ty).code
  conv : ∀ k r ty n τ, gi.productionRules[k]? = some r → gi.labelTypes.lookup r.name = some ty →
    buildConstructor gi k = .ok (.tryInto k) → r.rule = [n] → NodeTy gi n τ → u.conv k τ.code = some (Ty.plain ty).code

end Verif.Spec
