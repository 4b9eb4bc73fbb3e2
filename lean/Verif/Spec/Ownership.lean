import Verif.Spec.RustSyntax
import Verif.Spec.Check

/-!
# Specification: what happens to values and references

A second interpreter for the part of Rust in which generated parsers are written. It does what the first one
(`Verif.Spec.Rust`) does, and it watches what values and references are used for: a value that was moved out of its
variable is gone, and a reference into the parser's state is good until the state is changed (shared references) or
until the state is used at all (exclusive references). To use what is gone, or a reference that is not good any more,
is an error here. It knows nothing of types.
-/

set_option autoImplicit false

namespace Verif.Rust

section
variable {P V E F σ : Type}

/-- What the interpreter watches for. -/
inductive Misuse where
  /-- a variable is used after its value was moved -/
  | moved
  /-- a reference is used after what it refers to was changed, or, if the reference is exclusive, used otherwise -/
  | dangling
deriving DecidableEq, Repr

/-- A point in time: how often the parser's state was used, and how often in a way that can change it. -/
structure Time where
  uses : Nat
  changes : Nat
deriving DecidableEq, Repr

/-- The parser's state is used. -/
def Time.tick (isMut : Bool) (now : Time) : Time := ⟨now.uses + 1, if isMut then now.changes + 1 else now.changes⟩

namespace RVal

/-- Holds a shared reference into the parser's state. -/
def shares : RVal P V E F → Bool
  | .some x => x.shares
  | .ok x => x.shares
  | .err x => x.shares
  | .state _ _ x => x.shares
  | .accept x => x.shares
  | .ref _ => true
  | .place _ => true
  | .stream => true
  | _ => false

/-- Holds an exclusive reference into the parser's state. -/
def excludes : RVal P V E F → Bool
  | .some x => x.excludes
  | .ok x => x.excludes
  | .err x => x.excludes
  | .state _ _ x => x.excludes
  | .accept x => x.excludes
  | .streamMut => true
  | _ => false

/-- Holds nothing but numbers and shared references, so that it is copied where others are moved. -/
def copies : RVal P V E F → Bool
  | .none => true
  | .some x => x.copies
  | .ok x => x.copies
  | .err x => x.copies
  | .nat _ => true
  | .ref _ => true
  | .stream => true
  | _ => false

/-- The references in a value, taken at a point in time, are good. -/
def good (v : RVal P V E F) (taken now : Time) : Bool :=
  (!v.shares || taken.changes = now.changes) && (!v.excludes || taken.uses = now.uses)

end RVal

/-- A value, and when the references in it were taken. -/
abbrev Held (P V E F : Type) := RVal P V E F × Time

/-- Variables in scope, innermost first, and what is in them, unless it was moved. -/
abbrev Owners (P V E F : Type) := List (String × Option (Held P V E F))

namespace Owners

/-- Puts something into a variable, or takes it away. -/
def set (x : String) (h : Option (Held P V E F)) : Owners P V E F → Owners P V E F
  | [] => []
  | (y, h') :: Γ => if x = y then (y, h) :: Γ else (y, h') :: set x h Γ

/-- What is in a variable. -/
def get (x : String) (Γ : Owners P V E F) (now : Time) : Outcome Misuse (Held P V E F) :=
  match Γ.lookup x with
  | none => .panic
  | some none => .err .moved
  | some (some (v, taken)) => if v.good taken now then .ok (v, taken) else .err .dangling

/-- Uses the value of a variable: it is copied or moved. -/
def use (x : String) (Γ : Owners P V E F) (now : Time) : Outcome Misuse (Held P V E F × Owners P V E F) := do
  let h ← Γ.get x now
  pure (h, if h.1.copies then Γ else Γ.set x none)

/-- Whether a name is one of `__v0`, `__v1`, .. -/
def bound (x : String) : Bool := x.toList.take 3 = ['_', '_', 'v']

/-- All variables `__v0`, `__v1`, .. are moved into a closure. -/
def takeBound : Owners P V E F → Time → Outcome Misuse (Owners P V E F)
  | [], _ => .ok []
  | (x, h) :: Γ, now =>
    if bound x then
      match h with
      | none => .err .moved
      | some (v, taken) => if v.good taken now then do
          let Γ ← takeBound Γ now
          pure ((x, none) :: Γ)
        else .err .dangling
    else do
      let Γ ← takeBound Γ now
      pure ((x, h) :: Γ)

/-- The values of the variables `__v0`, `__v1`, .. that are in scope. -/
def env (Γ : Owners P V E F) : Env P V := fun i =>
  match Γ.lookup (boundVariable i) with
  | some (some (.val v, _)) => some v
  | _ => none

end Owners

/-- How the evaluation of an expression ends: with a value, or with `return`. -/
inductive End (P V E F : Type) where
  | val (v : RVal P V E F) (taken : Time)
  | ret (v : RVal P V E F) (taken : Time)

/-- A function returns. -/
def End.held : End P V E F → Held P V E F
  | .val v taken => (v, taken)
  | .ret v taken => (v, taken)

/-- The variables, the time and the store. -/
structure Memory (P V E F σ : Type) where
  vars : Owners P V E F
  now : Time
  store : Store P V E F σ

/-- The end of an evaluation, and what is there then. -/
abbrev Ended (P V E F σ : Type) := End P V E F × Memory P V E F σ

/-- What the first interpreter's library does. -/
def lift {α : Type} : Outcome Unit α → Outcome Misuse α
  | .ok x => .ok x
  | .err _ => .panic
  | .panic => .panic
  | .ub => .ub
  | .timeout => .timeout

/-- A value is needed. -/
def need (v : RVal P V E F) (taken now : Time) : Outcome Misuse Unit :=
  if v.good taken now then .ok () else .err .dangling

/-- Going on with the value of an expression, unless it returns. -/
def follow (r : Outcome Misuse (Ended P V E F σ))
    (k : RVal P V E F → Time → Memory P V E F σ → Outcome Misuse (Ended P V E F σ)) : Outcome Misuse (Ended P V E F σ) := do
  match ← r with
  | (.val v taken, m) => do
    need v taken m.now
    k v taken m
  | (.ret v taken, m) => pure (.ret v taken, m)

/-- The library returns a value, with the references in it taken at a point in time. -/
def deliver (r : Outcome Unit (RVal P V E F × Store P V E F σ)) (taken : Time) (Γ : Owners P V E F) (now : Time) :
    Outcome Misuse (Ended P V E F σ) := do
  let (v, s) ← lift r
  pure (.val v taken, ⟨Γ, now, s⟩)

/-- What happens to variables outside of a scope with more variables. -/
def close (n : Nat) (r : Outcome Misuse (Ended P V E F σ)) : Outcome Misuse (Ended P V E F σ) := do
  let (x, m) ← r
  pure (x, { m with vars := m.vars.drop n })

/-- Running a loop until it returns. -/
def repeated (body : Memory P V E F σ → Outcome Misuse (Ended P V E F σ)) : Nat → Memory P V E F σ →
    Outcome Misuse (Ended P V E F σ)
  | 0, _ => .timeout
  | fuel + 1, m => follow (body m) fun _ _ m => repeated body fuel m

/-- Variables of a pattern: references in them are those of the value that is matched. -/
def holding (Δ : Scope P V E F) (taken : Time) : Owners P V E F := Δ.map fun (x, v) => (x, some (v, taken))

variable [DecidableEq P]

/-- Functions in scope, as the second interpreter runs them. -/
abbrev Calls (P V E F σ : Type) := String → RVal P V E F → Time → Store P V E F σ →
  Outcome Misuse (Held P V E F × Time × Store P V E F σ)

mutual

/-- Evaluation of an expression, with an eye on what is used. -/
def Expr.own (c : Ctx P V E F σ) (calls : Calls P V E F σ) : Expr → Memory P V E F σ → Outcome Misuse (Ended P V E F σ)
  | .var x, m => do
    let ((v, taken), Γ) ← m.vars.use x m.now
    pure (.val v taken, { m with vars := Γ })
  | .atom a, m => pure (.val (a.build c.sem) m.now, m)
  | .con k e, m => follow (e.own c calls m) fun v taken m => do
    let v ← Outcome.unwrap (k.build v)
    pure (.val v taken, m)
  | .call0 f e, m =>
    match f.onState, e.place with
    -- a variable is borrowed and not moved
    | some (isMut, _), some x => do
      let (v, _) ← m.vars.get x m.now
      deliver (f.run c v m.store) (m.now.tick isMut) m.vars (m.now.tick isMut)
    | some (isMut, _), none => follow (e.own c calls m) fun v _ m =>
      deliver (f.run c v m.store) (m.now.tick isMut) m.vars (m.now.tick isMut)
    | none, _ => follow (e.own c calls m) fun v taken m =>
      deliver (f.run c v m.store) taken m.vars (if f = .advance then m.now.tick true else m.now)
  | .push e arg, m =>
    match e.place with
    -- a variable is borrowed while the argument is evaluated, and used then
    | some x => do
      let (v, taken) ← m.vars.get x m.now
      follow (arg.own c calls { m with vars := m.vars.set x none }) fun a _ m => do
        need v taken m.now
        deliver (pushState v a m.store) (m.now.tick true) (m.vars.set x (some (v, taken))) (m.now.tick true)
    | none => follow (e.own c calls m) fun v taken m => follow (arg.own c calls m) fun a _ m => do
      need v taken m.now
      deliver (pushState v a m.store) (m.now.tick true) m.vars (m.now.tick true)
  | .newState input initial, m => follow (input.own c calls m) fun v taken m => follow (initial.own c calls m) fun i _ m => do
    need v taken m.now
    deliver (newState c v i m.store) (m.now.tick true) m.vars (m.now.tick true)
  | .call f e, m =>
    match e.place with
    | some x => do
      let (v, _) ← m.vars.get x m.now
      let v ← Outcome.unwrap v.borrowMut
      let ((v, taken), now, s) ← calls f v (m.now.tick true) m.store
      pure (.val v taken, ⟨m.vars, now, s⟩)
    | none => follow (e.own c calls m) fun v _ m => do
      let v ← Outcome.unwrap v.borrowMut
      let ((v, taken), now, s) ← calls f v (m.now.tick true) m.store
      pure (.val v taken, ⟨m.vars, now, s⟩)
  | .map e x body, m => follow (e.own c calls m) fun v taken m =>
    match v with
    | .none => pure (.val .none taken, m)
    | .some v => do
      match ← close 1 (body.own c calls { m with vars := (x, some (v, taken)) :: m.vars }) with
      | (r, m) => pure (.val (.some r.held.1) r.held.2, m)
    | _ => .panic
  | .parseError e, m => follow (e.own c calls m) fun v taken m => do
    let t ← Outcome.unwrap (toLookahead v)
    pure (.val (.parserError (.parseError t)) taken, m)
  | .overlapping e, m => follow (e.own c calls m) fun v taken m => do
    let t ← Outcome.unwrap (toShown v)
    pure (.val (.parserError (.overlapping t)) taken, m)
  | .closure rule body, m => do
    let Γ ← m.vars.takeBound m.now
    match c.sem.body rule body m.vars.env m.store.world with
    | (.ok v, w) => pure (.val (.ok (.val v)) m.now, ⟨Γ, m.now, { m.store with world := w }⟩)
    | (.error e, w) => pure (.val (.err (.userError e)) m.now, ⟨Γ, m.now, { m.store with world := w }⟩)
  | .convert rule e, m => follow (e.own c calls m) fun v taken m =>
    match v with
    | .val v =>
      match c.sem.conv rule v m.store.world with
      | (.ok v, w) => pure (.val (.ok (.val v)) taken, { m with store := { m.store with world := w } })
      | (.error e, w) => pure (.val (.err (.parserError (.user e))) taken, { m with store := { m.store with world := w } })
    | _ => .panic
  | .block e, m => e.own c calls m
  | .question e, m => follow (e.own c calls m) fun v taken m =>
    match v with
    | .ok v => pure (.val v taken, m)
    | .err e => do
      let e ← Outcome.unwrap (convertError e)
      pure (.ret (.err e) taken, m)
    | _ => .panic
  | .ret e, m => follow (e.own c calls m) fun v taken m => pure (.ret v taken, m)
  | .letIn isMut x e rest, m => follow (e.own c calls m) fun v taken m =>
    close 1 (rest.own c calls { m with vars := (x, some (v.declare isMut, taken)) :: m.vars })
  | .seq e rest, m => follow (e.own c calls m) fun _ _ m => rest.own c calls m
  | .stmt e rest, m => follow (e.own c calls m) fun _ _ m => rest.own c calls m
  | .nothing, m => pure (.val (.val .unit) m.now, m)
  | .cases e arms, m => follow (e.own c calls m) fun v taken m => arms.own c calls v taken m
  | .unreachable, _ => .ub
  | .count e p, m => follow (e.own c calls m) fun v taken m => pure (.val (.nat (p.bind c.sem v).toList.length) taken, m)
  | .add a b, m => follow (a.own c calls m) fun x taken m => follow (b.own c calls m) fun y taken' m => do
    need x taken m.now
    match x, y with
    | .nat x, .nat y => pure (.val (.nat (x + y)) taken', m)
    | _, _ => .panic
  | .ifMany e then_, m => follow (e.own c calls m) fun v taken m =>
    match v with
    | .nat n => if 1 < n then then_.own c calls m else pure (.val (.val .unit) taken, m)
    | _ => .panic
  | .debug e, m => if c.debug then e.own c calls m else pure (.val (.val .unit) m.now, m)
  | .loop e, m => repeated (fun m => e.own c calls m) c.fuel m

/-- `match`: the first arm whose pattern matches. -/
def Arms.own (c : Ctx P V E F σ) (calls : Calls P V E F σ) : Arms → RVal P V E F → Time → Memory P V E F σ →
    Outcome Misuse (Ended P V E F σ)
  | .nil, _, _, _ => .panic
  | .cons p _ e rest, v, taken, m =>
    match p.bind c.sem v with
    | some Δ => close Δ.length (e.own c calls { m with vars := holding Δ taken ++ m.vars })
    | none => rest.own c calls v taken m

end

/-- Calling a function with one parameter out of a list of functions, which do not call each other. -/
def ownCallIn (fns : List (String × String × Expr)) (debug : Bool) (sem : Sem P V E σ) (into : F → E)
    (items : Nat → Option (Item P F)) : Calls P V E F σ := fun f arg now s => do
  let (param, body) ← Outcome.unwrap (fns.lookup f)
  let (r, m) ← body.own ⟨debug, sem, into, items, 0, fun _ _ _ => .panic⟩ (fun _ _ _ _ => .panic)
    ⟨[(param, some (arg, now))], now, s⟩
  pure (r.held, m.now, m.store)

/-- Running the body of a function whose parameter is the input, with an eye on what is used. -/
def ownRun (fns : List (String × String × Expr)) (body : Expr) (param : String) (debug : Bool) (sem : Sem P V E σ)
    (into : F → E) (items : Nat → Option (Item P F)) (fuel : Nat) (w : σ) :
    Outcome Misuse (RVal P V E F × Store P V E F σ) := do
  let (r, m) ← body.own ⟨debug, sem, into, items, fuel, callIn fns debug sem into items⟩ (ownCallIn fns debug sem into items)
    ⟨[(param, some (.input, ⟨0, 0⟩))], ⟨0, 0⟩, ⟨none, w⟩⟩
  pure (r.held.1, m.store)

end
end Verif.Rust

namespace Verif.RustSyntax
open Rust

/-- Running `parse_fallible`, with an eye on what is used. -/
def Item.ownRun {P V E F σ : Type} [DecidableEq P] (it : Item) (debug : Bool) (sem : Sem P V E σ) (into : F → E)
    (items : Nat → Option (Verif.Item P F)) (fuel : Nat) (w : σ) : Outcome Misuse (RVal P V E F × Store P V E F σ) :=
  Rust.ownRun it.functions it.body it.param debug sem into items fuel w

end Verif.RustSyntax
