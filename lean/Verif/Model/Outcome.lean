/-!
# Results of modelled Rust functions

Rust functions that can return `Err`, panic or (in generated code) have undefined behaviour are
modelled as functions into `Outcome`.
-/

namespace Verif

/-- Result of running a modelled Rust function.

* `ok a`    – normal return (`Ok(a)` for functions returning `Result`).
* `err e`   – a Rust `Err(e)` value.
* `panic`   – index out of range, `unwrap`/`expect` on nothing, failing `debug_assert!`.
* `ub`      – `unwrap_unchecked` on `None` or `unreachable_unchecked` was executed.
* `timeout` – the fuel of a modelled loop ran out (not a behaviour of the code). -/
inductive Outcome (ε α : Type) where
  | ok (a : α)
  | err (e : ε)
  | panic
  | ub
  | timeout
deriving Repr, DecidableEq

namespace Outcome

variable {ε ε' α β γ : Type}

/-- Sequencing: continue on `ok`, otherwise stop with the same outcome (Rust's `?`, unwinding). -/
def bind (x : Outcome ε α) (f : α → Outcome ε β) : Outcome ε β :=
  match x with
  | ok a => f a
  | err e => err e
  | panic => panic
  | ub => ub
  | timeout => timeout

instance : Monad (Outcome ε) where
  pure := ok
  bind := bind

@[simp] theorem pure_eq (a : α) : (pure a : Outcome ε α) = ok a := rfl
@[simp] theorem ok_bind (a : α) (f : α → Outcome ε β) : (ok a >>= f) = f a := rfl
@[simp] theorem err_bind (e : ε) (f : α → Outcome ε β) : (err e >>= f) = err e := rfl
@[simp] theorem panic_bind (f : α → Outcome ε β) : ((panic : Outcome ε α) >>= f) = panic := rfl
@[simp] theorem ub_bind (f : α → Outcome ε β) : ((ub : Outcome ε α) >>= f) = ub := rfl
@[simp] theorem timeout_bind (f : α → Outcome ε β) :
    ((timeout : Outcome ε α) >>= f) = timeout := rfl

instance : LawfulMonad (Outcome ε) := LawfulMonad.mk'
  (id_map := by intro α x; cases x <;> rfl)
  (pure_bind := by intro α β a f; rfl)
  (bind_assoc := by intro α β γ x f g; cases x <;> rfl)

/-- A sequence returns `ok` exactly when both parts do. -/
theorem bind_eq_ok {x : Outcome ε α} {f : α → Outcome ε β} {b : β} :
    (x >>= f) = ok b ↔ ∃ a, x = ok a ∧ f a = ok b := by
  cases x <;> simp

theorem bind_eq_err {x : Outcome ε α} {f : α → Outcome ε β} {e : ε} :
    (x >>= f) = err e ↔ x = err e ∨ ∃ a, x = ok a ∧ f a = err e := by
  cases x <;> simp

theorem bind_eq_timeout {x : Outcome ε α} {f : α → Outcome ε β} :
    (x >>= f) = timeout ↔ x = timeout ∨ ∃ a, x = ok a ∧ f a = timeout := by
  cases x <;> simp

theorem bind_eq_panic {x : Outcome ε α} {f : α → Outcome ε β} :
    (x >>= f) = panic ↔ x = panic ∨ ∃ a, x = ok a ∧ f a = panic := by
  cases x <;> simp

/-- `debug_assert!(b)`. -/
def assert (b : Bool) : Outcome ε Unit := if b then ok () else panic

@[simp] theorem assert_true : (assert true : Outcome ε Unit) = ok () := rfl
@[simp] theorem assert_false : (assert false : Outcome ε Unit) = panic := rfl

theorem assert_eq_ok {b : Bool} {u : Unit} : (assert b : Outcome ε Unit) = ok u ↔ b = true := by
  cases b <;> simp

/-- `v[i]` on a Rust vector or slice. -/
def index (l : List α) (i : Nat) : Outcome ε α :=
  match l[i]? with
  | some a => ok a
  | none => panic

theorem index_eq_ok {l : List α} {i : Nat} {a : α} :
    (index l i : Outcome ε α) = ok a ↔ l[i]? = some a := by
  unfold index; cases l[i]? <;> simp

theorem index_of_lt {l : List α} {i : Nat} (h : i < l.length) :
    (index l i : Outcome ε α) = ok l[i] := by
  simp [index, h]

/-- `opt.unwrap()` / `opt.expect(..)`. -/
def unwrap (o : Option α) : Outcome ε α :=
  match o with
  | some a => ok a
  | none => panic

@[simp] theorem unwrap_some (a : α) : (unwrap (some a) : Outcome ε α) = ok a := rfl
@[simp] theorem unwrap_none : (unwrap none : Outcome ε α) = panic := rfl

/-- `unsafe { opt.unwrap_unchecked() }`. -/
def unwrapUnchecked (o : Option α) : Outcome ε α :=
  match o with
  | some a => ok a
  | none => ub

@[simp] theorem unwrapUnchecked_some (a : α) :
    (unwrapUnchecked (some a) : Outcome ε α) = ok a := rfl
@[simp] theorem unwrapUnchecked_none : (unwrapUnchecked none : Outcome ε α) = ub := rfl

end Outcome
end Verif
