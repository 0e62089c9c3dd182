/-
Basic vocabulary of the model.

Results of fallible Rust code: `Ok`, `Err` of a kind, or a panic.
-/
namespace Htrpc

/-- src/error.rs:119-128 `ErrorKind`. -/
inductive Kind where
  /-- src/error.rs:122 `Invalid` -/
  | invalid
  /-- src/error.rs:125 `Other` -/
  | other
deriving DecidableEq, Repr

/-- Outcome of a Rust computation of type `htrpc::Result<T>`.

`err k` models `Err(Error)` of kind `k` (src/error.rs:15; message, cause and tracking history
are dropped).  The macros `track_panic!(kind)` and `track_assert!(c, kind)` of the `trackable`
crate *return* such an error, they do not unwind.  `panic` models an unwinding panic
(`unwrap`, `expect`, `assert!`, `unreachable!`, `track_try_unwrap!`, arithmetic overflow). -/
inductive Res (α : Type) where
  | ok (a : α)
  | err (k : Kind)
  | panic
deriving DecidableEq, Repr

namespace Res

/-- The `?` operator: errors and panics stop the computation. -/
def bind {α β : Type} (x : Res α) (f : α → Res β) : Res β :=
  match x with
  | ok a => f a
  | err k => err k
  | panic => panic

instance : Monad Res where
  pure := ok
  bind := bind

@[simp] theorem bind_ok {α β : Type} (a : α) (f : α → Res β) : (ok a >>= f) = f a := rfl
@[simp] theorem bind_err {α β : Type} (k : Kind) (f : α → Res β) :
    ((err k : Res α) >>= f) = err k := rfl
@[simp] theorem bind_panic {α β : Type} (f : α → Res β) :
    ((panic : Res α) >>= f) = panic := rfl
@[simp] theorem pure_eq {α : Type} (a : α) : (pure a : Res α) = ok a := rfl

/-- `track_assert!(c, ErrorKind::Invalid)`: an `Invalid` error unless `c`. -/
def check (c : Bool) : Res Unit := if c then ok () else err .invalid

@[simp] theorem check_true : check true = ok () := rfl
@[simp] theorem check_false : check false = err .invalid := rfl

/-- `Option` to `Invalid` error (`ok_or_else(|| ErrorKind::Invalid.error())`). -/
def ofOption {α : Type} : Option α → Res α
  | some a => ok a
  | none => err .invalid

@[simp] theorem ofOption_some {α : Type} (a : α) : ofOption (some a) = ok a := rfl
@[simp] theorem ofOption_none {α : Type} : ofOption (none : Option α) = err .invalid := rfl

theorem bind_eq_ok {α β : Type} {x : Res α} {f : α → Res β} {b : β} :
    (x >>= f) = ok b ↔ ∃ a, x = ok a ∧ f a = ok b := by
  cases x <;> simp

end Res

/-- Text: Rust `str`/`String` as the list of its Unicode scalar values. -/
abbrev Str := List Char

/-- Rust `[u8]`/`Vec<u8>`. -/
abbrev Bytes := List UInt8

end Htrpc
