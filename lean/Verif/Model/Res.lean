/-!
# Error monad of the model

Every place where the Rust code could panic (or run into undefined behaviour) is an explicit error value.
-/

namespace QuickCache

/-- The ways in which a call of the Rust code can fail to return normally.

* `unwrapNone`: `Option::unwrap` / `Option::expect` on `None`
* `unreachable`: `unreachable!()`
* `ub`: undefined behaviour: `core::hint::unreachable_unchecked()`, `get_unchecked` out of bounds, `unwrap_unchecked` on
  `None`
* `debugAssert`: a failed `debug_assert!`/`debug_assert_eq!`/`debug_assert_ne!`
* `underflow`: unsigned subtraction below zero (panic in debug, wrap-around in release)
* `overflow`: u64 addition of weights reaching `2^64` (panic in debug, wrap-around in release)
* `slabFull`: `expect("Capacity overflow")` (`/repo/src/linked_slab.rs:75`)
* `outOfBounds`: checked vector index out of range
* `keyNotFound`: `panic!("key not found")` (`/repo/src/shard.rs:857-858`)
* `assertion`: a failed `assert!`
* `outOfFuel`: not a panic of the Rust code: the loop did not finish within the fuel given by the model -/
inductive Panic where
  | unwrapNone | unreachable | ub | debugAssert | underflow | overflow | slabFull | outOfBounds | keyNotFound
  | assertion | outOfFuel
  deriving DecidableEq, Repr

/-- A computation that may panic. -/
abbrev Res (α : Type _) := Except Panic α

deriving instance DecidableEq for Except

@[simp] theorem Res.ok_bind {α β : Type _} (a : α) (f : α → Res β) :
    ((Except.ok a : Res α) >>= f) = f a := rfl

@[simp] theorem Res.error_bind {α β : Type _} (p : Panic) (f : α → Res β) :
    ((Except.error p : Res α) >>= f) = Except.error p := rfl

@[simp] theorem Res.pure_eq {α : Type _} (a : α) : (pure a : Res α) = Except.ok a := rfl

/-- Unsigned subtraction of counters and weights (`-=` in `/repo/src/shard.rs`), panicking on underflow as a debug
build does. -/
def csub (a b : Nat) : Res Nat := if b ≤ a then .ok (a - b) else .error .underflow

/-- u64 addition of weights (`+`/`+=` in `/repo/src/shard.rs`), panicking on overflow as a debug build does. -/
def cadd (a b : Nat) : Res Nat := if a + b < 2 ^ 64 then .ok (a + b) else .error .overflow

theorem csub_ok {a b : Nat} (h : b ≤ a) : csub a b = .ok (a - b) := by simp [csub, h]

theorem cadd_ok {a b : Nat} (h : a + b < 2 ^ 64) : cadd a b = .ok (a + b) := by simp only [cadd, h, if_true]

theorem cadd_err {a b : Nat} (h : 2 ^ 64 ≤ a + b) : cadd a b = .error .overflow := by
  simp only [cadd, if_neg (Nat.not_lt.mpr h)]

end QuickCache
