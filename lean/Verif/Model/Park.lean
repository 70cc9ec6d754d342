import Mathlib.Data.List.Basic

/-!
# Model of the timed wait of `PlaceholderGuard::join` (`/repo/src/sync_placeholder.rs:237-261`)

The loop reads the clock, parks, reads its notification flag and the clock again. What it reads is arbitrary; one pass of the
loop is a `Pass`. Times are nanoseconds since an arbitrary origin. (The `shuttle` and `fuzzing` configurations, which do not
look at the clock or do not park, are not modelled.)
-/

namespace QuickCache.Park

/-- What one pass through the loop meets. -/
structure Pass where
  /-- the reading of `Instant::now()` from which the duration of the park is computed (`241`) -/
  parkAt : Nat
  /-- the time at which `park_timeout` returns, be it because of the duration, of an `unpark`, or spuriously -/
  woke : Nat
  /-- the notification flag read after the park (`242`) -/
  flag : Bool
  /-- the clock reading in `start.elapsed()` (`246`) -/
  check : Nat
  /-- the notification flag read with the state locked (`252`) -/
  flagLocked : Bool
  deriving DecidableEq, Repr

/-- How the wait ends. -/
inductive Result where
  /-- notified: `join` goes on with the value or the guard -/
  | notified
  /-- `GuardResult::Timeout`; `at` is the last clock reading -/
  | timeout (at_ : Nat)
  deriving DecidableEq, Repr

/-- The duration passed to `park_timeout` (`241`): `Instant::now().saturating_duration_since(start)`. -/
def Pass.duration (start : Nat) (x : Pass) : Nat := x.parkAt - start

/-- The loop (`239-260`). `none`: still waiting after these passes. -/
def wait (start timeout : Nat) : List Pass → Option Result
  | [] => none
  | x :: rest =>
    if x.flag then some .notified
    else if x.check - start < timeout then wait start timeout rest
    else if x.flagLocked then some .notified
    else some (.timeout x.check)

end QuickCache.Park
