import Verif.Model.Shard
import Mathlib.Data.Int.Log
import Mathlib.Data.Nat.Log
import Mathlib.Data.Rat.Floor

/-!
# Model of `/repo/src/options.rs` and of the constructors

* `usize` is 64 bits wide (as everywhere in the model).
* An `f64` is a rational number, an infinity or NaN; the sign of zero is not represented, nothing here depends on it.
  Conversion from integers and multiplication round to nearest, ties to even, as IEEE 754 prescribes and Rust documents.
-/

namespace QuickCache
variable {K V RS : Type _}

/-! ### 64-bit floating point -/

/-- An `f64` value. -/
inductive F64 where
  | nan
  | inf (negative : Bool)
  | fin (q : ℚ)

/-- Rounding to the nearest integer, ties to even. -/
def roundEven (y : ℚ) : ℤ :=
  if y - ⌊y⌋ < 1 / 2 then ⌊y⌋
  else if 1 / 2 < y - ⌊y⌋ then ⌊y⌋ + 1
  else if ⌊y⌋ % 2 = 0 then ⌊y⌋ else ⌊y⌋ + 1

/-- The exponent of the last place of the `f64` numbers around `x > 0`: 53 significant bits, gradual underflow below
`2^-1022`. -/
def ulpExp (x : ℚ) : ℤ := max (Int.log 2 x - 52) (-1074)

/-- The `f64` nearest to `x ≥ 0` (below `2^1023`, so that there is no overflow to infinity). -/
def rnd (x : ℚ) : ℚ := if x = 0 then 0 else roundEven (x / 2 ^ ulpExp x) * 2 ^ ulpExp x

/-- `(n as f64 * f) as u64` (and `as usize`) for `f` in `[0, 1]`: both operations round, the final cast truncates and
saturates (`/repo/src/shard.rs:227-228`). -/
def fracOf (n : Nat) (f : ℚ) : Nat := min ⌊rnd (rnd n * f)⌋₊ (2 ^ 64 - 1)

/-- `CacheShard::new` (`/repo/src/shard.rs:218-251`). -/
def Shard.fromOptions (hot ghost : ℚ) (items weight : Nat) : Shard K V :=
  Shard.new (fracOf weight hot) weight (fracOf items ghost)

/-! ### `Options` and `OptionsBuilder` -/

/-- `DEFAULT_HOT_ALLOCATION` (`/repo/src/options.rs:1`): the `f64` nearest to `0.97`. -/
def defaultHot : ℚ := rnd (97 / 100)

/-- `DEFAULT_GHOST_ALLOCATION` (`/repo/src/options.rs:2`). -/
def defaultGhost : ℚ := rnd (1 / 2)

/-- `Options` (`/repo/src/options.rs:4-12`). -/
structure Options where
  shards : Nat
  hot : ℚ
  ghost : ℚ
  items : Nat
  weight : Nat

/-- `OptionsBuilder` (`/repo/src/options.rs:32-39`). -/
structure Builder where
  shards : Option Nat
  hot : Option ℚ
  ghost : Option ℚ
  items : Option Nat
  weight : Option Nat

/-- `Error` (`/repo/src/options.rs:41-50`): which of the two messages. -/
inductive BuildError where
  | noWeight | noItems
  deriving DecidableEq, Repr

namespace Builder

/-- `OptionsBuilder::new` (`/repo/src/options.rs:53-56`). -/
def new : Builder := ⟨none, none, none, none, none⟩

/-- A call of a setter. -/
inductive Setter where
  | shards (n : Nat)
  | items (n : Nat)
  | weight (n : Nat)
  | hot (f : F64)
  | ghost (f : F64)

/-- `f.clamp(0.0, 1.0) == f` (`/repo/src/options.rs:97`, `116`): false for NaN and the infinities. -/
def inUnit : F64 → Option ℚ
  | .nan => none
  | .inf _ => none
  | .fin q => if max 0 (min q 1) = q then some q else none

/-- The setters (`/repo/src/options.rs:66-122`). `assert!` is an error. -/
def set (b : Builder) : Setter → Res Builder
  | .shards n => .ok { b with shards := some n }
  | .items n => .ok { b with items := some n }
  | .weight n => .ok { b with weight := some n }
  | .hot f =>
    match inUnit f with
    | some q => .ok { b with hot := some q }
    | none => .error .assertion
  | .ghost f =>
    match inUnit f with
    | some q => .ok { b with ghost := some q }
    | none => .error .assertion

/-- `OptionsBuilder::build` (`/repo/src/options.rs:124-143`); `par` is `available_parallelism()` (`146-158`), a
positive number fixed for the process. `available_parallelism() * 4` is assumed not to overflow. -/
def build (b : Builder) (par : Nat) : Except BuildError Options :=
  let shards := b.shards.getD (par * 4)
  let hot := b.hot.getD defaultHot
  let ghost := b.ghost.getD defaultGhost
  match b.weight with
  | none => .error .noWeight
  | some weight =>
    match b.items with
    | none => .error .noItems
    | some items => .ok ⟨shards, hot, ghost, items, weight⟩

end Builder

/-- `unsync::Cache::with_options` (`/repo/src/unsync.rs:92-103`). -/
def Options.unsync (o : Options) : Shard K V := Shard.fromOptions o.hot o.ghost o.items o.weight

/-- `unsync::Cache::with` (`/repo/src/unsync.rs:54-73`) and `sync::Cache::with` (`/repo/src/sync.rs:82-101`): the options
they build. -/
def Options.ofCapacities (par items weight : Nat) : Except BuildError Options :=
  ({ Builder.new with items := some items, weight := some weight } : Builder).build par

/-! ### Sizing the shards -/

/-- `usize::next_power_of_two`: the smallest power of two not below `n`; it panics (in debug builds) if that does not
fit. -/
def nextPow2 (n : Nat) : Res Nat := if 2 ^ Nat.clog 2 n < 2 ^ 64 then .ok (2 ^ Nat.clog 2 n) else .error .overflow

/-- `u64::saturating_add`. -/
def satAdd (a b : Nat) : Nat := min (a + b) (2 ^ 64 - 1)

/-- The per-shard share of `total` (`/repo/src/sync.rs:125-128`, `132-133`). -/
def share (total n : Nat) : Nat := satAdd total (n - 1) / n

/-- The loop of `sync::Cache::with_options` (`/repo/src/sync.rs:129-134`): the number of shards. The other two variables
of the loop are `share items n` and `share weight n` throughout. -/
def shardLoop (items : Nat) : Nat → Nat → Res Nat
  | 0, _ => .error .outOfFuel
  | fuel + 1, n => if share items n < 32 ∧ 1 < n then shardLoop items fuel (n / 2) else .ok n

/-- The number of shards (`/repo/src/sync.rs:122-134`). -/
def numShards (o : Options) : Res Nat := do
  let n ← nextPow2 o.shards
  shardLoop o.items (n + 1) n

/-- The shard selected by a hash (`/repo/src/sync.rs:218-223`): rotate right by 32 bits, mask. -/
def shardIdx (mask h : UInt64) : Nat := (((h >>> 32) ||| (h <<< 32)) &&& mask).toNat

end QuickCache
