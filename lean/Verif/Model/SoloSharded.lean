import Verif.Model.Solo
import Verif.Model.Sharded

/-!
# Using the sharded concurrent cache from one place at a time

As `Verif.Model.Solo`, for a whole `sync::Cache`. A call about a key happens on the shard of the key; `retain`, `clear` and
`reserve` visit the shards one after the other.
-/

namespace QuickCache.Solo
variable {K V RS : Type}
open Conc

/-- A `sync::Cache` (`/repo/src/sync.rs:31-42`) that is used by one caller at a time. -/
structure Whole (K V : Type) where
  shards : List (World K V)
  mask : UInt64

namespace Whole

/-- A cache just built. -/
def start (s : SyncCache K V) : Whole K V := ⟨s.shards.map (fun x => ⟨State.new x, 0⟩), s.mask⟩

/-- The cache without its callers: what `len()`, `weight()`, … look at. -/
def still (s : Whole K V) : SyncCache K V := ⟨s.shards.map (·.st.shard), s.mask⟩

/-- The index computed by `shard_for` (`/repo/src/sync.rs:208-225`). -/
def home (c : Cfg K V RS) (s : Whole K V) (k : K) : Nat := shardIdx s.mask (c.hash k)

/-- The items of all shards. -/
def items (s : Whole K V) : List (K × V) := s.shards.flatMap (fun w => w.st.shard.iter)

variable [DecidableEq K]

/-- `for s in self.shards.iter() { s.write().…  }` (`/repo/src/sync.rs:232-234`, `313-315`, `338-340`): the call on one shard after the
other. `i` is the index of the first. -/
def sweep (c : Cfg K V RS) (lay : Nat → Layout K V) (x : Call K V) : Nat → List (World K V) →
    Res (List (World K V) × List (Event K V))
  | _, [] => .ok ([], [])
  | i, w :: ws => do
    let (w, y) ← Solo.perform c (lay i) w x
    let (ws, log) ← sweep c lay x (i + 1) ws
    .ok (w :: ws, y.log ++ log)

/-- One call, from its beginning to its end. `lay i` is the layout of the hash table of shard `i`. -/
def perform (c : Cfg K V RS) (lay : Nat → Layout K V) (s : Whole K V) (x : Call K V) : Res (Whole K V × Unsync.Call K V) :=
  match x.op.key with
  | some k =>
    match s.shards[s.home c k]? with
    | none => .error .unwrapNone
    | some w => do
      let (w, y) ← Solo.perform c (lay (s.home c k)) w x
      .ok ({ s with shards := s.shards.set (s.home c k) w }, y)
  | none => do
    let (ws, log) ← sweep c lay x 0 s.shards
    .ok ({ s with shards := ws }, ⟨x.op, .unit, log⟩)

/-- One call after the other. -/
def run (c : Cfg K V RS) (lay : Nat → Layout K V) : List (Call K V) → Whole K V → Res (Whole K V × List (Unsync.Call K V))
  | [], s => .ok (s, [])
  | x :: l, s => do
    let (s, y) ← perform c lay s x
    let (s, h) ← run c lay l s
    .ok (s, y :: h)

end Whole
end QuickCache.Solo
