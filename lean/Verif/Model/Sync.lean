import Verif.Model.Unsync
import Verif.Model.Options

/-!
# Model of `/repo/src/sync.rs`: sharding, and the critical sections of a shard

`sync::Cache` is a list of shards, each behind its own read-write lock. Every access to a shard happens inside a critical
section of that lock. This file gives the critical sections as atomic steps of one shard (`Section`) and of the sharded
cache (`SyncCache.step`); the protocol by which threads wait for each other's placeholders is in `Verif.Model.Conc`.

* The critical sections of `contains_key`, `peek`, `remove`, `replace`, `insert`, `retain`, `clear`, `reserve` are
  those of the unsync cache, with `Cfg.ptrEq = true` (placeholders are `Arc`s compared by address).
* `get` runs under a read lock, together with other readers, and changes the atomic counter of the entry and the
  statistics. Its atomic accesses are separate steps here (`find`, `load`, `bump`, `count`).
* A call of `retain`, `clear`, `reserve`, `len`, `weight`, `capacity` … visits the shards one after the other, each in a
  critical section of its own. A `retain`/`clear`/`reserve` call is therefore a sequence of steps, one per shard.
-/

namespace QuickCache
variable {K V RS : Type _}

/-! ### Critical sections of one shard -/

/-- A critical section of a shard. -/
inductive Section (K V : Type _) where
  /-- the section of a call of the cache, one of those in `Op.shared` -/
  | call (op : Op K V)
  /-- the first section of `PlaceholderGuard::join` (`/repo/src/sync_placeholder.rs:211-218`) and of the first poll of a
  `JoinFuture` (`451-472`): `upsert_placeholder` -/
  | upsert (k : K)
  /-- the second part of `PlaceholderGuard::insert_with_lifecycle` (`/repo/src/sync_placeholder.rs:300-322`):
  `replace_placeholder`. `k`, not known to the code, is the key for which the guard was handed out. -/
  | fill (k : K) (p : Plh) (referenced : Bool) (v : V)
  /-- `PlaceholderGuard::drop_uninserted_slow` without waiters (`/repo/src/sync_placeholder.rs:326-338`):
  `remove_placeholder` -/
  | abandon (k : K) (p : Plh)
  /-- the search of `CacheShard::get` (`/repo/src/shard.rs:492`) -/
  | find (k : K)
  /-- the load of the counter (`/repo/src/shard.rs:493`) of the resident in slot `t`. `k` is the key it was found for. -/
  | load (k : K) (t : Nat)
  /-- the `fetch_add` on the counter (`/repo/src/shard.rs:498`) of the resident in slot `t`, found for key `k` -/
  | bump (k : K) (t : Nat)
  /-- `record_hit!`/`record_miss!` (`/repo/src/shard.rs:500`, `503`) -/
  | count (hit : Bool)

/-- What a critical section yields. -/
inductive SOut (K V : Type _) where
  | call (out : Out K V)
  /-- the value was present -/
  | found (v : V)
  /-- a placeholder, and whether it was created by this section -/
  | pending (p : Plh) (new : Bool)
  /-- the outcome of `replace_placeholder`: the value comes back if the placeholder is gone -/
  | filled (err : Option V)
  /-- the outcome of `find`: slot and value -/
  | located (r : Option (Nat × V))
  | counter (n : Nat)
  | unit
  deriving DecidableEq, Repr

/-- The calls that `sync::Cache` shares with `unsync::Cache` and that consist of a single critical section. -/
def Op.shared : Op K V → Prop
  | .insert _ _ | .replace _ _ _ | .remove _ | .peek _ | .containsKey _ | .retain _ | .clear | .reserve => True
  | _ => False

namespace Sync

/-- One critical section. -/
def step [DecidableEq K] (c : Cfg K V RS) (s : Shard K V) : Section K V → Res (Shard K V × SOut K V × Req K V RS)
  | .call op => do
    let (s1, out, q) ← Unsync.step c s op
    .ok (s1, .call out, q)
  | .upsert k => do
    match ← s.upsertPlaceholder c (c.hash k) (fun x => x == k) k with
    | (s1, .found _ v) => .ok (s1, .found v, c.begin)
    | (s1, .pending p new) => .ok (s1, .pending p new, c.begin)
  | .fill _ p referenced v => do
    let (s1, q, r) ← s.replacePlaceholder c c.begin p referenced v
    .ok (s1, .filled r, q)
  | .abandon _ p => do
    let s1 ← s.removePlaceholder c p
    .ok (s1, .unit, c.begin)
  | .find k => do
    let r ← s.searchResident (c.hash k) (fun x => x == k)
    .ok (s, .located (r.map (fun x => (x.1, x.2.value))), c.begin)
  | .load _ t =>
    match s.entries.get t with
    | some (.resident r, _) => .ok (s, .counter r.referenced, c.begin)
    | _ => .error .unreachable
  | .bump _ t =>
    match s.entries.get t with
    | some (.resident r, _) =>
      .ok (s.setEntry t (.resident { r with referenced := (r.referenced + 1) % 2 ^ 16 }), .unit, c.begin)
    | _ => .error .unreachable
  | .count hit =>
    .ok (if hit then { s with hits := s.hits + 1 } else { s with misses := s.misses + 1 }, .unit, c.begin)

end Sync

/-! ### The sharded cache -/

/-- `sync::Cache` (`/repo/src/sync.rs:31-42`) without the locks. -/
structure SyncCache (K V : Type _) where
  shards : List (Shard K V)
  mask : UInt64

namespace SyncCache

/-- `Cache::with_options` (`/repo/src/sync.rs:121-154`). -/
def withOptions (o : Options) : Res (SyncCache K V) := do
  let n ← QuickCache.numShards o
  .ok ⟨List.replicate n (Shard.fromOptions o.hot o.ghost (share o.items n) (share o.weight n)), UInt64.ofNat (n - 1)⟩

/-- `Cache::is_empty` (`/repo/src/sync.rs:164-166`). -/
def isEmpty (s : SyncCache K V) : Bool := s.shards.all (fun x => x.len == 0)

/-- `Cache::len` (`/repo/src/sync.rs:169-171`). `usize` cannot overflow: every item occupies memory. -/
def len (s : SyncCache K V) : Nat := (s.shards.map (fun x => x.len)).sum

/-- `Iterator::sum` of u64 values. -/
def sum (l : List (Res Nat)) : Res Nat := l.foldlM (fun acc x => do cadd acc (← x)) 0

/-- `Cache::weight` (`/repo/src/sync.rs:174-176`). -/
def weight (s : SyncCache K V) : Res Nat := sum (s.shards.map (fun x => x.weight))

/-- `Cache::capacity` (`/repo/src/sync.rs:181-183`). -/
def capacity (s : SyncCache K V) : Res Nat := sum (s.shards.map (fun x => .ok x.capacity))

/-- `Cache::shard_capacity` (`/repo/src/sync.rs:186-188`). -/
def shardCapacity (s : SyncCache K V) : Res Nat :=
  match s.shards[0]? with
  | some x => .ok x.capacity
  | none => .error .outOfBounds

/-- `Cache::num_shards` (`/repo/src/sync.rs:191-193`). -/
def numShards (s : SyncCache K V) : Nat := s.shards.length

/-- `Cache::misses` (`/repo/src/sync.rs:197-199`). -/
def misses (s : SyncCache K V) : Nat := (s.shards.map (fun x => x.misses)).sum

/-- `Cache::hits` (`/repo/src/sync.rs:203-205`). -/
def hits (s : SyncCache K V) : Nat := (s.shards.map (fun x => x.hits)).sum

/-- `Cache::shard_for` (`/repo/src/sync.rs:208-225`): the index of the shard, `None` if out of range. -/
def shardFor (c : Cfg K V RS) (s : SyncCache K V) (k : K) : Option Nat :=
  if shardIdx s.mask (c.hash k) < s.shards.length then some (shardIdx s.mask (c.hash k)) else none

end SyncCache
end QuickCache
