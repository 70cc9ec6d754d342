import Verif.Model.Options
import Verif.Model.Validate
import Verif.Model.Unsync

/-!
# Model of the crate's own fuzz target for `unsync::Cache`

`/repo/fuzz/fuzz_targets/fuzz_unsync_cache.rs`, statement by statement: a program that uses the cache and checks it with
assertions. A failed assertion, a panic inside the cache and a failed `unwrap` are errors.

* The hash function (`ahash` with the seed of the input) is an arbitrary function; the seed is not a field of the input here.
* After each call of the cache the layout of its hash table changes as the parameter `lay` says.
* `HashSet` is a list of the keys inserted so far.
-/

namespace QuickCache.FuzzUnsync

/-- `struct Value` (`fuzz_unsync_cache.rs:13-18`). -/
structure Value where
  original : UInt16
  current : UInt16
  pinned : Bool
  deriving DecidableEq, Repr

/-- `MyWeighter` and `MyLifecycle` (`fuzz_unsync_cache.rs:20-48`). `SharedPlaceholder::same_as` of `unsync` is always true;
`ptrEq` is for the other fuzz target, which has the same weighter and lifecycle. -/
def cfg (hash : UInt16 → UInt64) (ptrEq : Bool := false) : Cfg UInt16 Value (List (UInt16 × Value)) where
  hash := hash
  weight _ v := v.current.toNat
  pinned _ v := v.pinned
  beginReq := []
  beforeEvict st _ v := (st, if v.original % 5 = 0 then { v with current := 0 } else v)
  onEvict st k v := st ++ [(k, v)]
  ptrEq := ptrEq

/-- `enum Op` (`fuzz_unsync_cache.rs:50-57`). -/
inductive FOp where
  | insert (k v : UInt16) (pinned : Bool)
  | replace (k v : UInt16) (pinned : Bool)
  | placeholder (k : UInt16) (v : Option (UInt16 × Bool))
  | update (k v : UInt16) (pinned : Bool)
  | remove (k : UInt16)
  deriving DecidableEq, Repr

/-- `struct Input` (`fuzz_unsync_cache.rs:59-67`) without the seed. -/
structure Input where
  items : UInt16
  weight : UInt32
  hot : UInt8
  ghost : UInt8
  ops : List FOp
  deriving Repr

/-- `n as f64 / (u8::MAX as f64)` (`fuzz_unsync_cache.rs:85-86`). -/
def ratio (n : UInt8) : F64 := .fin (rnd ((n.toNat : ℚ) / 255))

/-- The options (`fuzz_unsync_cache.rs:87-94`). -/
def options (i : Input) : Res Options := do
  let b ← Builder.new.set (.items i.items.toNat)
  let b ← b.set (.weight i.weight.toNat)
  let b ← b.set (.hot (ratio i.hot))
  let b ← b.set (.ghost (ratio i.ghost))
  let b ← b.set (.shards 1)
  match b.build 1 with
  | .ok o => .ok o
  | .error _ => .error .unwrapNone

/-- The variable `cache` (`fuzz_unsync_cache.rs:96`) and the number of calls made so far. -/
structure World where
  shard : Shard UInt16 Value
  calls : Nat

/-- How the layout of the hash table changes after the `n`-th call (see `Shard.relayout`). -/
abbrev Layout := Nat → Shard UInt16 Value → Shard UInt16 Value

/-- All that is required of it: it changes nothing but the order of the table and which foreign slots a probe meets. -/
def Layout.Fair (lay : Layout) : Prop :=
  ∀ n s, ∃ m p, lay n s = s.relayout m p ∧ m.Perm s.map ∧ ∀ x, p x x = true

/-- One call of the cache (any of the calls in `fuzz_unsync_cache.rs:97-184`). -/
def call (hash : UInt16 → UInt64) (lay : Layout) (w : World) (op : Op UInt16 Value) :
    Res (World × Out UInt16 Value × List (UInt16 × Value)) := do
  let (s, out, q) ← Unsync.step (cfg hash) w.shard op
  .ok (⟨lay w.calls s, w.calls + 1⟩, out, q.st)

/-- `Value { original: v, current: v, pinned }` (`fuzz_unsync_cache.rs:103-107`). -/
def fresh (v : UInt16) (pinned : Bool) : Value := ⟨v, v, pinned⟩

/-- What `MyLifecycle` collects of a list of calls of the lifecycle (`fuzz_unsync_cache.rs:44-47`): the items handed to
`on_evict`, in order. -/
def handed : List (Event UInt16 Value) → List (UInt16 × Value)
  | [] => []
  | .beforeEvict .. :: l => handed l
  | .onEvict k v :: l => (k, v) :: handed l

/-- The loop of `check_evicted` (`fuzz_unsync_cache.rs:188-199`); `seen` is the hash set `evicted_hm`. -/
def checkEvicted (key : UInt16) (get : Option Value) : List UInt16 → List (UInt16 × Value) → Res Unit
  | _, [] => .ok ()
  | seen, (ek, ev) :: rest => do
    Shard.assert (ev.current ≠ 0 ∨ ek = key)
    Shard.assert (ev.pinned = false ∨ ek = key)
    Shard.assert (ek ∉ seen ∨ (ek = key ∧ get = none))
    checkEvicted key get (ek :: seen) rest

/-- `cache.peek(&k).copied()` (`fuzz_unsync_cache.rs:110`). -/
def peek (hash : UInt16 → UInt64) (lay : Layout) (w : World) (k : UInt16) : Res (World × Option Value) := do
  match ← call hash lay w (.peek k) with
  | (w, .value v, _) => .ok (w, v)
  | _ => .error .unreachable

/-- `fuzz_unsync_cache.rs:110-112`, `137-139` and `157-159`: `k` is peeked; if present it must have value `v`; then `check_evicted`. -/
def checkStored (hash : UInt16 → UInt64) (lay : Layout) (w : World) (k v : UInt16) (evicted : List (UInt16 × Value)) :
    Res World := do
  let (w, p) ← peek hash lay w k
  Shard.assert (∀ x ∈ p, x.original = v)
  checkEvicted k p [] evicted
  .ok w

/-- One round of the loop (`fuzz_unsync_cache.rs:98-172`) without the final `validate`. `flag` is
`did_any_update_increase_weight_or_unpin`. -/
def oneOp (hash : UInt16 → UInt64) (lay : Layout) (w : World) (flag : Bool) : FOp → Res (World × Bool)
  | .insert k v pinned => do
    let (w, _, evicted) ← call hash lay w (.insert k (fresh v pinned))
    let w ← checkStored hash lay w k v evicted
    .ok (w, flag)
  | .update k v pinned => do
    match ← call hash lay w (.getMut k (fun _ => fresh v pinned)) with
    | (w, .value none, _) => .ok (w, flag)
    | (w, .value (some old), _) => .ok (w, flag || (decide (old.current < v) || (old.pinned && !pinned)))
    | _ => .error .unreachable
  | .replace k v pinned => do
    match ← call hash lay w (.replace k (fresh v pinned) false) with
    | (w, .replaced none, evicted) => do
      let w ← checkStored hash lay w k v evicted
      .ok (w, flag)
    | (w, .replaced (some _), _) => do
      let (w, p) ← peek hash lay w k
      Shard.assert (p = none)
      .ok (w, flag)
    | _ => .error .unreachable
  | .placeholder k (some (v, pinned)) => do
    match ← call hash lay w (.getRefOrGuard k (.insert (fresh v pinned))) with
    | (w, .orGuard (some _), _) => .ok (w, flag)
    | (w, .orGuard none, evicted) => do
      let w ← checkStored hash lay w k v evicted
      .ok (w, flag)
    | _ => .error .unreachable
  | .placeholder k none => do
    let (w, _, _) ← call hash lay w (.getRefOrGuard k .drop)
    .ok (w, flag)
  | .remove k => do
    match ← call hash lay w (.remove k) with
    | (w, .removed r, _) => do
      Shard.assert (∀ x ∈ r, x.1 = k)
      let (w, p) ← peek hash lay w k
      Shard.assert (p = none)
      .ok (w, flag)
    | _ => .error .unreachable

/-- The loop (`fuzz_unsync_cache.rs:97-174`). -/
def loop (hash : UInt16 → UInt64) (lay : Layout) : List FOp → World → Bool → Res (World × Bool)
  | [], w, flag => .ok (w, flag)
  | op :: ops, w, flag => do
    let (w, flag) ← oneOp hash lay w flag op
    w.shard.validate (cfg hash) flag
    loop hash lay ops w flag

/-- `run` (`fuzz_unsync_cache.rs:73-186`). -/
def run (hash : UInt16 → UInt64) (lay : Layout) (i : Input) : Res Unit := do
  let o ← options i
  let (w, flag) ← loop hash lay i.ops ⟨o.unsync, 0⟩ false
  if flag then
    let (w, _, _) ← call hash lay w (.insert 0 ⟨0, 0, false⟩)
    w.shard.validate (cfg hash) false
  else
    w.shard.validate (cfg hash) false

end QuickCache.FuzzUnsync
