import Verif.Model.Sync

/-!
# Model of `validate`

The consistency check that the crate's own tests and fuzzers run (`LinkedSlab::validate`, `CacheShard::validate`,
`Cache::validate`), function by function. A failed `assert!` is the error `assertion`.
-/

namespace QuickCache
namespace Slab
variable {T : Type _}

/-- The `while` loop of `LinkedSlab::validate` (`/repo/src/linked_slab.rs:40-48`): the slots on the free list, last first.
The loop visits each slot at most once unless it runs forever; hence one more round than slots is enough fuel. -/
def freeWalk (s : Slab T) : Nat → Nat → List Nat → Res (List Nat)
  | 0, _, _ => .error .outOfFuel
  | fuel + 1, nextFree, freelist =>
    if nextFree = s.entries.length then .ok freelist
    else match s.entries[nextFree]? with
      | none => .error .outOfBounds
      | some e =>
        if e.item.isSome then .error .assertion else s.freeWalk fuel e.next (nextFree :: freelist)

/-- The `for` loop of `LinkedSlab::validate` (`/repo/src/linked_slab.rs:49-55`), from slot `i` on. -/
def checkLinks (freelist : List Nat) : Nat → List (SEntry T) → Res Unit
  | _, [] => .ok ()
  | i, e :: rest =>
    if e.item.isSome ∧ (i ∈ freelist ∨ e.prev ∈ freelist ∨ e.next ∈ freelist) then .error .assertion
    else checkLinks freelist (i + 1) rest

/-- `LinkedSlab::validate` (`/repo/src/linked_slab.rs:38-56`). -/
def validate (s : Slab T) : Res Unit := do
  let freelist ← s.freeWalk (s.entries.length + 1) s.nextFree []
  checkLinks freelist 0 s.entries

end Slab

/-- The local counters of `CacheShard::validate` (`/repo/src/shard.rs:256-262`). -/
structure Recount where
  numHot : Nat
  numCold : Nat
  numNonResident : Nat
  weightHot : Nat
  weightHotPinned : Nat
  weightCold : Nat
  weightColdPinned : Nat

namespace Shard
variable {K V RS : Type _}

/-- One round of the loop of `CacheShard::validate` (`/repo/src/shard.rs:263-287`). -/
def recountOne (c : Cfg K V RS) (n : Recount) : Entry K V → Res Recount
  | .resident r =>
    match r.state with
    | .cold =>
      if c.pinned r.key r.value then do
        let w ← cadd n.weightColdPinned (c.weight r.key r.value)
        .ok { n with numCold := n.numCold + 1, weightColdPinned := w }
      else do
        let w ← cadd n.weightCold (c.weight r.key r.value)
        .ok { n with numCold := n.numCold + 1, weightCold := w }
    | .hot =>
      if c.pinned r.key r.value then do
        let w ← cadd n.weightHotPinned (c.weight r.key r.value)
        .ok { n with numHot := n.numHot + 1, weightHotPinned := w }
      else do
        let w ← cadd n.weightHot (c.weight r.key r.value)
        .ok { n with numHot := n.numHot + 1, weightHot := w }
  | .ghost _ => .ok { n with numNonResident := n.numNonResident + 1 }
  | .placeholder _ => .ok n

/-- The loop of `CacheShard::validate` over `iter_entries` (`/repo/src/linked_slab.rs:34-36`,
`/repo/src/shard.rs:263-287`). -/
def recount (c : Cfg K V RS) : Recount → List (Entry K V) → Res Recount
  | n, [] => .ok n
  | n, e :: rest => do
    let n' ← recountOne c n e
    recount c n' rest

/-- `assert!` -/
def assert (p : Prop) [Decidable p] : Res Unit := if p then .ok () else .error .assertion

/-- `CacheShard::validate` (`/repo/src/shard.rs:252-322`). -/
def validate (c : Cfg K V RS) (s : Shard K V) (acceptOverweight : Bool) : Res Unit := do
  s.entries.validate
  let n ← recount c ⟨0, 0, 0, 0, 0, 0, 0⟩ s.entries.iter
  assert (n.numHot = s.numHot)
  assert (n.numCold = s.numCold)
  assert (n.numNonResident = s.numNonResident)
  let hot ← cadd n.weightHot n.weightHotPinned
  assert (hot = s.weightHot)
  let cold ← cadd n.weightCold n.weightColdPinned
  assert (cold = s.weightCold)
  if acceptOverweight then pure () else do
    let w ← cadd n.weightHot n.weightCold
    assert (w ≤ s.weightCapacity)
  assert (n.numNonResident ≤ s.capacityNonResident)

end Shard

/-- `sync::Cache::validate` (`/repo/src/sync.rs:155-160`). `unsync::Cache::validate` (`/repo/src/unsync.rs:376-379`) is
`Shard.validate` itself. -/
def SyncCache.validate {K V RS : Type _} (c : Cfg K V RS) (s : SyncCache K V) : Res Unit :=
  s.shards.forM (fun x => x.validate c false)

end QuickCache
