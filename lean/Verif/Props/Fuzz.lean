import Verif.Proofs.FuzzUnsync
import Verif.Proofs.FuzzSync
import Verif.Proofs.FuzzSlab

/-!
# Properties C83, C84, C85: the crate's own fuzz targets never fail
-/

namespace QuickCache.Props
open FuzzUnsync

/-- The fuzz target returns: no assertion of its own fails, no `unwrap` fails, `validate` accepts the cache after every
operation, and no call of the cache panics. For every hash function, every development of the layout of the hash table
and every input with fewer than `2^31 - 2` operations. -/
theorem C83_unsync (hash : UInt16 → UInt64) {lay : Layout} (hl : lay.Fair) (i : Input) (hn : i.ops.length < 2 ^ 31 - 2) :
    run hash lay i = .ok () :=
  run_ok lay hl i hn

/-- The layouts the theorem speaks of: for instance, each call turns the order of the table around and
has every later probe meet all slots. -/
example : Layout.Fair (fun _ s => s.relayout s.map.reverse (fun _ _ => true)) :=
  fun _ s => ⟨_, _, rfl, s.map.reverse_perm, fun _ => rfl⟩

/-- An input that uses all operations. -/
def fuzzInput : Input := ⟨10, 100, 200, 128,
  [.insert 1 31 false, .insert 2 35 false, .insert 3 41 true, .placeholder 4 none, .placeholder 4 (some (47, false)),
   .update 3 90 false, .replace 4 33 false, .insert 5 34 false, .remove 3, .insert 6 99 false, .insert 4 22 true,
   .update 4 22 false]⟩

/-- What is evicted during the run. -/
def fuzzEvictions (i : Input) : Res (List (List (UInt16 × Value))) := do
  let o ← options i
  let rec go : World → List FOp → Res (List (List (UInt16 × Value)))
    | _, [] => .ok []
    | w, op :: ops => do
      let o : Op UInt16 Value := match op with
        | .insert k v p => .insert k (fresh v p)
        | .update k v p => .getMut k (fun _ => fresh v p)
        | .replace k v p => .replace k (fresh v p) false
        | .placeholder k (some (v, p)) => .getRefOrGuard k (.insert (fresh v p))
        | .placeholder k none => .getRefOrGuard k .drop
        | .remove k => .remove k
      let (w, _, e) ← call (fun _ => 0) (fun _ s => s) w o
      let l ← go w ops
      .ok (e :: l)
  go ⟨o.unsync, 0⟩ i.ops

/-- Items are evicted during that run. -/
example : (match fuzzEvictions fuzzInput with
    | .ok l => l.map (·.map (fun p => (p.1, p.2.current)))
    | .error _ => []) = [[], [], [(1, 31)], [], [(4, 47)], [], [], [(5, 34)], [], [(6, 99)], [], []] := by decide +kernel

/-- The assertions have something to say: had the cache evicted an item without weight, a pinned item or the same item
twice, or given back the wrong value, they would have failed. -/
example : checkEvicted 1 none [] [(2, ⟨3, 0, false⟩)] = .error .assertion ∧
    checkEvicted 1 none [] [(2, ⟨3, 3, true⟩)] = .error .assertion ∧
    checkEvicted 1 none [] [(2, ⟨3, 3, false⟩), (4, ⟨1, 1, false⟩), (2, ⟨3, 3, false⟩)] = .error .assertion ∧
    checkEvicted 1 (some ⟨3, 3, false⟩) [] [(1, ⟨2, 2, true⟩), (1, ⟨3, 3, false⟩)] = .error .assertion ∧
    checkEvicted 1 none [] [(1, ⟨2, 0, true⟩), (4, ⟨1, 1, false⟩), (1, ⟨3, 3, false⟩)] = .ok () := by decide

/-! ### C84 -/

/-- The fuzz target for the linked slab returns: no assertion fails and nothing panics. For every list of operations. -/
theorem C84_slab (ops : List FuzzSlab.SOp) : FuzzSlab.run ops = .ok () :=
  FuzzSlab.run_ok ops

/-- The lists and the unlinked items at the end of a run, as keys with tokens. -/
def slabTrees (ops : List FuzzSlab.SOp) : Option (List FuzzSlab.Tree × FuzzSlab.Tree) :=
  match FuzzSlab.outer ops .new [] [[], [], []] with
  | .ok (_, unl, ms) => some (ms, unl)
  | .error _ => none

/-- Items of two lists, one of them unlinked and linked again, one unlinked, and the token of a removed item used again. -/
example : slabTrees [.add 5, .add 9, .add 7, .add 5, .unlink 9, .add 9, .remove 5, .add 8, .link 9, .unlink 7] =
    some ([[(8, 0), (9, 4)], [(5, 3), (9, 1)], []], [(7, 2)]) := by decide +kernel

/-- The assertions have something to say: they reject a slab whose list is in the wrong order, one with a list that is not
closed, and one that has an item too many. -/
example :
    FuzzSlab.checkModel ⟨[⟨some 5, 1, 2⟩, ⟨some 7, 2, 0⟩, ⟨some 9, 0, 1⟩], 3⟩ [(5, 0), (7, 1), (9, 2)] = .ok () ∧
    FuzzSlab.checkModel ⟨[⟨some 5, 2, 1⟩, ⟨some 7, 0, 2⟩, ⟨some 9, 1, 0⟩], 3⟩ [(5, 0), (7, 1), (9, 2)] = .error .assertion ∧
    FuzzSlab.checkModel ⟨[⟨some 5, 1, 2⟩, ⟨some 7, 2, 0⟩, ⟨some 9, 2, 1⟩], 3⟩ [(5, 0), (7, 1), (9, 2)] = .error .assertion ∧
    FuzzSlab.checkUnlinked ⟨[⟨some 5, 1, 1⟩, ⟨some 7, 0, 0⟩], 2⟩ [(5, 0)] = .error .assertion ∧
    FuzzSlab.len ⟨[⟨some 5, 1, 1⟩, ⟨none, 2, 0⟩, ⟨some 7, 0, 0⟩], 1⟩ = 2 := by decide

/-! ### C85 -/

/-- The fuzz target for `sync::Cache` returns: no assertion of its own fails, nothing panics, no call waits for ever, `validate`
accepts the cache at the end, and the guards that are left can be dropped. For every hash function, every development of the
layout of the hash table, every order in which the map drops its guards, and every input with fewer than `2^31 - 2`
operations. -/
theorem C85_sync (hash : UInt16 → UInt64) {lay : Layout} (hl : lay.Fair) {ord : List (UInt16 × Nat) → List (UInt16 × Nat)}
    (ho : ∀ l, (ord l).Perm l) (i : FuzzSync.Input) (hn : i.ops.length < 2 ^ 31 - 2) : FuzzSync.run hash lay ord i = .ok () :=
  FuzzSync.never_fails hl ho hn

/-- An input that uses all operations. -/
def syncInput : FuzzSync.Input := ⟨10, 100, 200, 128,
  [.placeholder 1, .placeholder 1, .insert 2 35 false, .placeholder 2, .remove 1, .placeholder 1, .setPlaceholder 1 31 false,
   .placeholder 3, .placeholder 4, .remove 4, .setPlaceholder 4 22 false, .insert 3 47 true, .placeholder 5,
   .setPlaceholder 5 33 false, .replace 5 51 false, .placeholder 7, .placeholder 8]⟩

/-- The guards in the map and the items in the cache after each operation. -/
def syncTrace (i : FuzzSync.Input) : Res (List (List (UInt16 × Nat) × List (UInt16 × UInt16))) := do
  let o ← FuzzSync.options i
  let c : SyncCache UInt16 Value ← SyncCache.withOptions o
  match c.shards with
  | [shard] => go ⟨Conc.State.new shard, [], 0⟩ i.ops
  | _ => .error .unreachable
where
  go : FuzzSync.World → List FuzzSync.FOp → Res (List (List (UInt16 × Nat) × List (UInt16 × UInt16)))
    | _, [] => .ok []
    | w, op :: ops => do
      let w ← FuzzSync.oneOp (fun _ => 0) (fun _ s => s) w op
      let l ← go w ops
      .ok ((w.held, w.st.shard.iter.map (fun (p : UInt16 × Value) => (p.1, p.2.original))) :: l)

/-- In that run a call times out (the second one), a guard whose placeholder was removed is given up for a new one (the sixth),
another one is refused (the eleventh), an item is evicted (key 1), and guards are left at the end. -/
example : (match syncTrace syncInput with
    | .ok l => l
    | .error _ => []) =
    [([(1, 0)], []), ([(1, 0)], []), ([(1, 0)], [(2, 35)]), ([(1, 0)], [(2, 35)]), ([(1, 0)], [(2, 35)]),
     ([(1, 3)], [(2, 35)]), ([], [(1, 31), (2, 35)]), ([(3, 4)], [(1, 31), (2, 35)]),
     ([(4, 5), (3, 4)], [(1, 31), (2, 35)]), ([(4, 5), (3, 4)], [(1, 31), (2, 35)]), ([(3, 4)], [(1, 31), (2, 35)]),
     ([], [(2, 35), (3, 47)]), ([(5, 6)], [(2, 35), (3, 47)]), ([], [(5, 33), (2, 35), (3, 47)]),
     ([], [(5, 51), (2, 35), (3, 47)]), ([(7, 7)], [(5, 51), (2, 35), (3, 47)]),
     ([(8, 8), (7, 7)], [(5, 51), (2, 35), (3, 47)])] := by decide +kernel

/-- The assertions have something to say: a program that forgets its guard fails when the next call for the key times out. -/
example : (match FuzzSync.oneOp (fun _ => 0) (fun _ s => s) ⟨.new (Shard.new 10 20 10), [], 0⟩ (.placeholder 1) with
    | .ok w => (match FuzzSync.oneOp (fun _ => 0) (fun _ s => s) { w with held := [] } (.placeholder 1) with
      | .ok _ => none
      | .error e => some e)
    | .error _ => none) = some .assertion := by decide +kernel

end QuickCache.Props
