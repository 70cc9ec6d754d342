import Verif.Spec.Ops
import Verif.Model.Sharded
import Verif.Spec.Twin

/-!
# A dictionary without a capacity

What a user who does not care about capacities takes the cache for: a dictionary. `Dict.answer` is what a call returns,
`Dict.after` the dictionary after it; both are plain functions on a list of pairs.
-/

namespace QuickCache.Spec
variable {K V RS : Type _} [DecidableEq K]

/-- A dictionary: its pairs, in no particular order, each key at most once. -/
abbrev Dict (K V : Type _) := List (K × V)

namespace Dict

/-- Without `k`. -/
def without (d : Dict K V) (k : K) : Dict K V := d.filter (fun p => p.1 ≠ k)

/-- With `v` under `k`. -/
def store (d : Dict K V) (k : K) (v : V) : Dict K V := (k, v) :: without d k

/-- With `f` applied to the value of `k`, if any. -/
def write (d : Dict K V) (k : K) (f : V → V) : Dict K V := d.map (fun p => if p.1 = k then (p.1, f p.2) else p)

/-- The dictionary after a call. -/
def after (d : Dict K V) : Op K V → Dict K V
  | .insert k v => store d k v
  | .replace k v _ => if (d.lookup k).isSome then store d k v else d
  | .remove k => without d k
  | .get _ | .peek _ | .containsKey _ | .reserve => d
  | .getMut k f | .peekMut k f => write d k f
  | .retain f => d.filter (fun p => f p.1 p.2)
  | .clear | .drain => []
  | .getOrInsertWith k load =>
    match d.lookup k, load with
    | none, some v => store d k v
    | _, _ => d
  | .getMutOrInsertWith k load f =>
    match d.lookup k, load with
    | some _, _ => write d k f
    | none, some v => store d k (f v)
    | none, none => d
  | .getRefOrGuard k use =>
    match d.lookup k, use with
    | none, .insert v => store d k v
    | _, _ => d
  | .getMutOrGuard k f use =>
    match d.lookup k, use with
    | some _, _ => write d k f
    | none, .insert v => store d k v
    | none, _ => d

/-- What a call returns. -/
def answer (d : Dict K V) : Op K V → Out K V
  | .insert _ _ | .retain _ | .clear | .reserve => .unit
  | .replace k v _ => .replaced (if (d.lookup k).isSome then none else some (k, v))
  | .remove k => .removed ((d.lookup k).map fun v => (k, v))
  | .get k | .peek k | .getMut k _ | .peekMut k _ => .value (d.lookup k)
  | .containsKey k => .bool (d.lookup k).isSome
  | .drain => .items d
  | .getOrInsertWith k load | .getMutOrInsertWith k load _ =>
    match d.lookup k with
    | some v => .loaded false (some (some v))
    | none => .loaded true (load.map some)
  | .getRefOrGuard k _ | .getMutOrGuard k _ _ => .orGuard (d.lookup k)

/-- The lifecycle calls: none but for a value that is overwritten, which is handed to `on_evict`. -/
def handed (d : Dict K V) : Op K V → List (Event K V)
  | .insert k _ | .replace k _ _ => (d.lookup k).toList.map (.onEvict k)
  | _ => []

/-- The item a call stores, if it stores one. -/
def stored (d : Dict K V) : Op K V → Option (K × V)
  | .insert k v => some (k, v)
  | .replace k v _ => if (d.lookup k).isSome then some (k, v) else none
  | .getOrInsertWith k (some v) | .getMutOrInsertWith k (some v) _ | .getRefOrGuard k (.insert v)
  | .getMutOrGuard k _ (.insert v) => if (d.lookup k).isSome then none else some (k, v)
  | _ => none

/-- The calls `ops` on the dictionary, one after the other. -/
def calls (d : Dict K V) : List (Op K V) → List (Unsync.Call K V)
  | [] => []
  | op :: ops => ⟨op, answer d op, handed d op⟩ :: calls (after d op) ops

/-- The dictionary after the calls `ops`. -/
def afterAll (d : Dict K V) (ops : List (Op K V)) : Dict K V := ops.foldl after d

/-- There is room for what a call stores: the item does not count as too heavy by itself (or is pinned), and all items
together do not exceed the capacity. (Rejected items of `replace` are looked at, too, before they are handed back.) -/
def HasRoom (c : Cfg K V RS) (target cap : Nat) (d : Dict K V) (op : Op K V) : Prop :=
  (∀ p ∈ stored d op, (c.weight p.1 p.2 ≤ target ∨ c.pinned p.1 p.2 = true) ∧ total c.weight (store d p.1 p.2) ≤ cap) ∧
    ∀ k v soft, op = .replace k v soft → c.weight k v ≤ target ∨ c.pinned k v = true

/-- There is room for all that the calls store, each at its time. -/
def Roomy (c : Cfg K V RS) (target cap : Nat) (d : Dict K V) : List (Op K V) → Prop
  | [] => True
  | op :: ops => HasRoom c target cap d op ∧ Roomy c target cap (after d op) ops

/-- The weights stay in the range of `u64` during a call. -/
def InRange (c : Cfg K V RS) (target : Nat) (d : Dict K V) (op : Op K V) : Prop :=
  ∀ w, Adds c target (fun k => d.lookup k) op w → total c.weight d + w < 2 ^ 64

/-- The items whose key belongs to shard `i`. -/
def part (home : K → Nat) (i : Nat) (d : Dict K V) : Dict K V := d.filter (fun p => home p.1 = i)

/-- The shards, each of capacity `cap`, have room for all that the calls store, each at its time, and the weights stay in the
range of `u64`. -/
def RoomyParts (c : Cfg K V RS) (target cap : Nat) (home : K → Nat) (d : Dict K V) : List (Op K V) → Prop
  | [] => True
  | op :: ops =>
    (∀ k, op.key = some k → HasRoom c target cap (part home (home k) d) op ∧ InRange c target (part home (home k) d) op) ∧
      RoomyParts c target cap home (after d op) ops

end Dict
end QuickCache.Spec
