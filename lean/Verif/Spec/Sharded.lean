import Verif.Model.Sharded
import Verif.Spec.Conc

/-!
# Notions for the sharded cache (C41)
-/

namespace QuickCache.Spec
variable {K V RS : Type _}
open Unsync Conc

/-- The items of the whole cache. -/
def items (s : Conc.Cache K V) : List (K × V) := s.shards.flatMap (fun st => st.shard.iter)

/-- What happened on shard `i`. -/
def onShard (i : Nat) (tr : List (Nat × Ev K V)) : List (Ev K V) :=
  tr.filterMap (fun e => if e.1 = i then some e.2 else none)

/-- The calls, each with the shard where it happened. -/
def shardCalls (tr : List (Nat × Ev K V)) : List (Nat × Call K V) :=
  tr.filterMap (fun e => (asCall e.2).map (fun x => (e.1, x)))

/-- The keys a section is about. -/
def sectionKeys : Section K V → List K
  | .call op => op.key.toList
  | .upsert k | .fill k _ _ _ | .abandon k _ | .find k | .load k _ | .bump k _ => [k]
  | .count _ => []

/-- The keys an event is about, including those of lifecycle calls. -/
def evKeys : Ev K V → List K
  | .sect sec _ log => sectionKeys sec ++ log.map eventKey
  | .hit _ k _ | .miss _ k | .received _ k _ _ | .began _ k _ | .gotGuard _ k _ | .insertDone _ k _ _ | .dropped _ k _ => [k]
  | _ => []

section
variable [DecidableEq K]

/-- The map left by a call on shard `i` of a sharded map, where `home k` is the shard of `k`: a call about a key acts on the
whole map; `retain`, `clear` and `reserve` act on the keys of that shard only. -/
def onHome (home : K → Nat) (i : Nat) (op : Op K V) (m m' : K → Option V) : K → Option V :=
  match op.key with
  | some _ => m'
  | none => fun k => if home k = i then m' k else m k

/-- A history of calls on shards is a possible behaviour of one map, to which each call about a key applies as if there were
no shards. -/
inductive ShardReplays (c : Cfg K V RS) (target : Nat) (home : K → Nat) : List (Nat × Call K V) → (K → Option V) → Prop
  | start : ShardReplays c target home [] (fun _ => none)
  | call {h : List (Nat × Call K V)} {m m' : K → Option V} {i : Nat} {x : Call K V} (hr : ShardReplays c target home h m)
      (hi : ∀ k, x.op.key = some k → home k = i) (hx : OpSpec c target m x.op x.out x.log m') :
      ShardReplays c target home (h ++ [(i, x)]) (onHome home i x.op m m')

/-- The map after a history, starting empty. -/
def shardPlay (home : K → Nat) (h : List (Nat × Call K V)) : K → Option V :=
  h.foldl (fun m x => onHome home x.1 x.2.op m (play m x.2)) (fun _ => none)

/-- The value last stored for `k`; `none` if there is none since the last removal. -/
def shardLast (home : K → Nat) (k : K) (h : List (Nat × Call K V)) : Option V :=
  h.foldl (fun cur x => if x.2.op.key = none ∧ home k ≠ x.1 then cur else afterCall k cur x.2) none

end

end QuickCache.Spec
