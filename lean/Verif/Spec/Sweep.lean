import Verif.Model.Sweep
import Verif.Spec.Sharded

/-!
# Notions for calls that visit all shards (C80) and for the statistics of the concurrent cache (C36)
-/

namespace QuickCache.Spec
variable {K V RS : Type _}
open Unsync Conc Sweep

/-- What happened on the shards. -/
def onShards (h : List (Moment K V)) : List (Nat × Conc.Ev K V) :=
  h.flatMap (fun m => m.evs.filterMap (fun e => match e with
    | .shard i e => some (i, e)
    | _ => none))

/-- The items of shard `i`. -/
def shardItems (i : Nat) (s : Conc.Cache K V) : List (K × V) :=
  match s.shards[i]? with
  | some st => st.shard.iter
  | none => []

/-- The sum over the shards of what `f` sees in shard 0 at the first moment, in shard 1 at the second, and so on. -/
def sumOver (f : Nat → Conc.Cache K V → Nat) (seen : List (Conc.Cache K V)) : Nat := (seen.mapIdx f).sum

/-- A call that stores `k` or writes to it, or in which the lifecycle is asked about `k`: neither a lookup nor a removal. -/
def Stirs (k : K) (x : Call K V) : Prop :=
  (x.op.key = some k ∧ x.op ≠ .get k ∧ x.op ≠ .peek k ∧ x.op ≠ .containsKey k ∧ x.op ≠ .remove k) ∨
    ∃ e ∈ x.log, eventKey e = k

/-- What counts as a hit: a call returns an item it has found, or it joins a load. -/
def countsHit : Conc.Ev K V → Bool
  | .hit _ _ _ => true
  | .sect (.upsert _) (.pending _ false) _ => true
  | _ => false

/-- What counts as a miss: a lookup that found nothing ends (and goes on to load, unless it is a `get`), a load begins. -/
def countsMiss : Conc.Ev K V → Bool
  | .sect (.count false) _ _ => true
  | .began _ _ _ => true
  | _ => false

/-- The items that a call leaves in a shard it visits. -/
def KeptBy : Tour K V → K → V → Prop
  | .retain f, k, v => f k v = true
  | .clear, _, _ => False
  | _, _, _ => True

/-- `Performs c s acts s'`: the actions `acts` lead from `s` to `s'`. -/
inductive Performs [DecidableEq K] (c : Cfg K V RS) (s0 : Sweep.State K V) : List (Sweep.Act K V) → Sweep.State K V → Prop
  | start : Performs c s0 [] s0
  | layout {acts : List (Sweep.Act K V)} {s : Sweep.State K V} {i : Nat} {st : Conc.State K V} (m : List (UInt64 × Nat))
      (p : UInt64 → UInt64 → Bool) (hr : Performs c s0 acts s) (hi : s.cache.shards[i]? = some st) (hm : m.Perm st.shard.map)
      (hp : ∀ x, p x x = true) : Performs c s0 acts { s with
        cache := { s.cache with shards := s.cache.shards.set i { st with shard := st.shard.relayout m p } } }
  | act {acts : List (Sweep.Act K V)} {s s' : Sweep.State K V} {act : Sweep.Act K V} {evs : List (Sweep.Ev K V)}
      (hr : Performs c s0 acts s) (hs : Sweep.exec c s act = some (.ok (s', evs))) : Performs c s0 (acts ++ [act]) s'

/-- A visit of call `a` to a shard. -/
def isVisit (a : Nat) : Sweep.Act K V → Bool
  | .visit b => b == a
  | _ => false

end QuickCache.Spec
