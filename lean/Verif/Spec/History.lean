import Verif.Spec.Ops

/-!
# What a history of calls says about the contents

A history is a list of calls, each with what it returned and the lifecycle calls it made. The functions below compute
from a history alone what a plain map would hold; they know nothing of the cache.
-/

namespace QuickCache.Spec
variable {K V RS : Type _} [DecidableEq K]
open Unsync

/-! ### The value last stored for a key -/

/-- The last value of `k` after the given lifecycle calls: `before_evict` may rewrite it. -/
def rewrites (k : K) (cur : Option V) : List (Event K V) → Option V
  | [] => cur
  | .beforeEvict k' _ v' :: log => rewrites k (if k' = k then some v' else cur) log
  | .onEvict _ _ :: log => rewrites k cur log

/-- The last value stored for `k` after a call that stores `v` under `k'`. -/
def afterStore (k : K) (cur : Option V) (k' : K) (v : V) (log : List (Event K V)) : Option V :=
  rewrites k (if k' = k then some v else cur) log

/-- The last value stored for `k` after a write `f` through a mutable reference to the value of `k'`. -/
def afterWrite (k : K) (cur : Option V) (k' : K) (f : V → V) : Option V := if k' = k then cur.map f else cur

/-- The value last stored for `k` after one more call; `none` if there is none since the last removal. -/
def afterCall (k : K) (cur : Option V) (x : Call K V) : Option V :=
  match x.op, x.out with
  | .insert k' v, _ => afterStore k cur k' v x.log
  | .replace k' v _, .replaced none => afterStore k cur k' v x.log
  | .remove k', _ => if k' = k then none else cur
  | .clear, _ => none
  | .drain, _ => none
  | .retain f, _ => cur.filter (f k)
  | .getMut k' f, .value (some _) => afterWrite k cur k' f
  | .peekMut k' f, .value (some _) => afterWrite k cur k' f
  | .getOrInsertWith k' (some v), .loaded true _ => afterStore k cur k' v x.log
  | .getMutOrInsertWith k' _ f, .loaded false _ => afterWrite k cur k' f
  | .getMutOrInsertWith k' (some v) f, .loaded true (some (some _)) => afterWrite k (afterStore k cur k' v x.log) k' f
  | .getMutOrInsertWith k' (some v) _, .loaded true _ => afterStore k cur k' v x.log
  | .getRefOrGuard k' (.insert v), .orGuard none => afterStore k cur k' v x.log
  | .getMutOrGuard k' f _, .orGuard (some _) => afterWrite k cur k' f
  | .getMutOrGuard k' _ (.insert v), .orGuard none => afterStore k cur k' v x.log
  | _, _ => cur

/-- The value last stored for `k` in a history. -/
def lastStored (k : K) (h : List (Call K V)) : Option V := h.foldl (afterCall k) none

/-- A call that returns an item it found in the cache. -/
inductive Yields : Op K V → Out K V → K → V → Prop
  | get (k : K) (v : V) : Yields (.get k) (.value (some v)) k v
  | peek (k : K) (v : V) : Yields (.peek k) (.value (some v)) k v
  | getMut (k : K) (f : V → V) (v : V) : Yields (.getMut k f) (.value (some v)) k v
  | peekMut (k : K) (f : V → V) (v : V) : Yields (.peekMut k f) (.value (some v)) k v
  | load (k : K) (load : Option V) (v : V) : Yields (.getOrInsertWith k load) (.loaded false (some (some v))) k v
  | loadMut (k : K) (load : Option V) (f : V → V) (v : V) :
      Yields (.getMutOrInsertWith k load f) (.loaded false (some (some v))) k v
  | guard (k : K) (use : GuardUse V) (v : V) : Yields (.getRefOrGuard k use) (.orGuard (some v)) k v
  | guardMut (k : K) (f : V → V) (use : GuardUse V) (v : V) : Yields (.getMutOrGuard k f use) (.orGuard (some v)) k v
  | remove (k k' : K) (v : V) : Yields (.remove k) (.removed (some (k', v))) k' v
  | drain (l : List (K × V)) (k : K) (v : V) (mem : (k, v) ∈ l) : Yields .drain (.items l) k v

/-! ### The map a history leads to -/

/-- The map after lifecycle calls: `before_evict` rewrites the item, `on_evict` takes it away. -/
def replay (m : K → Option V) : List (Event K V) → (K → Option V)
  | [] => m
  | .beforeEvict k _ v' :: log => replay (put m k v') log
  | .onEvict k _ :: log => replay (del m k) log

/-- Whether a lifecycle call hands an item of `k` to `on_evict`. -/
def handsOut (k : K) : Event K V → Bool
  | .onEvict k' _ => k' == k
  | .beforeEvict .. => false

/-- The map after storing `v` under `k`. If there was an old item of `k`, the first `on_evict` of `k` is about that one. -/
def playStore (m : K → Option V) (k : K) (v : V) (log : List (Event K V)) : K → Option V :=
  replay (put m k v) (if (m k).isSome then log.eraseP (handsOut k) else log)

/-- The map after a call, computed from the call, its result and its lifecycle calls. -/
def play (m : K → Option V) (x : Call K V) : K → Option V :=
  match x.op, x.out with
  | .insert k v, _ => playStore m k v x.log
  | .replace k v _, .replaced none => playStore m k v x.log
  | .replace k _ _, _ => del m k
  | .remove k, _ => del m k
  | .clear, _ => fun _ => none
  | .drain, _ => fun _ => none
  | .retain f, _ => fun k => (m k).filter (f k)
  | .getMut k f, _ => alter m k f
  | .peekMut k f, _ => alter m k f
  | .getOrInsertWith k (some v), .loaded true _ => playStore m k v x.log
  | .getMutOrInsertWith k _ f, .loaded false _ => alter m k f
  | .getMutOrInsertWith k (some v) f, .loaded true _ => alter (playStore m k v x.log) k f
  | .getRefOrGuard k (.insert v), .orGuard none => playStore m k v x.log
  | .getMutOrGuard k f _, .orGuard (some _) => alter m k f
  | .getMutOrGuard k _ (.insert v), .orGuard none => playStore m k v x.log
  | _, _ => m

/-- The map after a history, starting empty. -/
def playAll (h : List (Call K V)) : K → Option V := h.foldl play (fun _ => none)

/-! ### Which calls are about a key -/

/-- A call that explicitly stores, writes, removes or filters the item `k`, `v`. -/
inductive Touches (k : K) (v : V) : Call K V → Prop
  | insert (v' : V) (out : Out K V) (log : List (Event K V)) : Touches k v ⟨.insert k v', out, log⟩
  | replace (v' : V) (soft : Bool) (out : Out K V) (log : List (Event K V)) : Touches k v ⟨.replace k v' soft, out, log⟩
  | remove (out : Out K V) (log : List (Event K V)) : Touches k v ⟨.remove k, out, log⟩
  | getMut (f : V → V) (out : Out K V) (log : List (Event K V)) : Touches k v ⟨.getMut k f, out, log⟩
  | peekMut (f : V → V) (out : Out K V) (log : List (Event K V)) : Touches k v ⟨.peekMut k f, out, log⟩
  | loadMut (load : Option V) (f : V → V) (out : Out K V) (log : List (Event K V)) :
      Touches k v ⟨.getMutOrInsertWith k load f, out, log⟩
  | guardMut (f : V → V) (use : GuardUse V) (out : Out K V) (log : List (Event K V)) :
      Touches k v ⟨.getMutOrGuard k f use, out, log⟩
  | retain (f : K → V → Bool) (out : Out K V) (log : List (Event K V)) (drop : f k v = false) :
      Touches k v ⟨.retain f, out, log⟩
  | clear (out : Out K V) (log : List (Event K V)) : Touches k v ⟨.clear, out, log⟩
  | drain (out : Out K V) (log : List (Event K V)) : Touches k v ⟨.drain, out, log⟩

/-- A call that stores a value under `k`, even if `k` was absent. -/
inductive StoresKey (k : K) : Op K V → Prop
  | insert (v : V) : StoresKey k (.insert k v)
  | load (v : V) : StoresKey k (.getOrInsertWith k (some v))
  | loadMut (v : V) (f : V → V) : StoresKey k (.getMutOrInsertWith k (some v) f)
  | guard (v : V) : StoresKey k (.getRefOrGuard k (.insert v))
  | guardMut (f : V → V) (v : V) : StoresKey k (.getMutOrGuard k f (.insert v))

/-- A call does not raise the evictable weight of an item through a mutable reference (that is, it neither makes an
unpinned item heavier nor unpins a heavy one). The value before the write is the one the call reports. -/
def Calm (c : Cfg K V RS) (x : Call K V) : Prop :=
  match x.op, x.out with
  | .getMut k f, .value (some v) => evictable c k (f v) ≤ evictable c k v
  | .peekMut k f, .value (some v) => evictable c k (f v) ≤ evictable c k v
  | .getMutOrInsertWith k _ f, .loaded _ (some (some v)) => evictable c k (f v) ≤ evictable c k v
  | .getMutOrGuard k f _, .orGuard (some v) => evictable c k (f v) ≤ evictable c k v
  | _, _ => True

/-! ### What the cache may still remember -/

/-- The calls made since the last `clear` or `drain`. -/
def sinceClear (h : List (Call K V)) : List (Call K V) :=
  h.foldl (fun l x => match x.op with
    | .clear => []
    | .drain => []
    | _ => l ++ [x]) []

/-- A call that found `k` absent and left its load unfinished: a loader that failed, or a guard that was leaked. -/
inductive Unfinished (k : K) : Call K V → Prop
  | load (log : List (Event K V)) : Unfinished k ⟨.getOrInsertWith k none, .loaded true none, log⟩
  | loadMut (f : V → V) (log : List (Event K V)) : Unfinished k ⟨.getMutOrInsertWith k none f, .loaded true none, log⟩
  | guard (log : List (Event K V)) : Unfinished k ⟨.getRefOrGuard k .forget, .orGuard none, log⟩
  | guardMut (f : V → V) (log : List (Event K V)) : Unfinished k ⟨.getMutOrGuard k f .forget, .orGuard none, log⟩

/-- A call that prepared a load of an absent key and gave it up: a loader that failed, a guard that was dropped or
leaked. -/
def givesUp (x : Call K V) : Bool :=
  match x.op, x.out with
  | .getOrInsertWith _ none, .loaded true _ => true
  | .getMutOrInsertWith _ none _, .loaded true _ => true
  | .getRefOrGuard _ .drop, .orGuard none => true
  | .getRefOrGuard _ .forget, .orGuard none => true
  | .getMutOrGuard _ _ .drop, .orGuard none => true
  | .getMutOrGuard _ _ .forget, .orGuard none => true
  | _, _ => false

/-! ### Items as a bag -/

/-- `Process bag log bag'`: starting from the items `bag` (in any order, with repetitions), the lifecycle calls `log`
rewrite and take items one by one and leave `bag'`. Each call is about an item that is really there. -/
inductive Process : List (K × V) → List (Event K V) → List (K × V) → Prop
  | done {bag bag' : List (K × V)} (same : bag.Perm bag') : Process bag [] bag'
  | rewrite {bag rest bag' : List (K × V)} {k : K} {v v' : V} {log : List (Event K V)}
      (here : bag.Perm ((k, v) :: rest)) (after : Process ((k, v') :: rest) log bag') :
      Process bag (.beforeEvict k v v' :: log) bag'
  | take {bag rest bag' : List (K × V)} {k : K} {v : V} {log : List (Event K V)}
      (here : bag.Perm ((k, v) :: rest)) (after : Process rest log bag') : Process bag (.onEvict k v :: log) bag'

/-- `Thins w limit bag log bag'`: starting from the items `bag`, victims are chosen one after the other and `bag'` is left.
Whenever a victim is chosen, the items of the moment weigh more than `limit` together. The victim is passed to
`before_evict`; if it has no weight then it stays, otherwise it is handed to `on_evict` at once. -/
inductive Thins (w : K → V → Nat) (limit : Nat) : List (K × V) → List (Event K V) → List (K × V) → Prop
  | done {bag bag' : List (K × V)} (same : bag.Perm bag') : Thins w limit bag [] bag'
  | spare {bag rest bag' : List (K × V)} {k : K} {v v' : V} {log : List (Event K V)} (here : bag.Perm ((k, v) :: rest))
      (over : limit < total w bag) (light : w k v' = 0) (after : Thins w limit ((k, v') :: rest) log bag') :
      Thins w limit bag (.beforeEvict k v v' :: log) bag'
  | evict {bag rest bag' : List (K × V)} {k : K} {v v' : V} {log : List (Event K V)} (here : bag.Perm ((k, v) :: rest))
      (over : limit < total w bag) (still : w k v' ≠ 0) (after : Thins w limit rest log bag') :
      Thins w limit bag (.beforeEvict k v v' :: .onEvict k v' :: log) bag'

end QuickCache.Spec
