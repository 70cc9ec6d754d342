import Verif.Model.Sharded

/-!
# Model of the calls of `sync::Cache` that visit all shards (`/repo/src/sync.rs:164-233`, `309-341`)

`is_empty`, `len`, `weight`, `capacity`, `hits`, `misses` lock the shards one after the other for reading, `retain`, `clear` and
`reserve` for writing. They may be interrupted between two shards by anything, including each other. `Model/Sharded.lean` has
the sections of such calls on single shards, in any order; here they are put together to calls.

The loads of `hits` and `misses` (`/repo/src/shard.rs:375-382`) are `Relaxed`. A lookup counts before it releases the shard's lock,
so that a caller that takes the lock later sees the increment; here both are one action (`Conc.tally`), and the loads read
the current value.
-/

namespace QuickCache.Sweep
variable {K V RS : Type _}
open Function (update)

/-- A call that visits all shards. -/
inductive Tour (K V : Type _) where
  | isEmpty
  | len
  | weight
  | capacity
  | hits
  | misses
  | retain (f : K → V → Bool)
  | clear
  | reserve

/-- What the call does in a shard, if it changes it (`/repo/src/sync.rs:232`, `314`, `339`). -/
def Tour.op : Tour K V → Option (Op K V)
  | .retain f => some (.retain f)
  | .clear => some .clear
  | .reserve => some .reserve
  | _ => none

/-- What the call reads in a shard otherwise (`/repo/src/sync.rs:165`, `170`, `175`, `182`, `198`, `204`). -/
def Tour.read : Tour K V → Shard K V → Res Nat
  | .isEmpty, x | .len, x => .ok x.len
  | .weight, x => x.weight
  | .capacity, x => .ok x.capacity
  | .hits, x => .ok x.hits
  | .misses, x => .ok x.misses
  | _, _ => .ok 0

/-- `Iterator::sum` (`/repo/src/sync.rs:170`, `175`, `182`, `198`, `204`). The sum of the lengths, a `usize`, cannot overflow, as every
item occupies memory; 2^64 lookups are not counted. -/
def Tour.add : Tour K V → Nat → Nat → Res Nat
  | .weight, a, b | .capacity, a, b => cadd a b
  | _, a, b => .ok (a + b)

/-- Whether the call looks at no further shard: `is_empty` after one with `n > 0` items (`Iterator::all`,
`/repo/src/sync.rs:165`). -/
def Tour.stops : Tour K V → Nat → Bool
  | .isEmpty, n => n != 0
  | _, _ => false

/-- What the calls return. -/
inductive TOut where
  | num (n : Nat)
  | bool (b : Bool)
  | unit
  deriving DecidableEq, Repr

/-- What the call returns, given the sum of what it has read. -/
def Tour.out : Tour K V → Nat → TOut
  | .isEmpty, n => .bool (n == 0)
  | .retain _, _ | .clear, _ | .reserve, _ => .unit
  | _, n => .num n

/-- A call under way: the next shard it visits, the sum of what it has read. -/
structure Walk (K V : Type _) where
  tour : Tour K V
  next : Nat
  acc : Nat

/-- The cache with its other callers, and the calls under way. Calls are numbered. -/
structure State (K V : Type _) where
  cache : Conc.Cache K V
  walks : Nat → Option (Walk K V)
  count : Nat

/-- A cache just built. -/
def start (s : SyncCache K V) : State K V := ⟨Conc.Cache.start s, fun _ => none, 0⟩

/-- What happens. -/
inductive Ev (K V : Type _) where
  /-- something on shard `i` -/
  | shard (i : Nat) (e : Conc.Ev K V)
  /-- call `a` begins -/
  | called (a : Nat) (t : Tour K V)
  /-- call `a` returns -/
  | returned (a : Nat) (out : TOut)

/-- The actions. -/
inductive Act (K V : Type _) where
  /-- an action of somebody else -/
  | shard (i : Nat) (act : Conc.Act K V)
  | call (t : Tour K V)
  | visit (a : Nat)
  | finish (a : Nat)

/-- The visit of one shard. A call that reads waits while the shard is locked for writing, one that writes while it is locked at
all. -/
def visit [DecidableEq K] (c : Cfg K V RS) (s : State K V) (a : Nat) (w : Walk K V) :
    Option (Res (State K V × List (Ev K V))) :=
  match w.tour.op with
  | some op =>
    match s.cache.exec c w.next (.call op) with
    | none => none
    | some r => some (do
        let (x, evs) ← r
        .ok ({ s with cache := x, walks := update s.walks a (some { w with next := w.next + 1 }) }, evs.map (.shard w.next)))
  | none =>
    match s.cache.shards[w.next]? with
    | none => none
    | some st =>
      if st.writer.isNone then
        some (do
          let n ← w.tour.read st.shard
          let acc ← w.tour.add w.acc n
          let w1 : Walk K V := ⟨w.tour, if w.tour.stops n then s.cache.shards.length else w.next + 1, acc⟩
          .ok ({ s with walks := update s.walks a (some w1) }, []))
      else none

/-- One action. -/
def exec [DecidableEq K] (c : Cfg K V RS) (s : State K V) : Act K V → Option (Res (State K V × List (Ev K V)))
  | .shard i act =>
    match s.cache.exec c i act with
    | none => none
    | some r => some (do
        let (x, evs) ← r
        .ok ({ s with cache := x }, evs.map (.shard i)))
  | .call t => some (.ok ({ s with walks := update s.walks s.count (some ⟨t, 0, 0⟩), count := s.count + 1 }, [.called s.count t]))
  | .visit a =>
    match s.walks a with
    | none => none
    | some w => visit c s a w
  | .finish a =>
    match s.walks a with
    | none => none
    | some w =>
      if s.cache.shards.length ≤ w.next then
        some (.ok ({ s with walks := update s.walks a none }, [.returned a (w.tour.out w.acc)]))
      else none

/-- A moment of an execution: what just happened, and the cache afterwards. -/
structure Moment (K V : Type _) where
  evs : List (Ev K V)
  cache : Conc.Cache K V

/-- `Run c s0 h s`: from `s0` some interleaving of actions leads to `s` through the moments `h` (oldest first). -/
inductive Run [DecidableEq K] (c : Cfg K V RS) (s0 : State K V) : List (Moment K V) → State K V → Prop
  | start : Run c s0 [] s0
  | layout {h : List (Moment K V)} {s : State K V} {i : Nat} {st : Conc.State K V} (m : List (UInt64 × Nat))
      (p : UInt64 → UInt64 → Bool) (hr : Run c s0 h s) (hi : s.cache.shards[i]? = some st) (hm : m.Perm st.shard.map)
      (hp : ∀ x, p x x = true) {x : Conc.Cache K V}
      (hx : x = { s.cache with shards := s.cache.shards.set i { st with shard := st.shard.relayout m p } }) :
      Run c s0 (h ++ [⟨[], x⟩]) { s with cache := x }
  | act {h : List (Moment K V)} {s s' : State K V} {act : Act K V} {evs : List (Ev K V)} (hr : Run c s0 h s)
      (hs : exec c s act = some (.ok (s', evs))) : Run c s0 (h ++ [⟨evs, s'.cache⟩]) s'

end QuickCache.Sweep
