import Verif.Model.Sharded
import Verif.Model.Default

/-!
# Model of the crate's test with many threads

`test_multiple_threads` (`/repo/src/sync.rs:482-528`): pairs of threads, one of which inserts each number of a range as its own
value, again and again, while the other looks these numbers up and asserts that what it finds is the number. The cache is much
too small for all of them.

* The cache is a whole `sync::Cache`; all steps of all threads interleave in all ways.
* The barrier at the beginning is left out: without it there are more interleavings.
* The numbers (8 pairs, 1000 rounds, 1000 items per thread) are parameters.
* Keys and values (`usize`) are natural numbers.
-/

namespace QuickCache.Pairs
open Conc
open Function (update)

/-- The constants of the test (`/repo/src/sync.rs:485-487`). -/
structure Test where
  pairs : Nat
  rounds : Nat
  items : Nat

/-- `Cache::new(N_THREAD_PAIRS * ITEMS_PER_THREAD / 10)` (`/repo/src/sync.rs:490`). -/
def Test.capacity (T : Test) : Nat := T.pairs * T.items / 10

/-- The number of times that a thread goes through the body of its loops. -/
def Test.turns (T : Test) : Nat := T.rounds * T.items

/-- `i` in turn `m` of thread `j`: the threads `0 .. pairs` write, those from `pairs` to `2 * pairs` read
(`/repo/src/sync.rs:491-499`, `505-513`). -/
def Test.key (T : Test) (j m : Nat) : Nat := T.items * (j % T.pairs) + m % T.items

/-- Where a thread is. -/
inductive Pos where
  /-- at the top of its inner loop -/
  | top
  /-- in `cache.get`, on shard `i`, by agent `a` -/
  | asking (i a : Nat)
  deriving DecidableEq, Repr

/-- The state of the test. -/
structure World where
  cache : Cache Nat Nat
  /-- the number of turns that a thread has finished -/
  made : Nat → Nat
  pos : Nat → Pos

/-- The beginning. -/
def World.start (s : SyncCache Nat Nat) : World := ⟨Cache.start s, fun _ => 0, fun _ => .top⟩

/-- The steps of `cache.get` (`/repo/src/sync.rs:250-253`). -/
def gets (a : Nat) : Act Nat Nat → Bool
  | .enter b _ | .find b | .load b _ | .bump b | .tally b => a == b
  | _ => false

/-- What `cache.get` returns with these events, if it returns. -/
def got (evs : List (Ev Nat Nat)) : Option (Option Nat) :=
  evs.findSome? (fun
    | .hit _ _ v => some (some v)
    | .miss _ _ => some none
    | _ => none)

/-- The next turn. -/
def World.turn (w : World) (s : Cache Nat Nat) (j : Nat) : World :=
  { cache := s, made := update w.made j (w.made j + 1), pos := update w.pos j .top }

/-- The steps of the test. -/
inductive Move where
  /-- writer `j` does `cache.insert(i, i)` (`/repo/src/sync.rs:499`) -/
  | write (j : Nat)
  /-- reader `j` calls `cache.get(&i)` (`/repo/src/sync.rs:514`) -/
  | ask (j : Nat)
  /-- a step of that call -/
  | step (j : Nat) (act : Act Nat Nat)

variable {RS : Type}

/-- The rest of a step, after what the cache does. -/
def after (o : Option (Res (Cache Nat Nat × List (Ev Nat Nat)))) (f : Cache Nat Nat → List (Ev Nat Nat) → Res World) :
    Option (Res World) :=
  match o with
  | none => none
  | some (.error p) => some (.error p)
  | some (.ok (s, evs)) => some (f s evs)

/-- One step: `none` if it is not possible now. -/
def step (c : Cfg Nat Nat RS) (T : Test) (w : World) : Move → Option (Res World)
  | .write j =>
    if j < T.pairs ∧ w.made j < T.turns then
      let k := T.key j (w.made j)
      after (w.cache.exec c (w.cache.home c k) (.call (.insert k k))) (fun s _ => .ok (w.turn s j))
    else none
  | .ask j =>
    if T.pairs ≤ j ∧ j < 2 * T.pairs ∧ w.made j < T.turns ∧ w.pos j = .top then
      let k := T.key j (w.made j)
      let i := w.cache.home c k
      match w.cache.shards[i]? with
      | none => some (.error .unwrapNone)
      | some st => after (w.cache.exec c i (.begin .get k)) (fun s _ => .ok { w with cache := s, pos := update w.pos j (.asking i st.next) })
    else none
  | .step j act =>
    match w.pos j with
    | .top => none
    | .asking i a =>
      if gets a act then
        after (w.cache.exec c i act) (fun s evs =>
          match got evs with
          | none => .ok { w with cache := s }
          | some none => .ok (w.turn s j)
          | some (some v) => if v = T.key j (w.made j) then .ok (w.turn s j) else .error .assertion)
      else none

/-- `Run c T s0 n w`: after `n` steps of the test, in some order, it is in state `w`. Meanwhile the hash tables may be arranged
anew at any time. -/
inductive Run (c : Cfg Nat Nat RS) (T : Test) (s0 : SyncCache Nat Nat) : Nat → World → Prop
  | start : Run c T s0 0 (.start s0)
  | layout {n : Nat} {w : World} {i : Nat} {st : State Nat Nat} (m : List (UInt64 × Nat)) (p : UInt64 → UInt64 → Bool)
      (hr : Run c T s0 n w) (hi : w.cache.shards[i]? = some st) (hm : m.Perm st.shard.map) (hp : ∀ x, p x x = true) :
      Run c T s0 n { w with cache := { w.cache with shards := w.cache.shards.set i { st with shard := st.shard.relayout m p } } }
  | move {n : Nat} {w w' : World} {m : Move} (hr : Run c T s0 n w) (hs : step c T w m = some (.ok w')) : Run c T s0 (n + 1) w'

/-- All threads have come to their ends. -/
def World.over (T : Test) (w : World) : Prop := ∀ j, j < 2 * T.pairs → w.made j = T.turns

end QuickCache.Pairs
