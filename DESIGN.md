# Formal model of quick-cache in Lean 4 — design

Target: `arthurprs/quick-cache` 0.6.13, source in `/repo` (read as text, never executed here).

Contents: 1 approach, 2 plan per property, 3 trusted base, 4 what is modelled and what is not, 5 findings about the code,
6 how the theorems were tested.

## 1. Approach

The model is executable and written function by function; every definition cites file and lines in `/repo`.

### Model (`Verif/Model`)

* `Res.lean` — the error monad. Every `unwrap`, `unreachable!`, `unreachable_unchecked`, `debug_assert!`, checked
  index, unsigned subtraction (underflow), u64 weight addition (overflow) and the slab's "Capacity overflow" is an
  explicit `Panic` value. Loops take fuel; running out is the distinct error `outOfFuel`, and the no-panic theorem
  shows that it never occurs (this is the termination proof).
* `Slab.lean` — `linked_slab.rs`: vector of `{item,next,prev}`, free list, circular lists.
* `Shard.lean` — `shard.rs`: hash index, slab, three rings, counters, eviction, placeholders.
* `Unsync.lean` — `unsync.rs`: the public API as `step : State → Op → Res (State × Out × …)`, and histories (`Run`).
* `Options.lean` — `options.rs`, shard sizing and routing of `sync.rs`, f64 rounding of `CacheShard::new`.
* `Sync.lean` — `sync.rs`: the critical sections of a shard, the sharded cache, its construction and its sums.
* `Conc.lean` — `sync_placeholder.rs` and `get`/`get_value_or_guard`/`get_value_or_guard_async` of `sync.rs`: a
  transition system with arbitrarily many callers (threads and futures) around one real shard. One action is one
  critical section of a placeholder's lock, one atomic access under the shard's read lock, or one lock operation.
* `Sharded.lean` — any number of such shards, with routing.
* `Sweep.lean` — the calls that visit all shards, one after the other, on top of `Sharded.lean`.
* `Nest.lean` — who makes the calls: threads and futures ("strands") that are in at most one call at a time but may call the cache
  while they have guards. `Conc.lean` and `Sharded.lean` let a holder of a guard use it at any moment (C52); here it cannot while it is
  in another call. Guards are not passed from one strand to another.
* `Locks.lean` — for every call of the sync cache and every path through it, the sequence of lock operations and of calls of
  user code; threads performing them.
* `Validate.lean` — `validate` of all four types.
* `Fetch.lean` — `get_or_insert_with` and `get_or_insert_async` as programs on top of `Conc.lean`, with arbitrary loaders.
* `Default.lean` — `Cache::new` of both caches with everything it plugs in: `UnitWeighter`, both `DefaultLifecycle`s, the
  default options.
* `Release.lean` — the functions of the shard, the slab and `unsync.rs` as a build without debug assertions and overflow
  checks runs them, with undefined behaviour as a separate error.
* `Request.lean` — every storing function of both caches with its calls of `begin_request` and `end_request`, and the
  `…_with_lifecycle` variants.
* `Clone.lean` — the derived `Clone` of the shard and of everything in it, for arbitrary `Clone`s of keys and values.
* `Unwind.lean` — the functions of the shard and of `unsync.rs` once more, with every call of user code and what is left of
  the shard if that call panics, including what the destructors of guards and `RefMut`s do during unwinding.
* `ConcUnwind.lean` — the calls of user code in every action of `Conc.lean`, each with the state left if it panics: locks
  released, guard or future dropped.
* `Rogue.lean` — the release build of the shard, of `unsync.rs` and of the critical sections of `sync.rs` once more, for user
  code that may answer anything, differently each time, and panic at any call; uses of a `RefMut` with panics and leaks; the
  `MaybeUninit` cell of `search_resident`.
* `Fine.lean` — notification and parking taken apart: locking a placeholder's state, setting each flag, each `unpark` and
  `wake`, unlocking; the tokens of threads, `park` with spurious returns and stray tokens, the loops around it; callers that
  notice their flag while the notifier still holds the state lock, or fail to see it.
* `Poison.lean` — the locks of `std` on top of `Conc.lean` and `ConcUnwind.lean`: which locks an action takes, which are
  poisoned by a panic, what is left when a poisoned lock is taken, second panics during unwinding.
* `FuzzUnsync.lean`, `FuzzSlab.lean`, `FuzzSync.lean` — the crate's own fuzz targets as programs on top of `Unsync.lean`, `Slab.lean` and `Conc.lean`, with
  their assertions.
* `Herd.lean` — the crate's own concurrent tests (`test_get_or_insert`, `test_value_or_guard`, their async versions,
  `test_guard_works`) as programs on top of `Conc.lean`, with their assertions.
* `UnitTests.lean` — the crate's unit tests of the single-threaded cache as programs on top of `Unsync.lean`.
* `Solo.lean` — the concurrent cache used by one caller at a time: every call is driven through the actions of `Conc.lean` until
  it returns; an action that is not possible means that the program hangs.
* `SoloSharded.lean` — the same for a cache of several shards: a call about a key happens on its shard, `retain`, `clear` and
  `reserve` on one shard after the other.
* `SyncTests.lean` — the crate's unit tests of `sync::Cache` that make one call at a time.
* `Pairs.lean` — the crate's test of `sync::Cache` with pairs of writing and reading threads.
* `Listener.lean` — the lifecycles that do no more than listen to evictions, as that of `examples/eviction_listener.rs`. The program itself is the run in C97_example; its channel and the printing thread are not modelled.
* `Park.lean` — the timed wait of `PlaceholderGuard::join` over an arbitrary clock.

### Specifications (`Verif/Spec`)

Small, and understandable without the model's internals.

* `Cache.lean`, `Ops.lean`, `History.lean` — a plain map, what each call does to it, the eviction relation over (map,
  request state, log of lifecycle calls), the value last stored for a key in a history.
* `SlabLists.lean` — finite sets of circular lists of tokens.
* `Clock.lean` — the abstract clock machine: two circular lists of keys, each with a hand, reference counters, a bounded
  queue of ghost hashes. No slots, no hash index, no weight counters. Nondeterministic only in which of two ghosts with
  equal hash is consumed.
* `Twin.lean` — when two histories look alike from outside. `Flood.lean` — series of calls that bring in new keys.
* `Order.lean` — calls that do not use a key; what a scan evicts and what it leaves.
* `Unwind.lean`, `ConcUnwind.lean` — what an interrupted call or action may have done; histories with interruptions.
* `Rogue.lean` — well-behaved user code as a special case of arbitrary user code.
* `Vary.lean` — histories, sequential and concurrent, in which every call finds a different lifecycle.
* `Fine.lean` — blocked threads, what is due and what disturbs in the fine-grained model.
* `Poison.lean` — a poisoned shard, an agent about to panic a second time, the places that lead there.
* `Nest.lean` — which strand waits for which, deadlocks and circles, orders in which keys are asked for.
* `Sweep.lean` — the items of a shard, sums over shards seen at different moments, what counts as a hit or a miss.
* `Conc.lean`, `Sharded.lean`, `Locks.lean` — predicates over traces of the concurrent system, and a rank of locks.

### Proofs (`Verif/Proofs`)

The central invariant `Inv` of a shard says: there are lists for the hot, cold and ghost ring and for the free list such
that the `next`/`prev` pointers realise exactly those circular lists, every other occupied slot is self-linked, a slot
is on a ring iff its entry says so (state and non-zero weight), the hash index and the slab correspond, keys are unique
in the index, and every counter equals the quantity it counts. `Inv new`, and every operation started in an `Inv` state
returns `ok` with `Inv` afterwards (or one of the two documented panics under exactly its condition).

The central refinement: for each operation the contents (what `iter()` yields, as a map) before and after are related by
a plain-map specification that consumes the log of lifecycle calls. A second refinement relates every change of a slot to
a change of the clock machine (`Clock*.lean`).

The concurrent invariant (`ConcInv.lean`, `Protocol.lean`) relates the control points of all callers, the lock, the
placeholders' states, lists of waiters and notification flags to the shard.

### Properties (`Verif/Props`)

One theorem or a few per property, with a concrete `example` beside each that meets its hypotheses
(`Example.lean`, `ConcExample.lean` hold the caches used for that). `properties.jsonl` has the English statements,
`MANIFEST.json` the theorems.

## 2. Plan per property

| id | modelled by | proof |
|----|-------------|-------|
| C01 | Unsync histories, log of lifecycle calls | invariant over histories: contents ⊆ last stored value |
| C02 | same | refinement with equality, per op and per history |
| C03, C29 | `weight_hot/cold`, eviction loops | loop exit condition + invariant over histories |
| C04, C05, C10, C11, C22, C33, C37 | shard | corollaries of `Inv` on reachable states |
| C06, C07 | `Panic` monad, fuel; `Overflow` | total-correctness lemma per function; C06_exact, C06_overwrite, C06_replace, C06_rejected, C49_exact, C49_overwrite, C41_exact, C41_overwrite: an insertion panics exactly if its weight and that of the other items reach 2^64, even if eviction would have made room |
| C08, C09, C20, C21, C34 | eviction relation, log | structure of the eviction relation |
| C12–C19, C26–C28, C31, C32, C35, C36 | shard + unsync ops | per-op specification lemmas |
| C15 | unsync | FALSE of the code: negation with a witness, and a `_partial` theorem (section 5) |
| C23 | unsync/shard | FALSE of the code: negation with a witness, and a `_partial` bound (section 5) |
| C24, C25 | slab | refinement of slab histories to lists |
| C30 | hash + predicate interface of the lookups | congruence |
| C38–C40, C42, C43 | `Options` | arithmetic |
| C41 | `Sharded`, `Panics`, `Overflow` | per-shard lifting of all unsync and concurrent results; C41_which, C41_never, C41_exact: which action panics and when |
| C44–C52, C54, C55 | `Conc` transition system; `Panics` | inductive invariant over all interleavings; measure for C52; C49_panics: which action panics and when |
| C53 | lock-acquisition programs of every API call | rank argument |
| C56 | park loop over an arbitrary clock | induction over the loop |
| C57 | clock machine | refinement, per call and per history |
| C60 | clock machine, `Conc` | refinement, per critical section and per trace |
| C61 | `Validate`, `Sharded` | the shard invariant implies every assertion |
| C62 | `Fetch` | invariant relating each call's place in its program, its agent and its trace; projection to `Conc` |
| C63 | `Default` | instantiation of C04, C05, C16, C21, C41; bounds on the rounding of the hot share |
| C64 | `Thin` | the lists of the clock machine hold the items with weight (invariant); induction over its steps |
| C65 | `Release` | each function of the debug model agrees with its release version up to debug-only panics (compositional); C06 excludes those; monotonicity in the fuel |
| C67 | `Request` | equation between the functions with and without brackets; C10–C13 for what lies between |
| C68 | `Locks` | the calls of user code are acts of the lock model; the same induction as C53 |
| C66 | `Release` | compositional, from nothing but what the function itself checked or wrote before |
| C69 | `Conc`, `Crowd` | invariant: counter plus readers about to increment it stay within the bound |
| C70 | `Clone` | the clone has the same invariant, so all results about reachable states apply to it |
| C71 | `Unwind` | compositional: the states at the calls of user code are intermediate states of the invariant proofs; witnesses for the unsafe places |
| C72 | `Flood` | invariant of the clock machine: while cold items are unread and the hot ones fit, only cold items are victims |
| C73 | `ConcUnwind` | the invariant of the protocol survives every safe interruption; witnesses for the unsafe ones |
| C74 | `Rogue`, `RogueAgree` | no unchecked access is separated from its check by user code: safe in every state, by composition; agreement with the release model for honest user code; the endless loop by induction on the iterations granted |
| C75 | `Vary` | the invariants do not mention the lifecycle, so they carry over from one configuration to the next; each call then satisfies its specification with its own lifecycle |
| C76 | `Fine`, `FineFacts`, `FineWork` | refinement: the coarse state lags behind while a notifier holds the state lock and catches up when it unlocks; invariant relating flags, tokens and the rest of the notifier's work; a weight per caller that every action but disturbances decreases |
| C77 | `Work` | amortised analysis over the recorded calls of user code: the potential of an item is its counter plus one (nothing if it is weightless), every item looked at lowers the sum by one, every call raises it by at most its credit |
| C78 | `Poison`, `PoisonRun` | an invariant of positions, lock and waiter lists that needs no intact shard and survives every panic; a doomed agent stays doomed, a poisoned shard stays idle; as long as neither exists, the run is one of C73 |
| C79 | `Fine`, `ConcEff` | the model lets these reads return earlier values; the invariant of C76 also covers a thread that is awake and not bound to see its flag, and says that a flag that is set was followed by `unpark` or will be |
| C36 (concurrent), C80 | `Sweep` | counting hits and misses per action; invariant: what a call under way has read is the sum over moments since it began, what it has written is in the history; C41 for the rest |
| C81 | `Nest` | invariant: a strand is in one call at most; if nobody can go on every entitled caller (C48) has a guard, whose strand waits; persistence of a wait whose guard cannot be used; ranks along a circle |
| C82 | `ClockOrder`, `ClockScan` | how a call changes the cold list of the clock machine: some prefix is taken off or moved to the end, elements vanish, new ones come at the end; invariant of a scan: the hot ones are the first, the cold list is the window of the latest |
| C83 | `FuzzUnsync` | invariant of the loop: a history of the cache (so C02, C08, C09, C14, C21 apply), every value was made by the program, weights bounded by the capacity and the number of operations |
| C84 | `FuzzSlab` | invariant of the loop: the lists of the slab (C25) are the keys' tokens in the order of the keys; a link before the next greater key keeps them sorted |
| C85 | `FuzzSync` | invariant of the loop: a run of the concurrent cache (C46, C49) in which every caller is finished or has a guard that is in the program's map, so that the lock is free and the caller responsible for a load that times out is one of those |
| C86 | `Herd` | before the one who provides the value: nothing is stored or published, and there are at most as many callers past their guard as were counted; afterwards: it has its guard, is storing, or the value is there, and loads are never superseded (C47) so that no other guard exists; measure: remaining actions of the calls plus a cost per caller |
| C87 | `Herd` | invariant: the good value is there, or some caller is not done and will not be done by what it has seen so far (it is not about to return the good value, unless a guard holder is still storing it) |
| C88 | `Unsync` | the dictionary (`Spec/Dict.lean`) is simulated: a store that fits evicts nothing (C17), so that what the calls do to the items (C01, C08) is what they do to the dictionary |
| C89 | `UnitTests` | a test that passes on a dictionary with room passes on the cache (C88); `test_zero_weights`, which evicts, is evaluated once for one hash function and one layout and carried over to all others with C58 |
| C90 | `Conc`, `Sharded` | as C88, for the critical sections in the order in which they happen: the end of a load is an insertion, the lookup of a caller that returns is a `get` |
| C91 | `Solo` | one call at a time through the protocol of `Conc`: each agent is driven to its end, the sections it performs are one step of the machine of C57, and that machine is deterministic (C58) |
| C92 | `SoloSharded` | each shard holds the part of the dictionary whose keys hash to it, by C91's one step per call and C88's dictionary step |
| C93 | `SyncTests` | the tests as programs on `SoloSharded`; they run on the dictionary (computed), which fits into one shard whatever the number of shards (C38), so C92's step applies |
| C94 | `Provenance` | induction over the histories of C02, C41: each call's specification (`OpSpec`) keeps the relation; received values by C47 |
| C95 | `Pairs` | invariant: the readers are within `get`, nobody else is; all calls so far are lookups or insertions of a number as its own value (C94), so what is found is the number; slots are bounded by the number of insertions (C41's panics are excluded); a sum of turns and stages grows with each step |
| C96 | `Balance` | each call's specification (`OpSpec`) balances what enters, leaves and is stored, counted per item; induction over the histories of C02 and C41 |
| C97 | `Listener` | a shard on which nothing but `insert` happens is a cache with one caller; then the scan of C82, and C96 for the whole |
| C98 | `Longevity`, `Leak`, `Panics`, `Cleared` | each critical section takes at most one slot, and only those of `insert`, `replace` and a reservation take any; then C41_panics; C98_exact by a run of dropped guards |
| C99 | `SharedMemory`, `Leak`, `Cleared` | each critical section changes the number of placeholders by no more than the reservation it makes or uses; C99_untidy: dropped guards leak slots in the shared cache as well; C99_cleared, C98_cleared: only what was done since the last `clear` of the shard counts |
| C58, C59 | twin histories | simulation through the clock machine |

## 3. Trusted base

* The Lean 4.33 kernel. Every theorem listed in `MANIFEST.json` depends on at most the axioms `propext`,
  `Classical.choice` and `Quot.sound` (checked with `#print axioms`). There are no axioms of our own, no `sorry`, no
  `native_decide`, no `bv_decide`. The examples use `decide`, partly with `+kernel` (evaluation by the kernel itself).
* Faithfulness of the model to the Rust source, by reading; citations at every definition.
* The behaviour of dependencies and of user code assumed in section 4.
* Universe levels: keys, values and request states are types in `Type` (no Rust type needs more).

## 4. What is modelled and what is not

| file | modelled | not modelled |
|------|----------|--------------|
| `linked_slab.rs` | all functions | reserved capacity |
| `shard.rs` | all functions | |
| `unsync.rs` | all calls that change the cache or return items, `len`, `weight`, `capacity`, `hits`, `misses`; `test_zero_weights` | `Debug`, leaking a `RefMut` (except for C66 and C74) |
| `options.rs` | all | `available_parallelism` is a parameter |
| `sync.rs` | all calls except the following; `test_multiple_threads` (`482-528`) | `Debug` |
| `sync_placeholder.rs` | all | the `shuttle`/`fuzzing` configurations |
| `rw_lock.rs`, `shim.rs` | as an abstract read-write lock | the wrappers themselves |
| `lib.rs` | the traits `Weighter`, `Lifecycle` (with `begin_request`, `end_request`) as parameters; `UnitWeighter`; `DefaultLifecycle` of both caches; the concurrent tests of one key (`282-311`, `446-576`); the tests of `unsync::Cache` (`221-240`, `266-272`, `313-331`, `374-405`); those of `sync::Cache` with one caller (`198-219`, `274-280`, `333-371`, `407-443`) | |
| `shuttle_tests.rs` | `test_guard_works_stub_async` (`45-143`) | the scheduler and its random numbers (arbitrary here) |
| `fuzz/fuzz_targets` | `fuzz_unsync_cache.rs`, `fuzz_linked_slab.rs`, `fuzz_sync_cache.rs` | `Arbitrary` (inputs are arbitrary values of the input types) |

Abstractions:

* `Token` (`NonZeroU32`) is its zero-based slot index; `Vec` is a list; `usize` counters are unbounded naturals
  (they are bounded by the number of slots, which is < 2^32).
* Weights are naturals with explicit 2^64 overflow checks on every addition. The code without overflow checks (release
  builds, `Release.lean`) wraps instead; the theorems speak about runs without overflow, C06 says exactly when there is
  one, and C65 that otherwise the builds do the same.
* `hashbrown::HashTable` is a list of (hash, token) pairs. `find`/`iter_hash` visit every entry with the given hash
  and possibly others (an arbitrary reflexive `probe` relation models 7-bit tag collisions). Bucket order is
  arbitrary: the list may be permuted at any point between calls.
* User code (`Hash`, `Eq`, `Weighter`, `Lifecycle`, closures) consists of pure total functions: it does not
  panic (except in C71, C73, C74 and C78), does not re-enter the cache, and depends only on its arguments and, for `before_evict` and
  `on_evict`, on the request state, which it may change. `is_pinned` is a function of key and value,
  fixed for the whole history; in C75 it and the rest of the lifecycle are fixed only for the duration of a call. The loaders of
  `sync::Cache` are an exception: they may panic, fail, never return, and use the cache. `Eq` is equality and `Hash` is a
  function of the key. C74 drops these assumptions and keeps only that user code does not re-enter the cache (which the
  borrow checker or, for `sync::Cache`, the lock prevents).
* `Clone` of values/keys is the identity, except in C70. Drop effects of user values are not modelled.
* Memory safety is represented by reachability of the `unreachable_unchecked` branches and the preconditions of
  `get_unchecked` and `unwrap_unchecked` (C66, C74). The two lifetime extensions through raw pointers (`shard.rs:1026-1031`,
  `unsync.rs:300-304`) are judged by reading; the `MaybeUninit` of `search_resident` (`shard.rs:458-473`) is modelled for
  C74.
* Concurrency: interleaving of the actions. All memory is accessed under locks, and therefore seen as the last holder left it,
  except the notification flags of threads and the counters of items: reads of those may return earlier values (C79), where
  for the flags we rely on what the documentation of `thread::park` promises (a `park` that takes the token synchronizes
  with all prior calls of `unpark`). The statistics (`hits`, `misses`) are incremented under the shard's
  lock and read under it; for C36 and C80 we assume that a reader who takes the lock after another reader has released it sees
  the increments of the latter, as is the case for the locks of `parking_lot` and `std`. The shard lock is explicit; the critical sections of
  a placeholder's lock and of a `TaskWaiter`'s lock are single actions (`Locks.lean` looks at these locks separately;
  `Fine.lean` takes those that notify somebody apart and C76 justifies the single actions). The
  reference counters are accessed under the read lock by separate actions. A load of a counter may read anything; a `fetch_add`
  increments the current value, as atomics do.
* Wakers are numbers; waking one is an event. Parking and unparking is not represented in `Conc.lean` beyond the
  notification flag; `Fine.lean` has it, and C76 shows that a thread whose flag is set does not stay parked. There, a thread
  may lose its token only where the code takes a lock (a lock may park the thread), not in the loops around `park`.
* Locks are those of `parking_lot`, which are not poisoned, except in C78, which is about those of `std`
  (`rw_lock.rs:81-120`). There the abort of the process is an outcome that ends the run.
* In `Unwind.lean` destructors of keys and values do not panic, and hashing panics only while the hash table grows, not while
  hashbrown rehashes it in place.
* The first poll of `get_value_or_guard_async` performs the `get` and the first poll of the `JoinFuture` inside one poll;
  in the model other agents may act in between, as in the code.
* A thread that is in a call on one shard may, in the model, also be in a call on another shard (this only adds
  executions).

## 5. Findings about the code

Found while modelling; each is backed by a theorem or visible in the cited code.

False of the code, proved so:

* **C15**: `insert(k, v)` of a fitting item may evict that very item at once. If a ghost with the hash of `k` is
  remembered, the item enters the hot list unreferenced, just before the hand of the list, and making room may take it
  (`shard.rs:803-834`). `C15_false` has a witness; `C15_partial` states when the item stays.
* **C23**: `remove_placeholder` (`shard.rs:176-186`) removes the index entry of an abandoned placeholder but never frees
  its slab slot. Every dropped guard leaks a slot until `clear`/`drain`; after about 2^32 of them `insert` panics with
  "Capacity overflow" (`C23_false`, `C23_false_panic`). `C23_partial` bounds the slots by what is stored plus the
  abandoned guards. The same for the shared cache: `C99_leak`, `C98_exact`, `C99_memory`.

Surprising, and reflected in the statements of the properties:

* When `replace` fails, `?` returns before `end_request` (`unsync.rs:203`, `sync.rs:282`); so does a guard of the
  concurrent cache whose `insert` fails. The request state is dropped, although a `replace` rejected for its weight has
  passed the old item to `on_evict`: a lifecycle that does its work in `end_request` misses that item (`C67_lost`).
* `replace` with an overweight value returns `Err` with the value possibly rewritten by `before_evict`, and the old item
  has been evicted (C13).
* `insert` of an overweight item for a key with a pending load leaves the pending load in place.
* A value that `before_evict` rewrites to a pinned one is evicted all the same.
* `Cache::new(1)` has hot target 0, so no item of weight one is ever admitted; it stays empty for ever, like
  `Cache::new(0)` (`C63_nothing`).
* A call may evict more than needed to make room. A returning ghost or a load may leave the hot list above its target; when
  later a referenced cold item is promoted, the hot list is cut down to its target whatever the capacity (`C64_false`). The
  items never fall below the target, though (`C64_count`).
* `sync::DefaultLifecycle` keeps only the last evicted item for dropping outside the lock; the others of the same call are
  dropped while the lock is held (`C63_stash`).
* Above 2^53 rounding can make the hot target larger than the capacity (C43 has the bound).
* Within `num_shards` of `u64::MAX` the saturating addition makes the total capacity fall short of the request (C39).
* More than 2^63 shards overflow `next_power_of_two`.
* `get_value_or_guard` on a miss counts two misses (one in `get`, one in `upsert_placeholder`); finding someone else's
  placeholder counts a hit (C36).
* After `remove`, `clear` or `insert` of a key with a pending load a second load for the key may begin while the first
  goes on (C45 has the exception; C51 says what the first guard's `insert` returns).
* `is_empty()` and `len()` of the concurrent cache are no snapshots: `is_empty()` may return true though the cache is never
  empty, `len()` a number of items the cache never has (examples in `Props/Sweep.lean`; C80 says what holds).
* A loader (the closure of `get_or_insert_with`, the future of `get_or_insert_async`) that asks the cache for its own key blocks for ever,
  and so do loaders that ask for each other's keys (C81; examples in `Props/Nest.lean`). The documentation does not mention it.
* The timed wait parks for the time elapsed so far rather than for the time remaining (`sync_placeholder.rs:240`): it
  may overshoot by almost the timeout (C56).
* `Waiter::notify` calls `wake_by_ref` with the waiter and the placeholder's state locked, and in `drop_uninserted_slow` with
  the shard's write lock held as well (C68). A waker that polls or drops the future at once, or calls the cache, blocks for
  ever (`C68_stuck`).
* The handover of an abandoned guard goes to the waiter that came last.
* `mem::forget` of a `RefMut` after a change of weight breaks the accounting (documented in the code).
* `advance_hot` gives up only if it has not seen an unpinned item since it started (`shard.rs:679`, `693`). If the pins change
  while it runs, so that an item seen unpinned and spared for its reads is pinned when the hand comes back, as are all others,
  it never returns; in the concurrent cache the shard stays locked meanwhile (`C74_spin`). Pins that hang on a reference count
  or an atomic flag can do that, since clones of values are handed out to other threads. Undefined behaviour is impossible
  whatever user code answers (`C74_calls`).
* Pinned items make eviction expensive: each insert may go through all of them again, so that the work per call grows with
  their number (`C77_pinned_false`), while without them three items per call are looked at on average at most
  (`C77_average`).
* C71 tells for every call of user code whether a panic there, if caught, leaves an intact cache. Of 39 kinds of places 16 do not
  (`C71_unsafe`). A panic of `on_evict` while an item inserted through a guard is itself evicted from the hot list even
  aborts the process: dropping the guard panics again (`C71_abort`). After an interrupted eviction the weight may exceed the
  capacity until the next insertion. A panic of the loader of `unsync::Cache::get_or_insert_with` leaves the placeholder
  behind, there is no guard (`unsync.rs:255`).
* C73 does the same for the waiting protocol. Two places break it. A waker that panics when called by `guard.insert` ends the
  `Drain` of the waiters (`sync_placeholder.rs:306-308`): the rest is dropped without notification, and dropping the guard then
  sets the state to `Terminated`. A waiter with a timeout panics in `remove_waiter` when it runs out, one without waits for
  ever, the future that was woken panics on `unreachable!` (`C73_stranded`). A `clone` that panics for a waiting future leaves
  it `Pending` with its notification consumed, and dropping it panics on `unwrap` (`C73_unsafe`). As the future is a local
  variable of `get_value_or_guard_async` (`sync.rs:407`), the unwinding drops it and the process is aborted. Also, a panic of `begin_request` in `guard.insert` leaves a placeholder with a value that nobody stores
  (`C73_zombie`).
* C78 is the same without the feature `parking_lot`. The locks of `std` are unwrapped (`rw_lock.rs:81-120`), so a panic of user
  code under the write lock of a shard makes the shard unusable for good; a thread that waits there for a load whose guard is
  dropped afterwards waits for ever, because dropping the guard panics before it notifies anybody (`C78_hangs`). The process is
  aborted, not only the call, when `clone` panics for the value given to `guard.insert` or for a waiting future, when a waker
  panics that `guard.insert` calls or that a waiting future renews (`C78_panic`, `C78_abort`), and when a guard of a poisoned
  shard is dropped by a panic of its loader (`C78_drop`).
* A panic in user code can leave a shard in a state that makes later calls panic: `advance_hot` calls `on_evict` after the
  slot was freed and before the index entry is removed (`shard.rs:712-719`), so after a panic there every lookup of
  that hash panics on `unwrap` (example beside `C66_debug`); `replace_placeholder` calls `weight`, `is_pinned` and
  `before_evict` while the entry is `Ghost(0)` and counted nowhere (`shard.rs:874-890`). Undefined behaviour is impossible
  even then (C66).
* Growing items through mutable references can bring the sum of the weights to 2^64 and above (C06 has the exact
  condition of the panic).
* Concurrent `get`s can raise a reference counter above `MAX_F` (load and `fetch_add` are separate): up to one more than the
  number of simultaneous readers (C69), if the loads read current values. By the letter of the memory model they need not, and
  the counter may grow by one with every lookup since the last write (example in `Props/Weak.lean`).
* If cloning a value can change its weight (for instance, the weight of a vector is its allocated capacity), a clone of an
  `unsync::Cache` miscounts: `weight()` of an emptied clone may be positive for ever (`C70_lighter`), or `remove` overflows
  (`C70_heavier`). The weights are computed anew on removal, from the clones, but the totals are copied.
* Loaded items are hot as long as the cache is not full, whatever the hot target (`shard.rs:893-899`), inserted ones only within the
  target. A cache filled by loads therefore consists of hot items only: an insertion of a new key evicts a hot item
  (`C72_needs_bound`), and a newly loaded one enters the empty cold list and is its own victim; only if it is loaded once more, while its
  hash is remembered, it stays.
* When an item becomes weightless, wherever in the list it is, the hand is set to its successor (`shard.rs:204, 801`; `remove` moves the
  hand only if it points to the item removed). Everything in front of it is skipped, and a younger item may be evicted
  before an older one (`C82_jump`). Hence the condition of C82 that all items have weight.
* `remove` of an absent key whose hash equals that of a ghost removes the ghost.
* With two ghosts of equal hash it depends on the table layout which one is consumed (the reason for the proviso in C58).

## 6. How the theorems were tested

Each line of `seeded/LOG.jsonl` is one wrong program: a realistic bug put into a definition of the model, in a scratch copy.

* The copy was rebuilt. Where a proof no longer went through, the lemma was replaced by `sorry` and the build repeated, until
  everything compiled; then `#print axioms` told which property theorems still have a proof. A property theorem that is
  still proved although the bug makes its English claim false is too weak.
* A broken lemma taints everything built on it, whether or not the theorem has become false. So the statements of the
  theorems about the unsync cache and about the concurrent protocol were also evaluated on random runs of the
  wrong program (`refuted_on_runs`); runs of the unchanged model never refute any.
* `theorems_failed` lists the property theorems refuted on runs, those whose own proof broke and those of the claimed
  property that lost their proof; `property_theorems_without_proof` is the number of all that lost it.
