import Verif.Model.Sync

/-!
# Model of the provided weighter and lifecycles, and of `Cache::new`

`UnitWeighter` (`/repo/src/lib.rs:120-130`), the two types called `DefaultLifecycle` (`/repo/src/unsync.rs:388-421`,
`/repo/src/sync.rs:436-472`), and the constructors that use them. The provided hash builder is not modelled: the hash
function is arbitrary, as everywhere.
-/

namespace QuickCache
variable {K V : Type _}

/-- `UnitWeighter::weight` (`/repo/src/lib.rs:125-130`). -/
def unitWeight (_ : K) (_ : V) : Nat := 1

/-- `Lifecycle::is_pinned` as provided by the trait (`/repo/src/lib.rs:138-151`). Neither lifecycle overrides it. -/
def neverPinned (_ : K) (_ : V) : Bool := false

/-- `Lifecycle::before_evict` as provided by the trait (`/repo/src/lib.rs:156-165`): it changes neither the request state
nor the value. Neither lifecycle overrides it. -/
def keepAsIs {RS : Type _} (st : RS) (_ : K) (v : V) : RS × V := (st, v)

/-- The parameters of `unsync::Cache<Key, Val>`: `UnitWeighter` and `unsync::DefaultLifecycle`
(`/repo/src/unsync.rs:411-419`), whose request state is `()`. An evicted item is dropped at once. -/
def Cfg.plain (hash : K → UInt64) : Cfg K V Unit :=
  { hash, weight := unitWeight, pinned := neverPinned, beginReq := (), beforeEvict := keepAsIs, onEvict := fun st _ _ => st,
    ptrEq := false }

/-- The parameters of `sync::Cache<Key, Val>`: `UnitWeighter` and `sync::DefaultLifecycle` (`/repo/src/sync.rs:460-472`),
whose request state is an optional item: `on_evict` overwrites it (`*state = Some((key, val))`). -/
def Cfg.shared (hash : K → UInt64) : Cfg K V (Option (K × V)) :=
  { hash, weight := unitWeight, pinned := neverPinned, beginReq := none, beforeEvict := keepAsIs,
    onEvict := fun _ k v => some (k, v), ptrEq := true }

/-- The options that `Cache::new(n)` builds, by way of `Cache::with` (`/repo/src/unsync.rs:23-31`, `54-73`;
`/repo/src/sync.rs:46-54`, `82-101`); `par` is `available_parallelism()`. `build().unwrap()` succeeds, as both capacities
are given. -/
def Options.ofNew (par n : Nat) : Options :=
  { shards := par * 4, hot := defaultHot, ghost := defaultGhost, items := n, weight := n }

/-- `unsync::Cache::new` (`/repo/src/unsync.rs:23-31`). -/
def Unsync.new (par n : Nat) : Except BuildError (Shard K V) := (Options.ofCapacities par n n).map Options.unsync

/-- `sync::Cache::new` (`/repo/src/sync.rs:46-54`). -/
def SyncCache.new (par n : Nat) : Except BuildError (Res (SyncCache K V)) :=
  (Options.ofCapacities par n n).map SyncCache.withOptions

end QuickCache
