import Verif.Model.Sync

/-!
# The lifecycle of a request: `begin_request`, callbacks, `end_request`

Which calls of `Lifecycle` (`/repo/src/lib.rs:132-178`) the public functions of `unsync::Cache` and `sync::Cache` make, and
what becomes of the request state. In `Verif.Model.Unsync` and `Verif.Model.Sync` only the callbacks made by the shard are
recorded; here `begin_request` and `end_request` stand where the code has them. `keep` says which variant of the
function is called: `insert_with_lifecycle`, `replace_with_lifecycle` (`true`) or `insert`, `replace` (`false`), for the
cache as well as for its guards. Functions that have no such variant ignore it.
-/

namespace QuickCache
variable {K V RS : Type _}

/-- A call of a function of `Lifecycle` that gets or returns the request state. -/
inductive LcCall (K V RS : Type _) where
  /-- `begin_request` -/
  | begun
  /-- `before_evict` or `on_evict` -/
  | evict (e : Event K V)
  /-- `end_request(st)` -/
  | ended (st : RS)
  deriving DecidableEq, Repr

/-- The lifecycle calls of a function and the request state that it returns, if any. -/
structure Lc (K V RS : Type _) where
  calls : List (LcCall K V RS)
  returned : Option RS

/-- A function without a request. -/
def Lc.none : Lc K V RS := ⟨[], .none⟩

/-- A request that comes to its regular end: `end_request(lcs)`, or `lcs` is returned. -/
def Lc.finish (keep : Bool) (q : Req K V RS) : Lc K V RS :=
  if keep then ⟨.begun :: q.log.map .evict, some q.st⟩ else ⟨.begun :: q.log.map .evict ++ [.ended q.st], .none⟩

/-- A request given up with `?`: `lcs` is dropped. -/
def Lc.abort (q : Req K V RS) : Lc K V RS := ⟨.begun :: q.log.map .evict, .none⟩

namespace Unsync

/-- `insert`, `insert_with_lifecycle` (`/repo/src/unsync.rs:336-355`). -/
def insertL [DecidableEq K] (c : Cfg K V RS) (keep : Bool) (s : Shard K V) (k : K) (v : V) :
    Res (Shard K V × Lc K V RS) := do
  let (s1, q, r) ← s.insert c c.begin (c.hash k) k v .insert
  if r.isSome then .error .debugAssert else .ok (s1, .finish keep q)

/-- `replace`, `replace_with_lifecycle` (`/repo/src/unsync.rs:202-228`): two question marks on the way to
`end_request`. -/
def replaceL [DecidableEq K] (c : Cfg K V RS) (keep : Bool) (s : Shard K V) (k : K) (v : V) (soft : Bool) :
    Res (Shard K V × Lc K V RS × Option (K × V)) := do
  let (s1, q, r) ← s.insert c c.begin (c.hash k) k v (.replace soft)
  match r with
  | some v' => .ok (s1, .abort q, some (k, v'))
  | none => .ok (s1, .finish keep q, none)

/-- The miss branch of `get_or_insert_with` and `get_mut_or_insert_with` after the loader succeeded, with `keep = false`
(`/repo/src/unsync.rs:256-260`, `282-286`), and `Guard::insert_internal` (`446-461`). -/
def fillL (c : Cfg K V RS) (keep : Bool) (s : Shard K V) (p : Plh) (v : V) : Res (Shard K V × Lc K V RS) := do
  let (s1, q, r) ← s.replacePlaceholder c c.begin p false v
  if r.isSome then .error .debugAssert else .ok (s1, .finish keep q)

/-- `get_or_insert_with` and `get_mut_or_insert_with` up to the final lookup (`/repo/src/unsync.rs:251-262`, `278-289`):
the request begins when the loader has succeeded. -/
def getOrInsertTokenL [DecidableEq K] (c : Cfg K V RS) (s : Shard K V) (k : K) (load : Option V) :
    Res (Shard K V × Lc K V RS × Bool × Option Nat) := do
  match ← s.upsertPlaceholder c (c.hash k) (fun x => x == k) k with
  | (s1, .found idx _) => .ok (s1, .none, false, some idx)
  | (s1, .pending p _) =>
    match load with
    | none => .ok (s1, .none, true, none)
    | some v => do
      let (s2, l) ← fillL c false s1 p v
      .ok (s2, l, true, some p.idx)

/-- Using a guard (`/repo/src/unsync.rs:436-475`): no request unless something is inserted. -/
def useGuardL (c : Cfg K V RS) (keep : Bool) (s : Shard K V) (p : Plh) : GuardUse V → Res (Shard K V × Lc K V RS)
  | .insert v => fillL c keep s p v
  | .drop => do
    let s1 ← s.removePlaceholder c p
    .ok (s1, .none)
  | .forget => .ok (s, .none)

/-- One call of the public API, as in `Unsync.step`, with the lifecycle calls it makes. The functions that never mention
the lifecycle are those of `Unsync.step`. -/
def stepL [DecidableEq K] (c : Cfg K V RS) (keep : Bool) (s : Shard K V) : Op K V → Res (Shard K V × Out K V × Lc K V RS)
  | .insert k v => do
    let (s1, l) ← insertL c keep s k v
    .ok (s1, .unit, l)
  | .replace k v soft => do
    let (s1, l, r) ← replaceL c keep s k v soft
    .ok (s1, .replaced r, l)
  | .getOrInsertWith k load => do
    let (s1, l, called, t) ← getOrInsertTokenL c s k load
    .ok (s1, .loaded called (t.map s1.peekToken), l)
  | .getMutOrInsertWith k load f => do
    let (s1, l, called, t) ← getOrInsertTokenL c s k load
    match t with
    | none => .ok (s1, .loaded called none, l)
    | some idx => do
      let s2 ← writeRef c s1 f (s1.peekTokenMut c idx)
      .ok (s2, .loaded called (some (s1.peekToken idx)), l)
  | .getRefOrGuard k use => do
    match ← s.upsertPlaceholder c (c.hash k) (fun x => x == k) k with
    | (s1, .found _ v) => .ok (s1, .orGuard (some v), .none)
    | (s1, .pending p _) => do
      let (s2, l) ← useGuardL c keep s1 p use
      .ok (s2, .orGuard none, l)
  | .getMutOrGuard k f use => do
    match ← s.upsertPlaceholder c (c.hash k) (fun x => x == k) k with
    | (s1, .found idx v) => do
      let s2 ← writeRef c s1 f (s1.peekTokenMut c idx)
      .ok (s2, .orGuard (some v), .none)
    | (s1, .pending p _) => do
      let (s2, l) ← useGuardL c keep s1 p use
      .ok (s2, .orGuard none, l)
  | op => do
    let (s1, out, _) ← step c s op
    .ok (s1, out, .none)

end Unsync

namespace Sync

/-- One critical section with the lifecycle calls made by the function it belongs to: `insert`, `insert_with_lifecycle`,
`replace`, `replace_with_lifecycle` (`/repo/src/sync.rs:281-334`) and `PlaceholderGuard::{insert, insert_with_lifecycle}`
(`/repo/src/sync_placeholder.rs:288-322`). `begin_request` precedes the section and `end_request` follows it. -/
def stepL [DecidableEq K] (c : Cfg K V RS) (keep : Bool) (s : Shard K V) :
    Section K V → Res (Shard K V × SOut K V × Lc K V RS)
  | .call (.insert k v) => do
    let (s1, q, r) ← s.insert c c.begin (c.hash k) k v .insert
    if r.isSome then .error .debugAssert else .ok (s1, .call .unit, .finish keep q)
  | .call (.replace k v soft) => do
    let (s1, q, r) ← s.insert c c.begin (c.hash k) k v (.replace soft)
    match r with
    | some v' => .ok (s1, .call (.replaced (some (k, v'))), .abort q)
    | none => .ok (s1, .call (.replaced none), .finish keep q)
  | .fill _ p referenced v => do
    let (s1, q, r) ← s.replacePlaceholder c c.begin p referenced v
    match r with
    | some v' => .ok (s1, .filled (some v'), .abort q)
    | none => .ok (s1, .filled none, .finish keep q)
  | sec => do
    let (s1, out, _) ← step c s sec
    .ok (s1, out, .none)

end Sync
end QuickCache
