import Verif.Model.Shard

/-!
# Model of `/repo/src/unsync.rs`

`unsync::Cache` is a single shard; its state is a `Shard` (the user-supplied parts are in `Cfg`). The guards and mutable
references of the unsync cache borrow the cache exclusively (`&mut`), so obtaining one, using it and dropping it
happens without any other call in between: each is one operation here. Leaking a `RefMut` (documented as not allowed,
`/repo/src/unsync.rs:162`, `180`) is not modelled; leaking a guard is.

Calls taking a query `&Q` are modelled with an owned key `k`: the query hashes like `k` and is equivalent to exactly
`k`. (`Verif.Props` shows for the shard that any such query behaves in the same way.)
-/

namespace QuickCache
variable {K V RS : Type _}

/-- What the holder of a guard does with it. `forget` is `std::mem::forget(guard)`. -/
inductive GuardUse (V : Type _) where
  | insert (v : V)
  | drop
  | forget

/-- The calls of `unsync::Cache` that may change the cache or return an item. -/
inductive Op (K V : Type _) where
  | insert (k : K) (v : V)
  | replace (k : K) (v : V) (soft : Bool)
  | remove (k : K)
  | get (k : K)
  | peek (k : K)
  | containsKey (k : K)
  /-- `get_mut(k)`, then `f` applied to the value if present, then the reference is dropped -/
  | getMut (k : K) (f : V → V)
  /-- `peek_mut(k)`, then `f` applied to the value if present, then the reference is dropped -/
  | peekMut (k : K) (f : V → V)
  | retain (f : K → V → Bool)
  | clear
  | drain
  | reserve
  /-- `get_or_insert_with(k, loader)`; `load = none` if the loader fails -/
  | getOrInsertWith (k : K) (load : Option V)
  /-- `get_mut_or_insert_with(k, loader)`, then `f` applied through the returned reference, if any -/
  | getMutOrInsertWith (k : K) (load : Option V) (f : V → V)
  /-- `get_ref_or_guard(k)`; on a miss the guard is used as stated -/
  | getRefOrGuard (k : K) (use : GuardUse V)
  /-- `get_mut_or_guard(k)`; on a hit `f` is applied through the reference, on a miss the guard is used as stated -/
  | getMutOrGuard (k : K) (f : V → V) (use : GuardUse V)

/-- What a call returns. -/
inductive Out (K V : Type _) where
  | unit
  | value (v : Option V)
  | bool (b : Bool)
  | removed (r : Option (K × V))
  /-- `replace`: `none` is `Ok(())`, `some` is `Err` with its payload -/
  | replaced (err : Option (K × V))
  | items (l : List (K × V))
  /-- `get_or_insert_with`: whether the loader was called; `result = none` is its error passed on, otherwise the
  returned reference, if any -/
  | loaded (called : Bool) (result : Option (Option V))
  /-- a lookup that yields the value or else a guard (`none`) -/
  | orGuard (v : Option V)
  deriving DecidableEq, Repr

namespace Unsync

/-- `Cache::insert`, `insert_with_lifecycle` (`/repo/src/unsync.rs:336-355`): the request state handed to
`end_request`, or returned, is in the `Req`. -/
def insert [DecidableEq K] (c : Cfg K V RS) (s : Shard K V) (k : K) (v : V) : Res (Shard K V × Req K V RS) := do
  let (s1, q, r) ← s.insert c c.begin (c.hash k) k v .insert
  if r.isSome then .error .debugAssert else .ok (s1, q)

/-- `Cache::replace`, `replace_with_lifecycle` (`/repo/src/unsync.rs:197-228`). -/
def replace [DecidableEq K] (c : Cfg K V RS) (s : Shard K V) (k : K) (v : V) (soft : Bool) :
    Res (Shard K V × Req K V RS × Option (K × V)) := do
  let (s1, q, r) ← s.insert c c.begin (c.hash k) k v (.replace soft)
  .ok (s1, q, r.map (fun v' => (k, v')))

/-- Applying `f` through a `RefMut`, if there is one, and dropping it. -/
def writeRef (c : Cfg K V RS) (s : Shard K V) (f : V → V) : Option (Nat × Nat) → Res (Shard K V)
  | none => .ok s
  | some (idx, oldW) => s.refMutWrite c idx oldW f

/-- The miss branch of `get_or_insert_with`/`get_mut_or_insert_with` after the loader succeeded
(`/repo/src/unsync.rs:255-260`, `282-287`), and `Guard::insert_internal` (`/repo/src/unsync.rs:446-461`). -/
def fill (c : Cfg K V RS) (s : Shard K V) (p : Plh) (v : V) : Res (Shard K V × Req K V RS) := do
  let (s1, q, r) ← s.replacePlaceholder c c.begin p false v
  if r.isSome then .error .debugAssert else .ok (s1, q)

/-- `get_or_insert_with` up to the final `peek_token` (`/repo/src/unsync.rs:251-262`) and `get_mut_or_insert_with` up to
the final `peek_token_mut` (`278-289`): the token, or `none` if the loader failed. -/
def getOrInsertToken [DecidableEq K] (c : Cfg K V RS) (s : Shard K V) (k : K) (load : Option V) :
    Res (Shard K V × Req K V RS × Bool × Option Nat) := do
  match ← s.upsertPlaceholder c (c.hash k) (fun x => x == k) k with
  | (s1, .found idx _) => .ok (s1, c.begin, false, some idx)
  | (s1, .pending p _) =>
    match load with
    | none => .ok (s1, c.begin, true, none)
    | some v => do
      let (s2, q) ← fill c s1 p v
      .ok (s2, q, true, some p.idx)

/-- `get_or_insert_with` (`/repo/src/unsync.rs:240-264`). -/
def getOrInsertWith [DecidableEq K] (c : Cfg K V RS) (s : Shard K V) (k : K) (load : Option V) :
    Res (Shard K V × Req K V RS × Bool × Option (Option V)) := do
  let (s1, q, called, t) ← getOrInsertToken c s k load
  .ok (s1, q, called, t.map s1.peekToken)

/-- `get_mut_or_insert_with` (`/repo/src/unsync.rs:266-290`), then `f` through the reference. The value reported is the
one behind the reference before `f`. -/
def getMutOrInsertWith [DecidableEq K] (c : Cfg K V RS) (s : Shard K V) (k : K) (load : Option V) (f : V → V) :
    Res (Shard K V × Req K V RS × Bool × Option (Option V)) := do
  let (s1, q, called, t) ← getOrInsertToken c s k load
  match t with
  | none => .ok (s1, q, called, none)
  | some idx => do
    let s2 ← writeRef c s1 f (s1.peekTokenMut c idx)
    .ok (s2, q, called, some (s1.peekToken idx))

/-- Using a guard: `Guard::insert`/`insert_with_lifecycle` (`/repo/src/unsync.rs:436-461`), `Drop for Guard`
(`464-475`), or leaking it. -/
def useGuard (c : Cfg K V RS) (s : Shard K V) (p : Plh) : GuardUse V → Res (Shard K V × Req K V RS)
  | .insert v => fill c s p v
  | .drop => do
    let s1 ← s.removePlaceholder c p
    .ok (s1, c.begin)
  | .forget => .ok (s, c.begin)

/-- `get_ref_or_guard` (`/repo/src/unsync.rs:292-313`) and the use of the guard. -/
def getRefOrGuard [DecidableEq K] (c : Cfg K V RS) (s : Shard K V) (k : K) (use : GuardUse V) :
    Res (Shard K V × Req K V RS × Option V) := do
  match ← s.upsertPlaceholder c (c.hash k) (fun x => x == k) k with
  | (s1, .found _ v) => .ok (s1, c.begin, some v)
  | (s1, .pending p _) => do
    let (s2, q) ← useGuard c s1 p use
    .ok (s2, q, none)

/-- `get_mut_or_guard` (`/repo/src/unsync.rs:315-334`), the write through the reference and the use of the guard. The
value reported is the one behind the reference before `f`. -/
def getMutOrGuard [DecidableEq K] (c : Cfg K V RS) (s : Shard K V) (k : K) (f : V → V) (use : GuardUse V) :
    Res (Shard K V × Req K V RS × Option V) := do
  match ← s.upsertPlaceholder c (c.hash k) (fun x => x == k) k with
  | (s1, .found idx v) => do
    let s2 ← writeRef c s1 f (s1.peekTokenMut c idx)
    .ok (s2, c.begin, some v)
  | (s1, .pending p _) => do
    let (s2, q) ← useGuard c s1 p use
    .ok (s2, q, none)

/-- One call of the public API: the cache afterwards, what it returned, and the request state with the lifecycle calls
it made. `get` (`/repo/src/unsync.rs:152-158`), `peek` (`170-176`), `contains_key` (`144-150`), `get_mut` (`160-168`),
`peek_mut` (`178-186`), `remove` (`188-195`), `retain` (`230-238`), `clear` (`357-360`), `drain` (`368-374`), `reserve`
(`138-142`) forward to the shard; the others are above. -/
def step [DecidableEq K] (c : Cfg K V RS) (s : Shard K V) : Op K V → Res (Shard K V × Out K V × Req K V RS)
  | .insert k v => do
    let (s1, q) ← insert c s k v
    .ok (s1, .unit, q)
  | .replace k v soft => do
    let (s1, q, r) ← replace c s k v soft
    .ok (s1, .replaced r, q)
  | .remove k => do
    let (s1, r) ← s.remove c (c.hash k) (fun x => x == k)
    .ok (s1, .removed r, c.begin)
  | .get k => do
    let (s1, v) ← s.get (c.hash k) (fun x => x == k)
    .ok (s1, .value v, c.begin)
  | .peek k => do
    let v ← s.peek (c.hash k) (fun x => x == k)
    .ok (s, .value v, c.begin)
  | .containsKey k => do
    let b ← s.contains (c.hash k) (fun x => x == k)
    .ok (s, .bool b, c.begin)
  | .getMut k f => do
    let (s1, r) ← s.getMut c (c.hash k) (fun x => x == k)
    let s2 ← writeRef c s1 f r
    .ok (s2, .value (r.bind (fun x => s1.peekToken x.1)), c.begin)
  | .peekMut k f => do
    let r ← s.peekMut c (c.hash k) (fun x => x == k)
    let s2 ← writeRef c s f r
    .ok (s2, .value (r.bind (fun x => s.peekToken x.1)), c.begin)
  | .retain f => do
    let s1 ← s.retain c f
    .ok (s1, .unit, c.begin)
  | .clear => .ok (s.clear, .unit, c.begin)
  | .drain => .ok (s.drain.1, .items s.drain.2, c.begin)
  | .reserve => do
    let s1 ← s.reserve c
    .ok (s1, .unit, c.begin)
  | .getOrInsertWith k load => do
    let (s1, q, called, r) ← getOrInsertWith c s k load
    .ok (s1, .loaded called r, q)
  | .getMutOrInsertWith k load f => do
    let (s1, q, called, r) ← getMutOrInsertWith c s k load f
    .ok (s1, .loaded called r, q)
  | .getRefOrGuard k use => do
    let (s1, q, v) ← getRefOrGuard c s k use
    .ok (s1, .orGuard v, q)
  | .getMutOrGuard k f use => do
    let (s1, q, v) ← getMutOrGuard c s k f use
    .ok (s1, .orGuard v, q)

/-- A call together with its visible effects: what it returned and the lifecycle calls it made. -/
structure Call (K V : Type _) where
  op : Op K V
  out : Out K V
  log : List (Event K V)

/-- `Run c s0 h s`: starting from the cache `s0`, the calls recorded in `h` (oldest first) lead to the cache `s`. Between
calls the layout of the hash table may change arbitrarily (`relayout`). -/
inductive Run [DecidableEq K] (c : Cfg K V RS) (s0 : Shard K V) : List (Call K V) → Shard K V → Prop
  | start : Run c s0 [] s0
  | layout {h : List (Call K V)} {s : Shard K V} (m : List (UInt64 × Nat)) (p : UInt64 → UInt64 → Bool)
      (hr : Run c s0 h s) (hm : m.Perm s.map) (hp : ∀ x, p x x = true) : Run c s0 h (s.relayout m p)
  | call {h : List (Call K V)} {s s' : Shard K V} {op : Op K V} {out : Out K V} {q : Req K V RS}
      (hr : Run c s0 h s) (hs : step c s op = .ok (s', out, q)) : Run c s0 (h ++ [⟨op, out, q.log⟩]) s'

end Unsync
end QuickCache
