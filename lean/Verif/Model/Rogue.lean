import Verif.Model.Release

/-!
# User code that cannot be trusted

The traits `Hash`, `Equivalent`, `ToOwned`, `Weighter`, `Lifecycle` and the closures passed to the cache are safe Rust. A
value may have interior mutability, a weighter may consult a clock, `Eq` may contradict itself, and any of them may panic.
The unsafe code of the crate must not depend on their good behaviour. This file has the functions of the release build
(`Verif.Model.Release`) once more, for user code of that kind: every call of user code is a step that reads and changes an
arbitrary world `W` outside the cache, returns anything, and may panic.

Destructors and `Clone`s of keys and values are user code too. They do not return anything that the cache looks at; what they
do to the world is covered by the calls that follow, since the answer of a call may depend on anything. What a panic leaves of
the shard is not tracked: the theorems about this file hold for every state of the shard.
-/

namespace QuickCache

/-- Why a call does not return: a panic of the crate's own code, or one of user code. -/
inductive Stop where
  | own (p : Panic)
  | user
  deriving DecidableEq, Repr

/-- A call of user code: it looks at the world, changes it, and returns (`some`) or panics (`none`). -/
abbrev User (W α : Type) := W → Option α × W

/-- A computation that calls user code. -/
def Wild (W α : Type) := W → Except Stop α × W

namespace Wild
variable {W α β : Type}

/-- One computation after the other. -/
protected def bind (x : Wild W α) (f : α → Wild W β) : Wild W β := fun w =>
  match x w with
  | (.ok a, w1) => f a w1
  | (.error e, w1) => (.error e, w1)

instance : Monad (Wild W) where
  pure a := fun w => (.ok a, w)
  bind := Wild.bind

/-- A computation without user code. -/
def lift (x : Res α) : Wild W α := fun w =>
  match x with
  | .ok a => (.ok a, w)
  | .error p => (.error (.own p), w)

/-- A call of user code. -/
def call (f : User W α) : Wild W α := fun w =>
  match f w with
  | (some a, w1) => (.ok a, w1)
  | (none, w1) => (.error .user, w1)

end Wild

/-- User code. `K` is both the type of keys and of queries.

* `hash` is `Hash` with the `BuildHasher`; `eqv k x` is `k.equivalent(x)` for a query `k` and a stored key `x`; `own` is
  `ToOwned::to_owned`;
* `weight` is `Weighter::weight`;
* `pinned`, `beginReq`, `beforeEvict`, `onEvict`, `endReq` are the functions of `Lifecycle` (`/repo/src/lib.rs`).

`ptrEq` belongs to the crate: `SharedPlaceholder::same_as` (see `Cfg`). -/
structure Rogue (W K V RS : Type) where
  hash : K → User W UInt64
  eqv : K → K → User W Bool
  own : K → User W K
  weight : K → V → User W Nat
  pinned : K → V → User W Bool
  beginReq : User W RS
  beforeEvict : RS → K → V → User W (RS × V)
  onEvict : RS → K → V → User W RS
  endReq : RS → User W Unit
  ptrEq : Bool

namespace Rogue
open Wild
variable {W K V RS : Type} (u : Rogue W K V RS)

/-- Calling `lifecycle.before_evict(lcs, &key, &mut value)`, with the log of `Req.before`. -/
def before (q : Req K V RS) (k : K) (v : V) : Wild W (Req K V RS × V) := do
  let (st, v') ← call (u.beforeEvict q.st k v)
  pure ({ st := st, log := q.log ++ [.beforeEvict k v v'] }, v')

/-- Calling `lifecycle.on_evict(lcs, key, value)`, with the log of `Req.on`. -/
def on (q : Req K V RS) (k : K) (v : V) : Wild W (Req K V RS) := do
  let st ← call (u.onEvict q.st k v)
  pure { st := st, log := q.log ++ [.onEvict k v] }

/-- Calling `lifecycle.begin_request()`. -/
def begin : Wild W (Req K V RS) := do
  let st ← call u.beginReq
  pure { st := st, log := [] }

/-! ### The hash index -/

/-- The rehash closures (`/repo/src/shard.rs:323-332`, `839-848`). -/
def hashOf : Entry K V → Wild W UInt64
  | .resident r => call (u.hash r.key)
  | .placeholder p => call (u.hash p.key)
  | .ghost h => pure h

/-- Rehashing all buckets (see `Shard.rehash`). -/
def rehash (e : Slab (Entry K V)) : List (UInt64 × Nat) → Wild W (List (UInt64 × Nat))
  | [] => pure []
  | (_, t) :: m =>
    match e.get t with
    | none => lift (.error .unwrapNone)
    | some (x, _) => do
      let h ← u.hashOf x
      let m' ← rehash e m
      pure ((h, t) :: m')

/-- `map_insert` (`/repo/src/shard.rs:837-849`). -/
def mapInsert (s : Shard K V) (h : UInt64) (idx : Nat) : Wild W (Shard K V) := do
  let m ← u.rehash s.entries s.map
  pure { s with map := m ++ [(h, idx)] }

/-- `reserve` (`/repo/src/shard.rs:318-333`). -/
def reserve (s : Shard K V) : Wild W (Shard K V) := do
  let m ← u.rehash s.entries s.map
  pure { s with map := m }

/-- The loop of `search` (`/repo/src/shard.rs:432-449`). -/
def searchLoop (e : Slab (Entry K V)) (h : UInt64) (k : K) : List Nat → Option Nat → Wild W (Option Nat)
  | [], hashMatch => pure hashMatch
  | idx :: rest, hashMatch =>
    match e.get idx with
    | none => lift (.error .unwrapNone)
    | some (.resident r, _) => do
      if ← call (u.eqv k r.key) then pure (some idx) else searchLoop e h k rest hashMatch
    | some (.placeholder p, _) => do
      if ← call (u.eqv k p.key) then pure (some idx) else searchLoop e h k rest hashMatch
    | some (.ghost g, _) => searchLoop e h k rest (if g = h then some idx else hashMatch)

/-- `search` (`/repo/src/shard.rs:427-450`). -/
def search (s : Shard K V) (h : UInt64) (k : K) : Wild W (Option Nat) := u.searchLoop s.entries h k (s.iterHash h) none

/-- The closure of `search_resident` (`/repo/src/shard.rs:459-468`). `cell` is the `MaybeUninit`; the closure writes it. -/
def residentClosure (e : Slab (Entry K V)) (k : K) (cell : Option (Resident K V)) (idx : Nat) :
    Wild W (Option (Resident K V) × Bool) :=
  match e.get idx with
  | none => lift (.error .unwrapNone)
  | some (.resident r, _) => do
    if ← call (u.eqv k r.key) then pure (some r, true) else pure (cell, false)
  | some _ => pure (cell, false)

/-- `HashTable::find` with that closure: the first bucket for which it returns true, and what is then in the cell. -/
def findResident (e : Slab (Entry K V)) (k : K) :
    List Nat → Option (Resident K V) → Wild W (Option (Resident K V) × Option Nat)
  | [], cell => pure (cell, none)
  | idx :: rest, cell => do
    match ← u.residentClosure e k cell idx with
    | (cell1, true) => pure (cell1, some idx)
    | (cell1, false) => findResident e k rest cell1

/-- `search_resident` (`/repo/src/shard.rs:452-474`). Reading the cell before it was written is undefined behaviour
(`472`). -/
def searchResident (s : Shard K V) (h : UInt64) (k : K) : Wild W (Option (Nat × Resident K V)) := do
  match ← u.findResident s.entries k (s.iterHash h) none with
  | (_, none) => pure none
  | (some r, some idx) => pure (some (idx, r))
  | (none, some _) => lift (.error .ub)

/-! ### Reads -/

/-- `contains` (`/repo/src/shard.rs:476-486`). -/
def contains (s : Shard K V) (h : UInt64) (k : K) : Wild W Bool := do
  let r ← u.searchResident s h k
  pure r.isSome

/-- `get` (`/repo/src/shard.rs:488-506`). -/
def get (s : Shard K V) (h : UInt64) (k : K) : Wild W (Shard K V × Option V) := do
  match ← u.searchResident s h k with
  | some (idx, r) =>
    let s1 := if r.referenced < MAX_F then
        s.setEntry idx (.resident { r with referenced := (r.referenced + 1) % 2 ^ 16 })
      else s
    pure ({ s1 with hits := s1.hits + 1 }, some r.value)
  | none => pure ({ s with misses := s.misses + 1 }, none)

/-- `peek` (`/repo/src/shard.rs:555-561`). -/
def peek (s : Shard K V) (h : UInt64) (k : K) : Wild W (Option V) := do
  match ← u.searchResident s h k with
  | some (_, r) => pure (some r.value)
  | none => pure none

/-- `peek_token_mut` (`/repo/src/shard.rs:541-553`). -/
def peekTokenMut (s : Shard K V) (t : Nat) : Wild W (Option (Nat × Nat)) :=
  match s.entries.get t with
  | some (.resident r, _) => do
    let w ← call (u.weight r.key r.value)
    pure (some (t, w))
  | _ => pure none

/-- `peek_mut` (`/repo/src/shard.rs:563-569`). -/
def peekMut (s : Shard K V) (h : UInt64) (k : K) : Wild W (Option (Nat × Nat)) := do
  match ← u.searchResident s h k with
  | some (idx, _) => u.peekTokenMut s idx
  | none => pure none

/-- `get_mut` (`/repo/src/shard.rs:508-530`). -/
def getMut (s : Shard K V) (h : UInt64) (k : K) : Wild W (Shard K V × Option (Nat × Nat)) := do
  match ← u.searchResident s h k with
  | none => pure ({ s with misses := s.misses + 1 }, none)
  | some (idx, _) =>
    match s.entries.get idx with
    | some (.resident r, _) =>
      let s1 := if r.referenced < MAX_F then
          s.setEntry idx (.resident { r with referenced := r.referenced + 1 })
        else s
      let w ← call (u.weight r.key r.value)
      pure ({ s1 with hits := s1.hits + 1 }, some (idx, w))
    | _ => lift (.error .unreachable)

/-! ### Mutable references -/

/-- `Drop for RefMut` (`/repo/src/shard.rs:1109-1121`). -/
def dropRef (s : Shard K V) (idx oldW : Nat) : Wild W (Shard K V) := do
  let r ← lift (s.refMutPair idx)
  let newW ← call (u.weight r.key r.value)
  if oldW ≠ newW then lift (s.coldChangeWeightR idx oldW newW) else pure s

end Rogue

/-- What the holder of a `RefMut` does with it: any number of times they get at the value through `value_mut`
(`/repo/src/shard.rs:1094-1106`), write to it (the first component is what is in place afterwards), and possibly panic
(`none`). In the end the reference is dropped or leaked (`mem::forget`). -/
structure RefUse (W V : Type) where
  writes : List (V → W → V × Option Unit × W)
  leak : Bool

namespace Rogue
open Wild
variable {W K V RS : Type} (u : Rogue W K V RS)

/-- The writes through a `RefMut`. If one panics, unwinding drops the reference. -/
def writes (s : Shard K V) (idx oldW : Nat) : List (V → W → V × Option Unit × W) → Wild W (Shard K V)
  | [] => pure s
  | f :: fs => do
    let r ← lift (s.refMutPair idx)
    fun w =>
      match f r.value w with
      | (v, some _, w1) => writes (s.setEntry idx (.resident { r with value := v })) idx oldW fs w1
      | (v, none, w1) =>
        match u.dropRef (s.setEntry idx (.resident { r with value := v })) idx oldW w1 with
        | (.ok _, w2) => (.error .user, w2)
        | (.error e, w2) => (.error e, w2)

/-- The life of a `RefMut`, if there is one. -/
def useRef (s : Shard K V) (x : RefUse W V) : Option (Nat × Nat) → Wild W (Shard K V)
  | none => pure s
  | some (idx, oldW) => do
    let s1 ← u.writes s idx oldW x.writes
    if x.leak then pure s1 else u.dropRef s1 idx oldW

/-! ### Removal -/

/-- `remove_internal` (`/repo/src/shard.rs:581-614`). -/
def removeInternal (s : Shard K V) (h : UInt64) (idx : Nat) : Wild W (Shard K V × Option (K × V)) := do
  let s ← lift (s.mapRemoveR h idx)
  match ← lift (s.entries.removeR idx) with
  | (_, none) => lift (.error .unwrapNone)
  | (e, some (.resident r, next)) =>
    let s := { s with entries := e }
    let n ← lift (rsub (s.num r.state) 1)
    let w ← call (u.weight r.key r.value)
    let w ← lift (rsub (s.wgt r.state) w)
    let s := (s.setNum r.state n).setWgt r.state w
    let s := if s.head r.state.ring = some idx then s.setHead r.state.ring next else s
    pure (s, some (r.key, r.value))
  | (e, some (.ghost _, next)) =>
    let s := { s with entries := e }
    let n ← lift (rsub s.numNonResident 1)
    let s := { s with numNonResident := n }
    let s := if s.head .ghost = some idx then s.setHead .ghost next else s
    pure (s, none)
  | (e, some (.placeholder _, _)) => pure ({ s with entries := e }, none)

/-- `remove` (`/repo/src/shard.rs:571-579`). -/
def remove (s : Shard K V) (h : UInt64) (k : K) : Wild W (Shard K V × Option (K × V)) := do
  match ← u.search s h k with
  | none => pure (s, none)
  | some idx => u.removeInternal s h idx

/-- The `filter_map` of `retain` (`/repo/src/shard.rs:339-356`). -/
def retainTokens (e : Slab (Entry K V)) (f : K → V → User W Bool) : List (UInt64 × Nat) → Wild W (List (Nat × UInt64))
  | [] => pure []
  | (_, t) :: m =>
    match e.get t with
    | some (.resident r, _) => do
      if ← call (f r.key r.value) then retainTokens e f m
      else
        let h ← call (u.hash r.key)
        let l ← retainTokens e f m
        pure ((t, h) :: l)
    | _ => retainTokens e f m

/-- The loop of `retain` (`/repo/src/shard.rs:357-359`). -/
def retainLoop : List (Nat × UInt64) → Shard K V → Wild W (Shard K V)
  | [], s => pure s
  | (idx, h) :: l, s => do
    let (s1, _) ← u.removeInternal s h idx
    retainLoop l s1

/-- `retain` (`/repo/src/shard.rs:335-360`). -/
def retain (s : Shard K V) (f : K → V → User W Bool) : Wild W (Shard K V) := do
  let l ← u.retainTokens s.entries f s.map
  u.retainLoop l s

/-! ### Eviction -/

/-- The victim branch of `advance_hot` (`/repo/src/shard.rs:705-721`). Anything but a resident coming out of
`entries.remove` is undefined behaviour (`713-716`). -/
def hotVictim (s : Shard K V) (q : Req K V RS) (idx : Nat) (r : Resident K V) :
    Wild W (Shard K V × Req K V RS × Bool) := do
  let w0 ← call (u.weight r.key r.value)
  let w ← lift (rsub s.weightHot w0)
  let (q1, v1) ← u.before q r.key r.value
  let s1 := { s.setEntry idx (.resident { r with value := v1 }) with weightHot := w }
  let w1 ← call (u.weight r.key v1)
  if w1 = 0 then
    let s2 ← lift (s1.unlinkFromR .hot idx)
    pure (s2, q1, true)
  else
    let n ← lift (rsub s1.numHot 1)
    let h ← call (u.hash r.key)
    match ← lift (s1.entries.removeR idx) with
    | (e, some (.resident ev, next)) =>
      let s2 := { s1 with numHot := n, entries := e, hotHead := next }
      let q2 ← u.on q1 ev.key ev.value
      let s3 ← lift (s2.mapRemoveR h idx)
      pure (s3, q2, true)
    | _ => lift (.error .ub)

/-- The loop of `advance_hot` (`/repo/src/shard.rs:683-722`). -/
def advanceHotLoop : Nat → Shard K V → Req K V RS → Nat → Nat → Wild W (Shard K V × Req K V RS × Bool)
  | 0, _, _, _, _ => lift (.error .outOfFuel)
  | fuel + 1, s, q, idx, unpinned =>
    match s.entries.get idx with
    | none => lift (.error .unwrapNone)
    | some (.resident r, next) => do
      if ← call (u.pinned r.key r.value) then
        let s1 := s.setEntry idx (.resident { r with referenced := min r.referenced MAX_F - 1 })
        if unpinned = 0 ∧ some next = s.hotHead then pure (s1, q, false)
        else advanceHotLoop fuel s1 q next unpinned
      else if r.referenced ≠ 0 then
        let s1 := s.setEntry idx (.resident { r with referenced := min r.referenced MAX_F - 1 })
        advanceHotLoop fuel s1 q next (unpinned + 1)
      else u.hotVictim s q idx r
    | some _ => lift (.error .unreachable)

/-- `advance_hot` (`/repo/src/shard.rs:676-723`). -/
def advanceHot (fu : Fuel) (s : Shard K V) (q : Req K V RS) : Wild W (Shard K V × Req K V RS × Bool) :=
  match s.hotHead with
  | none => pure (s, q, false)
  | some idx => u.advanceHotLoop (fu.hot s.entries.entries.length) s q idx 0

/-- `while self.weight_hot > self.weight_target_hot && self.advance_hot(lcs) {}` (`/repo/src/shard.rs:639`). -/
def evictHotLoop (fu : Fuel) : Nat → Shard K V → Req K V RS → Wild W (Shard K V × Req K V RS)
  | 0, _, _ => lift (.error .outOfFuel)
  | fuel + 1, s, q =>
    if s.weightTargetHot < s.weightHot then do
      let (s1, q1, b) ← u.advanceHot fu s q
      if b then evictHotLoop fu fuel s1 q1 else pure (s1, q1)
    else pure (s, q)

/-- The promotion branch of `advance_cold` (`/repo/src/shard.rs:629-640`). -/
def coldPromote (fu : Fuel) (s : Shard K V) (q : Req K V RS) (idx : Nat) (r : Resident K V) :
    Wild W (Shard K V × Req K V RS × Bool) := do
  let s1 := s.setEntry idx (.resident { r with referenced := r.referenced - 1, state := .hot })
  let w ← call (u.weight r.key r.value)
  let wh ← lift (radd s1.weightHot w)
  let wc ← lift (rsub s1.weightCold w)
  let nc ← lift (rsub s1.numCold 1)
  let s2 := { s1 with weightHot := wh, weightCold := wc, numHot := s1.numHot + 1, numCold := nc }
  let s3 ← lift (s2.unlinkFromR .cold idx)
  let s4 ← lift (s3.linkToR .hot idx)
  let (s5, q5) ← u.evictHotLoop fu (fu.evict s4.entries.entries.length) s4 q
  pure (s5, q5, true)

/-- The victim branch of `advance_cold` (`/repo/src/shard.rs:651-672`). Anything but a resident coming out of
`mem::replace` is undefined behaviour (`659-662`). -/
def coldVictim (s : Shard K V) (q : Req K V RS) (idx : Nat) (r : Resident K V) :
    Wild W (Shard K V × Req K V RS × Bool) := do
  let w0 ← call (u.weight r.key r.value)
  let wc ← lift (rsub s.weightCold w0)
  let (q1, v1) ← u.before q r.key r.value
  let s1 := { s.setEntry idx (.resident { r with value := v1 }) with weightCold := wc }
  let w1 ← call (u.weight r.key v1)
  if w1 = 0 then
    let s2 ← lift (s1.unlinkFromR .cold idx)
    pure (s2, q1, true)
  else
    let h ← call (u.hash r.key)
    match s1.entries.get idx with
    | some (.resident ev, _) =>
      let s2 := s1.setEntry idx (.ghost h)
      let s3 ← lift (s2.unlinkFromR .cold idx)
      let s4 ← lift (s3.linkToR .ghost idx)
      let nc ← lift (rsub s4.numCold 1)
      let s5 := { s4 with numCold := nc, numNonResident := s4.numNonResident + 1 }
      let s6 ← lift (if s5.capacityNonResident < s5.numNonResident then s5.advanceGhostR else .ok s5)
      let q2 ← u.on q1 ev.key ev.value
      pure (s6, q2, true)
    | _ => lift (.error .ub)

/-- The loop of `advance_cold` (`/repo/src/shard.rs:622-673`). -/
def advanceColdLoop (fu : Fuel) : Nat → Shard K V → Req K V RS → Nat → Wild W (Shard K V × Req K V RS × Bool)
  | 0, _, _, _ => lift (.error .outOfFuel)
  | fuel + 1, s, q, idx =>
    match s.entries.get idx with
    | none => lift (.error .unwrapNone)
    | some (.resident r, next) =>
      if r.referenced ≠ 0 then u.coldPromote fu s q idx r
      else do
        if ← call (u.pinned r.key r.value) then
          if some next = s.coldHead then u.advanceHot fu s q
          else advanceColdLoop fu fuel s q next
        else u.coldVictim s q idx r
    | some _ => lift (.error .unreachable)

/-- `advance_cold` (`/repo/src/shard.rs:616-674`). -/
def advanceCold (fu : Fuel) (s : Shard K V) (q : Req K V RS) : Wild W (Shard K V × Req K V RS × Bool) :=
  match s.coldHead with
  | none => u.advanceHot fu s q
  | some idx => u.advanceColdLoop fu (fu.cold s.entries.entries.length) s q idx

/-- `while self.weight_hot + self.weight_cold + extra > self.weight_capacity && self.advance_cold(lcs) {}`
(`/repo/src/shard.rs:833`, `915-917`, `964-966`). -/
def evictLoop (fu : Fuel) (extra : Nat) : Nat → Shard K V → Req K V RS → Wild W (Shard K V × Req K V RS)
  | 0, _, _ => lift (.error .outOfFuel)
  | fuel + 1, s, q => do
    let t ← lift (radd s.weightHot s.weightCold)
    let t ← lift (radd t extra)
    if s.weightCapacity < t then
      let (s1, q1, b) ← u.advanceCold fu s q
      if b then evictLoop fu extra fuel s1 q1 else pure (s1, q1)
    else pure (s, q)

/-! ### Storing -/

/-- `insert_existing` (`/repo/src/shard.rs:739-835`). -/
def insertExisting (fu : Fuel) (s : Shard K V) (q : Req K V RS) (idx : Nat) (key : K) (value : V)
    (w : Nat) (strategy : Strategy) : Wild W (Shard K V × Req K V RS × Option V) := do
  match s.entries.get idx with
  | none => lift (.error .unwrapNone)
  | some (.resident r, _) =>
    let bump := if strategy = .replace true then 0 else 1
    let ref := min (min (r.referenced + bump) (2 ^ 16 - 1)) MAX_F
    let s1 := s.setEntry idx (.resident { key := key, value := value, state := r.state, referenced := ref })
    let ew ← call (u.weight r.key r.value)
    let w1 ← lift (rsub (s1.wgt r.state) ew)
    let w2 ← lift (radd w1 w)
    let s2 := s1.setWgt r.state w2
    let s3 ← lift (s2.relinkR r.state idx ew w)
    let q1 ← u.on q r.key r.value
    let (s4, q2) ← u.evictLoop fu 0 (fu.evict s3.entries.entries.length) s3 q1
    pure (s4, q2, none)
  | some (.ghost _, _) =>
    match strategy with
    | .replace _ => pure (s, q, some value)
    | .insert =>
      let s1 := s.setEntry idx (.resident { key := key, value := value, state := .hot, referenced := 0 })
      let wh ← lift (radd s1.weightHot w)
      let nn ← lift (rsub s1.numNonResident 1)
      let s2 := { s1 with weightHot := wh, numHot := s1.numHot + 1, numNonResident := nn }
      let s3 ← lift (s2.unlinkGhostR idx)
      let s4 ← lift (s3.linkNewR .hot idx w)
      let (s5, q2) ← u.evictLoop fu 0 (fu.evict s4.entries.entries.length) s4 q
      pure (s5, q2, none)
  | some (.placeholder ph, _) =>
    match strategy with
    | .replace _ => pure (s, q, some value)
    | .insert =>
      let s1 := s.setEntry idx (.resident { key := key, value := value, state := ph.hot, referenced := 1 })
      let w1 ← lift (radd (s1.wgt ph.hot) w)
      let s2 := (s1.setNum ph.hot (s1.num ph.hot + 1)).setWgt ph.hot w1
      let s3 ← lift (s2.linkNewR ph.hot idx w)
      let (s4, q2) ← u.evictLoop fu 0 (fu.evict s3.entries.entries.length) s3 q
      pure (s4, q2, none)

/-- The first half of `handle_insert_overweight` (`/repo/src/shard.rs:999-1004`): the old item goes. -/
def evictOld (s : Shard K V) (q : Req K V RS) (h : UInt64) (key : K) : Wild W (Shard K V × Req K V RS) := do
  match ← u.searchResident s h key with
  | none => pure (s, q)
  | some (idx, _) =>
    match ← u.removeInternal s h idx with
    | (s1, none) => pure (s1, q)
    | (s1, some (ek, ev)) =>
      let q1 ← u.on q ek ev
      pure (s1, q1)

/-- `handle_insert_overweight` (`/repo/src/shard.rs:990-1010`). -/
def handleInsertOverweight (s : Shard K V) (q : Req K V RS) (h : UInt64) (key : K)
    (value : V) (strategy : Strategy) : Wild W (Shard K V × Req K V RS × Option V) := do
  let (s1, q1) ← u.evictOld s q h key
  match strategy with
  | .replace _ => pure (s1, q1, some value)
  | .insert => do
    let q2 ← u.on q1 key value
    pure (s1, q2, none)

/-- The tail of `insert` for a key without entry (`/repo/src/shard.rs:961-987`). -/
def insertNew (fu : Fuel) (s : Shard K V) (q : Req K V RS) (h : UInt64) (key : K) (value : V)
    (w : Nat) : Wild W (Shard K V × Req K V RS) := do
  let hw ← lift (radd s.weightHot w)
  let enterHot := decide (hw ≤ s.weightTargetHot)
  let (s1, q1) ← u.evictLoop fu w (fu.evict s.entries.entries.length) s q
  let st : St := if enterHot then .hot else .cold
  let w1 ← lift (radd (s1.wgt st) w)
  let s2 := (s1.setNum st (s1.num st + 1)).setWgt st w1
  let (e, idx) ← lift (s2.entries.insertR (.resident { key := key, value := value, state := st, referenced := 0 }))
  let s3 := { s2 with entries := e }
  let s4 ← lift (s3.linkNewR st idx w)
  let s5 ← u.mapInsert s4 h idx
  pure (s5, q1)

/-- The part of `insert` after the overweight check (`/repo/src/shard.rs:955-988`). -/
def insertAdmitted (fu : Fuel) (s : Shard K V) (q : Req K V RS) (h : UInt64) (key : K)
    (value : V) (w : Nat) (strategy : Strategy) : Wild W (Shard K V × Req K V RS × Option V) := do
  match ← u.search s h key with
  | some idx => u.insertExisting fu s q idx key value w strategy
  | none =>
    match strategy with
    | .replace _ => pure (s, q, some value)
    | .insert => do
      let (s1, q1) ← u.insertNew fu s q h key value w
      pure (s1, q1, none)

/-- The overweight check of `insert` and `replace_placeholder` (`/repo/src/shard.rs:945`, `883-885`):
`w > weight_target_hot && !is_pinned(key, value)`. -/
def tooHeavy (s : Shard K V) (w : Nat) (key : K) (value : V) : Wild W Bool :=
  if s.weightTargetHot < w then do
    let p ← call (u.pinned key value)
    pure !p
  else pure false

/-- `insert` (`/repo/src/shard.rs:937-988`). -/
def insert (fu : Fuel) (s : Shard K V) (q : Req K V RS) (h : UInt64) (key : K)
    (value : V) (strategy : Strategy) : Wild W (Shard K V × Req K V RS × Option V) := do
  let w ← call (u.weight key value)
  if ← u.tooHeavy s w key value then
    let (q1, v1) ← u.before q key value
    let w1 ← call (u.weight key v1)
    if s.weightTargetHot < w1 then u.handleInsertOverweight s q1 h key v1 strategy
    else u.insertAdmitted fu s q1 h key v1 w1 strategy
  else u.insertAdmitted fu s q h key value w strategy

/-! ### Placeholders -/

/-- `SharedPlaceholder::same_as`. -/
def sameAs (a b : Plh) : Bool := if u.ptrEq then a.id == b.id else true

/-- `remove_placeholder` (`/repo/src/shard.rs:176-186`). Calls no user code. -/
def removePlaceholder (s : Shard K V) (p : Plh) : Res (Shard K V) :=
  let isIt (b : UInt64 × Nat) : Bool :=
    s.probe p.hash b.1 && b.2 == p.idx &&
      (match s.entries.get b.2 with
       | some (.placeholder ph, _) => u.sameAs ph.shared p
       | _ => false)
  if s.map.any (fun b => s.probe p.hash b.1 && b.2 == p.idx && (s.entries.get b.2).isNone) then .error .unwrapNone
  else .ok { s with map := s.map.eraseP isIt }

/-- `handle_overweight_replace_placeholder` (`/repo/src/shard.rs:923-935`). -/
def handleOverweightReplacePlaceholder (s : Shard K V) (q : Req K V RS) (p : Plh) (key : K)
    (value : V) : Wild W (Shard K V × Req K V RS) := do
  let (e, _) ← lift (s.entries.removeR p.idx)
  let s1 := { s with entries := e }
  let s2 ← lift (s1.mapRemoveR p.hash p.idx)
  let q1 ← u.on q key value
  pure (s2, q1)

/-- The tail of `replace_placeholder` (`/repo/src/shard.rs:893-920`). -/
def replacePlaceholderAdmit (fu : Fuel) (s : Shard K V) (q : Req K V RS) (p : Plh) (key : K)
    (plhHot : St) (referenced : Bool) (value : V) (w : Nat) : Wild W (Shard K V × Req K V RS) := do
  let t ← lift (radd s.weightHot s.weightCold)
  let t ← lift (radd t w)
  let st : St := if t ≤ s.weightCapacity then .hot else plhHot
  let ref := if referenced then 1 else 0
  let s1 := s.setEntry p.idx (.resident { key := key, value := value, state := st, referenced := ref })
  let w1 ← lift (radd (s1.wgt st) w)
  let s2 := (s1.setNum st (s1.num st + 1)).setWgt st w1
  if w ≠ 0 then
    let s3 ← lift (s2.linkToR st.ring p.idx)
    u.evictLoop fu 0 (fu.evict s3.entries.entries.length) s3 q
  else pure (s2, q)

/-- The guard of the first `match` of `replace_placeholder` (`/repo/src/shard.rs:869`). -/
def isPlaceholder (p : Plh) : Entry K V → Bool
  | .placeholder ph => u.sameAs ph.shared p
  | _ => false

/-- `replace_placeholder` (`/repo/src/shard.rs:861-921`). Anything but a placeholder coming out of `mem::replace` is
undefined behaviour (`874-882`). -/
def replacePlaceholder (fu : Fuel) (s : Shard K V) (q : Req K V RS) (p : Plh) (referenced : Bool)
    (value : V) : Wild W (Shard K V × Req K V RS × Option V) :=
  match s.entries.get p.idx with
  | some (e, _) =>
    if u.isPlaceholder p e then
      match e with
      | .placeholder ph => do
        let s1 := s.setEntry p.idx (.ghost 0)
        let w ← call (u.weight ph.key value)
        if ← u.tooHeavy s1 w ph.key value then
          let (q1, v1) ← u.before q ph.key value
          let w1 ← call (u.weight ph.key v1)
          if s1.weightTargetHot < w1 then do
            let (s2, q2) ← u.handleOverweightReplacePlaceholder s1 q1 p ph.key v1
            pure (s2, q2, none)
          else do
            let (s2, q2) ← u.replacePlaceholderAdmit fu s1 q1 p ph.key ph.hot referenced v1 w1
            pure (s2, q2, none)
        else do
          let (s2, q2) ← u.replacePlaceholderAdmit fu s1 q p ph.key ph.hot referenced value w
          pure (s2, q2, none)
      | _ => lift (.error .ub)
    else pure (s, q, some value)
  | none => pure (s, q, some value)

/-- `upsert_placeholder` (`/repo/src/shard.rs:1012-1067`). -/
def upsertPlaceholder (s : Shard K V) (h : UInt64) (key : K) : Wild W (Shard K V × Shard.Upsert V) := do
  match ← u.search s h key with
  | some idx =>
    match s.entries.get idx with
    | none => lift (.error .unwrapNone)
    | some (.resident r, _) =>
      let s1 := if r.referenced < MAX_F then
          s.setEntry idx (.resident { r with referenced := r.referenced + 1 })
        else s
      pure ({ s1 with hits := s1.hits + 1 }, .found idx r.value)
    | some (.placeholder p, _) => pure ({ s with hits := s.hits + 1 }, .pending p.shared false)
    | some (.ghost _, _) =>
      let shared : Plh := { id := s.nextPlh, hash := h, idx := idx }
      let k ← call (u.own key)
      let s1 := { s.setEntry idx (.placeholder { key := k, hot := .hot, shared := shared }) with
          nextPlh := s.nextPlh + 1 }
      let n ← lift (rsub s1.numNonResident 1)
      let s2 := { s1 with numNonResident := n }
      let s3 ← lift (s2.unlinkGhostR idx)
      pure ({ s3 with misses := s3.misses + 1 }, .pending shared true)
  | none =>
    let idx := s.entries.nextFree
    let shared : Plh := { id := s.nextPlh, hash := h, idx := idx }
    let k ← call (u.own key)
    let (e, _) ← lift (s.entries.insertR (.placeholder { key := k, hot := .cold, shared := shared }))
    let s1 := { s with nextPlh := s.nextPlh + 1, entries := e }
    let s2 ← u.mapInsert s1 h idx
    pure ({ s2 with misses := s2.misses + 1 }, .pending shared true)

end Rogue

/-! ### The calls of `unsync::Cache` -/

/-- The calls of `unsync::Cache` (see `Op`), with closures that may do anything. A loader returns `none` for an error. -/
inductive RogueOp (W K V : Type) where
  | insert (k : K) (v : V)
  | replace (k : K) (v : V) (soft : Bool)
  | remove (k : K)
  | get (k : K)
  | peek (k : K)
  | containsKey (k : K)
  | getMut (k : K) (x : RefUse W V)
  | peekMut (k : K) (x : RefUse W V)
  | retain (f : K → V → User W Bool)
  | clear
  | drain
  | reserve
  | getOrInsertWith (k : K) (load : User W (Option V))
  | getMutOrInsertWith (k : K) (load : User W (Option V)) (x : RefUse W V)
  | getRefOrGuard (k : K) (use : GuardUse V)
  | getMutOrGuard (k : K) (x : RefUse W V) (use : GuardUse V)

namespace Rogue
open Wild
variable {W K V RS : Type} (u : Rogue W K V RS)

/-- `Cache::insert` (`/repo/src/unsync.rs:336-355`). -/
def insertCall (fu : Fuel) (s : Shard K V) (k : K) (v : V) : Wild W (Shard K V × Req K V RS) := do
  let q ← u.begin
  let h ← call (u.hash k)
  let (s1, q, _) ← u.insert fu s q h k v .insert
  call (u.endReq q.st)
  pure (s1, q)

/-- `Cache::replace` (`/repo/src/unsync.rs:197-228`): `end_request` only on success. -/
def replaceCall (fu : Fuel) (s : Shard K V) (k : K) (v : V) (soft : Bool) :
    Wild W (Shard K V × Req K V RS × Option (K × V)) := do
  let q ← u.begin
  let h ← call (u.hash k)
  let (s1, q, r) ← u.insert fu s q h k v (.replace soft)
  match r with
  | some v' => pure (s1, q, some (k, v'))
  | none => do
    call (u.endReq q.st)
    pure (s1, q, none)

/-- `/repo/src/unsync.rs:255-260`, `282-287`, and `Guard::insert_internal` (`446-461`). -/
def fill (fu : Fuel) (s : Shard K V) (p : Plh) (v : V) : Wild W (Shard K V × Req K V RS) := do
  let q ← u.begin
  let (s1, q, _) ← u.replacePlaceholder fu s q p false v
  call (u.endReq q.st)
  pure (s1, q)

/-- `/repo/src/unsync.rs:251-262`, `278-289`. -/
def getOrInsertToken (fu : Fuel) (s : Shard K V) (k : K) (load : User W (Option V)) :
    Wild W (Shard K V × Bool × Option Nat) := do
  let h ← call (u.hash k)
  match ← u.upsertPlaceholder s h k with
  | (s1, .found idx _) => pure (s1, false, some idx)
  | (s1, .pending p _) =>
    match ← call load with
    | none => pure (s1, true, none)
    | some v => do
      let (s2, _) ← u.fill fu s1 p v
      pure (s2, true, some p.idx)

/-- Using a guard (`/repo/src/unsync.rs:436-475`), or leaking it. -/
def useGuard (fu : Fuel) (s : Shard K V) (p : Plh) : GuardUse V → Wild W (Shard K V)
  | .insert v => do
    let (s1, _) ← u.fill fu s p v
    pure s1
  | .drop => lift (u.removePlaceholder s p)
  | .forget => pure s

/-- One call of the public API (see `Unsync.stepR`). -/
def step (fu : Fuel) (s : Shard K V) : RogueOp W K V → Wild W (Shard K V × Out K V)
  | .insert k v => do
    let (s1, _) ← u.insertCall fu s k v
    pure (s1, .unit)
  | .replace k v soft => do
    let (s1, _, r) ← u.replaceCall fu s k v soft
    pure (s1, .replaced r)
  | .remove k => do
    let h ← call (u.hash k)
    let (s1, r) ← u.remove s h k
    pure (s1, .removed r)
  | .get k => do
    let h ← call (u.hash k)
    let (s1, v) ← u.get s h k
    pure (s1, .value v)
  | .peek k => do
    let h ← call (u.hash k)
    let v ← u.peek s h k
    pure (s, .value v)
  | .containsKey k => do
    let h ← call (u.hash k)
    let b ← u.contains s h k
    pure (s, .bool b)
  | .getMut k x => do
    let h ← call (u.hash k)
    let (s1, r) ← u.getMut s h k
    let s2 ← u.useRef s1 x r
    pure (s2, .value (r.bind (fun x => s1.peekToken x.1)))
  | .peekMut k x => do
    let h ← call (u.hash k)
    let r ← u.peekMut s h k
    let s2 ← u.useRef s x r
    pure (s2, .value (r.bind (fun x => s.peekToken x.1)))
  | .retain f => do
    let s1 ← u.retain s f
    pure (s1, .unit)
  | .clear => pure (s.clear, .unit)
  | .drain => pure (s.drain.1, .items s.drain.2)
  | .reserve => do
    let s1 ← u.reserve s
    pure (s1, .unit)
  | .getOrInsertWith k load => do
    let (s1, called, t) ← u.getOrInsertToken fu s k load
    pure (s1, .loaded called (t.map s1.peekToken))
  | .getMutOrInsertWith k load x => do
    let (s1, called, t) ← u.getOrInsertToken fu s k load
    match t with
    | none => pure (s1, .loaded called none)
    | some idx => do
      let r ← u.peekTokenMut s1 idx
      let s2 ← u.useRef s1 x r
      pure (s2, .loaded called (some (s1.peekToken idx)))
  | .getRefOrGuard k use => do
    let h ← call (u.hash k)
    match ← u.upsertPlaceholder s h k with
    | (s1, .found _ v) => pure (s1, .orGuard (some v))
    | (s1, .pending p _) => do
      let s2 ← u.useGuard fu s1 p use
      pure (s2, .orGuard none)
  | .getMutOrGuard k x use => do
    let h ← call (u.hash k)
    match ← u.upsertPlaceholder s h k with
    | (s1, .found idx v) => do
      let r ← u.peekTokenMut s1 idx
      let s2 ← u.useRef s1 x r
      pure (s2, .orGuard (some v))
    | (s1, .pending p _) => do
      let s2 ← u.useGuard fu s1 p use
      pure (s2, .orGuard none)

/-! ### The critical sections of `sync::Cache` -/

/-- One critical section (see `Sync.stepR`), with the user code called inside it. -/
inductive Sect (W K V : Type) where
  | call (op : RogueOp W K V)
  | upsert (k : K) (h : UInt64)
  | fill (p : Plh) (referenced : Bool) (v : V)
  | abandon (p : Plh)
  | find (k : K) (h : UInt64)
  | load (t : Nat)
  | bump (t : Nat)
  | count (hit : Bool)

/-- Running a critical section. Hashing of the key and `begin_request` happen before the lock is taken; hash and request
state are whatever they are. -/
def sect (fu : Fuel) (s : Shard K V) (q : Req K V RS) : Sect W K V → Wild W (Shard K V × SOut K V × Req K V RS)
  | .call op => do
    let (s1, out) ← u.step fu s op
    pure (s1, .call out, q)
  | .upsert k h => do
    match ← u.upsertPlaceholder s h k with
    | (s1, .found _ v) => pure (s1, .found v, q)
    | (s1, .pending p new) => pure (s1, .pending p new, q)
  | .fill p referenced v => do
    let (s1, q1, r) ← u.replacePlaceholder fu s q p referenced v
    pure (s1, .filled r, q1)
  | .abandon p => do
    let s1 ← lift (u.removePlaceholder s p)
    pure (s1, .unit, q)
  | .find k h => do
    let r ← u.searchResident s h k
    pure (s, .located (r.map (fun x => (x.1, x.2.value))), q)
  | .load t =>
    match s.entries.get t with
    | some (.resident r, _) => pure (s, .counter r.referenced, q)
    | _ => lift (.error .unreachable)
  | .bump t =>
    match s.entries.get t with
    | some (.resident r, _) =>
      pure (s.setEntry t (.resident { r with referenced := (r.referenced + 1) % 2 ^ 16 }), .unit, q)
    | _ => lift (.error .unreachable)
  | .count hit => pure (if hit then { s with hits := s.hits + 1 } else { s with misses := s.misses + 1 }, .unit, q)

end Rogue
end QuickCache
