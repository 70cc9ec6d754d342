import Verif.Model.Unsync

/-!
# Panics of user code

The functions of `/repo/src/shard.rs` and `/repo/src/unsync.rs` once more, this time recording at every call of user code
(hashing, comparison, the weighter, the lifecycle, closures, loaders) what would be left of the shard if that call panicked
and the panic were caught further up. The functions do exactly what those of `Verif.Model.Shard` and `Verif.Model.Unsync` do
(`C71_agree`).

Destructors of keys and values are assumed not to panic. If hashing panics while hashbrown rehashes its table in place, the
table may lose entries; only the case in which it grows, and stays as it was, is represented (site `rehash`).
-/

namespace QuickCache
variable {K V RS : Type}

/-- The places at which user code is called (lines of `/repo/src/shard.rs` unless stated otherwise). -/
inductive Site where
  /-- hashing the key of the call (`/repo/src/unsync.rs:149-347`) -/
  | hashKey
  /-- `Equivalent::equivalent` (439, 462, 483) -/
  | compare
  /-- the closure of `retain` (345) -/
  | closure
  /-- hashing in `retain` (346) -/
  | hashRetain
  /-- a loader, or other code running while a guard is held (`/repo/src/unsync.rs:255`, `281`) -/
  | loader
  /-- code running while a `RefMut` is held -/
  | write
  /-- `to_owned` (1043, 1058) -/
  | toOwned
  /-- `begin_request` (`/repo/src/unsync.rs:219`, `256`, `282`, `344`, `448`) -/
  | beginRequest
  /-- `end_request` (`/repo/src/unsync.rs:204`, `258`, `285`, `339`, `458`) -/
  | endRequest
  /-- the admission check of `insert` (945, 947, 948, 949) -/
  | weighNew | pinnedNew | beforeNew | reweighNew
  /-- `is_pinned` and the first `weight` of a candidate for eviction (643, 651, 689, 705) -/
  | pinnedCold | weighCold | pinnedHot | weighHot
  /-- the other calls made for a victim of `advance_cold` (653, 654, 658, 671) -/
  | beforeCold | reweighCold | hashCold | onCold
  /-- the other calls made for a victim of `advance_hot` (707, 708, 712, 718) -/
  | beforeHot | reweighHot | hashHot | onHot
  /-- `weight` of an item being promoted (631) -/
  | weighPromoted
  /-- `weight` of an item being removed (587) -/
  | weighRemoved
  /-- `weight` of the value being replaced (788), and handing it to `on_evict` (803) -/
  | weighReplaced | onReplaced
  /-- `on_evict` of the old and of the new item in `handle_insert_overweight` (1002, 1008) -/
  | onOverweightOld | onOverweight
  /-- the admission check of `replace_placeholder` (883, 885, 886, 887) -/
  | weighLoad | pinnedLoad | beforeLoad | reweighLoad
  /-- `on_evict` in `handle_overweight_replace_placeholder` (933) -/
  | onOverweightLoad
  /-- `weight` when a `RefMut` is created (524, 544) and when it is dropped (1115) -/
  | weighRef | weighDrop
  /-- hashing while the hash table grows (328, 844) -/
  | rehash
  deriving DecidableEq, Repr

/-- A call of user code and what is left if it panics: the shard after unwinding, or, if there is a second panic during
unwinding, nothing (the process is aborted). -/
structure Point (K V : Type) where
  site : Site
  left : Res (Shard K V)

/-- A computation with the calls of user code it makes. -/
structure U (K V α : Type) where
  points : List (Point K V)
  run : Res α

namespace U

/-- One computation after the other. -/
protected def bind {α β : Type} (x : U K V α) (f : α → U K V β) : U K V β :=
  match x.run with
  | .ok a => ⟨x.points ++ (f a).points, (f a).run⟩
  | .error p => ⟨x.points, .error p⟩

instance : Monad (U K V) where
  pure a := ⟨[], .ok a⟩
  bind := U.bind

/-- A computation without calls of user code. -/
def lift {α : Type} (x : Res α) : U K V α := ⟨[], x⟩

/-- A call of user code. A panic there leaves the shard `s`. -/
def user (site : Site) (s : Shard K V) : U K V PUnit := ⟨[⟨site, .ok s⟩], .ok ⟨⟩⟩

/-- Calls of user code during `x` whose panic runs the destructor `f` on the way out. -/
def dropping {α : Type} (f : Shard K V → Res (Shard K V)) (x : U K V α) : U K V α :=
  ⟨x.points.map (fun p => { p with left := p.left >>= f }), x.run⟩

end U

namespace Unwind
open U

/-- `Shard.searchLoop` (`/repo/src/shard.rs:432-449`). -/
def searchLoop (s : Shard K V) (h : UInt64) (eqv : K → Bool) : List Nat → Option Nat → U K V (Option Nat)
  | [], hashMatch => pure hashMatch
  | idx :: rest, hashMatch =>
    match s.entries.get idx with
    | none => lift (.error .unwrapNone)
    | some (.resident r, _) => do
      user .compare s
      if eqv r.key then pure (some idx) else searchLoop s h eqv rest hashMatch
    | some (.placeholder p, _) => do
      user .compare s
      if eqv p.key then pure (some idx) else searchLoop s h eqv rest hashMatch
    | some (.ghost g, _) => searchLoop s h eqv rest (if g = h then some idx else hashMatch)

/-- `Shard.search` (`/repo/src/shard.rs:427-450`). -/
def search (s : Shard K V) (h : UInt64) (eqv : K → Bool) : U K V (Option Nat) := searchLoop s h eqv (s.iterHash h) none

/-- `Shard.searchResidentLoop` (`/repo/src/shard.rs:458-468`). -/
def searchResidentLoop (s : Shard K V) (eqv : K → Bool) : List Nat → U K V (Option (Nat × Resident K V))
  | [] => pure none
  | idx :: rest =>
    match s.entries.get idx with
    | none => lift (.error .unwrapNone)
    | some (.resident r, _) => do
      user .compare s
      if eqv r.key then pure (some (idx, r)) else searchResidentLoop s eqv rest
    | some _ => searchResidentLoop s eqv rest

/-- `Shard.searchResident` (`/repo/src/shard.rs:452-474`). -/
def searchResident (s : Shard K V) (h : UInt64) (eqv : K → Bool) : U K V (Option (Nat × Resident K V)) :=
  searchResidentLoop s eqv (s.iterHash h)

/-- `Shard.rehash` (`/repo/src/shard.rs:323-332`, `839-848`): a panic leaves the old table. -/
def rehash (c : Cfg K V RS) (s : Shard K V) : List (UInt64 × Nat) → U K V (List (UInt64 × Nat))
  | [] => pure []
  | (_, t) :: m =>
    match s.entries.get t with
    | none => lift (.error .unwrapNone)
    | some (.ghost g, _) => do
      let m' ← rehash c s m
      pure ((g, t) :: m')
    | some (.resident r, _) => do
      user .rehash s
      let m' ← rehash c s m
      pure ((c.hash r.key, t) :: m')
    | some (.placeholder p, _) => do
      user .rehash s
      let m' ← rehash c s m
      pure ((c.hash p.key, t) :: m')

/-- `Shard.mapInsert` (`/repo/src/shard.rs:837-849`). -/
def mapInsert (c : Cfg K V RS) (s : Shard K V) (h : UInt64) (idx : Nat) : U K V (Shard K V) := do
  let m ← rehash c s s.map
  pure { s with map := m ++ [(h, idx)] }

/-- `Shard.reserve` (`/repo/src/shard.rs:318-333`). -/
def reserve (c : Cfg K V RS) (s : Shard K V) : U K V (Shard K V) := do
  let m ← rehash c s s.map
  pure { s with map := m }

/-- `Shard.get` (`/repo/src/shard.rs:488-506`). -/
def get (s : Shard K V) (h : UInt64) (eqv : K → Bool) : U K V (Shard K V × Option V) := do
  match ← searchResident s h eqv with
  | some (idx, r) =>
    let s1 := if r.referenced < MAX_F then
        s.setEntry idx (.resident { r with referenced := (r.referenced + 1) % 2 ^ 16 })
      else s
    pure ({ s1 with hits := s1.hits + 1 }, some r.value)
  | none => pure ({ s with misses := s.misses + 1 }, none)

/-- `Shard.peekTokenMut` (`/repo/src/shard.rs:541-553`). -/
def peekTokenMut (c : Cfg K V RS) (s : Shard K V) (t : Nat) : U K V (Option (Nat × Nat)) :=
  match s.entries.get t with
  | some (.resident r, _) => do
    user .weighRef s
    pure (some (t, c.weight r.key r.value))
  | _ => pure none

/-- `Shard.peekMut` (`/repo/src/shard.rs:563-569`). -/
def peekMut (c : Cfg K V RS) (s : Shard K V) (h : UInt64) (eqv : K → Bool) : U K V (Option (Nat × Nat)) := do
  match ← searchResident s h eqv with
  | some (idx, _) => peekTokenMut c s idx
  | none => pure none

/-- `Shard.getMut` (`/repo/src/shard.rs:508-530`). -/
def getMut (c : Cfg K V RS) (s : Shard K V) (h : UInt64) (eqv : K → Bool) :
    U K V (Shard K V × Option (Nat × Nat)) := do
  match ← searchResident s h eqv with
  | none => pure ({ s with misses := s.misses + 1 }, none)
  | some (idx, _) =>
    match s.entries.get idx with
    | some (.resident r, _) => do
      let s1 := if r.referenced < MAX_F then
          s.setEntry idx (.resident { r with referenced := r.referenced + 1 })
        else s
      let s2 := { s1 with hits := s1.hits + 1 }
      user .weighRef s2
      pure (s2, some (idx, c.weight r.key r.value))
    | _ => lift (.error .unreachable)

/-- `Shard.refMutWrite` (`/repo/src/shard.rs:1080-1121`). A panic while the reference is held drops it, which brings the
weight up to date; a panic of the weighter in that `drop` does not. -/
def refMutWrite (c : Cfg K V RS) (s : Shard K V) (idx oldW : Nat) (f : V → V) : U K V (Shard K V) :=
  match s.entries.get idx with
  | some (.resident r, _) => do
    ⟨[⟨.write, s.refMutWrite c idx oldW f⟩], .ok PUnit.unit⟩
    let v := f r.value
    let s1 := s.setEntry idx (.resident { r with value := v })
    user .weighDrop s1
    let newW := c.weight r.key v
    if oldW ≠ newW then lift (s1.coldChangeWeight idx oldW newW) else pure s1
  | _ => lift (.error .ub)

/-- `Shard.removeInternal` (`/repo/src/shard.rs:581-614`). -/
def removeInternal (c : Cfg K V RS) (s : Shard K V) (h : UInt64) (idx : Nat) :
    U K V (Shard K V × Option (K × V)) := do
  let s ← lift (s.mapRemove h idx)
  match ← lift (s.entries.remove idx) with
  | (_, none) => lift (.error .unwrapNone)
  | (e, some (.resident r, next)) => do
    let s := { s with entries := e }
    user .weighRemoved s
    let n ← lift (csub (s.num r.state) 1)
    let w ← lift (csub (s.wgt r.state) (c.weight r.key r.value))
    let s := (s.setNum r.state n).setWgt r.state w
    let s := if s.head r.state.ring = some idx then s.setHead r.state.ring next else s
    pure (s, some (r.key, r.value))
  | (e, some (.ghost _, next)) => do
    let s := { s with entries := e }
    let n ← lift (csub s.numNonResident 1)
    let s := { s with numNonResident := n }
    let s := if s.head .ghost = some idx then s.setHead .ghost next else s
    pure (s, none)
  | (e, some (.placeholder _, _)) => pure ({ s with entries := e }, none)

/-- `Shard.remove` (`/repo/src/shard.rs:571-579`). -/
def remove (c : Cfg K V RS) (s : Shard K V) (h : UInt64) (eqv : K → Bool) : U K V (Shard K V × Option (K × V)) := do
  match ← search s h eqv with
  | none => pure (s, none)
  | some idx => removeInternal c s h idx

/-- `Shard.retainTokens` (`/repo/src/shard.rs:339-356`). -/
def retainTokens (c : Cfg K V RS) (s : Shard K V) (f : K → V → Bool) : List (UInt64 × Nat) → U K V (List (Nat × UInt64))
  | [] => pure []
  | b :: m =>
    match s.entries.get b.2 with
    | some (.resident r, _) => do
      user .closure s
      if f r.key r.value then retainTokens c s f m
      else do
        user .hashRetain s
        let l ← retainTokens c s f m
        pure ((b.2, c.hash r.key) :: l)
    | _ => retainTokens c s f m

/-- `Shard.retainLoop` (`/repo/src/shard.rs:357-359`). -/
def retainLoop (c : Cfg K V RS) : List (Nat × UInt64) → Shard K V → U K V (Shard K V)
  | [], s => pure s
  | (idx, h) :: l, s => do
    let (s1, _) ← removeInternal c s h idx
    retainLoop c l s1

/-- `Shard.retain` (`/repo/src/shard.rs:335-360`). -/
def retain (c : Cfg K V RS) (s : Shard K V) (f : K → V → Bool) : U K V (Shard K V) := do
  let l ← retainTokens c s f s.map
  retainLoop c l s

/-- `Shard.hotVictim` (`/repo/src/shard.rs:705-721`). -/
def hotVictim (c : Cfg K V RS) (s : Shard K V) (q : Req K V RS) (idx : Nat) (r : Resident K V) :
    U K V (Shard K V × Req K V RS × Bool) := do
  user .weighHot s
  let w ← lift (csub s.weightHot (c.weight r.key r.value))
  user .beforeHot { s with weightHot := w }
  let (q1, v1) := q.before c r.key r.value
  let s1 := { s.setEntry idx (.resident { r with value := v1 }) with weightHot := w }
  user .reweighHot s1
  if c.weight r.key v1 = 0 then
    let s2 ← lift (s1.unlinkFrom .hot idx)
    pure (s2, q1, true)
  else
    let n ← lift (csub s1.numHot 1)
    user .hashHot { s1 with numHot := n }
    let h := c.hash r.key
    match ← lift (s1.entries.remove idx) with
    | (e, some (.resident ev, next)) => do
      let s2 := { s1 with numHot := n, entries := e, hotHead := next }
      user .onHot s2
      let q2 := q1.on c ev.key ev.value
      let s3 ← lift (s2.mapRemove h idx)
      pure (s3, q2, true)
    | _ => lift (.error .ub)

/-- `Shard.advanceHotLoop` (`/repo/src/shard.rs:683-722`). -/
def advanceHotLoop (c : Cfg K V RS) :
    Nat → Shard K V → Req K V RS → Nat → Nat → U K V (Shard K V × Req K V RS × Bool)
  | 0, _, _, _, _ => lift (.error .outOfFuel)
  | fuel + 1, s, q, idx, unpinned =>
    match s.entries.get idx with
    | none => lift (.error .unwrapNone)
    | some (.resident r, next) =>
      if r.state ≠ .hot then lift (.error .debugAssert)
      else do
        user .pinnedHot s
        if c.pinned r.key r.value then
          let s1 := s.setEntry idx (.resident { r with referenced := min r.referenced MAX_F - 1 })
          if unpinned = 0 ∧ some next = s.hotHead then pure (s1, q, false)
          else advanceHotLoop c fuel s1 q next unpinned
        else if r.referenced ≠ 0 then
          let s1 := s.setEntry idx (.resident { r with referenced := min r.referenced MAX_F - 1 })
          advanceHotLoop c fuel s1 q next (unpinned + 1)
        else hotVictim c s q idx r
    | some _ => lift (.error .unreachable)

/-- `Shard.advanceHot` (`/repo/src/shard.rs:676-723`). -/
def advanceHot (c : Cfg K V RS) (s : Shard K V) (q : Req K V RS) : U K V (Shard K V × Req K V RS × Bool) :=
  match s.hotHead with
  | none => pure (s, q, false)
  | some idx => advanceHotLoop c s.hotFuel s q idx 0

/-- `Shard.evictHotLoop` (`/repo/src/shard.rs:639`). -/
def evictHotLoop (c : Cfg K V RS) : Nat → Shard K V → Req K V RS → U K V (Shard K V × Req K V RS)
  | 0, _, _ => lift (.error .outOfFuel)
  | fuel + 1, s, q =>
    if s.weightTargetHot < s.weightHot then do
      let (s1, q1, b) ← advanceHot c s q
      if b then evictHotLoop c fuel s1 q1 else pure (s1, q1)
    else pure (s, q)

/-- `Shard.coldPromote` (`/repo/src/shard.rs:629-640`). -/
def coldPromote (c : Cfg K V RS) (s : Shard K V) (q : Req K V RS) (idx : Nat) (r : Resident K V) :
    U K V (Shard K V × Req K V RS × Bool) := do
  let s1 := s.setEntry idx (.resident { r with referenced := r.referenced - 1, state := .hot })
  user .weighPromoted s1
  let w := c.weight r.key r.value
  let wh ← lift (cadd s1.weightHot w)
  let wc ← lift (csub s1.weightCold w)
  let nc ← lift (csub s1.numCold 1)
  let s2 := { s1 with weightHot := wh, weightCold := wc, numHot := s1.numHot + 1, numCold := nc }
  let s3 ← lift (s2.unlinkFrom .cold idx)
  let s4 ← lift (s3.linkTo .hot idx)
  let (s5, q5) ← evictHotLoop c s4.evictFuel s4 q
  pure (s5, q5, true)

/-- `Shard.coldVictim` (`/repo/src/shard.rs:651-672`). -/
def coldVictim (c : Cfg K V RS) (s : Shard K V) (q : Req K V RS) (idx : Nat) (r : Resident K V) :
    U K V (Shard K V × Req K V RS × Bool) := do
  user .weighCold s
  let wc ← lift (csub s.weightCold (c.weight r.key r.value))
  user .beforeCold { s with weightCold := wc }
  let (q1, v1) := q.before c r.key r.value
  let s1 := { s.setEntry idx (.resident { r with value := v1 }) with weightCold := wc }
  user .reweighCold s1
  if c.weight r.key v1 = 0 then
    let s2 ← lift (s1.unlinkFrom .cold idx)
    pure (s2, q1, true)
  else
    user .hashCold s1
    let h := c.hash r.key
    let s2 := s1.setEntry idx (.ghost h)
    let s3 ← lift (s2.unlinkFrom .cold idx)
    let s4 ← lift (s3.linkTo .ghost idx)
    let nc ← lift (csub s4.numCold 1)
    let s5 := { s4 with numCold := nc, numNonResident := s4.numNonResident + 1 }
    let s6 ← lift (if s5.capacityNonResident < s5.numNonResident then s5.advanceGhost else .ok s5)
    user .onCold s6
    pure (s6, q1.on c r.key v1, true)

/-- `Shard.advanceColdLoop` (`/repo/src/shard.rs:622-673`). -/
def advanceColdLoop (c : Cfg K V RS) :
    Nat → Shard K V → Req K V RS → Nat → U K V (Shard K V × Req K V RS × Bool)
  | 0, _, _, _ => lift (.error .outOfFuel)
  | fuel + 1, s, q, idx =>
    match s.entries.get idx with
    | none => lift (.error .unwrapNone)
    | some (.resident r, next) =>
      if r.state ≠ .cold then lift (.error .debugAssert)
      else if r.referenced ≠ 0 then coldPromote c s q idx r
      else do
        user .pinnedCold s
        if c.pinned r.key r.value then
          if some next = s.coldHead then advanceHot c s q
          else advanceColdLoop c fuel s q next
        else coldVictim c s q idx r
    | some _ => lift (.error .unreachable)

/-- `Shard.advanceCold` (`/repo/src/shard.rs:616-674`). -/
def advanceCold (c : Cfg K V RS) (s : Shard K V) (q : Req K V RS) : U K V (Shard K V × Req K V RS × Bool) :=
  match s.coldHead with
  | none => advanceHot c s q
  | some idx => advanceColdLoop c (s.entries.entries.length + 1) s q idx

/-- `Shard.evictLoop` (`/repo/src/shard.rs:833`, `915-917`, `964-966`). -/
def evictLoop (c : Cfg K V RS) (extra : Nat) : Nat → Shard K V → Req K V RS → U K V (Shard K V × Req K V RS)
  | 0, _, _ => lift (.error .outOfFuel)
  | fuel + 1, s, q => do
    let t ← lift (cadd s.weightHot s.weightCold)
    let t ← lift (cadd t extra)
    if s.weightCapacity < t then
      let (s1, q1, b) ← advanceCold c s q
      if b then evictLoop c extra fuel s1 q1 else pure (s1, q1)
    else pure (s, q)

/-- `Shard.insertExisting` (`/repo/src/shard.rs:739-835`). -/
def insertExisting (c : Cfg K V RS) (s : Shard K V) (q : Req K V RS) (idx : Nat) (key : K) (value : V) (w : Nat)
    (strategy : Strategy) : U K V (Shard K V × Req K V RS × Option V) :=
  match s.entries.get idx with
  | none => lift (.error .unwrapNone)
  | some (.resident r, _) => do
    let bump := if strategy = .replace true then 0 else 1
    let ref := min (min (r.referenced + bump) (2 ^ 16 - 1)) MAX_F
    let s1 := s.setEntry idx (.resident { key := key, value := value, state := r.state, referenced := ref })
    user .weighReplaced s1
    let ew := c.weight r.key r.value
    let w1 ← lift (csub (s1.wgt r.state) ew)
    let w2 ← lift (cadd w1 w)
    let s2 := s1.setWgt r.state w2
    let s3 ← lift (s2.relink r.state idx ew w)
    user .onReplaced s3
    let q1 := q.on c r.key r.value
    let (s4, q2) ← evictLoop c 0 s3.evictFuel s3 q1
    pure (s4, q2, none)
  | some (.ghost _, _) =>
    match strategy with
    | .replace _ => pure (s, q, some value)
    | .insert => do
      let s1 := s.setEntry idx (.resident { key := key, value := value, state := .hot, referenced := 0 })
      let wh ← lift (cadd s1.weightHot w)
      let nn ← lift (csub s1.numNonResident 1)
      let s2 := { s1 with weightHot := wh, numHot := s1.numHot + 1, numNonResident := nn }
      let s3 ← lift (s2.unlinkGhost idx)
      let s4 ← lift (s3.linkNew .hot idx w)
      let (s5, q2) ← evictLoop c 0 s4.evictFuel s4 q
      pure (s5, q2, none)
  | some (.placeholder ph, _) =>
    match strategy with
    | .replace _ => pure (s, q, some value)
    | .insert => do
      let s1 := s.setEntry idx (.resident { key := key, value := value, state := ph.hot, referenced := 1 })
      let w1 ← lift (cadd (s1.wgt ph.hot) w)
      let s2 := (s1.setNum ph.hot (s1.num ph.hot + 1)).setWgt ph.hot w1
      let s3 ← lift (s2.linkNew ph.hot idx w)
      let (s4, q2) ← evictLoop c 0 s3.evictFuel s3 q
      pure (s4, q2, none)

/-- `Shard.handleInsertOverweight` (`/repo/src/shard.rs:990-1010`). -/
def handleInsertOverweight [DecidableEq K] (c : Cfg K V RS) (s : Shard K V) (q : Req K V RS) (h : UInt64) (key : K)
    (value : V) (strategy : Strategy) : U K V (Shard K V × Req K V RS × Option V) := do
  let (s1, q1) ← match ← searchResident s h (fun k => k == key) with
    | some (idx, _) => do
      match ← removeInternal c s h idx with
      | (s1, some (ek, ev)) => do
        user .onOverweightOld s1
        pure (s1, q.on c ek ev)
      | (s1, none) => pure (s1, q)
    | none => pure (s, q)
  match strategy with
  | .replace _ => pure (s1, q1, some value)
  | .insert => do
    user .onOverweight s1
    pure (s1, q1.on c key value, none)

/-- `Shard.insertNew` (`/repo/src/shard.rs:961-987`). -/
def insertNew (c : Cfg K V RS) (s : Shard K V) (q : Req K V RS) (h : UInt64) (key : K) (value : V) (w : Nat) :
    U K V (Shard K V × Req K V RS) := do
  let hw ← lift (cadd s.weightHot w)
  let enterHot := decide (hw ≤ s.weightTargetHot)
  let (s1, q1) ← evictLoop c w s.evictFuel s q
  let st : St := if enterHot then .hot else .cold
  let w1 ← lift (cadd (s1.wgt st) w)
  let s2 := (s1.setNum st (s1.num st + 1)).setWgt st w1
  let (e, idx) ← lift (s2.entries.insert (.resident { key := key, value := value, state := st, referenced := 0 }))
  let s3 := { s2 with entries := e }
  let s4 ← lift (s3.linkNew st idx w)
  let s5 ← mapInsert c s4 h idx
  pure (s5, q1)

/-- `Shard.insertAdmitted` (`/repo/src/shard.rs:955-988`). -/
def insertAdmitted [DecidableEq K] (c : Cfg K V RS) (s : Shard K V) (q : Req K V RS) (h : UInt64) (key : K) (value : V)
    (w : Nat) (strategy : Strategy) : U K V (Shard K V × Req K V RS × Option V) := do
  match ← search s h (fun k => k == key) with
  | some idx => insertExisting c s q idx key value w strategy
  | none =>
    match strategy with
    | .replace _ => pure (s, q, some value)
    | .insert => do
      let (s1, q1) ← insertNew c s q h key value w
      pure (s1, q1, none)

/-- `Shard.insert` (`/repo/src/shard.rs:937-988`). -/
def insert [DecidableEq K] (c : Cfg K V RS) (s : Shard K V) (q : Req K V RS) (h : UInt64) (key : K) (value : V)
    (strategy : Strategy) : U K V (Shard K V × Req K V RS × Option V) := do
  user .weighNew s
  let w := c.weight key value
  if s.weightTargetHot < w then
    user .pinnedNew s
    if c.pinned key value = false then
      user .beforeNew s
      let (q1, v1) := q.before c key value
      user .reweighNew s
      let w1 := c.weight key v1
      if s.weightTargetHot < w1 then handleInsertOverweight c s q1 h key v1 strategy
      else insertAdmitted c s q1 h key v1 w1 strategy
    else insertAdmitted c s q h key value w strategy
  else insertAdmitted c s q h key value w strategy

/-- `Shard.handleOverweightReplacePlaceholder` (`/repo/src/shard.rs:923-935`). -/
def handleOverweightReplacePlaceholder (c : Cfg K V RS) (s : Shard K V) (q : Req K V RS) (p : Plh) (key : K)
    (value : V) : U K V (Shard K V × Req K V RS) := do
  let (e, _) ← lift (s.entries.remove p.idx)
  let s1 := { s with entries := e }
  let s2 ← lift (s1.mapRemove p.hash p.idx)
  user .onOverweightLoad s2
  pure (s2, q.on c key value)

/-- `Shard.replacePlaceholderAdmit` (`/repo/src/shard.rs:893-920`). -/
def replacePlaceholderAdmit (c : Cfg K V RS) (s : Shard K V) (q : Req K V RS) (p : Plh) (key : K) (plhHot : St)
    (referenced : Bool) (value : V) (w : Nat) : U K V (Shard K V × Req K V RS) := do
  let t ← lift (cadd s.weightHot s.weightCold)
  let t ← lift (cadd t w)
  let st : St := if t ≤ s.weightCapacity then .hot else plhHot
  let ref := if referenced then 1 else 0
  let s1 := s.setEntry p.idx (.resident { key := key, value := value, state := st, referenced := ref })
  let w1 ← lift (cadd (s1.wgt st) w)
  let s2 := (s1.setNum st (s1.num st + 1)).setWgt st w1
  if w ≠ 0 then
    let s3 ← lift (s2.linkTo st.ring p.idx)
    evictLoop c 0 s3.evictFuel s3 q
  else pure (s2, q)

/-- `Shard.replacePlaceholder` (`/repo/src/shard.rs:861-921`). -/
def replacePlaceholder (c : Cfg K V RS) (s : Shard K V) (q : Req K V RS) (p : Plh) (referenced : Bool) (value : V) :
    U K V (Shard K V × Req K V RS × Option V) :=
  match s.entries.get p.idx with
  | some (.placeholder ph, _) =>
    if c.sameAs ph.shared p then do
      let s1 := s.setEntry p.idx (.ghost 0)
      user .weighLoad s1
      let w := c.weight ph.key value
      if s1.weightTargetHot < w then
        user .pinnedLoad s1
        if c.pinned ph.key value = false then
          user .beforeLoad s1
          let (q1, v1) := q.before c ph.key value
          user .reweighLoad s1
          let w1 := c.weight ph.key v1
          if s1.weightTargetHot < w1 then
            let (s2, q2) ← handleOverweightReplacePlaceholder c s1 q1 p ph.key v1
            pure (s2, q2, none)
          else
            let (s2, q2) ← replacePlaceholderAdmit c s1 q1 p ph.key ph.hot referenced v1 w1
            pure (s2, q2, none)
        else
          let (s2, q2) ← replacePlaceholderAdmit c s1 q p ph.key ph.hot referenced value w
          pure (s2, q2, none)
      else
        let (s2, q2) ← replacePlaceholderAdmit c s1 q p ph.key ph.hot referenced value w
        pure (s2, q2, none)
    else pure (s, q, some value)
  | _ => pure (s, q, some value)

/-- `Shard.upsertPlaceholder` (`/repo/src/shard.rs:1012-1067`). -/
def upsertPlaceholder (c : Cfg K V RS) (s : Shard K V) (h : UInt64) (eqv : K → Bool) (key : K) :
    U K V (Shard K V × Shard.Upsert V) := do
  match ← search s h eqv with
  | some idx =>
    match s.entries.get idx with
    | none => lift (.error .unwrapNone)
    | some (.resident r, _) =>
      let s1 := if r.referenced < MAX_F then
          s.setEntry idx (.resident { r with referenced := r.referenced + 1 })
        else s
      pure ({ s1 with hits := s1.hits + 1 }, .found idx r.value)
    | some (.placeholder p, _) => pure ({ s with hits := s.hits + 1 }, .pending p.shared false)
    | some (.ghost _, _) => do
      let shared : Plh := { id := s.nextPlh, hash := h, idx := idx }
      user .toOwned s
      let s1 := { s.setEntry idx (.placeholder { key := key, hot := .hot, shared := shared }) with
          nextPlh := s.nextPlh + 1 }
      let n ← lift (csub s1.numNonResident 1)
      let s2 := { s1 with numNonResident := n }
      let s3 ← lift (s2.unlinkGhost idx)
      pure ({ s3 with misses := s3.misses + 1 }, .pending shared true)
  | none => do
    let idx := s.entries.nextFree
    let shared : Plh := { id := s.nextPlh, hash := h, idx := idx }
    user .toOwned s
    let (e, idx') ← lift (s.entries.insert (.placeholder { key := key, hot := .cold, shared := shared }))
    if idx ≠ idx' then lift (.error .debugAssert)
    else
      let s1 := { s with nextPlh := s.nextPlh + 1, entries := e }
      let s2 ← mapInsert c s1 h idx
      pure ({ s2 with misses := s2.misses + 1 }, .pending shared true)

/-! ### `unsync.rs` -/

/-- `Unsync.insert` (`/repo/src/unsync.rs:336-355`). -/
def cacheInsert [DecidableEq K] (c : Cfg K V RS) (s : Shard K V) (k : K) (v : V) : U K V (Shard K V × Req K V RS) := do
  user .beginRequest s
  user .hashKey s
  let (s1, q, r) ← insert c s c.begin (c.hash k) k v .insert
  if r.isSome then lift (.error .debugAssert)
  else
    user .endRequest s1
    pure (s1, q)

/-- `Unsync.replace` (`/repo/src/unsync.rs:197-228`). -/
def cacheReplace [DecidableEq K] (c : Cfg K V RS) (s : Shard K V) (k : K) (v : V) (soft : Bool) :
    U K V (Shard K V × Req K V RS × Option (K × V)) := do
  user .beginRequest s
  user .hashKey s
  let (s1, q, r) ← insert c s c.begin (c.hash k) k v (.replace soft)
  if r.isSome then pure (s1, q, r.map (fun v' => (k, v')))
  else
    user .endRequest s1
    pure (s1, q, none)

/-- `Unsync.writeRef`. -/
def writeRef (c : Cfg K V RS) (s : Shard K V) (f : V → V) : Option (Nat × Nat) → U K V (Shard K V)
  | none => pure s
  | some (idx, oldW) => refMutWrite c s idx oldW f

/-- The part of `Unsync.fill` before `end_request` (`/repo/src/unsync.rs:256-259`, `282-284`, `448-453`). -/
def fill (c : Cfg K V RS) (s : Shard K V) (p : Plh) (v : V) : U K V (Shard K V × Req K V RS) := do
  user .beginRequest s
  let (s1, q, r) ← replacePlaceholder c s c.begin p false v
  if r.isSome then lift (.error .debugAssert) else pure (s1, q)

/-- `Unsync.getOrInsertToken` (`/repo/src/unsync.rs:251-262`, `278-289`). A panic leaves the placeholder behind, like a
loader that fails. -/
def getOrInsertToken [DecidableEq K] (c : Cfg K V RS) (s : Shard K V) (k : K) (load : Option V) :
    U K V (Shard K V × Req K V RS × Bool × Option Nat) := do
  user .hashKey s
  match ← upsertPlaceholder c s (c.hash k) (fun x => x == k) k with
  | (s1, .found idx _) => pure (s1, c.begin, false, some idx)
  | (s1, .pending p _) => do
    user .loader s1
    match load with
    | none => pure (s1, c.begin, true, none)
    | some v => do
      let (s2, q) ← fill c s1 p v
      user .endRequest s2
      pure (s2, q, true, some p.idx)

/-- `Unsync.getOrInsertWith` (`/repo/src/unsync.rs:240-264`). -/
def getOrInsertWith [DecidableEq K] (c : Cfg K V RS) (s : Shard K V) (k : K) (load : Option V) :
    U K V (Shard K V × Req K V RS × Bool × Option (Option V)) := do
  let (s1, q, called, t) ← getOrInsertToken c s k load
  pure (s1, q, called, t.map s1.peekToken)

/-- `Unsync.getMutOrInsertWith` (`/repo/src/unsync.rs:266-290`). -/
def getMutOrInsertWith [DecidableEq K] (c : Cfg K V RS) (s : Shard K V) (k : K) (load : Option V) (f : V → V) :
    U K V (Shard K V × Req K V RS × Bool × Option (Option V)) := do
  let (s1, q, called, t) ← getOrInsertToken c s k load
  match t with
  | none => pure (s1, q, called, none)
  | some idx => do
    let r ← peekTokenMut c s1 idx
    let s2 ← writeRef c s1 f r
    pure (s2, q, called, some (s1.peekToken idx))

/-- `Unsync.useGuard` (`/repo/src/unsync.rs:436-475`). A panic while the guard is held, or inside its `insert` up to line
454, drops the guard. -/
def useGuard (c : Cfg K V RS) (s : Shard K V) (p : Plh) (use : GuardUse V) : U K V (Shard K V × Req K V RS) := do
  dropping (fun s => s.removePlaceholder c p) (user .loader s)
  match use with
  | .insert v => do
    let (s1, q) ← dropping (fun s => s.removePlaceholder c p) (fill c s p v)
    user .endRequest s1
    pure (s1, q)
  | .drop => do
    let s1 ← lift (s.removePlaceholder c p)
    pure (s1, c.begin)
  | .forget => pure (s, c.begin)

/-- `Unsync.getRefOrGuard` (`/repo/src/unsync.rs:292-313`). -/
def getRefOrGuard [DecidableEq K] (c : Cfg K V RS) (s : Shard K V) (k : K) (use : GuardUse V) :
    U K V (Shard K V × Req K V RS × Option V) := do
  user .hashKey s
  match ← upsertPlaceholder c s (c.hash k) (fun x => x == k) k with
  | (s1, .found _ v) => pure (s1, c.begin, some v)
  | (s1, .pending p _) => do
    let (s2, q) ← useGuard c s1 p use
    pure (s2, q, none)

/-- `Unsync.getMutOrGuard` (`/repo/src/unsync.rs:315-334`). -/
def getMutOrGuard [DecidableEq K] (c : Cfg K V RS) (s : Shard K V) (k : K) (f : V → V) (use : GuardUse V) :
    U K V (Shard K V × Req K V RS × Option V) := do
  user .hashKey s
  match ← upsertPlaceholder c s (c.hash k) (fun x => x == k) k with
  | (s1, .found idx v) => do
    let r ← peekTokenMut c s1 idx
    let s2 ← writeRef c s1 f r
    pure (s2, c.begin, some v)
  | (s1, .pending p _) => do
    let (s2, q) ← useGuard c s1 p use
    pure (s2, q, none)

/-- `Unsync.step`: one call of the public API with the calls of user code it makes. -/
def step [DecidableEq K] (c : Cfg K V RS) (s : Shard K V) : Op K V → U K V (Shard K V × Out K V × Req K V RS)
  | .insert k v => do
    let (s1, q) ← cacheInsert c s k v
    pure (s1, .unit, q)
  | .replace k v soft => do
    let (s1, q, r) ← cacheReplace c s k v soft
    pure (s1, .replaced r, q)
  | .remove k => do
    user .hashKey s
    let (s1, r) ← remove c s (c.hash k) (fun x => x == k)
    pure (s1, .removed r, c.begin)
  | .get k => do
    user .hashKey s
    let (s1, v) ← get s (c.hash k) (fun x => x == k)
    pure (s1, .value v, c.begin)
  | .peek k => do
    user .hashKey s
    let r ← searchResident s (c.hash k) (fun x => x == k)
    pure (s, .value (r.map (·.2.value)), c.begin)
  | .containsKey k => do
    user .hashKey s
    let r ← searchResident s (c.hash k) (fun x => x == k)
    pure (s, .bool r.isSome, c.begin)
  | .getMut k f => do
    user .hashKey s
    let (s1, r) ← getMut c s (c.hash k) (fun x => x == k)
    let s2 ← writeRef c s1 f r
    pure (s2, .value (r.bind (fun x => s1.peekToken x.1)), c.begin)
  | .peekMut k f => do
    user .hashKey s
    let r ← peekMut c s (c.hash k) (fun x => x == k)
    let s2 ← writeRef c s f r
    pure (s2, .value (r.bind (fun x => s.peekToken x.1)), c.begin)
  | .retain f => do
    let s1 ← retain c s f
    pure (s1, .unit, c.begin)
  | .clear => pure (s.clear, .unit, c.begin)
  | .drain => pure (s.drain.1, .items s.drain.2, c.begin)
  | .reserve => do
    let s1 ← reserve c s
    pure (s1, .unit, c.begin)
  | .getOrInsertWith k load => do
    let (s1, q, called, r) ← getOrInsertWith c s k load
    pure (s1, .loaded called r, q)
  | .getMutOrInsertWith k load f => do
    let (s1, q, called, r) ← getMutOrInsertWith c s k load f
    pure (s1, .loaded called r, q)
  | .getRefOrGuard k use => do
    let (s1, q, v) ← getRefOrGuard c s k use
    pure (s1, .orGuard v, q)
  | .getMutOrGuard k f use => do
    let (s1, q, v) ← getMutOrGuard c s k f use
    pure (s1, .orGuard v, q)

end Unwind
end QuickCache
