import Verif.Model.Sync

/-!
# The release build

The other files model a build with debug assertions and overflow checks. This one models the code as a release build runs
it (`/repo/Cargo.toml` sets neither `debug-assertions` nor `overflow-checks`): debug assertions are not evaluated, u64 and
usize arithmetic wraps around, and `map_remove` does not panic when nothing is found. What remains as errors: `unwrap` and
`expect` on `None`, `unreachable!()`, vector indices out of bounds, and undefined behaviour (`Panic.ub`), at every
`unreachable_unchecked`, `get_unchecked` and `unwrap_unchecked` of the code.

Only functions that differ are given (`…R`); the others (`search`, `get`, `peek`, `rehash`, `drain` …) contain no debug
check and are shared. The number of loop iterations allowed is a parameter (`Fuel`) here, since in a corrupted state the
loops of the code may run for any time.
-/

namespace QuickCache
variable {K V RS : Type _}

/-- `-=` on u64 and usize in a release build. (`b < 2^64`) -/
def rsub (a b : Nat) : Res Nat := .ok (if b ≤ a then a - b else a + 2 ^ 64 - b)

/-- `+`, `+=` on u64 in a release build. -/
def radd (a b : Nat) : Res Nat := .ok ((a + b) % 2 ^ 64)

/-- The number of iterations granted to the loops of `advance_hot` and `advance_cold` and to the eviction loops, depending
on the number of slots. -/
structure Fuel where
  hot : Nat → Nat
  cold : Nat → Nat
  evict : Nat → Nat

/-- The iterations granted in the model of the debug build (`Shard.hotFuel`, `Shard.advanceCold`, `Shard.evictFuel`). -/
def Fuel.enough : Fuel where
  hot n := 3 * n + 1
  cold n := n + 1
  evict n := 2 * n + 1

/-- At least as many iterations. -/
structure Fuel.le (fu fv : Fuel) : Prop where
  hot : ∀ n, fu.hot n ≤ fv.hot n
  cold : ∀ n, fu.cold n ≤ fv.cold n
  evict : ∀ n, fu.evict n ≤ fv.evict n

namespace Slab
variable {T : Type _}

/-- `LinkedSlab::insert` (`/repo/src/linked_slab.rs:58-83`). -/
def insertR (s : Slab T) (x : T) : Res (Slab T × Nat) :=
  let t := s.nextFree
  match s.entries[t]? with
  | some e => .ok ({ entries := s.entries.modify t (fun _ => ⟨some x, t, t⟩), nextFree := e.next }, t)
  | none =>
    if t + 2 = 2 ^ 32 then .error .slabFull
    else .ok ({ entries := s.entries ++ [⟨some x, t, t⟩], nextFree := t + 1 }, t)

/-- The tail of `LinkedSlab::link` (`/repo/src/linked_slab.rs:152-157`). -/
def linkSelfR (s : Slab T) (idx prev next : Nat) : Res (Slab T × Nat) :=
  match s.entries[idx]? with
  | none => .error .outOfBounds
  | some _ => .ok (s.mod idx (fun e => { e with prev := prev, next := next }), next)

/-- `LinkedSlab::link` (`/repo/src/linked_slab.rs:123-158`). -/
def linkR (s : Slab T) (idx : Nat) (targetHead : Option Nat) : Res (Slab T × Nat) :=
  match targetHead with
  | some h =>
    match s.entries[h]? with
    | none => .error .outOfBounds
    | some head =>
      if head.prev = h then (s.mod h (fun e => { e with prev := idx, next := idx })).linkSelfR idx h h
      else
        let before := head.prev
        let s1 := s.mod h (fun e => { e with prev := idx })
        match s1.entries[before]? with
        | none => .error .outOfBounds
        | some _ => (s1.mod before (fun e => { e with next := idx })).linkSelfR idx before h
  | none => s.linkSelfR idx idx idx

/-- `LinkedSlab::unlink` (`/repo/src/linked_slab.rs:160-187`). -/
def unlinkR (s : Slab T) (idx : Nat) : Res (Slab T × Option Nat) :=
  match s.entries[idx]? with
  | none => .error .outOfBounds
  | some e =>
    let prevIdx := e.prev
    let nextIdx := e.next
    if nextIdx = idx then .ok (s, none)
    else
      let s1 := s.mod idx (fun e => { e with prev := idx, next := idx })
      match s1.entries[nextIdx]? with
      | none => .error .outOfBounds
      | some _ =>
        let s2 := s1.mod nextIdx (fun e => { e with prev := prevIdx })
        match s2.entries[prevIdx]? with
        | none => .error .outOfBounds
        | some _ => .ok (s2.mod prevIdx (fun e => { e with next := nextIdx }), some nextIdx)

/-- `LinkedSlab::remove` (`/repo/src/linked_slab.rs:189-202`). -/
def removeR (s : Slab T) (idx : Nat) : Res (Slab T × Option (T × Option Nat)) := do
  let (s1, next) ← s.unlinkR idx
  match s1.entries[idx]? with
  | none => .error .outOfBounds
  | some e =>
    match e.item with
    | none => .ok (s1, none)
    | some x =>
      .ok ({ entries := s1.entries.modify idx (fun e => { e with item := none, next := s1.nextFree })
             nextFree := idx }, some (x, next))

/-- `LinkedSlab::get_unchecked`, `get_mut_unchecked` (`/repo/src/linked_slab.rs:107-121`). -/
def getUnchecked (s : Slab T) (idx : Nat) : Res (T × Nat) :=
  match s.entries[idx]? with
  | some ⟨some x, next, _⟩ => .ok (x, next)
  | _ => .error .ub

end Slab

namespace Shard

/-- `*head = Some(entries.link(idx, *head))`. -/
def linkToR (s : Shard K V) (i : RingId) (idx : Nat) : Res (Shard K V) := do
  let (e, h) ← s.entries.linkR idx (s.head i)
  .ok ({ s with entries := e }.setHead i (some h))

/-- `*head = entries.unlink(idx)`. -/
def unlinkFromR (s : Shard K V) (i : RingId) (idx : Nat) : Res (Shard K V) := do
  let (e, h) ← s.entries.unlinkR idx
  .ok ({ s with entries := e }.setHead i h)

/-- `/repo/src/shard.rs:201-205`, `798-802`. -/
def relinkR (s : Shard K V) (st : St) (idx oldW newW : Nat) : Res (Shard K V) :=
  if oldW = 0 ∧ newW ≠ 0 then s.linkToR st.ring idx
  else if oldW ≠ 0 ∧ newW = 0 then s.unlinkFromR st.ring idx
  else .ok s

/-- `/repo/src/shard.rs:813-815`, `827-829`, `983-985`. -/
def linkNewR (s : Shard K V) (st : St) (idx w : Nat) : Res (Shard K V) :=
  if w ≠ 0 then s.linkToR st.ring idx else .ok s

/-- Unlinking a ghost (`/repo/src/shard.rs:809-812`, `1048-1051`). -/
def unlinkGhostR (s : Shard K V) (idx : Nat) : Res (Shard K V) := do
  let (e, next) ← s.entries.unlinkR idx
  let s1 := { s with entries := e }
  .ok (if s1.ghostHead = some idx then { s1 with ghostHead := next } else s1)

/-- `map_remove` (`/repo/src/shard.rs:851-859`) without the debug panic. -/
def mapRemoveR (s : Shard K V) (h : UInt64) (idx : Nat) : Res (Shard K V) :=
  .ok { s with map := s.map.eraseP (fun b => s.probe h b.1 && b.2 == idx) }

/-- `weight` (`/repo/src/shard.rs:362-364`). -/
def weightR (s : Shard K V) : Res Nat := radd s.weightHot s.weightCold

/-- `cold_change_weight` (`/repo/src/shard.rs:188-206`). -/
def coldChangeWeightR (s : Shard K V) (idx oldW newW : Nat) : Res (Shard K V) :=
  match s.entries.get idx with
  | some (.resident r, _) => do
    let w ← rsub (s.wgt r.state) oldW
    let w ← radd w newW
    (s.setWgt r.state w).relinkR r.state idx oldW newW
  | _ => .error .unreachable

/-- `RefMut::pair` and `RefMut::value_mut` (`/repo/src/shard.rs:1080-1106`). -/
def refMutPair (s : Shard K V) (idx : Nat) : Res (Resident K V) := do
  match ← s.entries.getUnchecked idx with
  | (.resident r, _) => .ok r
  | _ => .error .ub

/-- Writing through a `RefMut` (`value_mut`, `/repo/src/shard.rs:1094-1106`) and dropping it (`pair`, `1080-1092`, and
`Drop for RefMut`, `1109-1121`). -/
def refMutWriteR (c : Cfg K V RS) (s : Shard K V) (idx oldW : Nat) (f : V → V) : Res (Shard K V) := do
  let r ← s.refMutPair idx
  let s1 := s.setEntry idx (.resident { r with value := f r.value })
  let r1 ← s1.refMutPair idx
  let newW := c.weight r1.key r1.value
  if oldW ≠ newW then s1.coldChangeWeightR idx oldW newW else .ok s1

/-- `remove_internal` (`/repo/src/shard.rs:581-614`). -/
def removeInternalR (c : Cfg K V RS) (s : Shard K V) (h : UInt64) (idx : Nat) :
    Res (Shard K V × Option (K × V)) := do
  let s ← s.mapRemoveR h idx
  match ← s.entries.removeR idx with
  | (_, none) => .error .unwrapNone
  | (e, some (.resident r, next)) =>
    let s := { s with entries := e }
    let n ← rsub (s.num r.state) 1
    let w ← rsub (s.wgt r.state) (c.weight r.key r.value)
    let s := (s.setNum r.state n).setWgt r.state w
    let s := if s.head r.state.ring = some idx then s.setHead r.state.ring next else s
    .ok (s, some (r.key, r.value))
  | (e, some (.ghost _, next)) =>
    let s := { s with entries := e }
    let n ← rsub s.numNonResident 1
    let s := { s with numNonResident := n }
    let s := if s.head .ghost = some idx then s.setHead .ghost next else s
    .ok (s, none)
  | (e, some (.placeholder _, _)) => .ok ({ s with entries := e }, none)

/-- `remove` (`/repo/src/shard.rs:571-579`). -/
def removeR (c : Cfg K V RS) (s : Shard K V) (h : UInt64) (eqv : K → Bool) :
    Res (Shard K V × Option (K × V)) := do
  match ← s.search h eqv with
  | none => .ok (s, none)
  | some idx => s.removeInternalR c h idx

/-- The loop of `retain` (`/repo/src/shard.rs:357-359`). -/
def retainLoopR (c : Cfg K V RS) : List (Nat × UInt64) → Shard K V → Res (Shard K V)
  | [], s => .ok s
  | (idx, h) :: l, s => do
    let (s1, _) ← s.removeInternalR c h idx
    retainLoopR c l s1

/-- `retain` (`/repo/src/shard.rs:335-360`). -/
def retainR (c : Cfg K V RS) (s : Shard K V) (f : K → V → Bool) : Res (Shard K V) :=
  retainLoopR c (retainTokens c s.entries f s.map) s

/-- The victim branch of `advance_hot` (`/repo/src/shard.rs:705-721`). Anything but a resident coming out of
`entries.remove` is undefined behaviour (`713-716`). -/
def hotVictimR (c : Cfg K V RS) (s : Shard K V) (q : Req K V RS) (idx : Nat) (r : Resident K V) :
    Res (Shard K V × Req K V RS × Bool) := do
  let w ← rsub s.weightHot (c.weight r.key r.value)
  let (q1, v1) := q.before c r.key r.value
  let s1 := { s.setEntry idx (.resident { r with value := v1 }) with weightHot := w }
  if c.weight r.key v1 = 0 then
    let s2 ← s1.unlinkFromR .hot idx
    .ok (s2, q1, true)
  else
    let n ← rsub s1.numHot 1
    let h := c.hash r.key
    match ← s1.entries.removeR idx with
    | (e, some (.resident ev, next)) =>
      let s2 := { s1 with numHot := n, entries := e, hotHead := next }
      let q2 := q1.on c ev.key ev.value
      let s3 ← s2.mapRemoveR h idx
      .ok (s3, q2, true)
    | _ => .error .ub

/-- The loop of `advance_hot` (`/repo/src/shard.rs:683-722`). -/
def advanceHotLoopR (c : Cfg K V RS) :
    Nat → Shard K V → Req K V RS → Nat → Nat → Res (Shard K V × Req K V RS × Bool)
  | 0, _, _, _, _ => .error .outOfFuel
  | fuel + 1, s, q, idx, unpinned =>
    match s.entries.get idx with
    | none => .error .unwrapNone
    | some (.resident r, next) =>
      if c.pinned r.key r.value then
        let s1 := s.setEntry idx (.resident { r with referenced := min r.referenced MAX_F - 1 })
        if unpinned = 0 ∧ some next = s.hotHead then .ok (s1, q, false)
        else advanceHotLoopR c fuel s1 q next unpinned
      else if r.referenced ≠ 0 then
        let s1 := s.setEntry idx (.resident { r with referenced := min r.referenced MAX_F - 1 })
        advanceHotLoopR c fuel s1 q next (unpinned + 1)
      else s.hotVictimR c q idx r
    | some _ => .error .unreachable

/-- `advance_hot` (`/repo/src/shard.rs:676-723`). -/
def advanceHotR (fu : Fuel) (c : Cfg K V RS) (s : Shard K V) (q : Req K V RS) :
    Res (Shard K V × Req K V RS × Bool) :=
  match s.hotHead with
  | none => .ok (s, q, false)
  | some idx => advanceHotLoopR c (fu.hot s.entries.entries.length) s q idx 0

/-- `advance_ghost` (`/repo/src/shard.rs:725-737`). -/
def advanceGhostR (s : Shard K V) : Res (Shard K V) := do
  match s.ghostHead with
  | none => .error .unwrapNone
  | some idx =>
    match s.entries.get idx with
    | none => .error .unwrapNone
    | some (.ghost h, _) =>
      let n ← rsub s.numNonResident 1
      let s := { s with numNonResident := n }
      let s ← s.mapRemoveR h idx
      match ← s.entries.removeR idx with
      | (_, none) => .error .unwrapNone
      | (e, some (_, next)) => .ok { s with entries := e, ghostHead := next }
    | some _ => .error .unreachable

/-- `while self.weight_hot > self.weight_target_hot && self.advance_hot(lcs) {}` (`/repo/src/shard.rs:639`). -/
def evictHotLoopR (fu : Fuel) (c : Cfg K V RS) : Nat → Shard K V → Req K V RS → Res (Shard K V × Req K V RS)
  | 0, _, _ => .error .outOfFuel
  | fuel + 1, s, q =>
    if s.weightTargetHot < s.weightHot then do
      let (s1, q1, b) ← s.advanceHotR fu c q
      if b then evictHotLoopR fu c fuel s1 q1 else .ok (s1, q1)
    else .ok (s, q)

/-- The promotion branch of `advance_cold` (`/repo/src/shard.rs:629-640`). -/
def coldPromoteR (fu : Fuel) (c : Cfg K V RS) (s : Shard K V) (q : Req K V RS) (idx : Nat) (r : Resident K V) :
    Res (Shard K V × Req K V RS × Bool) := do
  let s1 := s.setEntry idx (.resident { r with referenced := r.referenced - 1, state := .hot })
  let w := c.weight r.key r.value
  let wh ← radd s1.weightHot w
  let wc ← rsub s1.weightCold w
  let nc ← rsub s1.numCold 1
  let s2 := { s1 with weightHot := wh, weightCold := wc, numHot := s1.numHot + 1, numCold := nc }
  let s3 ← s2.unlinkFromR .cold idx
  let s4 ← s3.linkToR .hot idx
  let (s5, q5) ← evictHotLoopR fu c (fu.evict s4.entries.entries.length) s4 q
  .ok (s5, q5, true)

/-- The victim branch of `advance_cold` (`/repo/src/shard.rs:651-672`). Anything but a resident coming out of
`mem::replace` is undefined behaviour (`659-662`). -/
def coldVictimR (c : Cfg K V RS) (s : Shard K V) (q : Req K V RS) (idx : Nat) (r : Resident K V) :
    Res (Shard K V × Req K V RS × Bool) := do
  let wc ← rsub s.weightCold (c.weight r.key r.value)
  let (q1, v1) := q.before c r.key r.value
  let s1 := { s.setEntry idx (.resident { r with value := v1 }) with weightCold := wc }
  if c.weight r.key v1 = 0 then
    let s2 ← s1.unlinkFromR .cold idx
    .ok (s2, q1, true)
  else
    let h := c.hash r.key
    match s1.entries.get idx with
    | some (.resident ev, _) =>
      let s2 := s1.setEntry idx (.ghost h)
      let s3 ← s2.unlinkFromR .cold idx
      let s4 ← s3.linkToR .ghost idx
      let nc ← rsub s4.numCold 1
      let s5 := { s4 with numCold := nc, numNonResident := s4.numNonResident + 1 }
      let s6 ← if s5.capacityNonResident < s5.numNonResident then s5.advanceGhostR else .ok s5
      .ok (s6, q1.on c ev.key ev.value, true)
    | _ => .error .ub

/-- The loop of `advance_cold` (`/repo/src/shard.rs:622-673`). -/
def advanceColdLoopR (fu : Fuel) (c : Cfg K V RS) :
    Nat → Shard K V → Req K V RS → Nat → Res (Shard K V × Req K V RS × Bool)
  | 0, _, _, _ => .error .outOfFuel
  | fuel + 1, s, q, idx =>
    match s.entries.get idx with
    | none => .error .unwrapNone
    | some (.resident r, next) =>
      if r.referenced ≠ 0 then s.coldPromoteR fu c q idx r
      else if c.pinned r.key r.value then
        if some next = s.coldHead then s.advanceHotR fu c q
        else advanceColdLoopR fu c fuel s q next
      else s.coldVictimR c q idx r
    | some _ => .error .unreachable

/-- `advance_cold` (`/repo/src/shard.rs:616-674`). -/
def advanceColdR (fu : Fuel) (c : Cfg K V RS) (s : Shard K V) (q : Req K V RS) :
    Res (Shard K V × Req K V RS × Bool) :=
  match s.coldHead with
  | none => s.advanceHotR fu c q
  | some idx => advanceColdLoopR fu c (fu.cold s.entries.entries.length) s q idx

/-- `while self.weight_hot + self.weight_cold + extra > self.weight_capacity && self.advance_cold(lcs) {}`
(`/repo/src/shard.rs:833`, `915-917`, `964-966`). -/
def evictLoopR (fu : Fuel) (c : Cfg K V RS) (extra : Nat) :
    Nat → Shard K V → Req K V RS → Res (Shard K V × Req K V RS)
  | 0, _, _ => .error .outOfFuel
  | fuel + 1, s, q => do
    let t ← radd s.weightHot s.weightCold
    let t ← radd t extra
    if s.weightCapacity < t then
      let (s1, q1, b) ← s.advanceColdR fu c q
      if b then evictLoopR fu c extra fuel s1 q1 else .ok (s1, q1)
    else .ok (s, q)

/-- `insert_existing` (`/repo/src/shard.rs:739-835`). -/
def insertExistingR (fu : Fuel) (c : Cfg K V RS) (s : Shard K V) (q : Req K V RS) (idx : Nat) (key : K) (value : V)
    (w : Nat) (strategy : Strategy) : Res (Shard K V × Req K V RS × Option V) := do
  match s.entries.get idx with
  | none => .error .unwrapNone
  | some (.resident r, _) =>
    let bump := if strategy = .replace true then 0 else 1
    let ref := min (min (r.referenced + bump) (2 ^ 16 - 1)) MAX_F
    let s1 := s.setEntry idx (.resident { key := key, value := value, state := r.state, referenced := ref })
    let ew := c.weight r.key r.value
    let w1 ← rsub (s1.wgt r.state) ew
    let w2 ← radd w1 w
    let s2 := s1.setWgt r.state w2
    let s3 ← s2.relinkR r.state idx ew w
    let q1 := q.on c r.key r.value
    let (s4, q2) ← evictLoopR fu c 0 (fu.evict s3.entries.entries.length) s3 q1
    .ok (s4, q2, none)
  | some (.ghost _, _) =>
    match strategy with
    | .replace _ => .ok (s, q, some value)
    | .insert =>
      let s1 := s.setEntry idx (.resident { key := key, value := value, state := .hot, referenced := 0 })
      let wh ← radd s1.weightHot w
      let nn ← rsub s1.numNonResident 1
      let s2 := { s1 with weightHot := wh, numHot := s1.numHot + 1, numNonResident := nn }
      let s3 ← s2.unlinkGhostR idx
      let s4 ← s3.linkNewR .hot idx w
      let (s5, q2) ← evictLoopR fu c 0 (fu.evict s4.entries.entries.length) s4 q
      .ok (s5, q2, none)
  | some (.placeholder ph, _) =>
    match strategy with
    | .replace _ => .ok (s, q, some value)
    | .insert =>
      let s1 := s.setEntry idx (.resident { key := key, value := value, state := ph.hot, referenced := 1 })
      let w1 ← radd (s1.wgt ph.hot) w
      let s2 := (s1.setNum ph.hot (s1.num ph.hot + 1)).setWgt ph.hot w1
      let s3 ← s2.linkNewR ph.hot idx w
      let (s4, q2) ← evictLoopR fu c 0 (fu.evict s3.entries.entries.length) s3 q
      .ok (s4, q2, none)

/-- `handle_insert_overweight` (`/repo/src/shard.rs:990-1010`). -/
def handleInsertOverweightR [DecidableEq K] (c : Cfg K V RS) (s : Shard K V) (q : Req K V RS) (h : UInt64) (key : K)
    (value : V) (strategy : Strategy) : Res (Shard K V × Req K V RS × Option V) := do
  let (s1, q1) ← match ← s.searchResident h (fun k => k == key) with
    | some (idx, _) => do
      match ← s.removeInternalR c h idx with
      | (s1, some (ek, ev)) => .ok (s1, q.on c ek ev)
      | (s1, none) => .ok (s1, q)
    | none => .ok (s, q)
  match strategy with
  | .replace _ => .ok (s1, q1, some value)
  | .insert => .ok (s1, q1.on c key value, none)

/-- The tail of `insert` for a key without entry (`/repo/src/shard.rs:961-987`). -/
def insertNewR (fu : Fuel) (c : Cfg K V RS) (s : Shard K V) (q : Req K V RS) (h : UInt64) (key : K) (value : V)
    (w : Nat) : Res (Shard K V × Req K V RS) := do
  let hw ← radd s.weightHot w
  let enterHot := decide (hw ≤ s.weightTargetHot)
  let (s1, q1) ← evictLoopR fu c w (fu.evict s.entries.entries.length) s q
  let st : St := if enterHot then .hot else .cold
  let w1 ← radd (s1.wgt st) w
  let s2 := (s1.setNum st (s1.num st + 1)).setWgt st w1
  let (e, idx) ← s2.entries.insertR (.resident { key := key, value := value, state := st, referenced := 0 })
  let s3 := { s2 with entries := e }
  let s4 ← s3.linkNewR st idx w
  let s5 ← s4.mapInsert c h idx
  .ok (s5, q1)

/-- The part of `insert` after the overweight check (`/repo/src/shard.rs:955-988`). -/
def insertAdmittedR [DecidableEq K] (fu : Fuel) (c : Cfg K V RS) (s : Shard K V) (q : Req K V RS) (h : UInt64) (key : K)
    (value : V) (w : Nat) (strategy : Strategy) : Res (Shard K V × Req K V RS × Option V) := do
  match ← s.search h (fun k => k == key) with
  | some idx => s.insertExistingR fu c q idx key value w strategy
  | none =>
    match strategy with
    | .replace _ => .ok (s, q, some value)
    | .insert => do
      let (s1, q1) ← s.insertNewR fu c q h key value w
      .ok (s1, q1, none)

/-- `insert` (`/repo/src/shard.rs:937-988`). -/
def insertR [DecidableEq K] (fu : Fuel) (c : Cfg K V RS) (s : Shard K V) (q : Req K V RS) (h : UInt64) (key : K)
    (value : V) (strategy : Strategy) : Res (Shard K V × Req K V RS × Option V) :=
  let w := c.weight key value
  if s.weightTargetHot < w ∧ c.pinned key value = false then
    let (q1, v1) := q.before c key value
    let w1 := c.weight key v1
    if s.weightTargetHot < w1 then s.handleInsertOverweightR c q1 h key v1 strategy
    else s.insertAdmittedR fu c q1 h key v1 w1 strategy
  else s.insertAdmittedR fu c q h key value w strategy

/-- `handle_overweight_replace_placeholder` (`/repo/src/shard.rs:923-935`). -/
def handleOverweightReplacePlaceholderR (c : Cfg K V RS) (s : Shard K V) (q : Req K V RS) (p : Plh) (key : K)
    (value : V) : Res (Shard K V × Req K V RS) := do
  let (e, _) ← s.entries.removeR p.idx
  let s1 := { s with entries := e }
  let s2 ← s1.mapRemoveR p.hash p.idx
  .ok (s2, q.on c key value)

/-- The tail of `replace_placeholder` (`/repo/src/shard.rs:893-920`). -/
def replacePlaceholderAdmitR (fu : Fuel) (c : Cfg K V RS) (s : Shard K V) (q : Req K V RS) (p : Plh) (key : K)
    (plhHot : St) (referenced : Bool) (value : V) (w : Nat) : Res (Shard K V × Req K V RS) := do
  let t ← radd s.weightHot s.weightCold
  let t ← radd t w
  let st : St := if t ≤ s.weightCapacity then .hot else plhHot
  let ref := if referenced then 1 else 0
  let s1 := s.setEntry p.idx (.resident { key := key, value := value, state := st, referenced := ref })
  let w1 ← radd (s1.wgt st) w
  let s2 := (s1.setNum st (s1.num st + 1)).setWgt st w1
  if w ≠ 0 then
    let s3 ← s2.linkToR st.ring p.idx
    evictLoopR fu c 0 (fu.evict s3.entries.entries.length) s3 q
  else .ok (s2, q)

/-- The guard of the first `match` of `replace_placeholder` (`/repo/src/shard.rs:869`). -/
def isPlaceholder (c : Cfg K V RS) (p : Plh) : Entry K V → Bool
  | .placeholder ph => c.sameAs ph.shared p
  | _ => false

/-- `replace_placeholder` (`/repo/src/shard.rs:861-921`). Anything but a placeholder coming out of `mem::replace` is
undefined behaviour (`874-882`). -/
def replacePlaceholderR (fu : Fuel) (c : Cfg K V RS) (s : Shard K V) (q : Req K V RS) (p : Plh) (referenced : Bool)
    (value : V) : Res (Shard K V × Req K V RS × Option V) :=
  match s.entries.get p.idx with
  | some (e, _) =>
    if isPlaceholder c p e then
      match e with
      | .placeholder ph =>
        let s1 := s.setEntry p.idx (.ghost 0)
        let w := c.weight ph.key value
        if s1.weightTargetHot < w ∧ c.pinned ph.key value = false then
          let (q1, v1) := q.before c ph.key value
          let w1 := c.weight ph.key v1
          if s1.weightTargetHot < w1 then do
            let (s2, q2) ← s1.handleOverweightReplacePlaceholderR c q1 p ph.key v1
            .ok (s2, q2, none)
          else do
            let (s2, q2) ← s1.replacePlaceholderAdmitR fu c q1 p ph.key ph.hot referenced v1 w1
            .ok (s2, q2, none)
        else do
          let (s2, q2) ← s1.replacePlaceholderAdmitR fu c q p ph.key ph.hot referenced value w
          .ok (s2, q2, none)
      | _ => .error .ub
    else .ok (s, q, some value)
  | none => .ok (s, q, some value)

/-- `upsert_placeholder` (`/repo/src/shard.rs:1012-1067`). -/
def upsertPlaceholderR (c : Cfg K V RS) (s : Shard K V) (h : UInt64) (eqv : K → Bool) (key : K) :
    Res (Shard K V × Upsert V) := do
  match ← s.search h eqv with
  | some idx =>
    match s.entries.get idx with
    | none => .error .unwrapNone
    | some (.resident r, _) =>
      let s1 := if r.referenced < MAX_F then
          s.setEntry idx (.resident { r with referenced := r.referenced + 1 })
        else s
      .ok ({ s1 with hits := s1.hits + 1 }, .found idx r.value)
    | some (.placeholder p, _) => .ok ({ s with hits := s.hits + 1 }, .pending p.shared false)
    | some (.ghost _, _) =>
      let shared : Plh := { id := s.nextPlh, hash := h, idx := idx }
      let s1 := { s.setEntry idx (.placeholder { key := key, hot := .hot, shared := shared }) with
          nextPlh := s.nextPlh + 1 }
      let n ← rsub s1.numNonResident 1
      let s2 := { s1 with numNonResident := n }
      let s3 ← s2.unlinkGhostR idx
      .ok ({ s3 with misses := s3.misses + 1 }, .pending shared true)
  | none =>
    let idx := s.entries.nextFree
    let shared : Plh := { id := s.nextPlh, hash := h, idx := idx }
    let (e, _) ← s.entries.insertR (.placeholder { key := key, hot := .cold, shared := shared })
    let s1 := { s with nextPlh := s.nextPlh + 1, entries := e }
    let s2 ← s1.mapInsert c h idx
    .ok ({ s2 with misses := s2.misses + 1 }, .pending shared true)

end Shard

namespace Unsync

/-- `Cache::insert`, `insert_with_lifecycle` (`/repo/src/unsync.rs:336-355`). -/
def insertR [DecidableEq K] (fu : Fuel) (c : Cfg K V RS) (s : Shard K V) (k : K) (v : V) :
    Res (Shard K V × Req K V RS) := do
  let (s1, q, _) ← s.insertR fu c c.begin (c.hash k) k v .insert
  .ok (s1, q)

/-- `Cache::replace`, `replace_with_lifecycle` (`/repo/src/unsync.rs:197-228`). -/
def replaceR [DecidableEq K] (fu : Fuel) (c : Cfg K V RS) (s : Shard K V) (k : K) (v : V) (soft : Bool) :
    Res (Shard K V × Req K V RS × Option (K × V)) := do
  let (s1, q, r) ← s.insertR fu c c.begin (c.hash k) k v (.replace soft)
  .ok (s1, q, r.map (fun v' => (k, v')))

/-- Applying `f` through a `RefMut`, if there is one, and dropping it. -/
def writeRefR (c : Cfg K V RS) (s : Shard K V) (f : V → V) : Option (Nat × Nat) → Res (Shard K V)
  | none => .ok s
  | some (idx, oldW) => s.refMutWriteR c idx oldW f

/-- `/repo/src/unsync.rs:255-260`, `282-287`, and `Guard::insert_internal` (`446-461`). -/
def fillR (fu : Fuel) (c : Cfg K V RS) (s : Shard K V) (p : Plh) (v : V) : Res (Shard K V × Req K V RS) := do
  let (s1, q, _) ← s.replacePlaceholderR fu c c.begin p false v
  .ok (s1, q)

/-- `/repo/src/unsync.rs:251-262`, `278-289`. -/
def getOrInsertTokenR [DecidableEq K] (fu : Fuel) (c : Cfg K V RS) (s : Shard K V) (k : K) (load : Option V) :
    Res (Shard K V × Req K V RS × Bool × Option Nat) := do
  match ← s.upsertPlaceholderR c (c.hash k) (fun x => x == k) k with
  | (s1, .found idx _) => .ok (s1, c.begin, false, some idx)
  | (s1, .pending p _) =>
    match load with
    | none => .ok (s1, c.begin, true, none)
    | some v => do
      let (s2, q) ← fillR fu c s1 p v
      .ok (s2, q, true, some p.idx)

/-- `get_or_insert_with` (`/repo/src/unsync.rs:240-264`). -/
def getOrInsertWithR [DecidableEq K] (fu : Fuel) (c : Cfg K V RS) (s : Shard K V) (k : K) (load : Option V) :
    Res (Shard K V × Req K V RS × Bool × Option (Option V)) := do
  let (s1, q, called, t) ← getOrInsertTokenR fu c s k load
  .ok (s1, q, called, t.map s1.peekToken)

/-- `get_mut_or_insert_with` (`/repo/src/unsync.rs:266-290`), then `f` through the reference. -/
def getMutOrInsertWithR [DecidableEq K] (fu : Fuel) (c : Cfg K V RS) (s : Shard K V) (k : K) (load : Option V)
    (f : V → V) : Res (Shard K V × Req K V RS × Bool × Option (Option V)) := do
  let (s1, q, called, t) ← getOrInsertTokenR fu c s k load
  match t with
  | none => .ok (s1, q, called, none)
  | some idx => do
    let s2 ← writeRefR c s1 f (s1.peekTokenMut c idx)
    .ok (s2, q, called, some (s1.peekToken idx))

/-- Using a guard (`/repo/src/unsync.rs:436-475`), or leaking it. -/
def useGuardR (fu : Fuel) (c : Cfg K V RS) (s : Shard K V) (p : Plh) : GuardUse V → Res (Shard K V × Req K V RS)
  | .insert v => fillR fu c s p v
  | .drop => do
    let s1 ← s.removePlaceholder c p
    .ok (s1, c.begin)
  | .forget => .ok (s, c.begin)

/-- `get_ref_or_guard` (`/repo/src/unsync.rs:292-313`) and the use of the guard. -/
def getRefOrGuardR [DecidableEq K] (fu : Fuel) (c : Cfg K V RS) (s : Shard K V) (k : K) (use : GuardUse V) :
    Res (Shard K V × Req K V RS × Option V) := do
  match ← s.upsertPlaceholderR c (c.hash k) (fun x => x == k) k with
  | (s1, .found _ v) => .ok (s1, c.begin, some v)
  | (s1, .pending p _) => do
    let (s2, q) ← useGuardR fu c s1 p use
    .ok (s2, q, none)

/-- `get_mut_or_guard` (`/repo/src/unsync.rs:315-334`), the write through the reference and the use of the guard. -/
def getMutOrGuardR [DecidableEq K] (fu : Fuel) (c : Cfg K V RS) (s : Shard K V) (k : K) (f : V → V)
    (use : GuardUse V) : Res (Shard K V × Req K V RS × Option V) := do
  match ← s.upsertPlaceholderR c (c.hash k) (fun x => x == k) k with
  | (s1, .found idx v) => do
    let s2 ← writeRefR c s1 f (s1.peekTokenMut c idx)
    .ok (s2, c.begin, some v)
  | (s1, .pending p _) => do
    let (s2, q) ← useGuardR fu c s1 p use
    .ok (s2, q, none)

/-- One call of the public API in a release build (see `Unsync.step`). -/
def stepR [DecidableEq K] (fu : Fuel) (c : Cfg K V RS) (s : Shard K V) :
    Op K V → Res (Shard K V × Out K V × Req K V RS)
  | .insert k v => do
    let (s1, q) ← insertR fu c s k v
    .ok (s1, .unit, q)
  | .replace k v soft => do
    let (s1, q, r) ← replaceR fu c s k v soft
    .ok (s1, .replaced r, q)
  | .remove k => do
    let (s1, r) ← s.removeR c (c.hash k) (fun x => x == k)
    .ok (s1, .removed r, c.begin)
  | .get k => do
    let (s1, v) ← s.get (c.hash k) (fun x => x == k)
    .ok (s1, .value v, c.begin)
  | .peek k => do
    let v ← s.peek (c.hash k) (fun x => x == k)
    .ok (s, .value v, c.begin)
  | .containsKey k => do
    let b ← s.contains (c.hash k) (fun x => x == k)
    .ok (s, .bool b, c.begin)
  | .getMut k f => do
    let (s1, r) ← s.getMut c (c.hash k) (fun x => x == k)
    let s2 ← writeRefR c s1 f r
    .ok (s2, .value (r.bind (fun x => s1.peekToken x.1)), c.begin)
  | .peekMut k f => do
    let r ← s.peekMut c (c.hash k) (fun x => x == k)
    let s2 ← writeRefR c s f r
    .ok (s2, .value (r.bind (fun x => s.peekToken x.1)), c.begin)
  | .retain f => do
    let s1 ← s.retainR c f
    .ok (s1, .unit, c.begin)
  | .clear => .ok (s.clear, .unit, c.begin)
  | .drain => .ok (s.drain.1, .items s.drain.2, c.begin)
  | .reserve => do
    let s1 ← s.reserve c
    .ok (s1, .unit, c.begin)
  | .getOrInsertWith k load => do
    let (s1, q, called, r) ← getOrInsertWithR fu c s k load
    .ok (s1, .loaded called r, q)
  | .getMutOrInsertWith k load f => do
    let (s1, q, called, r) ← getMutOrInsertWithR fu c s k load f
    .ok (s1, .loaded called r, q)
  | .getRefOrGuard k use => do
    let (s1, q, v) ← getRefOrGuardR fu c s k use
    .ok (s1, .orGuard v, q)
  | .getMutOrGuard k f use => do
    let (s1, q, v) ← getMutOrGuardR fu c s k f use
    .ok (s1, .orGuard v, q)

/-- `RunR fu c s0 h s`: the run of a release build, as `Unsync.Run` for the debug build. -/
inductive RunR [DecidableEq K] (fu : Fuel) (c : Cfg K V RS) (s0 : Shard K V) : List (Call K V) → Shard K V → Prop
  | start : RunR fu c s0 [] s0
  | layout {h : List (Call K V)} {s : Shard K V} (m : List (UInt64 × Nat)) (p : UInt64 → UInt64 → Bool)
      (hr : RunR fu c s0 h s) (hm : m.Perm s.map) (hp : ∀ x, p x x = true) : RunR fu c s0 h (s.relayout m p)
  | call {h : List (Call K V)} {s s' : Shard K V} {op : Op K V} {out : Out K V} {q : Req K V RS}
      (hr : RunR fu c s0 h s) (hs : stepR fu c s op = .ok (s', out, q)) : RunR fu c s0 (h ++ [⟨op, out, q.log⟩]) s'

end Unsync

namespace Sync

/-- One critical section of the sync cache in a release build (see `Sync.step`). -/
def stepR [DecidableEq K] (fu : Fuel) (c : Cfg K V RS) (s : Shard K V) :
    Section K V → Res (Shard K V × SOut K V × Req K V RS)
  | .call op => do
    let (s1, out, q) ← Unsync.stepR fu c s op
    .ok (s1, .call out, q)
  | .upsert k => do
    match ← s.upsertPlaceholderR c (c.hash k) (fun x => x == k) k with
    | (s1, .found _ v) => .ok (s1, .found v, c.begin)
    | (s1, .pending p new) => .ok (s1, .pending p new, c.begin)
  | .fill _ p referenced v => do
    let (s1, q, r) ← s.replacePlaceholderR fu c c.begin p referenced v
    .ok (s1, .filled r, q)
  | .abandon k p => step c s (.abandon k p)
  | .find k => step c s (.find k)
  | .load k t => step c s (.load k t)
  | .bump k t => step c s (.bump k t)
  | .count hit => step c s (.count hit)

end Sync
end QuickCache
