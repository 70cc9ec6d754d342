import Verif.Model.Slab

/-!
# Model of `/repo/src/shard.rs`

`CacheShard`, function by function. `&mut self` methods return the new shard. `lcs: &mut L::RequestState` is the
`Req` argument, which also carries a ghost log of the lifecycle calls made (not part of the code; used by
specifications only).
-/

namespace QuickCache

/-- `MAX_F` (`/repo/src/shard.rs:17-18`). -/
def MAX_F : Nat := 2

/-- `ResidentState` (`/repo/src/shard.rs:32-36`). -/
inductive St where
  | hot | cold
  deriving DecidableEq, Repr

/-- The three circular lists of a shard, named by the fields `hot_head`, `cold_head`, `ghost_head`
(`/repo/src/shard.rs:82-87`). -/
inductive RingId where
  | hot | cold | ghost
  deriving DecidableEq, Repr

/-- The list a resident of the given state belongs to. -/
def St.ring : St → RingId
  | .hot => .hot
  | .cold => .cold

/-- `InsertStrategy` (`/repo/src/shard.rs:27-30`). -/
inductive Strategy where
  | insert
  | replace (soft : Bool)
  deriving DecidableEq, Repr

/-- `Resident` (`/repo/src/shard.rs:38-44`). `referenced` is the `AtomicU16`, a natural number here. -/
structure Resident (K V : Type _) where
  key : K
  value : V
  state : St
  referenced : Nat
  deriving DecidableEq, Repr

/-- The shared placeholder handle (`trait SharedPlaceholder`, `/repo/src/shard.rs:20-25`): `hash()` and `idx()` plus,
for `sync`, the address of the `Arc`, represented by a unique number `id`
(`/repo/src/sync_placeholder.rs`, `Arc<Placeholder>`). -/
structure Plh where
  id : Nat
  hash : UInt64
  idx : Nat
  deriving DecidableEq, Repr

/-- `Placeholder` (`/repo/src/shard.rs:58-63`). -/
structure Placeholder (K : Type _) where
  key : K
  hot : St
  shared : Plh
  deriving DecidableEq, Repr

/-- `Entry` (`/repo/src/shard.rs:65-70`). -/
inductive Entry (K V : Type _) where
  | resident (r : Resident K V)
  | placeholder (p : Placeholder K)
  | ghost (h : UInt64)
  deriving DecidableEq, Repr

/-- The user-supplied parameters of a shard (`hash_builder`, `weighter`, `lifecycle`, `/repo/src/shard.rs:76,100-101`),
and the way placeholders are compared. All of them are pure functions here.

* `weight` is `Weighter::weight` (a natural number; the code has `u64`),
* `pinned`, `beginReq`, `beforeEvict`, `onEvict` are `Lifecycle::{is_pinned, begin_request, before_evict, on_evict}`
  (`/repo/src/lib.rs`, `trait Lifecycle`),
* `ptrEq` says whether `SharedPlaceholder::same_as` compares identities (`sync`) or is always true (`unsync`). -/
structure Cfg (K V RS : Type _) where
  hash : K → UInt64
  weight : K → V → Nat
  pinned : K → V → Bool
  beginReq : RS
  beforeEvict : RS → K → V → RS × V
  onEvict : RS → K → V → RS
  ptrEq : Bool

/-- A lifecycle call. `beforeEvict k v v'`: `before_evict` was called on key `k` holding `v` and left `v'`.
`onEvict k v`: `on_evict` received `k` and `v`. -/
inductive Event (K V : Type _) where
  | beforeEvict (k : K) (v v' : V)
  | onEvict (k : K) (v : V)
  deriving DecidableEq, Repr

/-- The request state passed as `lcs` together with the ghost log of lifecycle calls. -/
structure Req (K V RS : Type _) where
  st : RS
  log : List (Event K V)
  deriving DecidableEq, Repr

variable {K V RS : Type _}

/-- Calling `lifecycle.before_evict(lcs, &key, &mut value)`; returns the rewritten value. -/
def Req.before (q : Req K V RS) (c : Cfg K V RS) (k : K) (v : V) : Req K V RS × V :=
  let (st, v') := c.beforeEvict q.st k v
  ({ st := st, log := q.log ++ [.beforeEvict k v v'] }, v')

/-- Calling `lifecycle.on_evict(lcs, key, value)`. -/
def Req.on (q : Req K V RS) (c : Cfg K V RS) (k : K) (v : V) : Req K V RS :=
  { st := c.onEvict q.st k v, log := q.log ++ [.onEvict k v] }

/-- `lifecycle.begin_request()` (`/repo/src/lib.rs`, `trait Lifecycle`). -/
def Cfg.begin (c : Cfg K V RS) : Req K V RS := { st := c.beginReq, log := [] }

/-- `SharedPlaceholder::same_as` (`/repo/src/sync_placeholder.rs`, `/repo/src/unsync.rs`). -/
def Cfg.sameAs (c : Cfg K V RS) (a b : Plh) : Bool := if c.ptrEq then a.id == b.id else true

/-- `CacheShard` (`/repo/src/shard.rs:72-102`) without the user-supplied parameters.

* `map` is the `hashbrown::HashTable<Token>`: (hash under which the token was stored, token), in bucket order;
  `probe h h'` says whether a search for hash `h` also visits a bucket stored under `h'` (tag collision).
* `nextPlh` numbers the placeholder handles created so far (allocation identity of the `Arc`).
* `hits`/`misses` exist only with the `stats` feature. -/
structure Shard (K V : Type _) where
  map : List (UInt64 × Nat)
  probe : UInt64 → UInt64 → Bool
  entries : Slab (Entry K V)
  coldHead : Option Nat
  hotHead : Option Nat
  ghostHead : Option Nat
  weightTargetHot : Nat
  weightCapacity : Nat
  weightHot : Nat
  weightCold : Nat
  numHot : Nat
  numCold : Nat
  numNonResident : Nat
  capacityNonResident : Nat
  hits : Nat
  misses : Nat
  nextPlh : Nat

namespace Shard

/-- `CacheShard::new` (`/repo/src/shard.rs:218-251`), given the already computed hot target and ghost capacity
(their computation from fractions is in `Verif.Model.Options`). The new hash table probes exact hashes only; other
layouts arise through `relayout`. -/
def new (weightTargetHot weightCapacity capacityNonResident : Nat) : Shard K V where
  map := []
  probe := fun a b => a == b
  entries := Slab.new
  coldHead := none
  hotHead := none
  ghostHead := none
  weightTargetHot := weightTargetHot
  weightCapacity := weightCapacity
  weightHot := 0
  weightCold := 0
  numHot := 0
  numCold := 0
  numNonResident := 0
  capacityNonResident := capacityNonResident
  hits := 0
  misses := 0
  nextPlh := 0

/-! ### Field access by state (`list_head`, `weight_ptr` references in the code) -/

/-- `hot_head`/`cold_head`/`ghost_head`. -/
def head (s : Shard K V) : RingId → Option Nat
  | .hot => s.hotHead
  | .cold => s.coldHead
  | .ghost => s.ghostHead

/-- Assignment to `hot_head`/`cold_head`/`ghost_head`. -/
def setHead (s : Shard K V) (i : RingId) (h : Option Nat) : Shard K V :=
  match i with
  | .hot => { s with hotHead := h }
  | .cold => { s with coldHead := h }
  | .ghost => { s with ghostHead := h }

/-- `weight_hot`/`weight_cold`. -/
def wgt (s : Shard K V) : St → Nat
  | .hot => s.weightHot
  | .cold => s.weightCold

/-- Assignment to `weight_hot`/`weight_cold`. -/
def setWgt (s : Shard K V) (st : St) (w : Nat) : Shard K V :=
  match st with
  | .hot => { s with weightHot := w }
  | .cold => { s with weightCold := w }

/-- `num_hot`/`num_cold`. -/
def num (s : Shard K V) : St → Nat
  | .hot => s.numHot
  | .cold => s.numCold

/-- Assignment to `num_hot`/`num_cold`. -/
def setNum (s : Shard K V) (st : St) (n : Nat) : Shard K V :=
  match st with
  | .hot => { s with numHot := n }
  | .cold => { s with numCold := n }

/-- Writing the entry of an occupied slot through the reference returned by `entries.get_mut(idx)`. -/
def setEntry (s : Shard K V) (idx : Nat) (e : Entry K V) : Shard K V :=
  { s with entries := s.entries.setItem idx e }

/-- `entries.link(idx, head)` followed by storing the result as the new head (`*head = Some(entries.link(idx, *head))`,
e.g. `/repo/src/shard.rs:202`, `637`, `799`). -/
def linkTo (s : Shard K V) (i : RingId) (idx : Nat) : Res (Shard K V) := do
  let (e, h) ← s.entries.link idx (s.head i)
  .ok ({ s with entries := e }.setHead i (some h))

/-- `entries.unlink(idx)` followed by storing the result as the new head (`*head = entries.unlink(idx)`,
e.g. `/repo/src/shard.rs:204`, `636`, `801`). -/
def unlinkFrom (s : Shard K V) (i : RingId) (idx : Nat) : Res (Shard K V) := do
  let (e, h) ← s.entries.unlink idx
  .ok ({ s with entries := e }.setHead i h)

/-- Linking or unlinking an item whose weight changed between zero and non-zero (`/repo/src/shard.rs:201-205`,
`798-802`). -/
def relink (s : Shard K V) (st : St) (idx oldW newW : Nat) : Res (Shard K V) :=
  if oldW = 0 ∧ newW ≠ 0 then s.linkTo st.ring idx
  else if oldW ≠ 0 ∧ newW = 0 then s.unlinkFrom st.ring idx
  else .ok s

/-- `if weight != 0 { *list_head = Some(self.entries.link(idx, *list_head)); }` (`/repo/src/shard.rs:813-815`,
`827-829`, `983-985`). -/
def linkNew (s : Shard K V) (st : St) (idx w : Nat) : Res (Shard K V) :=
  if w ≠ 0 then s.linkTo st.ring idx else .ok s

/-- Unlinking a ghost (`/repo/src/shard.rs:809-812`, `1048-1051`). -/
def unlinkGhost (s : Shard K V) (idx : Nat) : Res (Shard K V) := do
  let (e, next) ← s.entries.unlink idx
  let s1 := { s with entries := e }
  .ok (if s1.ghostHead = some idx then { s1 with ghostHead := next } else s1)

/-! ### The hash index -/

/-- `map.iter_hash(hash)`: the visited buckets in order. -/
def iterHash (s : Shard K V) (h : UInt64) : List Nat :=
  (s.map.filter (fun b => s.probe h b.1)).map (·.2)

/-- `map_remove` (`/repo/src/shard.rs:851-859`), with the debug panic. -/
def mapRemove (s : Shard K V) (h : UInt64) (idx : Nat) : Res (Shard K V) :=
  if s.map.any (fun b => s.probe h b.1 && b.2 == idx) then
    .ok { s with map := s.map.eraseP (fun b => s.probe h b.1 && b.2 == idx) }
  else .error .keyNotFound

/-- The hash recomputed from an entry by the rehash closures (`/repo/src/shard.rs:323-332`, `839-848`). -/
def hashOf (c : Cfg K V RS) : Entry K V → UInt64
  | .resident r => c.hash r.key
  | .placeholder p => c.hash p.key
  | .ghost h => h

/-- Rehashing all buckets through the closure (growth inside `insert_unique` and `reserve`). -/
def rehash (c : Cfg K V RS) (e : Slab (Entry K V)) : List (UInt64 × Nat) → Res (List (UInt64 × Nat))
  | [] => .ok []
  | (_, t) :: m =>
    match e.get t with
    | none => .error .unwrapNone
    | some (x, _) => do
      let m' ← rehash c e m
      .ok ((hashOf c x, t) :: m')

/-- `map_insert` (`/repo/src/shard.rs:837-849`). The table may grow; the model always runs the rehash closure over all
buckets before adding the new one (the worst case). -/
def mapInsert (c : Cfg K V RS) (s : Shard K V) (h : UInt64) (idx : Nat) : Res (Shard K V) := do
  let m ← rehash c s.entries s.map
  .ok { s with map := m ++ [(h, idx)] }

/-- `reserve` (`/repo/src/shard.rs:318-333`): rehashes every bucket. -/
def reserve (c : Cfg K V RS) (s : Shard K V) : Res (Shard K V) := do
  let m ← rehash c s.entries s.map
  .ok { s with map := m }

/-- Not a function of the code: an arbitrary change of the hash table's internal layout (bucket order and tag
collisions), as growth, rehashing and tombstones may cause. Enabled when `m` permutes the buckets and `p` is
reflexive. -/
def relayout (s : Shard K V) (m : List (UInt64 × Nat)) (p : UInt64 → UInt64 → Bool) : Shard K V :=
  { s with map := m, probe := p }

/-- The loop of `search` (`/repo/src/shard.rs:432-449`). -/
def searchLoop (e : Slab (Entry K V)) (h : UInt64) (eqv : K → Bool) : List Nat → Option Nat → Res (Option Nat)
  | [], hashMatch => .ok hashMatch
  | idx :: rest, hashMatch =>
    match e.get idx with
    | none => .error .unwrapNone
    | some (.resident r, _) => if eqv r.key then .ok (some idx) else searchLoop e h eqv rest hashMatch
    | some (.placeholder p, _) => if eqv p.key then .ok (some idx) else searchLoop e h eqv rest hashMatch
    | some (.ghost g, _) => searchLoop e h eqv rest (if g = h then some idx else hashMatch)

/-- `search` (`/repo/src/shard.rs:427-450`). A query `k: &Q` with `Q: Equivalent<Key>` is given by its hash and the
predicate `k.equivalent(·)`. -/
def search (s : Shard K V) (h : UInt64) (eqv : K → Bool) : Res (Option Nat) :=
  searchLoop s.entries h eqv (s.iterHash h) none

/-- The `find` with the closure of `search_resident` (`/repo/src/shard.rs:458-468`). -/
def searchResidentLoop (e : Slab (Entry K V)) (eqv : K → Bool) : List Nat → Res (Option (Nat × Resident K V))
  | [] => .ok none
  | idx :: rest =>
    match e.get idx with
    | none => .error .unwrapNone
    | some (.resident r, _) => if eqv r.key then .ok (some (idx, r)) else searchResidentLoop e eqv rest
    | some _ => searchResidentLoop e eqv rest

/-- `search_resident` (`/repo/src/shard.rs:452-474`). The `MaybeUninit` is initialised exactly when a bucket is
found, so the pair is returned directly. -/
def searchResident (s : Shard K V) (h : UInt64) (eqv : K → Bool) : Res (Option (Nat × Resident K V)) :=
  searchResidentLoop s.entries eqv (s.iterHash h)

/-! ### Reads -/

/-- `contains` (`/repo/src/shard.rs:476-486`); its closure accepts exactly the buckets the closure of
`search_resident` accepts. -/
def contains (s : Shard K V) (h : UInt64) (eqv : K → Bool) : Res Bool := do
  let r ← s.searchResident h eqv
  .ok r.isSome

/-- `get` (`/repo/src/shard.rs:488-506`), executed without interference (the racing version is in
`Verif.Model.Conc`). `fetch_add` on the `u16` counter wraps. -/
def get (s : Shard K V) (h : UInt64) (eqv : K → Bool) : Res (Shard K V × Option V) := do
  match ← s.searchResident h eqv with
  | some (idx, r) =>
    let s1 := if r.referenced < MAX_F then
        s.setEntry idx (.resident { r with referenced := (r.referenced + 1) % 2 ^ 16 })
      else s
    .ok ({ s1 with hits := s1.hits + 1 }, some r.value)
  | none => .ok ({ s with misses := s.misses + 1 }, none)

/-- `peek` (`/repo/src/shard.rs:555-561`). -/
def peek (s : Shard K V) (h : UInt64) (eqv : K → Bool) : Res (Option V) := do
  match ← s.searchResident h eqv with
  | some (_, r) => .ok (some r.value)
  | none => .ok none

/-- `peek_token` (`/repo/src/shard.rs:532-539`). -/
def peekToken (s : Shard K V) (t : Nat) : Option V :=
  match s.entries.get t with
  | some (.resident r, _) => some r.value
  | _ => none

/-- `peek_token_mut` (`/repo/src/shard.rs:541-553`): the `RefMut` is its token and recorded old weight. -/
def peekTokenMut (c : Cfg K V RS) (s : Shard K V) (t : Nat) : Option (Nat × Nat) :=
  match s.entries.get t with
  | some (.resident r, _) => some (t, c.weight r.key r.value)
  | _ => none

/-- `peek_mut` (`/repo/src/shard.rs:563-569`). -/
def peekMut (c : Cfg K V RS) (s : Shard K V) (h : UInt64) (eqv : K → Bool) : Res (Option (Nat × Nat)) := do
  match ← s.searchResident h eqv with
  | some (idx, _) => .ok (s.peekTokenMut c idx)
  | none => .ok none

/-- `get_mut` (`/repo/src/shard.rs:508-530`): the shard with the bumped counter and the `RefMut`. -/
def getMut (c : Cfg K V RS) (s : Shard K V) (h : UInt64) (eqv : K → Bool) :
    Res (Shard K V × Option (Nat × Nat)) := do
  match ← s.searchResident h eqv with
  | none => .ok ({ s with misses := s.misses + 1 }, none)
  | some (idx, _) =>
    match s.entries.get idx with
    | some (.resident r, _) =>
      let s1 := if r.referenced < MAX_F then
          s.setEntry idx (.resident { r with referenced := r.referenced + 1 })
        else s
      .ok ({ s1 with hits := s1.hits + 1 }, some (idx, c.weight r.key r.value))
    | _ => .error .unreachable

/-- `weight` (`/repo/src/shard.rs:362-364`). -/
def weight (s : Shard K V) : Res Nat := cadd s.weightHot s.weightCold

/-- `len` (`/repo/src/shard.rs:366-368`). -/
def len (s : Shard K V) : Nat := s.numHot + s.numCold

/-- `capacity` (`/repo/src/shard.rs:370-372`). -/
def capacity (s : Shard K V) : Nat := s.weightCapacity

/-- The `filter_map` closure of `iter` and `drain` (`/repo/src/shard.rs:398-401`, `405-408`). -/
def residentPair : Entry K V → Option (K × V)
  | .resident r => some (r.key, r.value)
  | _ => none

/-- `iter` (`/repo/src/shard.rs:404-409`): the yielded pairs in order. -/
def iter (s : Shard K V) : List (K × V) := s.entries.iter.filterMap residentPair

/-! ### Mutable references -/

/-- `cold_change_weight` (`/repo/src/shard.rs:188-206`). -/
def coldChangeWeight (s : Shard K V) (idx oldW newW : Nat) : Res (Shard K V) :=
  match s.entries.get idx with
  | some (.resident r, _) => do
    let w ← csub (s.wgt r.state) oldW
    let w ← cadd w newW
    (s.setWgt r.state w).relink r.state idx oldW newW
  | _ => .error .unreachable

/-- Writing through a `RefMut` and dropping it: `value_mut` (`/repo/src/shard.rs:1094-1106`), `pair`
(`1080-1092`) and `Drop for RefMut` (`1109-1121`). `f` is the combined effect of the writes. -/
def refMutWrite (c : Cfg K V RS) (s : Shard K V) (idx oldW : Nat) (f : V → V) : Res (Shard K V) :=
  match s.entries.get idx with
  | some (.resident r, _) =>
    let v := f r.value
    let s1 := s.setEntry idx (.resident { r with value := v })
    let newW := c.weight r.key v
    if oldW ≠ newW then s1.coldChangeWeight idx oldW newW else .ok s1
  | _ => .error .ub

/-! ### Removal -/

/-- `remove_internal` (`/repo/src/shard.rs:581-614`). -/
def removeInternal (c : Cfg K V RS) (s : Shard K V) (h : UInt64) (idx : Nat) :
    Res (Shard K V × Option (K × V)) := do
  let s ← s.mapRemove h idx
  match ← s.entries.remove idx with
  | (_, none) => .error .unwrapNone
  | (e, some (.resident r, next)) =>
    let s := { s with entries := e }
    let n ← csub (s.num r.state) 1
    let w ← csub (s.wgt r.state) (c.weight r.key r.value)
    let s := (s.setNum r.state n).setWgt r.state w
    let s := if s.head r.state.ring = some idx then s.setHead r.state.ring next else s
    .ok (s, some (r.key, r.value))
  | (e, some (.ghost _, next)) =>
    let s := { s with entries := e }
    let n ← csub s.numNonResident 1
    let s := { s with numNonResident := n }
    let s := if s.head .ghost = some idx then s.setHead .ghost next else s
    .ok (s, none)
  | (e, some (.placeholder _, _)) => .ok ({ s with entries := e }, none)

/-- `remove` (`/repo/src/shard.rs:571-579`). -/
def remove (c : Cfg K V RS) (s : Shard K V) (h : UInt64) (eqv : K → Bool) :
    Res (Shard K V × Option (K × V)) := do
  match ← s.search h eqv with
  | none => .ok (s, none)
  | some idx => s.removeInternal c h idx

/-- `remove_placeholder` (`/repo/src/shard.rs:176-186`). Only the index entry is removed; the slab slot stays
occupied. -/
def removePlaceholder (c : Cfg K V RS) (s : Shard K V) (p : Plh) : Res (Shard K V) :=
  let isIt (b : UInt64 × Nat) : Bool :=
    s.probe p.hash b.1 && b.2 == p.idx &&
      (match s.entries.get b.2 with
       | some (.placeholder ph, _) => c.sameAs ph.shared p
       | _ => false)
  if s.map.any (fun b => s.probe p.hash b.1 && b.2 == p.idx && (s.entries.get b.2).isNone) then .error .unwrapNone
  else .ok { s with map := s.map.eraseP isIt }

/-- The `filter_map` of `retain` (`/repo/src/shard.rs:339-356`). -/
def retainTokens (c : Cfg K V RS) (e : Slab (Entry K V)) (f : K → V → Bool) (m : List (UInt64 × Nat)) :
    List (Nat × UInt64) :=
  m.filterMap (fun b =>
    match e.get b.2 with
    | some (.resident r, _) => if f r.key r.value then none else some (b.2, c.hash r.key)
    | _ => none)

/-- The loop of `retain` (`/repo/src/shard.rs:357-359`). -/
def retainLoop (c : Cfg K V RS) : List (Nat × UInt64) → Shard K V → Res (Shard K V)
  | [], s => .ok s
  | (idx, h) :: l, s => do
    let (s1, _) ← s.removeInternal c h idx
    retainLoop c l s1

/-- `retain` (`/repo/src/shard.rs:335-360`). -/
def retain (c : Cfg K V RS) (s : Shard K V) (f : K → V → Bool) : Res (Shard K V) :=
  retainLoop c (retainTokens c s.entries f s.map) s

/-- `drain` (`/repo/src/shard.rs:388-402`): the emptied shard and the yielded pairs. Dropping the iterator early
empties the vector all the same. -/
def drain (s : Shard K V) : Shard K V × List (K × V) :=
  let (e, items) := s.entries.drain
  ({ s with coldHead := none, hotHead := none, ghostHead := none, numHot := 0, numCold := 0, numNonResident := 0,
            weightHot := 0, weightCold := 0, map := [], entries := e }, items.filterMap residentPair)

/-- `clear` (`/repo/src/shard.rs:384-386`). -/
def clear (s : Shard K V) : Shard K V := s.drain.1

/-! ### Eviction -/

/-- The victim branch of `advance_hot` (`/repo/src/shard.rs:705-721`), for the resident `r` found in slot `idx`. -/
def hotVictim (c : Cfg K V RS) (s : Shard K V) (q : Req K V RS) (idx : Nat) (r : Resident K V) :
    Res (Shard K V × Req K V RS × Bool) := do
  let w ← csub s.weightHot (c.weight r.key r.value)
  let (q1, v1) := q.before c r.key r.value
  let s1 := { s.setEntry idx (.resident { r with value := v1 }) with weightHot := w }
  if c.weight r.key v1 = 0 then
    let s2 ← s1.unlinkFrom .hot idx
    .ok (s2, q1, true)
  else
    let n ← csub s1.numHot 1
    let h := c.hash r.key
    match ← s1.entries.remove idx with
    | (e, some (.resident ev, next)) =>
      let s2 := { s1 with numHot := n, entries := e, hotHead := next }
      let q2 := q1.on c ev.key ev.value
      let s3 ← s2.mapRemove h idx
      .ok (s3, q2, true)
    | _ => .error .ub

/-- The loop of `advance_hot` (`/repo/src/shard.rs:683-722`). -/
def advanceHotLoop (c : Cfg K V RS) :
    Nat → Shard K V → Req K V RS → Nat → Nat → Res (Shard K V × Req K V RS × Bool)
  | 0, _, _, _, _ => .error .outOfFuel
  | fuel + 1, s, q, idx, unpinned =>
    match s.entries.get idx with
    | none => .error .unwrapNone
    | some (.resident r, next) =>
      if r.state ≠ .hot then .error .debugAssert
      else if c.pinned r.key r.value then
        let s1 := s.setEntry idx (.resident { r with referenced := min r.referenced MAX_F - 1 })
        if unpinned = 0 ∧ some next = s.hotHead then .ok (s1, q, false)
        else advanceHotLoop c fuel s1 q next unpinned
      else if r.referenced ≠ 0 then
        let s1 := s.setEntry idx (.resident { r with referenced := min r.referenced MAX_F - 1 })
        advanceHotLoop c fuel s1 q next (unpinned + 1)
      else s.hotVictim c q idx r
    | some _ => .error .unreachable

/-- Fuel for `advance_hot`: enough for three rounds over the ring. -/
def hotFuel (s : Shard K V) : Nat := 3 * s.entries.entries.length + 1

/-- `advance_hot` (`/repo/src/shard.rs:676-723`). -/
def advanceHot (c : Cfg K V RS) (s : Shard K V) (q : Req K V RS) : Res (Shard K V × Req K V RS × Bool) :=
  match s.hotHead with
  | none => .ok (s, q, false)
  | some idx => advanceHotLoop c s.hotFuel s q idx 0

/-- `advance_ghost` (`/repo/src/shard.rs:725-737`). -/
def advanceGhost (s : Shard K V) : Res (Shard K V) := do
  if s.numNonResident = 0 then .error .debugAssert
  else
    match s.ghostHead with
    | none => .error .unwrapNone
    | some idx =>
      match s.entries.get idx with
      | none => .error .unwrapNone
      | some (.ghost h, _) =>
        let n ← csub s.numNonResident 1
        let s := { s with numNonResident := n }
        let s ← s.mapRemove h idx
        match ← s.entries.remove idx with
        | (_, none) => .error .unwrapNone
        | (e, some (_, next)) => .ok { s with entries := e, ghostHead := next }
      | some _ => .error .unreachable

/-- Fuel of the eviction loops: every successful `advance_cold` or `advance_hot` moves an item
one stage further (cold, hot, gone). -/
def evictFuel (s : Shard K V) : Nat := 2 * s.entries.entries.length + 1

/-- `while self.weight_hot > self.weight_target_hot && self.advance_hot(lcs) {}` (`/repo/src/shard.rs:639`). -/
def evictHotLoop (c : Cfg K V RS) : Nat → Shard K V → Req K V RS → Res (Shard K V × Req K V RS)
  | 0, _, _ => .error .outOfFuel
  | fuel + 1, s, q =>
    if s.weightTargetHot < s.weightHot then do
      let (s1, q1, b) ← s.advanceHot c q
      if b then evictHotLoop c fuel s1 q1 else .ok (s1, q1)
    else .ok (s, q)

/-- The promotion branch of `advance_cold` (`/repo/src/shard.rs:629-640`), for the resident `r` found in slot `idx`. -/
def coldPromote (c : Cfg K V RS) (s : Shard K V) (q : Req K V RS) (idx : Nat) (r : Resident K V) :
    Res (Shard K V × Req K V RS × Bool) := do
  let s1 := s.setEntry idx (.resident { r with referenced := r.referenced - 1, state := .hot })
  let w := c.weight r.key r.value
  let wh ← cadd s1.weightHot w
  let wc ← csub s1.weightCold w
  let nc ← csub s1.numCold 1
  let s2 := { s1 with weightHot := wh, weightCold := wc, numHot := s1.numHot + 1, numCold := nc }
  let s3 ← s2.unlinkFrom .cold idx
  let s4 ← s3.linkTo .hot idx
  let (s5, q5) ← evictHotLoop c s4.evictFuel s4 q
  .ok (s5, q5, true)

/-- The victim branch of `advance_cold` (`/repo/src/shard.rs:651-672`), for the resident `r` found in slot `idx`. -/
def coldVictim (c : Cfg K V RS) (s : Shard K V) (q : Req K V RS) (idx : Nat) (r : Resident K V) :
    Res (Shard K V × Req K V RS × Bool) := do
  let wc ← csub s.weightCold (c.weight r.key r.value)
  let (q1, v1) := q.before c r.key r.value
  let s1 := { s.setEntry idx (.resident { r with value := v1 }) with weightCold := wc }
  if c.weight r.key v1 = 0 then
    let s2 ← s1.unlinkFrom .cold idx
    .ok (s2, q1, true)
  else
    let h := c.hash r.key
    let s2 := s1.setEntry idx (.ghost h)
    let s3 ← s2.unlinkFrom .cold idx
    let s4 ← s3.linkTo .ghost idx
    let nc ← csub s4.numCold 1
    let s5 := { s4 with numCold := nc, numNonResident := s4.numNonResident + 1 }
    let s6 ← if s5.capacityNonResident < s5.numNonResident then s5.advanceGhost else .ok s5
    .ok (s6, q1.on c r.key v1, true)

/-- The loop of `advance_cold` (`/repo/src/shard.rs:622-673`). -/
def advanceColdLoop (c : Cfg K V RS) :
    Nat → Shard K V → Req K V RS → Nat → Res (Shard K V × Req K V RS × Bool)
  | 0, _, _, _ => .error .outOfFuel
  | fuel + 1, s, q, idx =>
    match s.entries.get idx with
    | none => .error .unwrapNone
    | some (.resident r, next) =>
      if r.state ≠ .cold then .error .debugAssert
      else if r.referenced ≠ 0 then s.coldPromote c q idx r
      else if c.pinned r.key r.value then
        if some next = s.coldHead then s.advanceHot c q
        else advanceColdLoop c fuel s q next
      else s.coldVictim c q idx r
    | some _ => .error .unreachable

/-- `advance_cold` (`/repo/src/shard.rs:616-674`). -/
def advanceCold (c : Cfg K V RS) (s : Shard K V) (q : Req K V RS) : Res (Shard K V × Req K V RS × Bool) :=
  match s.coldHead with
  | none => s.advanceHot c q
  | some idx => advanceColdLoop c (s.entries.entries.length + 1) s q idx

/-- `while self.weight_hot + self.weight_cold + extra > self.weight_capacity && self.advance_cold(lcs) {}`
(`/repo/src/shard.rs:833`, `915-917` with `extra = 0`, i.e. without the third summand; `964-966` with the weight of
the new item). -/
def evictLoop (c : Cfg K V RS) (extra : Nat) : Nat → Shard K V → Req K V RS → Res (Shard K V × Req K V RS)
  | 0, _, _ => .error .outOfFuel
  | fuel + 1, s, q => do
    let t ← cadd s.weightHot s.weightCold
    let t ← cadd t extra
    if s.weightCapacity < t then
      let (s1, q1, b) ← s.advanceCold c q
      if b then evictLoop c extra fuel s1 q1 else .ok (s1, q1)
    else .ok (s, q)

/-! ### Insertion -/

/-- `insert_existing` (`/repo/src/shard.rs:739-835`). The result `none` is `Ok(())`; `some v` is `Err((key, v))`. -/
def insertExisting (c : Cfg K V RS) (s : Shard K V) (q : Req K V RS) (idx : Nat) (key : K) (value : V) (w : Nat)
    (strategy : Strategy) : Res (Shard K V × Req K V RS × Option V) := do
  match s.entries.get idx with
  | none => .error .unwrapNone
  | some (.resident r, _) =>
    let bump := if strategy = .replace true then 0 else 1
    let ref := min (min (r.referenced + bump) (2 ^ 16 - 1)) MAX_F
    let s1 := s.setEntry idx (.resident { key := key, value := value, state := r.state, referenced := ref })
    let ew := c.weight r.key r.value
    let w1 ← csub (s1.wgt r.state) ew
    let w2 ← cadd w1 w
    let s2 := s1.setWgt r.state w2
    let s3 ← s2.relink r.state idx ew w
    let q1 := q.on c r.key r.value
    let (s4, q2) ← evictLoop c 0 s3.evictFuel s3 q1
    .ok (s4, q2, none)
  | some (.ghost _, _) =>
    match strategy with
    | .replace _ => .ok (s, q, some value)
    | .insert =>
      let s1 := s.setEntry idx (.resident { key := key, value := value, state := .hot, referenced := 0 })
      let wh ← cadd s1.weightHot w
      let nn ← csub s1.numNonResident 1
      let s2 := { s1 with weightHot := wh, numHot := s1.numHot + 1, numNonResident := nn }
      let s3 ← s2.unlinkGhost idx
      let s4 ← s3.linkNew .hot idx w
      let (s5, q2) ← evictLoop c 0 s4.evictFuel s4 q
      .ok (s5, q2, none)
  | some (.placeholder ph, _) =>
    match strategy with
    | .replace _ => .ok (s, q, some value)
    | .insert =>
      let s1 := s.setEntry idx (.resident { key := key, value := value, state := ph.hot, referenced := 1 })
      let w1 ← cadd (s1.wgt ph.hot) w
      let s2 := (s1.setNum ph.hot (s1.num ph.hot + 1)).setWgt ph.hot w1
      let s3 ← s2.linkNew ph.hot idx w
      let (s4, q2) ← evictLoop c 0 s3.evictFuel s3 q
      .ok (s4, q2, none)

/-- `handle_insert_overweight` (`/repo/src/shard.rs:990-1010`). -/
def handleInsertOverweight [DecidableEq K] (c : Cfg K V RS) (s : Shard K V) (q : Req K V RS) (h : UInt64) (key : K)
    (value : V) (strategy : Strategy) : Res (Shard K V × Req K V RS × Option V) := do
  let (s1, q1) ← match ← s.searchResident h (fun k => k == key) with
    | some (idx, _) => do
      match ← s.removeInternal c h idx with
      | (s1, some (ek, ev)) => .ok (s1, q.on c ek ev)
      | (s1, none) => .ok (s1, q)
    | none => .ok (s, q)
  match strategy with
  | .replace _ => .ok (s1, q1, some value)
  | .insert => .ok (s1, q1.on c key value, none)

/-- The tail of `insert` for a key without entry (`/repo/src/shard.rs:961-987`). -/
def insertNew (c : Cfg K V RS) (s : Shard K V) (q : Req K V RS) (h : UInt64) (key : K) (value : V) (w : Nat) :
    Res (Shard K V × Req K V RS) := do
  let hw ← cadd s.weightHot w
  let enterHot := decide (hw ≤ s.weightTargetHot)
  let (s1, q1) ← evictLoop c w s.evictFuel s q
  let st : St := if enterHot then .hot else .cold
  let w1 ← cadd (s1.wgt st) w
  let s2 := (s1.setNum st (s1.num st + 1)).setWgt st w1
  let (e, idx) ← s2.entries.insert (.resident { key := key, value := value, state := st, referenced := 0 })
  let s3 := { s2 with entries := e }
  let s4 ← s3.linkNew st idx w
  let s5 ← s4.mapInsert c h idx
  .ok (s5, q1)

/-- The part of `insert` after the overweight check (`/repo/src/shard.rs:955-988`). -/
def insertAdmitted [DecidableEq K] (c : Cfg K V RS) (s : Shard K V) (q : Req K V RS) (h : UInt64) (key : K) (value : V)
    (w : Nat) (strategy : Strategy) : Res (Shard K V × Req K V RS × Option V) := do
  match ← s.search h (fun k => k == key) with
  | some idx => s.insertExisting c q idx key value w strategy
  | none =>
    match strategy with
    | .replace _ => .ok (s, q, some value)
    | .insert => do
      let (s1, q1) ← s.insertNew c q h key value w
      .ok (s1, q1, none)

/-- `insert` (`/repo/src/shard.rs:937-988`). The result `none` is `Ok(())`; `some v` is `Err((key, v))`. -/
def insert [DecidableEq K] (c : Cfg K V RS) (s : Shard K V) (q : Req K V RS) (h : UInt64) (key : K) (value : V)
    (strategy : Strategy) : Res (Shard K V × Req K V RS × Option V) :=
  let w := c.weight key value
  if s.weightTargetHot < w ∧ c.pinned key value = false then
    let (q1, v1) := q.before c key value
    let w1 := c.weight key v1
    if s.weightTargetHot < w1 then s.handleInsertOverweight c q1 h key v1 strategy
    else s.insertAdmitted c q1 h key v1 w1 strategy
  else s.insertAdmitted c q h key value w strategy

/-! ### Placeholders -/

/-- `handle_overweight_replace_placeholder` (`/repo/src/shard.rs:923-935`). -/
def handleOverweightReplacePlaceholder (c : Cfg K V RS) (s : Shard K V) (q : Req K V RS) (p : Plh) (key : K)
    (value : V) : Res (Shard K V × Req K V RS) := do
  let (e, _) ← s.entries.remove p.idx
  let s1 := { s with entries := e }
  let s2 ← s1.mapRemove p.hash p.idx
  .ok (s2, q.on c key value)

/-- The tail of `replace_placeholder` (`/repo/src/shard.rs:893-920`). -/
def replacePlaceholderAdmit (c : Cfg K V RS) (s : Shard K V) (q : Req K V RS) (p : Plh) (key : K) (plhHot : St)
    (referenced : Bool) (value : V) (w : Nat) : Res (Shard K V × Req K V RS) := do
  let t ← cadd s.weightHot s.weightCold
  let t ← cadd t w
  let st : St := if t ≤ s.weightCapacity then .hot else plhHot
  let ref := if referenced then 1 else 0
  let s1 := s.setEntry p.idx (.resident { key := key, value := value, state := st, referenced := ref })
  let w1 ← cadd (s1.wgt st) w
  let s2 := (s1.setNum st (s1.num st + 1)).setWgt st w1
  if w ≠ 0 then
    let s3 ← s2.linkTo st.ring p.idx
    evictLoop c 0 s3.evictFuel s3 q
  else .ok (s2, q)

/-- `replace_placeholder` (`/repo/src/shard.rs:861-921`). The result `none` is `Ok(())`; `some v` is `Err(v)`. -/
def replacePlaceholder (c : Cfg K V RS) (s : Shard K V) (q : Req K V RS) (p : Plh) (referenced : Bool) (value : V) :
    Res (Shard K V × Req K V RS × Option V) :=
  match s.entries.get p.idx with
  | some (.placeholder ph, _) =>
    if c.sameAs ph.shared p then
      let s1 := s.setEntry p.idx (.ghost 0)
      let w := c.weight ph.key value
      if s1.weightTargetHot < w ∧ c.pinned ph.key value = false then
        let (q1, v1) := q.before c ph.key value
        let w1 := c.weight ph.key v1
        if s1.weightTargetHot < w1 then do
          let (s2, q2) ← s1.handleOverweightReplacePlaceholder c q1 p ph.key v1
          .ok (s2, q2, none)
        else do
          let (s2, q2) ← s1.replacePlaceholderAdmit c q1 p ph.key ph.hot referenced v1 w1
          .ok (s2, q2, none)
      else do
        let (s2, q2) ← s1.replacePlaceholderAdmit c q p ph.key ph.hot referenced value w
        .ok (s2, q2, none)
    else .ok (s, q, some value)
  | _ => .ok (s, q, some value)

/-- Result of `upsert_placeholder`: `Ok((token, value))` or `Err((shared, is_new))`. -/
inductive Upsert (V : Type _) where
  | found (t : Nat) (v : V)
  | pending (p : Plh) (isNew : Bool)
  deriving DecidableEq, Repr

/-- `upsert_placeholder` (`/repo/src/shard.rs:1012-1067`). `key` is `key.to_owned()`. -/
def upsertPlaceholder (c : Cfg K V RS) (s : Shard K V) (h : UInt64) (eqv : K → Bool) (key : K) :
    Res (Shard K V × Upsert V) := do
  match ← s.search h eqv with
  | some idx =>
    match s.entries.get idx with
    | none => .error .unwrapNone
    | some (.resident r, _) =>
      let s1 := if r.referenced < MAX_F then
          s.setEntry idx (.resident { r with referenced := r.referenced + 1 })
        else s
      .ok ({ s1 with hits := s1.hits + 1 }, .found idx r.value)
    | some (.placeholder p, _) => .ok ({ s with hits := s.hits + 1 }, .pending p.shared false)
    | some (.ghost _, _) =>
      let shared : Plh := { id := s.nextPlh, hash := h, idx := idx }
      let s1 := { s.setEntry idx (.placeholder { key := key, hot := .hot, shared := shared }) with
          nextPlh := s.nextPlh + 1 }
      let n ← csub s1.numNonResident 1
      let s2 := { s1 with numNonResident := n }
      let s3 ← s2.unlinkGhost idx
      .ok ({ s3 with misses := s3.misses + 1 }, .pending shared true)
  | none =>
    let idx := s.entries.nextFree
    let shared : Plh := { id := s.nextPlh, hash := h, idx := idx }
    let (e, idx') ← s.entries.insert (.placeholder { key := key, hot := .cold, shared := shared })
    if idx ≠ idx' then .error .debugAssert
    else
      let s1 := { s with nextPlh := s.nextPlh + 1, entries := e }
      let s2 ← s1.mapInsert c h idx
      .ok ({ s2 with misses := s2.misses + 1 }, .pending shared true)

end Shard
end QuickCache
