import Verif.Model.Shard

/-!
# Vocabulary of the specifications

A cache is described from outside as a map from keys to values (`K → Option V`), as read off `iter`. Nothing here
mentions slots, rings, ghosts, placeholders or the hash index.
-/

namespace QuickCache
variable {K V RS : Type _}

namespace Spec

/-- The map `m` after storing `v` under `k`. -/
def put {α : Type _} [DecidableEq K] (m : K → Option α) (k : K) (v : α) : K → Option α :=
  fun x => if x = k then some v else m x

/-- The map `m` without the key `k`. -/
def del {α : Type _} [DecidableEq K] (m : K → Option α) (k : K) : K → Option α :=
  fun x => if x = k then none else m x

/-- The summed weight of a list of items. -/
def total (w : K → V → Nat) (l : List (K × V)) : Nat := (l.map (fun p => w p.1 p.2)).sum

/-- The weight of an item as far as it can be evicted: zero if the item is pinned. -/
def evictable (c : Cfg K V RS) (k : K) (v : V) : Nat := if c.pinned k v then 0 else c.weight k v

/-- The key a lifecycle call is about. -/
def eventKey : Event K V → K
  | .beforeEvict k _ _ => k
  | .onEvict k _ => k

/-- `Evicts c m st log m' st'`: evicting some items of the map `m`, one after the other, yields `m'`, makes exactly the
lifecycle calls `log` and turns the request state `st` into `st'`. A victim is an item that is neither pinned nor
weightless. It is first passed to `before_evict`. If its value is then weightless the item stays with that value,
otherwise it leaves the map and is passed to `on_evict`. -/
inductive Evicts [DecidableEq K] (c : Cfg K V RS) :
    (K → Option V) → RS → List (Event K V) → (K → Option V) → RS → Prop
  | nil {m : K → Option V} {st : RS} : Evicts c m st [] m st
  | spare {m m' : K → Option V} {st st1 st' : RS} {k : K} {v v' : V} {log : List (Event K V)}
      (here : m k = some v) (heavy : c.weight k v ≠ 0) (free : c.pinned k v = false)
      (before : c.beforeEvict st k v = (st1, v')) (light : c.weight k v' = 0)
      (rest : Evicts c (put m k v') st1 log m' st') :
      Evicts c m st (.beforeEvict k v v' :: log) m' st'
  | evict {m m' : K → Option V} {st st1 st' : RS} {k : K} {v v' : V} {log : List (Event K V)}
      (here : m k = some v) (heavy : c.weight k v ≠ 0) (free : c.pinned k v = false)
      (before : c.beforeEvict st k v = (st1, v')) (still : c.weight k v' ≠ 0)
      (rest : Evicts c (del m k) (c.onEvict st1 k v') log m' st') :
      Evicts c m st (.beforeEvict k v v' :: .onEvict k v' :: log) m' st'

/-- What a scan for victims does with an item it comes across. -/
inductive Visit (K : Type _) where
  /-- leave it in the hot queue, lowering its counter -/
  | pass (k : K)
  /-- move it from the cold to the hot queue, lowering its counter -/
  | promote (k : K)
  /-- take it as a victim -/
  | victim (k : K)
  deriving DecidableEq

/-- The key of the item visited. -/
def Visit.key : Visit K → K
  | .pass k | .promote k | .victim k => k

/-- The same process with the queue (hot or cold) and the reference counter of every item visible, and with the list of
items the scan came across. A scan passes a hot item that is pinned or referenced, lowering its counter; it promotes a
referenced cold item to the hot queue; and it takes an item that is unpinned and unreferenced as a victim. -/
inductive Scans [DecidableEq K] (c : Cfg K V RS) :
    (K → Option (Resident K V)) → RS → List (Event K V) → List (Visit K) → (K → Option (Resident K V)) → RS → Prop
  | nil {m : K → Option (Resident K V)} {st : RS} : Scans c m st [] [] m st
  | pass {m m' : K → Option (Resident K V)} {st st' : RS} {k : K} {r : Resident K V} {log : List (Event K V)} {tr : List (Visit K)}
      (here : m k = some r) (hot : r.state = .hot) (kept : c.pinned k r.value = true ∨ r.referenced ≠ 0)
      (rest : Scans c (put m k { r with referenced := min r.referenced 2 - 1 }) st log tr m' st') :
      Scans c m st log (.pass k :: tr) m' st'
  | promote {m m' : K → Option (Resident K V)} {st st' : RS} {k : K} {r : Resident K V} {log : List (Event K V)} {tr : List (Visit K)}
      (here : m k = some r) (cold : r.state = .cold) (referenced : r.referenced ≠ 0)
      (rest : Scans c (put m k { r with referenced := r.referenced - 1, state := .hot }) st log tr m' st') :
      Scans c m st log (.promote k :: tr) m' st'
  | spare {m m' : K → Option (Resident K V)} {st st1 st' : RS} {k : K} {r : Resident K V} {v' : V}
      {log : List (Event K V)} {tr : List (Visit K)} (here : m k = some r) (unreferenced : r.referenced = 0)
      (heavy : c.weight k r.value ≠ 0) (free : c.pinned k r.value = false)
      (before : c.beforeEvict st k r.value = (st1, v')) (light : c.weight k v' = 0)
      (rest : Scans c (put m k { r with value := v' }) st1 log tr m' st') :
      Scans c m st (.beforeEvict k r.value v' :: log) (.victim k :: tr) m' st'
  | evict {m m' : K → Option (Resident K V)} {st st1 st' : RS} {k : K} {r : Resident K V} {v' : V}
      {log : List (Event K V)} {tr : List (Visit K)} (here : m k = some r) (unreferenced : r.referenced = 0)
      (heavy : c.weight k r.value ≠ 0) (free : c.pinned k r.value = false)
      (before : c.beforeEvict st k r.value = (st1, v')) (still : c.weight k v' ≠ 0)
      (rest : Scans c (del m k) (c.onEvict st1 k v') log tr m' st') :
      Scans c m st (.beforeEvict k r.value v' :: .onEvict k v' :: log) (.victim k :: tr) m' st'

end Spec

namespace Shard

/-- The contents of a cache as a map, read off `iter`. -/
def contents [DecidableEq K] (s : Shard K V) : K → Option V := fun k => s.iter.lookup k

/-- The residents of a shard, in the order of `iter`, with queue and reference counter. -/
def residents (s : Shard K V) : List (Resident K V) :=
  s.entries.iter.filterMap (fun e => match e with | .resident r => some r | _ => none)

/-- The item stored under a key, with queue and reference counter. -/
def info [DecidableEq K] (s : Shard K V) : K → Option (Resident K V) :=
  fun k => s.residents.find? (fun r => r.key == k)

/-- The slot reached from slot `t` by following `next` `n` times. -/
def walk (s : Shard K V) : Nat → Nat → Nat
  | 0, t => t
  | n + 1, t => s.walk n (s.entries.nxt t)

/-- The slots met on the way around a queue, starting at its head: the candidates for eviction. -/
def Candidate (s : Shard K V) (st : St) (t : Nat) : Prop := ∃ h n, s.head st.ring = some h ∧ s.walk n h = t

/-- The number of slots in use: what the vector behind the cache has to hold. -/
def slots (s : Shard K V) : Nat := s.entries.iter.length

/-- The number of slots the vector behind the cache has, in use or not. -/
def allocated (s : Shard K V) : Nat := s.entries.entries.length

/-- The number of remembered hashes of evicted items. -/
def ghosts (s : Shard K V) : Nat :=
  (s.entries.iter.filter (fun e => match e with | .ghost _ => true | _ => false)).length

/-- The number of placeholders, whether or not the hash index still leads to them. -/
def placeholders (s : Shard K V) : Nat :=
  (s.entries.iter.filter (fun e => match e with | .placeholder _ => true | _ => false)).length

end Shard
end QuickCache
