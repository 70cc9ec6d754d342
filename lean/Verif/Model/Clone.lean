import Verif.Model.Shard

/-!
# Model of `Clone` for `unsync::Cache`

`#[derive(Clone)]` on `unsync::Cache` (`/repo/src/unsync.rs:10-19`) clones the shard. `ck` and `cv` are `Key::clone` and
`Val::clone`, pure functions here. The clones of the hash builder, the weighter and the lifecycle are taken to behave like the
originals: the configuration `Cfg` of the clone is that of the original. The clone of the hash table has the same layout.
Clones are separate values: what happens to one of them is not visible in the other, as far as `ck` and `cv` do not share
memory.
-/

namespace QuickCache
variable {K V RS : Type _}

/-- `Resident::clone` (`/repo/src/shard.rs:46-56`). -/
def Resident.clone (ck : K → K) (cv : V → V) (r : Resident K V) : Resident K V where
  key := ck r.key
  value := cv r.value
  state := r.state
  referenced := r.referenced

/-- `Placeholder::clone` (`/repo/src/shard.rs:58-63`, derived); the shared part of `unsync` is plain data
(`/repo/src/unsync.rs:421-425`). -/
def Placeholder.clone (ck : K → K) (p : Placeholder K) : Placeholder K where
  key := ck p.key
  hot := p.hot
  shared := p.shared

/-- `Entry::clone` (`/repo/src/shard.rs:65-70`, derived). -/
def Entry.clone (ck : K → K) (cv : V → V) : Entry K V → Entry K V
  | .resident r => .resident (r.clone ck cv)
  | .placeholder p => .placeholder (p.clone ck)
  | .ghost h => .ghost h

/-- `Entry::clone` of the slab (`/repo/src/linked_slab.rs:3-12`, derived). -/
def SEntry.clone {T : Type _} (f : T → T) (e : SEntry T) : SEntry T where
  item := e.item.map f
  next := e.next
  prev := e.prev

/-- `LinkedSlab::clone` (`/repo/src/linked_slab.rs:14-19`, derived). -/
def Slab.clone {T : Type _} (f : T → T) (s : Slab T) : Slab T where
  entries := s.entries.map (fun e => e.clone f)
  nextFree := s.nextFree

/-- `CacheShard::clone` (`/repo/src/shard.rs:104-133`). -/
def Shard.clone (ck : K → K) (cv : V → V) (s : Shard K V) : Shard K V where
  map := s.map
  probe := s.probe
  entries := s.entries.clone (Entry.clone ck cv)
  coldHead := s.coldHead
  hotHead := s.hotHead
  ghostHead := s.ghostHead
  weightTargetHot := s.weightTargetHot
  weightCapacity := s.weightCapacity
  weightHot := s.weightHot
  weightCold := s.weightCold
  numHot := s.numHot
  numCold := s.numCold
  numNonResident := s.numNonResident
  capacityNonResident := s.capacityNonResident
  hits := s.hits
  misses := s.misses
  nextPlh := s.nextPlh

end QuickCache
