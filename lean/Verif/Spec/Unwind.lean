import Verif.Spec.Ops
import Verif.Model.Unwind

/-!
# Specification of what a panic in user code leaves behind
-/

namespace QuickCache

/-- The calls of user code whose panic leaves an intact cache. -/
def Site.safe : Site → Bool
  | .hashKey | .compare | .closure | .hashRetain | .loader | .write | .toOwned | .beginRequest | .endRequest => true
  | .weighNew | .pinnedNew | .beforeNew | .reweighNew => true
  | .pinnedCold | .weighCold | .pinnedHot | .weighHot => true
  | .onCold | .onReplaced | .onOverweightOld | .onOverweight | .onOverweightLoad | .weighRef => true
  | .beforeCold | .reweighCold | .hashCold | .beforeHot | .reweighHot | .hashHot | .onHot => false
  | .weighPromoted | .weighRemoved | .weighReplaced => false
  | .weighLoad | .pinnedLoad | .beforeLoad | .reweighLoad => false
  | .weighDrop | .rehash => false

namespace Spec
variable {K V RS : Type} [DecidableEq K]

/-- What an interrupted call may have done to the map `m`. -/
inductive Left (c : Cfg K V RS) (target : Nat) (m : K → Option V) : Op K V → (K → Option V) → Prop
  /-- nothing -/
  | nothing {op : Op K V} : Left c target m op m
  /-- what the call may do if it completes -/
  | whole {op : Op K V} {out : Out K V} {log : List (Event K V)} {m' : K → Option V}
      (h : OpSpec c target m op out log m') : Left c target m op m'
  /-- an insertion was making room for an absent key, which it has not stored yet -/
  | room {k : K} {v v1 : V} {st st' : RS} {pre L : List (Event K V)} {m' : K → Option V} (absent : m k = none)
      (enter : Enter c target k v st pre v1) (fits : Admitted c target k pre v1) (evicts : Evicts c m st L m' st') :
      Left c target m (.insert k v) m'
  /-- the loaded value was stored, but not yet written to -/
  | loaded {k : K} {v : V} {f : V → V} {log : List (Event K V)} {m' : K → Option V} (absent : m k = none)
      (store : Store c target m k v log m') : Left c target m (.getMutOrInsertWith k (some v) f) m'

/-- A call asking for `k` would join the load `p`. -/
def Joinable (c : Cfg K V RS) (s : Shard K V) (k : K) (p : Plh) : Prop :=
  (∃ ph : Placeholder K, s.entries.item p.idx = some (.placeholder ph) ∧ ph.key = k ∧ ph.shared = p) ∧
    (c.hash k, p.idx) ∈ s.map

/-- The calls that may begin a load of `k` and not end it: calls with a loader, which may fail, and calls that return a guard
if the guard is forgotten. -/
inductive Opens : Op K V → K → Prop
  | load (k : K) (l : Option V) : Opens (.getOrInsertWith k l) k
  | loadMut (k : K) (l : Option V) (f : V → V) : Opens (.getMutOrInsertWith k l f) k
  | guard (k : K) : Opens (.getRefOrGuard k .forget) k
  | guardMut (k : K) (f : V → V) : Opens (.getMutOrGuard k f .forget) k

end Spec

namespace Unsync
variable {K V RS : Type} [DecidableEq K]

/-- A history in which some calls were interrupted by a panic of user code at a place that leaves the cache intact, the
panic having been caught outside. Between calls the hash table may have any layout, as in `Run`. -/
inductive Bumpy (c : Cfg K V RS) (s0 : Shard K V) : Shard K V → Prop
  | start : Bumpy c s0 s0
  | call {s s' : Shard K V} {op : Op K V} {out : Out K V} {q : Req K V RS} (before : Bumpy c s0 s)
      (hs : step c s op = .ok (s', out, q)) : Bumpy c s0 s'
  | interrupted {s s' : Shard K V} {op : Op K V} {p : Point K V} (before : Bumpy c s0 s)
      (hp : p ∈ (Unwind.step c s op).points) (safe : p.site.safe = true) (left : p.left = .ok s') : Bumpy c s0 s'
  | layout {s : Shard K V} {m : List (UInt64 × Nat)} {probe : UInt64 → UInt64 → Bool} (before : Bumpy c s0 s)
      (hm : m.Perm s.map) (hp : ∀ x, probe x x = true) : Bumpy c s0 (s.relayout m probe)

/-- The cache is visibly damaged. -/
inductive Damaged (c : Cfg K V RS) (s : Shard K V) : Prop
  /-- `len()` is not the number of items -/
  | len (h : s.len ≠ s.iter.length)
  /-- `weight()` is not their weight -/
  | weight {w : Nat} (h : s.weight = .ok w) (ne : w ≠ Spec.total c.weight s.iter)
  /-- an item that `iter()` shows is not found -/
  | lost {k : K} {v : V} {s' : Shard K V} {out : Out K V} {q : Req K V RS} (hm : (k, v) ∈ s.iter)
      (h : step c s (.peek k) = .ok (s', out, q)) (ne : out ≠ .value (some v))
  /-- some call panics, though neither weights nor slots are exhausted -/
  | stuck {op : Op K V} {e : Panic} (h : step c s op = .error e) (h1 : e ≠ .overflow) (h2 : e ≠ .slabFull)

end Unsync
end QuickCache
