import Verif.Spec.Twin

/-!
# A flood of new keys
-/

namespace QuickCache
variable {K V RS : Type _}

/-- The key a lifecycle call is about. -/
def Event.key : Event K V → K
  | .beforeEvict k _ _ | .onEvict k _ => k

namespace Spec

/-- The weight of the hot items. -/
def hotTotal (c : Cfg K V RS) (s : Shard K V) : Nat :=
  ((s.residents.filter (fun r => r.state == .hot)).map (fun r => c.weight r.key r.value)).sum

/-- `Flood c target cap bound hot used ops`: the calls `ops` bring in keys not `used` before, each once, by insertions or by
loads; in between, items that were `hot` are looked up, absent keys are looked up, and any keys are peeked at.

`bound` is the weight the hot items may have. Insertions need room for the new item besides; loads need none (but hot items
may then take the whole capacity). -/
inductive Flood (c : Cfg K V RS) (target cap bound : Nat) (hot : K → Prop) : List K → List (Op K V) → Prop
  | done {used : List K} : Flood c target cap bound hot used []
  | insert {used : List K} {k : K} {v : V} {ops : List (Op K V)} (new : k ∉ used)
      (light : bound + enterWeight c target k v ≤ cap) (rest : Flood c target cap bound hot (k :: used) ops) :
      Flood c target cap bound hot used (.insert k v :: ops)
  | load {used : List K} {k : K} {v : V} {ops : List (Op K V)} (new : k ∉ used) (whole : bound = cap)
      (rest : Flood c target cap bound hot (k :: used) ops) :
      Flood c target cap bound hot used (.getOrInsertWith k (some v) :: ops)
  | guard {used : List K} {k : K} {v : V} {ops : List (Op K V)} (new : k ∉ used) (whole : bound = cap)
      (rest : Flood c target cap bound hot (k :: used) ops) :
      Flood c target cap bound hot used (.getRefOrGuard k (.insert v) :: ops)
  | hit {used : List K} {k : K} {ops : List (Op K V)} (known : hot k) (rest : Flood c target cap bound hot used ops) :
      Flood c target cap bound hot used (.get k :: ops)
  | loadHit {used : List K} {k : K} {load : Option V} {ops : List (Op K V)} (known : hot k)
      (rest : Flood c target cap bound hot used ops) : Flood c target cap bound hot used (.getOrInsertWith k load :: ops)
  | guardHit {used : List K} {k : K} {use : GuardUse V} {ops : List (Op K V)} (known : hot k)
      (rest : Flood c target cap bound hot used ops) : Flood c target cap bound hot used (.getRefOrGuard k use :: ops)
  | miss {used : List K} {k : K} {ops : List (Op K V)} (new : k ∉ used) (rest : Flood c target cap bound hot used ops) :
      Flood c target cap bound hot used (.get k :: ops)
  | peek {used : List K} {k : K} {ops : List (Op K V)} (rest : Flood c target cap bound hot used ops) :
      Flood c target cap bound hot used (.peek k :: ops)
  | containsKey {used : List K} {k : K} {ops : List (Op K V)} (rest : Flood c target cap bound hot used ops) :
      Flood c target cap bound hot used (.containsKey k :: ops)

end Spec
end QuickCache
