import Verif.Model.Default

/-!
# A cache with an eviction listener (`/repo/examples/eviction_listener.rs`)
-/

namespace QuickCache
variable {K V RS : Type}

/-- The parameters of a cache with `UnitWeighter` and a lifecycle that implements no more than it has to, that is
`begin_request` (which yields `rs`) and `on_evict` (which does `f` to the request state), as in
`/repo/examples/eviction_listener.rs:4-15`; `is_pinned` and `before_evict` are those of the trait (`/repo/src/lib.rs:138-165`).
That `on_evict` also sends the item to another thread is seen in the log of lifecycle calls. The default lifecycles
are instances: `Cfg.plain`, `Cfg.shared`. -/
def Cfg.listener (hash : K → UInt64) (rs : RS) (f : RS → K → V → RS) (ptrEq : Bool) : Cfg K V RS :=
  { hash, weight := unitWeight, pinned := neverPinned, beginReq := rs, beforeEvict := keepAsIs, onEvict := f, ptrEq }

end QuickCache
