import Verif.Model.Poison
import Verif.Spec.ConcUnwind

/-!
# Notions for the cache with the locks of `std`
-/

namespace QuickCache.Spec
variable {K V RS : Type}
open Conc (Act Ev Where)
open QuickCache.Std

/-- The lock of the shard is poisoned. -/
def Dead (s : Std.State K V) : Prop := s.shardBad = true

/-- The thread of agent `a` is unwinding, and dropping what the agent has is going to panic. -/
inductive Doomed (s : Std.State K V) (a : Nat) : Prop
  /-- a guard: one of the locks that its destructor takes is poisoned -/
  | guard {k : K} {p : Plh} (uw : s.unwinding a = true) (at_ : s.base.ctl a = .leaving k p ∨ s.base.ctl a = .dropping k p)
      (bad : s.stateBad p.id = true)
  /-- a future: one of the locks that its destructor takes is poisoned, or it is neither notified nor a waiter -/
  | future {k : K} {p : Plh} (uw : s.unwinding a = true) (task : s.base.kind a = .task) (at_ : s.base.ctl a = .waiting k p)
      (bad : s.stateBad p.id = true ∨ s.waiterBad a = true ∨
        (s.base.flag a = false ∧ ∀ i ps, s.base.plh i = some ps → a ∉ ps.waiters))

/-- The shard can be used, and nobody is about to abort the process. -/
def Sound (s : Std.State K V) : Prop := ¬ Dead s ∧ ∀ a, ¬ Doomed s a

/-- No lock is poisoned. -/
def Clean (s : Std.State K V) : Prop :=
  s.shardBad = false ∧ (∀ i, s.stateBad i = false) ∧ ∀ a, s.waiterBad a = false

/-- Somebody has the guard of the load that `b` waits for. -/
def Guarded (s : Conc.State K V) (b : Nat) : Prop :=
  ∃ a k p ps, s.ctl a = .guard k p ∧ s.plh p.id = some ps ∧ b ∈ ps.waiters

/-- The events that do not need the shard. -/
def Shardless : Ev K V → Prop
  | .timedOut _ | .cancelled _ | .published _ _ _ | .polled _ _ | .woke _ _ => True
  | _ => False

/-- The calls of user code made under the write lock of the shard: by the calls that change the map, while a missing key is being
looked up again, registered or joined, while a loaded value is stored, and when the load is handed over to a waiting future. -/
def UnderWriteLock : Act K V → Where → Prop
  | .call (.insert _ _), i | .call (.replace _ _ _), i | .call (.remove _), i | .call (.retain _), i | .call .clear, i
  | .call .reserve, i | .upsert _, i | .store _, i =>
    i ≠ .code .hashKey ∧ i ≠ .code .beginRequest ∧ i ≠ .code .endRequest
  | .join _, _ | .finishDrop _, _ => True
  | _, _ => False

/-- The places at which a panic aborts the process. -/
def Fatal : Where → Prop
  | .clonePublished | .wakeInserted | .renewWaker | .cloneForTask => True
  | _ => False

end QuickCache.Spec
