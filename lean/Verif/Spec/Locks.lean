import Verif.Model.Locks

/-!
# Notions for the deadlock properties (C53, C68)
-/

namespace QuickCache.Spec
open Locks

/-- The order of the three sorts of locks. -/
def level : Lock → Nat
  | .shard _ => 0
  | .state _ => 1
  | .waiter _ => 2

/-- Thread `t` is about to acquire `l`. -/
def Wants (s : Sys) (t : Nat) (l : Lock) (m : Mode) : Prop := ∃ rest, (s t).todo = .acquire l m :: rest

/-- Thread `t` cannot go on before thread `u` does: `u` holds the lock that `t` wants, in a way that excludes `t`; or both
want the same lock and `u` comes first (`first` is how the lock is granted, for example writers before readers). -/
inductive WaitsFor (first : Nat → Nat → Prop) (s : Sys) (t u : Nat) : Prop
  | holder (l : Lock) (m m' : Mode) (wants : Wants s t l m) (holds : (l, m') ∈ (s u).held) (excl : compatible m m' = false)
  | queue (l : Lock) (m m' : Mode) (wants : Wants s t l m) (before : Wants s u l m') (first : first u t)

/-- The least that a lock does: if nobody holds it and someone wants it, someone is granted it. -/
def GrantsFree (s : Sys) (granted : Nat → Prop) : Prop :=
  ∀ l, (∀ u m, (l, m) ∉ (s u).held) → (∃ u m, Wants s u l m) → ∃ u m, Wants s u l m ∧ granted u

/-- Thread `t` is running the user code `u` (and it is not waiting for the return of a call that `u` made). -/
def Runs (s : Sys) (t : Nat) (u : User) : Prop := ∃ rest, (s t).todo = .user u :: rest

/-- Thread `t` is parked. -/
def Parked (s : Sys) (t : Nat) : Prop := ∃ rest, (s t).todo = .park :: rest

/-- Thread `t` calls the cache. -/
def Calls (dbg : Bool) (s : Sys) (t : Nat) (c : Call) : Sys :=
  Function.update s t ⟨c.acts dbg ++ (s t).todo, (s t).held⟩

/-- What can happen next: a thread performs its next act, or a thread outside of the cache calls it. -/
inductive Goes (dbg : Bool) (s : Sys) : Sys → Prop
  | next {t : Nat} {s' : Sys} (h : Next s t s') : Goes dbg s s'
  | call {t : Nat} (c : Call) (ht : (s t).todo = []) : Goes dbg s (Calls dbg s t c)

/-- The calls that ask about or change one key, the number of its shard, and in which mode they enter the shard first. -/
inductive EntersFirst : Call → Nat → Mode → Prop
  | look (i : Nat) (r : ReadCode) : EntersFirst (.look i r) i .read
  | remove (i : Nat) (w : WriteCode) : EntersFirst (.remove i w) i .write
  | store (i : Nat) (w : WriteCode) (ends : Bool) : EntersFirst (.store i w ends) i .write
  | join (i : Nat) (r : ReadCode) (w : WriteCode) (u : Upsert) : EntersFirst (.join i r w u) i .read
  | wait (i : Nat) (r : ReadCode) (w : WriteCode) (p : Nat) (how : Wait) : EntersFirst (.wait i r w p how) i .read

/-- Thread `t` has not returned to `rest` yet. -/
def Within (s : Sys) (t : Nat) (rest : List LAct) : Prop := ∃ pre, pre ≠ [] ∧ (s t).todo = pre ++ rest

end QuickCache.Spec
