import Verif.Model.Nest
import Verif.Spec.Conc
import Mathlib.Logic.Relation

/-!
# Who waits for whom
-/

namespace QuickCache.Spec
variable {K V RS : Type _}
open Conc (Ctl)

/-- Strand `t` waits for strand `u`: a call of `t` waits, without having been notified, for a load of which `u` has the guard. -/
def WaitsOn (s : Nest.State K V) (t u : Nat) : Prop :=
  ∃ i st a b k p, s.cache.shards[i]? = some st ∧ s.owner i a = t ∧ s.owner i b = u ∧ Waits st a p ∧ st.ctl b = .guard k p

/-- A deadlock: some strands, each of which waits for one of them. -/
def Deadlock (s : Nest.State K V) (T : Nat → Prop) : Prop := (∃ t, T t) ∧ ∀ t, T t → ∃ u, T u ∧ WaitsOn s t u

/-- Strand `t` waits for itself, directly or through others. -/
def Circle (s : Nest.State K V) (t : Nat) : Prop := Relation.TransGen (WaitsOn s) t t

/-- Strand `t` is in a call or has a guard. -/
def Active (s : Nest.State K V) (t : Nat) : Prop :=
  ∃ i st a, s.cache.shards[i]? = some st ∧ s.owner i a = t ∧ st.ctl a ≠ .idle

/-- No restriction. -/
def Anything (_ : Nest.State K V) (_ : Nest.Act K V) : Prop := True

/-- The strands `T` do not give up waiting: none of their timeouts runs out, none of their futures is dropped. -/
def Patient (T : Nat → Prop) (s : Nest.State K V) : Nest.Act K V → Prop
  | .act i (.timeout a) | .act i (.cancel a) => ¬ T (s.owner i a)
  | _ => True

/-- The key of a guard held by strand `t`. -/
def Guards (s : Nest.State K V) (t : Nat) (k : K) : Prop :=
  ∃ i st a p, s.cache.shards[i]? = some st ∧ s.owner i a = t ∧ st.ctl a = .guard k p

/-- A strand asks for a key (other than with `get`, which does not wait) only if it has no guards but of keys of lower rank. -/
def Climbs (rank : K → Nat) (s : Nest.State K V) : Nest.Act K V → Prop
  | .begin t _ kind k => kind = .get ∨ ∀ k', Guards s t k' → rank k' < rank k
  | _ => True

/-- A strand asks for keys (other than with `get`) only if it has no guards. -/
def Flat (s : Nest.State K V) : Nest.Act K V → Prop
  | .begin t _ kind _ => kind = .get ∨ ∀ k', ¬ Guards s t k'
  | _ => True

/-- Call `a` has not returned. -/
def InCall (s : Conc.State K V) (a : Nat) : Prop := (s.ctl a).engaged = true

/-- Something that is due (`Due`) on some shard is possible. -/
def CanGoOn [DecidableEq K] (c : Cfg K V RS) (s : Nest.State K V) : Prop :=
  ∃ i st act, s.cache.shards[i]? = some st ∧ Due st act ∧ Nest.exec c s (.act i act) ≠ none

end QuickCache.Spec
