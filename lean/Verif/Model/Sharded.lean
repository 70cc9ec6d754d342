import Verif.Model.Conc

/-!
# Model of `sync::Cache` in use by any number of threads (`/repo/src/sync.rs`)

The cache is a list of shards, each with its lock, its placeholders and its callers (`Conc.State`). A call about a key is
routed to the shard of the key and stays there; `retain`, `clear` and `reserve` visit the shards one after the other, here
as one action per shard that may be interleaved with anything, in any order. A thread is here not prevented from being in
calls on two shards at once, which only adds executions.
-/

namespace QuickCache
variable {K V RS : Type _}

/-- The key a call is about. -/
def Op.key : Op K V → Option K
  | .insert k _ | .replace k _ _ | .remove k | .get k | .peek k | .containsKey k | .getMut k _ | .peekMut k _
  | .getOrInsertWith k _ | .getMutOrInsertWith k _ _ | .getRefOrGuard k _ | .getMutOrGuard k _ _ => some k
  | .retain _ | .clear | .drain | .reserve => none

namespace Conc

/-- The key by which an action is routed: that of a new call or future, or of a call made of a single section
(`self.shard_for(key)`, `/repo/src/sync.rs:242`, `251`, `261`, `271`, `301`, `325`, `360`, `403`). The other actions go on
where the call is, or are sections of calls that visit all shards. -/
def Act.key : Act K V → Option K
  | .begin _ k => some k
  | .call op => op.key
  | _ => none

/-- `sync::Cache` (`/repo/src/sync.rs:31-42`) and its callers. -/
structure Cache (K V : Type _) where
  shards : List (State K V)
  mask : UInt64

namespace Cache

/-- A cache just built, without callers. -/
def start (s : SyncCache K V) : Cache K V := ⟨s.shards.map State.new, s.mask⟩

/-- The cache without its callers: what `len()`, `weight()`, … look at. -/
def still (s : Cache K V) : SyncCache K V := ⟨s.shards.map (·.shard), s.mask⟩

/-- The index computed by `shard_for` (`/repo/src/sync.rs:208-225`). -/
def home (c : Cfg K V RS) (s : Cache K V) (k : K) : Nat := shardIdx s.mask (c.hash k)

/-- Whether an action takes place on shard `i`. -/
def routes (c : Cfg K V RS) (s : Cache K V) (i : Nat) (act : Act K V) : Bool :=
  match act.key with
  | some k => s.home c k == i
  | none => true

/-- An action on shard `i`. `shard_for(key).unwrap()` panics if there is no such shard; `get`, `peek` and `contains_key`,
which use `shard_for(key)?` instead, are treated alike. -/
def exec [DecidableEq K] (c : Cfg K V RS) (s : Cache K V) (i : Nat) (act : Act K V) :
    Option (Res (Cache K V × List (Ev K V))) :=
  if s.routes c i act then
    match s.shards[i]? with
    | none => if act.key.isSome then some (.error .unwrapNone) else none
    | some st =>
      match Conc.exec c st act with
      | none => none
      | some r => some (do
          let (st', evs) ← r
          .ok ({ s with shards := s.shards.set i st' }, evs))
  else none

/-- `Run c s0 tr s`: from `s0` some interleaving of actions on the shards leads to `s`, with the events `tr` (oldest
first), each with the shard where it happened. -/
inductive Run [DecidableEq K] (c : Cfg K V RS) (s0 : Cache K V) : List (Nat × Ev K V) → Cache K V → Prop
  | start : Run c s0 [] s0
  | layout {tr : List (Nat × Ev K V)} {s : Cache K V} {i : Nat} {st : State K V} (m : List (UInt64 × Nat))
      (p : UInt64 → UInt64 → Bool) (hr : Run c s0 tr s) (hi : s.shards[i]? = some st) (hm : m.Perm st.shard.map)
      (hp : ∀ x, p x x = true) :
      Run c s0 tr { s with shards := s.shards.set i { st with shard := st.shard.relayout m p } }
  | act {tr : List (Nat × Ev K V)} {s s' : Cache K V} {i : Nat} {act : Act K V} {evs : List (Ev K V)}
      (hr : Run c s0 tr s) (hs : s.exec c i act = some (.ok (s', evs))) :
      Run c s0 (tr ++ evs.map (fun e => (i, e))) s'

end Cache
end Conc
end QuickCache
