import Verif.Model.Sharded

/-!
# Model of callers that do one thing after the other, and of loaders that use the cache

`Sharded.lean` has calls without saying who makes them. Here every call of `get`, `get_value_or_guard` and
`get_value_or_guard_async` on any shard belongs to a *strand*: a thread, or a future that awaits one thing after the other.
A strand that holds a guard may begin another call before it uses the guard, as a loader does that asks the same cache for
something else (`with()` in `get_or_insert_with`, `/repo/src/sync.rs:380`; `with.await`, `424`). While that call has not
returned, the strand does nothing else; in particular it neither inserts through its guards nor drops them.
-/

namespace QuickCache
variable {K V RS : Type _}

namespace Conc

/-- The call that an action advances. -/
def Act.agent : Act K V → Option Nat
  | .begin _ _ | .call _ => none
  | .enter a _ | .find a | .load a _ | .bump a | .tally a | .upsert a | .join a | .startLoading a | .wake a | .poll a _
  | .timeout a | .relock a | .rejoin a | .publish a _ | .store a | .drop a | .lockDrop a | .finishDrop a | .cancel a
  | .abandon a => some a

/-- In the middle of a call, of an insertion through a guard, or of dropping a guard or a future: the strand cannot do anything
else. A call that has returned a guard does not keep its strand from doing something else. -/
def Ctl.engaged : Ctl K V → Bool
  | .idle | .guard _ _ => false
  | _ => true

end Conc

namespace Nest
open Conc (Kind Ev)

/-- The cache with its callers; `owner i a` is the strand that made call `a` on shard `i`. -/
structure State (K V : Type _) where
  cache : Conc.Cache K V
  owner : Nat → Nat → Nat

/-- A cache just built. -/
def start (s : SyncCache K V) : State K V := ⟨Conc.Cache.start s, fun _ _ => 0⟩

/-- Strand `t` is in the middle of no call, except possibly in that of agent `a` on shard `i`. -/
def free (s : State K V) (t i a : Nat) : Bool :=
  s.cache.shards.zipIdx.all (fun x => (List.range x.1.next).all (fun b =>
    (x.2 == i && b == a) || s.owner x.2 b != t || !(x.1.ctl b).engaged))

/-- The number of the next call on shard `i`. -/
def fresh (s : State K V) (i : Nat) : Nat :=
  match s.cache.shards[i]? with
  | some st => st.next
  | none => 0

/-- The actions. -/
inductive Act (K V : Type _) where
  /-- strand `t` begins a call on shard `i` -/
  | begin (t i : Nat) (kind : Kind) (k : K)
  /-- any other action on shard `i` -/
  | act (i : Nat) (x : Conc.Act K V)

/-- The calls of strand `t` on a thread carry its number. -/
def fits (t : Nat) : Kind → Bool
  | .thread tid _ => tid == t
  | _ => true

/-- An action on shard `i`, performed by its strand. -/
def lift [DecidableEq K] (c : Cfg K V RS) (s : State K V) (i : Nat) (x : Conc.Act K V) (owner : Nat → Nat → Nat) :
    Option (Res (State K V × List (Nat × Ev K V))) :=
  match s.cache.exec c i x with
  | none => none
  | some r => some (do
      let (y, evs) ← r
      .ok (⟨y, owner⟩, evs.map (fun e => (i, e))))

/-- One action. Calls made of one section on a shard are not attributed to strands. -/
def exec [DecidableEq K] (c : Cfg K V RS) (s : State K V) : Act K V → Option (Res (State K V × List (Nat × Ev K V)))
  | .begin t i kind k =>
    if fits t kind && free s t i (fresh s i) then
      lift c s i (.begin kind k) (fun j b => if j = i ∧ b = fresh s i then t else s.owner j b)
    else none
  | .act i x =>
    match x, x.agent with
    | .begin _ _, _ => none
    | x, some a => if free s (s.owner i a) i a then lift c s i x s.owner else none
    | x, none => lift c s i x s.owner

/-- `Run c P s0 tr s`: from `s0` some interleaving of actions leads to `s`, with the events `tr`, each with the shard where it
happened; every action satisfies `P` in the state in which it is taken. -/
inductive Run [DecidableEq K] (c : Cfg K V RS) (P : State K V → Act K V → Prop) (s0 : State K V) :
    List (Nat × Ev K V) → State K V → Prop
  | start : Run c P s0 [] s0
  | layout {tr : List (Nat × Ev K V)} {s : State K V} {i : Nat} {st : Conc.State K V} (m : List (UInt64 × Nat))
      (p : UInt64 → UInt64 → Bool) (hr : Run c P s0 tr s) (hi : s.cache.shards[i]? = some st) (hm : m.Perm st.shard.map)
      (hp : ∀ x, p x x = true) :
      Run c P s0 tr { s with cache :=
        { s.cache with shards := s.cache.shards.set i { st with shard := st.shard.relayout m p } } }
  | act {tr : List (Nat × Ev K V)} {s s' : State K V} {act : Act K V} {evs : List (Nat × Ev K V)} (hr : Run c P s0 tr s)
      (hP : P s act) (hs : exec c s act = some (.ok (s', evs))) : Run c P s0 (tr ++ evs) s'

end Nest
end QuickCache
