import Verif.Proofs.Fuel
import Verif.Proofs.ClockConc
import Verif.Props.Safety
import Verif.Props.ConcExample

/-!
# Properties C65, C66: the release build
-/

namespace QuickCache.Props
variable {K V RS : Type _} [DecidableEq K] {c : Cfg K V RS} {target cap gcap : Nat} {h : List (Unsync.Call K V)}
  {s s' : Shard K V} {fu : Fuel}
open Unsync Spec

/-! ### C65: a release build behaves as the debug build -/

/-- In every state of every run, a call does exactly the same in a release build as in a debug build (result, state,
lifecycle calls, and also the panic "Capacity overflow"), provided that the weights stay below `2^64`. -/
theorem C65_call (hr : Run c (Shard.new target cap gcap) h s) {op : Op K V} (hl : Light c target s op)
    (hf : Fuel.enough.le fu) : stepR fu c s op = step c s op := by
  have ha : step c s op = stepR .enough c s op := by
    rcases step_agree (c := c) s op with ha | ⟨p, hp, he⟩
    · exact ha
    · exfalso
      rcases C06_panics hr he with ⟨rfl, w, hw, hle⟩ | ⟨rfl, -⟩
      · have := hl w hw; omega
      · exact hp
  rcases stepR_more (c := c) hf s op with hm | hm
  · rw [← hm, ha]
  · rw [hm] at ha
    exact absurd ha (C07_terminates hr op)

/-- Whatever a debug build does without panicking, a release build does as well, without any assumption on the weights. -/
theorem C65_debug (hr : Run c (Shard.new target cap gcap) h s) (hf : Fuel.enough.le fu) :
    RunR fu c (Shard.new target cap gcap) h s := by
  induction hr with
  | start => exact .start
  | layout m p _ hm hp ih => exact .layout m p ih hm hp
  | call _ hs ih => exact .call ih ((stepR_more hf _ _).ok ((step_agree _ _).ok hs))

/-- Every run of a release build in which the weights stay below `2^64` is a run of the debug build: all theorems about
`Run` apply to it. -/
theorem C65_release (hr : LightRun fu c target (Shard.new target cap gcap) h s) (hf : Fuel.enough.le fu) :
    Run c (Shard.new target cap gcap) h s := by
  induction hr with
  | start => exact .start
  | layout m p _ hm hp ih => exact .layout m p ih hm hp
  | call _ hl hs ih => exact .call ih ((C65_call ih hl hf) ▸ hs)

omit [DecidableEq K] in
/-- The critical sections of the concurrent cache do the same in a release build as in a debug build. -/
theorem C65_shared [DecidableEq K] {tr : List (Conc.Ev K V)} {s s' : Conc.State K V} {act : Conc.Act K V}
    {evs : List (Conc.Ev K V)} (hr : Conc.Run c (Conc.State.new (Shard.new target cap gcap)) tr s) (hq : c.ptrEq = true)
    (hx : Conc.exec c s act = some (.ok (s', evs))) {sec : Section K V} {out : SOut K V} {log : List (Event K V)}
    (he : .sect sec out log ∈ evs) (hf : Fuel.enough.le fu) :
    ∃ q, q.log = log ∧ Sync.stepR fu c s.shard sec = .ok (s'.shard, out, q) := by
  rcases Conc.exec_sect (hr.reach hq (.new ..)).inv hq hx with ⟨-, h⟩ | ⟨sec', out', q, rest, rfl, h, hs, -⟩
  · exact nomatch h _ he
  · rcases List.mem_cons.1 he with he | he
    · cases he
      exact ⟨q, rfl, (sectR_more hf _ _).ok ((sect_agree _ _).ok hs)⟩
    · exact nomatch h _ he

/-- The panic of a call, if it does not return. -/
def panicOf {α : Type _} : Res α → Option Panic
  | .ok _ => none
  | .error p => some p

/-- Performing a list of calls with a release build. -/
def runOpsR (c : Cfg K V RS) (s : Shard K V) : List (Op K V) → Res (Shard K V)
  | [] => .ok s
  | op :: ops => do
    let (s1, _, _) ← stepR .enough c s op
    runOpsR c s1 ops

/-- The example history is one of light calls: no value weighs more than 9. -/
example : exFine exOps = true ∧ (∀ op, Light exCfg 8 (exRun exOps).1 op) := by
  refine ⟨by decide, fun op w h => ?_⟩
  have : ∀ k v, exCfg.weight k v < 10 := fun k v => Nat.mod_lt _ (by decide)
  have h2 : ∀ k v, enterWeight exCfg 8 k v < 10 := by
    intro k v; unfold enterWeight; split <;> exact this _ _
  have h9 : total exCfg.weight (exRun exOps).1.iter = 9 := by decide
  rw [h9]
  cases h with
  | insert | replace | load | guard | guardMut =>
    exact Nat.lt_of_lt_of_le (Nat.add_lt_add_left (h2 _ _) 9) (by decide)
  | getMut | peekMut | loadMutHit | guardMutHit =>
    exact Nat.lt_of_lt_of_le (Nat.add_lt_add_left (this _ _) 9) (by decide)
  | loadMut =>
    exact Nat.lt_of_lt_of_le (Nat.add_lt_add_left (Nat.add_lt_add (h2 _ _) (this _ _)) 9) (by decide)

/-- The debug and the release build on the same calls. -/
example : (runOpsR exCfg exNew (exOps ++ exOps)).toOption.map (fun s => (s.iter, s.map, s.entries, s.weightHot)) =
    (runOps exCfg exNew (exOps ++ exOps)).toOption.map (fun x => (x.1.iter, x.1.map, x.1.entries, x.1.weightHot)) ∧
    (runOps exCfg exNew (exOps ++ exOps)).toBool = true := by decide +kernel

/-- A section of the concurrent example. -/
example : cxFine cxDone = true ∧ (cxRun cxDone).2.any (fun e => match e with
    | .sect (.fill _ _ _ _) (.filled none) _ => true
    | _ => false) = true := by decide +kernel

/-- Without the assumption it fails: two pinned items that weigh `2^63` each. A debug build panics; in a release build the
weights wrap around, the cache holds both, and reports weight 0. -/
theorem C65_false : ∃ c : Cfg Nat Nat (List Nat), panicOf (runOps c exNew [.insert 1 1, .insert 2 2]) = some .overflow ∧
    (runOpsR c exNew [.insert 1 1, .insert 2 2]).toOption.map (fun s => (s.iter, s.weightR.toOption)) =
      some ([(1, 1), (2, 2)], some 0) ∧ c.weight 1 1 + c.weight 2 2 = 2 ^ 64 :=
  ⟨{ exCfg with weight := fun _ _ => 2 ^ 63, pinned := fun _ _ => true }, by decide +kernel⟩

/-! ### C66: no undefined behaviour, whatever the state -/

/-- A release build has no undefined behaviour in any call, whatever state the cache is in: none of the
`unreachable_unchecked` and `get_unchecked` of the code is reached with a wrong entry, for arbitrary contents of the slab,
arbitrary links, counters, heads and index, arbitrary user functions, and any number of iterations of the loops. -/
theorem C66_calls (fu : Fuel) (c : Cfg K V RS) (s : Shard K V) (op : Op K V) : stepR fu c s op ≠ .error .ub :=
  (stepR_safe s op).ne

/-- The same for the critical sections of the concurrent cache, whatever placeholder or slot they are called with. -/
theorem C66_sections (fu : Fuel) (c : Cfg K V RS) (s : Shard K V) (sec : Section K V) :
    Sync.stepR fu c s sec ≠ .error .ub :=
  (sectR_safe s sec).ne

/-- And for a debug build. -/
theorem C66_debug (c : Cfg K V RS) (s : Shard K V) (op : Op K V) (sec : Section K V) :
    step c s op ≠ .error .ub ∧ Sync.step c s sec ≠ .error .ub := by
  constructor
  · rcases step_agree (c := c) s op with h | ⟨p, hp, h⟩
    · rw [h]; exact (stepR_safe s op).ne
    · rw [h]; intro e; cases e; exact hp
  · rcases sect_agree (c := c) s sec with h | ⟨p, hp, h⟩
    · rw [h]; exact (sectR_safe s sec).ne
    · rw [h]; intro e; cases e; exact hp

/-- The cache after `mem::forget` of a mutable reference through which the value 1 of key 1 was overwritten with 5: the
weight counted is still 1. -/
def leaked : Shard Nat Nat :=
  (exRun [.insert 1 1]).1.setEntry 0 (.resident { key := 1, value := 5, state := .hot, referenced := 0 })

/-- The cache after a panic in `on_evict` called by `advance_hot` (`/repo/src/shard.rs:718-719`) for key 1: the slot is free
but the index still has it. -/
def torn : Shard Nat Nat :=
  let s := (exRun [.insert 1 1]).1
  { s with entries := ((s.entries.remove 0).toOption.map (·.1)).getD s.entries, hotHead := none, numHot := 0,
           weightHot := 0 }

/-- States that no proper use reaches: in the first the accounting is off, a debug build panics and a release build goes on
with a weight close to `2^64`; in the second every lookup of a key with that hash panics in both. -/
example : panicOf (step exCfg leaked (.remove 1)) = some .underflow ∧
    (runOpsR exCfg leaked [.remove 1]).toOption.map (fun s => s.weightHot) = some (2 ^ 64 - 4) ∧
    (runOpsR exCfg leaked [.remove 1, .insert 2 2]).toOption.map (fun s => s.iter) = some [(2, 2)] ∧
    panicOf (stepR .enough exCfg torn (.get 1)) = some .unwrapNone ∧
    panicOf (stepR .enough exCfg torn (.insert 4 4)) = some .unwrapNone := by
  decide +kernel

end QuickCache.Props
