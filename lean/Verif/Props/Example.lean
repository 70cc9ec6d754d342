import Verif.Model.Unsync

/-!
# A concrete cache used to show that the theorems are not vacuous
-/

namespace QuickCache
variable {K V RS : Type _}
open Unsync

/-- Performing a list of calls. -/
def runOps [DecidableEq K] (c : Cfg K V RS) (s : Shard K V) : List (Op K V) → Res (Shard K V × List (Call K V))
  | [] => .ok (s, [])
  | op :: ops => do
    let (s1, out, q) ← step c s op
    let (s2, h) ← runOps c s1 ops
    .ok (s2, ⟨op, out, q.log⟩ :: h)

theorem Unsync.Run.append [DecidableEq K] {c : Cfg K V RS} {s0 s' : Shard K V} :
    ∀ {ops : List (Op K V)} {s : Shard K V} {h h' : List (Call K V)}, Run c s0 h s →
      runOps c s ops = .ok (s', h') → Run c s0 (h ++ h') s' := by
  intro ops
  induction ops with
  | nil =>
    intro s h h' hr hs
    cases hs
    simpa using hr
  | cons op ops ih =>
    intro s h h' hr hs
    unfold runOps at hs
    rcases hstep : step c s op with p | ⟨s1, out, q⟩
    · rw [hstep] at hs; cases hs
    · rw [hstep] at hs
      simp only [Res.ok_bind] at hs
      rcases hrest : runOps c s1 ops with p | ⟨s2, h2⟩
      · rw [hrest] at hs; cases hs
      · rw [hrest] at hs
        cases hs
        have := ih (.call hr hstep) hrest
        simpa using this

theorem runOps_run [DecidableEq K] {c : Cfg K V RS} {s0 s : Shard K V} {ops : List (Op K V)} {h : List (Call K V)}
    (hs : runOps c s0 ops = .ok (s, h)) : Run c s0 h s := by
  have := Run.append (c := c) (s0 := s0) (s' := s) (ops := ops) .start hs
  simpa using this

/-- Performing some calls and then one more, and checking its result. -/
def checkThen [DecidableEq K] (c : Cfg K V RS) (s0 : Shard K V) (ops : List (Op K V)) (op : Op K V)
    (P : Shard K V → Out K V → List (Event K V) → Prop) [∀ s out log, Decidable (P s out log)] : Bool :=
  match runOps c s0 ops with
  | .ok (s, _) =>
    match step c s op with
    | .ok (s', out, q) => decide (P s' out q.log)
    | .error _ => false
  | .error _ => false

theorem runThen [DecidableEq K] {c : Cfg K V RS} {s0 : Shard K V} {ops : List (Op K V)} {op : Op K V}
    {P : Shard K V → Out K V → List (Event K V) → Prop} [∀ s out log, Decidable (P s out log)]
    (hc : checkThen c s0 ops op P = true) :
    ∃ s h s' out q, Run c s0 h s ∧ step c s op = .ok (s', out, q) ∧ P s' out q.log := by
  unfold checkThen at hc
  rcases h1 : runOps c s0 ops with p | ⟨s, h⟩
  · rw [h1] at hc; cases hc
  · rw [h1] at hc
    rcases h2 : step c s op with p | ⟨s', out, q⟩
    · simp only [h2] at hc; cases hc
    · simp only [h2, decide_eq_true_eq] at hc
      exact ⟨s, h, s', out, q, runOps_run h1, h2, hc⟩

/-- Keys and values are numbers; only three hashes, so that keys collide; the weight of a value is its last digit; values
from 100 on are pinned; `before_evict` turns the values 51..59 into the weightless 50; the request state records the keys
seen by the callbacks. -/
def exCfg : Cfg Nat Nat (List Nat) where
  hash k := UInt64.ofNat (k % 3)
  weight _ v := v % 10
  pinned _ v := decide (100 ≤ v)
  beginReq := []
  beforeEvict st k v := (st ++ [k], if 50 ≤ v ∧ v < 60 then 50 else v)
  onEvict st k _ := st ++ [k]
  ptrEq := false

/-- The empty example cache: hot target 8, capacity 10, at most 3 ghosts. -/
def exNew : Shard Nat Nat := Shard.new 8 10 3

/-- The example cache after a list of calls, with the history. -/
def exRun (ops : List (Op Nat Nat)) : Shard Nat Nat × List (Call Nat Nat) :=
  match runOps exCfg exNew ops with
  | .ok x => x
  | .error _ => (exNew, [])

/-- No call of the list panics. -/
def exFine (ops : List (Op Nat Nat)) : Bool := (runOps exCfg exNew ops).isOk

theorem exRun_run {ops : List (Op Nat Nat)} (h : exFine ops = true) :
    Run exCfg (Shard.new 8 10 3) (exRun ops).2 (exRun ops).1 := by
  unfold exFine at h
  unfold exRun
  rcases hr : runOps exCfg exNew ops with p | ⟨s, h'⟩
  · rw [hr] at h; cases h
  · exact runOps_run hr

/-- Fill, overwrite, read, overflow with evictions, one spared item, a pinned item, a load, a write in place, a removal. -/
def exOps : List (Op Nat Nat) :=
  [.insert 1 13, .insert 4 24, .get 1, .insert 2 53, .insert 7 105, .insert 3 32, .get 3, .insert 5 44, .insert 6 63,
   .getOrInsertWith 8 (some 12), .getMut 3 (· + 1), .remove 4, .insert 9 9, .replace 7 106 false, .insert 4 11]

/-- One more call on the example cache. -/
def exNext (ops : List (Op Nat Nat)) (op : Op Nat Nat) : Shard Nat Nat × Out Nat Nat × Req Nat Nat (List Nat) :=
  match step exCfg (exRun ops).1 op with
  | .ok x => x
  | .error _ => (exNew, .unit, exCfg.begin)

/-- The call does not panic. -/
def exNextFine (ops : List (Op Nat Nat)) (op : Op Nat Nat) : Bool := (step exCfg (exRun ops).1 op).isOk

theorem exNext_step {ops : List (Op Nat Nat)} {op : Op Nat Nat} (h : exNextFine ops op = true) :
    step exCfg (exRun ops).1 op = .ok (exNext ops op) := by
  unfold exNextFine at h
  unfold exNext
  rcases hr : step exCfg (exRun ops).1 op with p | x
  · rw [hr] at h; cases h
  · rfl

end QuickCache
