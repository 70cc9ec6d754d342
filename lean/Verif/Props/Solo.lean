import Verif.Proofs.Solo
import Verif.Proofs.ClockPtr
import Verif.Props.Clock
import Verif.Props.Example

/-!
# Property C91: used by one caller at a time, the concurrent cache is the single-threaded one
-/

namespace QuickCache.Props
variable {K V RS : Type} [DecidableEq K] {c : Cfg K V RS} {target cap gcap : Nat} {lay : Solo.Layout K V}
  {l : List (Solo.Call K V)} {w : Solo.World K V} {h h' : List (Unsync.Call K V)} {s' : Shard K V}
open Spec

/-! ### Every call comes to its end -/

/-- No call of a program that makes one call at a time waits for ever, and none panics, unless it makes the cache too large: the
items that are there and what the call adds weigh 2⁶⁴ or more, or there are no more slots, for which there must have been at
least a 13th of 2³² - 2 calls. -/
theorem C91_ends (hq : c.ptrEq = true) (hl : lay.Fair) (hk : ∀ x ∈ l, x.Known) {e : Panic}
    (hr : Solo.run c lay l (.new target cap gcap) = .error e) :
    ∃ l1 x l2 w1 h1, l = l1 ++ x :: l2 ∧ Solo.run c lay l1 (.new target cap gcap) = .ok (w1, h1) ∧
      Solo.perform c lay w1 x = .error e ∧
      ((e = .overflow ∧ ∃ n, Adds c target w1.st.shard.contents x.op n ∧ 2 ^ 64 ≤ total c.weight w1.st.shard.iter + n) ∨
       (e = .slabFull ∧ 2 ^ 32 - 2 ≤ 13 * l.length)) := by
  rcases Solo.Quiet.calls (l := l) hq hl hk (Solo.Quiet.new (c := c) (T := target) (C := cap) (G := gcap)) .start with
    ⟨e', l1, x, l2, w1, h1, m1, g1, g2, g3, g4, g5, g6⟩ | ⟨w', h', m', h1, -⟩
  · rw [g2] at hr
    cases hr
    refine ⟨l1, x, l2, w1, h1, g1, g3, g5, ?_⟩
    rw [g4.value] at g6
    rcases g6 with ⟨rfl, n, items, a1, a2, a3⟩ | g6
    · exact Or.inl ⟨rfl, n, a1, by rw [(lists_iter (g4.inv hq).shard.toInv0).total a2]; exact a3⟩
    · exact Or.inr ⟨g6.1, by simpa [Solo.World.new] using g6.2⟩
  · rw [h1] at hr
    cases hr

/-! ### The policy is the same -/

/-- A history of the concurrent cache, used by one caller at a time, is a history of the same abstract machine of which the
histories of the single-threaded cache are (C57). The entry of a call that loads says `get_ref_or_guard`. -/
theorem C91_policy (hq : c.ptrEq = true) (hl : lay.Fair) (hk : ∀ x ∈ l, x.Known)
    (hr : Solo.run c lay l (.new target cap gcap) = .ok (w, h)) :
    h.map (·.op) = l.map Solo.Call.op ∧
    ∃ m : Clock K V, Clock.Run c (.empty target cap gcap) h m ∧ (∀ k v, (k, v) ∈ w.st.shard.iter ↔ m.value k = some v) ∧
      (∀ x, w.st.shard.weight = .ok x → x = m.hotWeight c + m.coldWeight c) ∧ m.ghosts.length = w.st.shard.numNonResident := by
  rcases Solo.Quiet.calls (l := l) hq hl hk (Solo.Quiet.new (c := c) (T := target) (C := cap) (G := gcap)) .start with
    ⟨e', _, _, _, _, _, _, -, h1, -⟩ | ⟨w', h', m', h1, h2, h3, h4⟩
  · rw [h1] at hr
    cases hr
  · rw [h1] at hr
    cases hr
    have hi := (h3.inv hq).shard.toInv0
    refine ⟨h2, m', h4, ?_⟩
    obtain ⟨R, F, h5, rfl⟩ := h3.sim
    refine ⟨fun k v => ?_, fun x hx => ?_, Shard.abs_ghosts hi h5⟩
    · rw [Shard.abs_value]
      exact (lists_iter hi).2 k v
    · rw [Shard.abs_hotWeight hi h5, Shard.abs_coldWeight hi h5]
      unfold Shard.weight cadd at hx
      split at hx
      · cases hx; rfl
      · cases hx

/-! ### The calls do the same -/

/-- The single-threaded cache, used in the same way, returns the same, evicts the same items in the same order and contains the
same, if the hashes of the keys do not collide. -/
theorem C91_twin (hq : c.ptrEq = true) (hl : lay.Fair) (hk : ∀ x ∈ l, x.Known)
    (hr : Solo.run c lay l (.new target cap gcap) = .ok (w, h))
    (hr' : Unsync.Run (c.compare false) (Shard.new target cap gcap) h' s') (hops : h'.map (·.op) = l.map Solo.Call.op)
    (hd : Distinct c.hash h') :
    List.Forall₂ SameCall h' h ∧ ∀ k v, (k, v) ∈ w.st.shard.iter ↔ (k, v) ∈ s'.iter := by
  obtain ⟨h1, m, h2, h3, -⟩ := C91_policy hq hl hk hr
  obtain ⟨m', h2', h4⟩ := hr'.clock_new
  obtain ⟨a1, a2⟩ := Clock.Run.det (c := c) (hash' := c.hash) (S := (· ∈ keysOf h')) (fun a b ha hb => hd a ha b hb)
    (fun a b ha hb => hd a ha b hb) (Clock.Twin.empty target cap gcap) (h2'.compare (b := c.ptrEq))
    (fun x hx k hk => List.mem_filterMap.mpr ⟨x, hx, hk⟩) h2 (hops.trans h1.symm)
  refine ⟨a1, fun k v => ?_⟩
  rw [h3, hr'.lists.2, ← h4.value, a2.value]

/-! ### An example -/

/-- Insertions with evictions, hits and misses, loads by a thread and by a task, failed loads, a load of a key that was evicted
before, removals, `retain` and `clear`. -/
def soCalls : List (Solo.Call Nat Nat) :=
  [.plain (.insert 1 3), .plain (.insert 2 4), .get 1, .plain (.insert 3 5), .load (.thread 7 true) 4 (some 2),
   .load .task 5 (some 3), .get 5, .get 5, .get 5, .load .task 9 none, .plain (.insert 6 6), .load (.thread 7 false) 3 (some 4),
   .plain (.remove 4), .plain (.insert 2 103), .load .task 2 (some 1), .load (.thread 0 false) 7 none, .get 7,
   .plain (.peek 3), .plain (.retain fun k _ => k ≠ 3), .plain .clear, .load .task 1 (some 1), .plain (.replace 1 2 false)]

/-- The hash table is turned over after every action. -/
def soLay : Solo.Layout Nat Nat := fun _ s => s.relayout s.map.reverse (· == ·)

theorem soLay_fair : soLay.Fair := fun _ s => ⟨s.map.reverse, (· == ·), rfl, List.reverse_perm _, fun x => beq_self_eq_true x⟩

/-- The example cache. -/
def soCfg : Cfg Nat Nat (List Nat) := { exCfg with hash := exHashA, ptrEq := true }

/-- The history of the concurrent cache. -/
def soHistory : List (Unsync.Call Nat Nat) :=
  match Solo.run soCfg soLay soCalls (.new 8 10 3) with
  | .ok (_, h) => h
  | .error _ => []

/-- The history of the single-threaded cache. -/
def soTwin : List (Unsync.Call Nat Nat) :=
  match runOps (soCfg.compare false) exNew (soCalls.map Solo.Call.op) with
  | .ok (_, h) => h
  | .error _ => []

example : soCfg.ptrEq = true ∧ (∀ x ∈ soCalls, x.Known) ∧
    (Solo.run soCfg soLay soCalls (.new 8 10 3)).isOk = true ∧ (runOps (soCfg.compare false) exNew (soCalls.map Solo.Call.op)).isOk = true ∧
    soTwin.map (·.op.key?) = soCalls.map (·.op.key?) ∧ Distinct soCfg.hash soTwin ∧
    soHistory.map (·.out) = soTwin.map (·.out) ∧ soHistory.map (·.log) = soTwin.map (·.log) ∧
    soHistory.map (·.log.length) = [0, 0, 0, 2, 0, 2, 0, 0, 0, 0, 4, 2, 0, 0, 0, 0, 0, 0, 0, 0, 0, 1] ∧
    (soHistory.map (·.out)).drop 14 = [.orGuard (some 103), .orGuard none, .value none, .value (some 4), .unit, .unit,
      .orGuard none, .replaced none] := by decide +kernel

/-- A call that waits for ever, or a panic, would be seen: this is what the model says of a call that `sync::Cache` does not have. -/
example : Solo.run soCfg soLay [.plain (.getMut 1 (· + 1))] (.new 8 10 3) = .error .outOfFuel := rfl

/-- Overflow does happen: two items of weight 2⁶³. -/
example : ((Solo.run { soCfg with weight := fun _ v => v } soLay [.plain (.insert 1 (2 ^ 63)), .load .task 2 (some (2 ^ 63))]
    (.new (2 ^ 64 - 1) (2 ^ 64 - 1) 3)).map fun _ => ()) = .error .overflow := by decide +kernel

end QuickCache.Props
