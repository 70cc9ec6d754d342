import Verif.Props.RogueExample

/-!
# Property C74: user code that cannot be trusted
-/

namespace QuickCache.Props
variable {W K V RS : Type}
open Unsync Spec Wild

/-- No call has undefined behaviour, whatever user code does: hashing, comparison, `to_owned`, the weighter, the lifecycle,
loaders, closures and writers may return anything, differently each time, may look at and change the world, and may panic at
any point; mutable references may be used any number of times, dropped during unwinding, or leaked; and the cache may be in any
state, for instance in one that earlier panics or contradictory answers have left behind. -/
theorem C74_calls (u : Rogue W K V RS) (fu : Fuel) (s : Shard K V) (op : RogueOp W K V) (w : W) :
    (u.step fu s op w).1 ≠ .error (.own .ub) :=
  (Rogue.step_safe s op).ne w

/-- The same for the critical sections of the concurrent cache. -/
theorem C74_sections (u : Rogue W K V RS) (fu : Fuel) (s : Shard K V) (q : Req K V RS) (x : Rogue.Sect W K V) (w : W) :
    (u.sect fu s q x w).1 ≠ .error (.own .ub) :=
  (Rogue.sect_safe s q x).ne w

/-- The destructor of a guard has none either, in whatever state a panic left the cache. -/
theorem C74_guard (u : Rogue W K V RS) (s : Shard K V) (p : Plh) : u.removePlaceholder s p ≠ .error .ub :=
  (Rogue.removePlaceholder_safe s p).ne

/-- What the theorems above speak about is the cache of the other theorems: if user code is well-behaved, every call does
exactly what it does in the release build (`C65` relates that to the debug build), and leaves the world alone. -/
theorem C74_agree [DecidableEq K] (c : Cfg K V RS) (fu : Fuel) (s : Shard K V) (op : Op K V) (w : W) :
    (honest c).step fu s (honestOp op) w =
      match stepR fu c s op with
      | .ok (s1, out, _) => (.ok (s1, out), w)
      | .error p => (.error (.own p), w) := by
  have h : (honest (W := W) c).step fu s (honestOp op) = _ := Rogue.step_is s op
  rw [h]
  cases stepR fu c s op <;> rfl

/-- Safety is all that can be had: a call need not return. If `is_pinned` starts to answer yes while the hot items are being
searched for a victim, `advance_hot` goes round for ever, because it believes to have seen an unpinned item. `insert` does not
return within any number of iterations, on a cache of one item that was read once. (In the concurrent cache the shard stays
locked.) -/
theorem C74_spin (fu : Fuel) : ((pinAt 1).step fu readOnce (.insert 2 6) 0).1 = .error (.own .outOfFuel) := by
  have hs : (pinAt 1).search readOnce (exCfg.hash 2) 2 0 = (.ok none, 0) := by decide +kernel
  have hw : readOnce.weightHot = 5 ∧ readOnce.weightTargetHot = 8 := by decide +kernel
  obtain ⟨w1, h⟩ := evict_spins (fu := fu) (q := { st := [], log := [] }) (fu.evict readOnce.entries.entries.length)
  have h1 : (pinAt 1).insertNew fu readOnce { st := [], log := [] } (exCfg.hash 2) 2 6 6 0 = (.error (.own .outOfFuel), w1) := by
    unfold Rogue.insertNew
    rw [wild_bind_ok (a := 11) (w1 := 0) (by rw [hw.1]; rfl)]
    exact wild_bind_error h
  have h2 : (pinAt 1).insertAdmitted fu readOnce { st := [], log := [] } (exCfg.hash 2) 2 6 6 .insert 0 =
      (.error (.own .outOfFuel), w1) := by
    unfold Rogue.insertAdmitted
    rw [wild_bind_ok hs]
    exact wild_bind_error h1
  have h3 : (pinAt 1).insert fu readOnce { st := [], log := [] } (exCfg.hash 2) 2 6 .insert 0 =
      (.error (.own .outOfFuel), w1) := by
    unfold Rogue.insert
    rw [wild_bind_ok (show call ((pinAt 1).weight 2 6) (0 : Nat) = (.ok 6, 0) from rfl),
      wild_bind_ok (a := false) (w1 := 0) (by unfold Rogue.tooHeavy; rw [if_neg (by rw [hw.2]; decide)]; rfl)]
    exact h2
  have h4 : (pinAt 1).insertCall fu readOnce 2 6 0 = (.error (.own .outOfFuel), w1) := by
    unfold Rogue.insertCall
    rw [wild_bind_ok (show (pinAt 1).begin (0 : Nat) = (.ok { st := [], log := [] }, 0) from rfl),
      wild_bind_ok (show call ((pinAt 1).hash 2) (0 : Nat) = (.ok (exCfg.hash 2), 0) from rfl)]
    exact wild_bind_error h3
  exact congrArg Prod.fst (wild_bind_error h4)

/-- With the pins settled before the call, or changing only after it, the same call returns. -/
example : ((pinAt 0).step .enough readOnce (.insert 2 6) 0).1.isOk = true ∧
    ((pinAt 9).step .enough readOnce (.insert 2 6) 0).1.isOk = true := by decide +kernel

/-! ### Examples of C74_calls -/

/-- A `get` of an absent key that finds some other item, and one of a key that was just inserted and finds nothing. -/
example : ((fickle (fun n => n = 0)).step .enough (exRun [.insert 1 1]).1 (.get 4) 0).1.toOption.map (·.2) =
      some (.value (some 1)) ∧
    ((fickle (fun n => n = 0)).step .enough (exRun [.insert 1 1]).1 (.get 1) 7).1.toOption.map (·.2) =
      some (.value none) := by decide +kernel

/-- The total is wrong afterwards, and a reference that was used twice, with a panic at the second use, is dropped all the
same. -/
example : (moody.step .enough (exRun [.insert 1 1]).1 (.remove 1) 2).1.toOption.map (fun x => x.1.weightHot) =
      some (2 ^ 64 - 1) ∧
    moody.step .enough (exRun [.insert 1 1]).1
      (.getMut 1 { writes := [fun v n => (v + 1, some (), n), fun v n => (v + 1, none, n)], leak := false }) 0 =
      (.error .user, 2) := by
  refine ⟨by decide +kernel, ?_⟩
  rfl

end QuickCache.Props
