import Verif.Props.Fine

/-!
# Property C79: atomics without locks

Two kinds of memory are read without a lock, or under a lock that others who write to it may hold at the same time: the
notification flags of waiting threads (`/repo/src/sync_placeholder.rs:104`, `242`, `264`) and the counters of items
(`/repo/src/shard.rs:493-498`). The executions of `Fine.Run` and of `Conc.Run` include those in which such a read returns an
earlier value: `miss`, and `load` with a value of its own. So all theorems about these executions hold for them too. Here is
what is special to such reads.
-/

namespace QuickCache.Props
variable {K V RS : Type} [DecidableEq K] {c : Cfg K V RS} {target cap gcap : Nat} {f f' : Fine.State K V}
  {s s' : Conc.State K V} {tr ev : List (Conc.Ev K V)}
open Unsync Spec Conc

/-! ## C79 -/

/-- A thread whose flag is set, whether or not it can see that yet, has its token, or will get it from its notifier, or cannot
miss it when it reads its flag next; unless its time is over, so that it is about to look again with the state locked. -/
theorem C79_no_lost (hr : Fine.Run c (.new (Shard.new target cap gcap)) tr f) (hq : c.ptrEq = true) {a t : Nat} {timed : Bool}
    (hw : Fine.waits f a = some (t, timed)) (hf : f.flag a = true) :
    f.token t = true ∨ Unparks f a ∨ (f.pc a = .awake ∧ ∀ over, Fine.step c f (.miss a over) = none) ∨ f.pc a = .late := by
  have h := hr.inv hq (.new ..)
  obtain ⟨⟨k, p, h1⟩, h2, h3⟩ := Fine.waits_some hw
  by_cases ha : Fine.Asleep (f.pc a) (f.fresh a)
  · rcases h.token a t timed k p h2 h1 h3 ha hf with h | h
    · exact Or.inl h
    · exact Or.inr (Or.inl h)
  · right; right
    unfold Fine.Asleep at ha
    cases hp : f.pc a with
    | about => simp [hp] at ha
    | parked => simp [hp] at ha
    | late => exact Or.inr rfl
    | awake =>
      left
      simp only [hp, reduceCtorEq, true_and, false_or, Bool.not_eq_false] at ha
      exact ⟨rfl, fun over => by simp [Fine.step, Fine.miss, hw, hp, ha]⟩

/-- The flag of a sleeping thread is set. It wakes up by itself and does not see it, then sleeps again; it is unparked, takes
the token, and is bound to see the flag now. -/
def gxMiss : List (Fine.FAct Nat Nat) := gxMid ++ [.spurious 2, .miss 2 false, .park 2, .note 0, .unparked 2]

example : gxFine (gxMid ++ [.spurious 2]) = true ∧ (gxRun (gxMid ++ [.spurious 2])).1.flag 2 = true ∧
    (gxRun (gxMid ++ [.spurious 2])).1.fresh 2 = false ∧
    gxFine gxMiss = true ∧ (gxRun gxMiss).1.flag 2 = true ∧ (gxRun gxMiss).1.token 2 = false ∧
    Fine.waits (gxRun gxMiss).1 2 = some (2, true) ∧ (gxRun gxMiss).1.hold 0 = some ⟨0, some 12, []⟩ ∧
    gxFine (gxMiss ++ [.miss 2 false]) = false ∧ gxFine (gxMiss ++ [.look 2 false]) = true :=
  ⟨by decide +kernel, by decide +kernel, by decide +kernel, by decide +kernel, by decide +kernel, by decide +kernel,
   by decide +kernel, by decide +kernel, by decide +kernel, by decide +kernel⟩

/-- A thread that takes its token after its notifier is done with it does not miss its flag. -/
theorem C79_sees (hr : Fine.Run c (.new (Shard.new target cap gcap)) tr f) (hq : c.ptrEq = true) {a t : Nat} {timed : Bool}
    (hw : Fine.waits f a = some (t, timed)) (hf : f.flag a = true) (hu : ¬ Unparks f a) (ht : f.token t = true)
    {act : Fine.FAct K V} (hact : act = .park a ∨ act = .unparked a) (hs : Fine.step c f act = some (.ok (f', ev))) :
    f'.pc a = .awake ∧ f'.flag a = true ∧ ∀ over, Fine.step c f' (.miss a over) = none := by
  have h := hr.inv hq (.new ..)
  obtain ⟨⟨k, p, h1⟩, h2, h3⟩ := Fine.waits_some hw
  have hm : f.mailed a = true := (h.mail a t timed k p h2 h1 h3 hf).resolve_right hu
  have key : f' = Fine.take f a t := by
    rcases hact with rfl | rfl
    · have hs : Fine.park f a = _ := hs
      unfold Fine.park at hs
      rw [hw] at hs
      split at hs
      · rename_i t' m' heq _
        cases heq
        rw [if_pos ht] at hs
        cases hs; rfl
      · cases hs
    · have hs : Fine.unparked f a = _ := hs
      unfold Fine.unparked at hs
      rw [hw] at hs
      split at hs
      · rename_i t' m' heq _
        cases heq
        rw [if_pos ht] at hs
        cases hs; rfl
      · cases hs
  subst key
  have hw' : Fine.waits (Fine.take f a t) a = some (t, timed) := hw
  refine ⟨by simp [Fine.take], hf, fun over => ?_⟩
  have h4 : (Fine.take f a t).pc a = .awake := by simp [Fine.take]
  have h5 : (Fine.take f a t).fresh a = true := by simp [Fine.take, hm]
  simp only [Fine.step, Fine.miss, hw', h4, h5]
  simp

example : gxFine (gxMid ++ [.note 0]) = true ∧ Fine.waits (gxRun (gxMid ++ [.note 0])).1 2 = some (2, true) ∧
    (gxRun (gxMid ++ [.note 0])).1.flag 2 = true ∧ (gxRun (gxMid ++ [.note 0])).1.token 2 = true ∧
    (gxRun (gxMid ++ [.note 0])).1.hold 0 = some ⟨0, some 12, []⟩ ∧ gxFine (gxMid ++ [.note 0, .unparked 2]) = true :=
  ⟨by decide +kernel, by decide +kernel, by decide +kernel, by decide +kernel, by decide +kernel, by decide +kernel⟩

/-- A thread that was notified does not report a timeout, even if it missed its flag: with the state locked it finds the flag
set. -/
theorem C79_late (hr : Fine.Run c (.new (Shard.new target cap gcap)) tr f) (hq : c.ptrEq = true) {a : Nat}
    (hf : f.flag a = true) (hs : Fine.step c f (.expire a) = some (.ok (f', ev))) :
    ev = [] ∧ ∃ k p, f'.base.ctl a = .claimed k p := by
  have h := hr.inv hq (.new ..)
  have hs : Fine.expire c f a = _ := hs
  unfold Fine.expire at hs
  split at hs
  case h_2 => cases hs
  rename_i x hw hpc
  obtain ⟨⟨k, p, h1⟩, h2, h3⟩ := Fine.waits_some (m := x.2) (t := x.1) hw
  split at hs
  case isFalse => cases hs
  rename_i hfree
  obtain ⟨s', hp, rfl⟩ := Fine.lift_ok hs
  have hfl : f.base.flag a = true := by
    by_contra hb
    have hra : f.raised a = true := by simpa [Fine.State.flag, hb] using hf
    obtain ⟨k', p', i, hd, ps, g1, -, rfl, g4, -⟩ := h.marked hra
    simp [Fine.State.stateFree, g1, Ctl.plh, g4] at hfree
  have he := h.reach.inv.eff hq (Fine.perform_one hp)
  clear hs hp
  cases he
  · exact ⟨rfl, _, _, Function.update_self _ _ _⟩
  · rename_i hno _; rw [hfl] at hno; cases hno

/-- The thread misses its flag, and its time is over; the notifier is done; the thread gets the value. -/
def gxLate : List (Fine.FAct Nat Nat) := gxMid ++ [.spurious 2, .miss 2 true, .note 0, .unlock 0]

example : gxFine gxLate = true ∧ (gxRun gxLate).1.flag 2 = true ∧ gxFine (gxLate ++ [.expire 2]) = true ∧
    has (fun e => match e with | .received 2 7 ⟨0, 1, 0⟩ 12 => true | _ => false)
      (gxRun (gxLate ++ [.expire 2, .act (.relock 2), .act (.rejoin 2)])).2 = true :=
  ⟨by decide +kernel, by decide +kernel, by decide +kernel, by decide +kernel⟩

/-- Whatever a lookup reads from the counter of the item it found, the shard is left as it is, and the lookup returns the item's
value, with or without an increment of the counter before. -/
theorem C79_counter (hr : Conc.Run c (State.new (Shard.new target cap gcap)) tr s) (hq : c.ptrEq = true) {a : Nat}
    {old : Option Nat} (hs : exec c s (.load a old) = some (.ok (s', ev))) :
    ∃ k t v, s.ctl a = .saw k t v ∧ s.shard.contents k = some v ∧ s'.shard = s.shard ∧
      (s'.ctl a = .bump k t v ∨ s'.ctl a = .tally k (some v)) ∧ ∀ b, b ≠ a → s'.ctl b = s.ctl b := by
  have hi := (hr.reach hq (.new ..)).inv
  have he := hi.eff hq hs
  clear hs
  cases he
  case load k t v n h =>
    obtain ⟨r, h1, h2, h3⟩ := hi.at h
    refine ⟨k, t, v, h, ?_, rfl, ?_, fun b hb => Function.update_of_ne hb _ _⟩
    · exact hi.shard.toInv0.contents_slot.mpr ⟨t, r, h1, h2, h3⟩
    · have h4 : (s.go a (if old.getD n < MAX_F then .bump k t v else .tally k (some v))).ctl a =
          if old.getD n < MAX_F then .bump k t v else .tally k (some v) := Function.update_self _ _ _
      rw [h4]
      by_cases hn : old.getD n < MAX_F
      · exact Or.inl (if_pos hn)
      · exact Or.inr (if_neg hn)

/-- Key 1 is stored and looked up three times, one after the other, each time reading 0 from its counter. The counter becomes 3:
the bound of C69 needs loads that read the current values. -/
def cxStale : List (Act Nat Nat) :=
  .call (.insert 1 5) :: (List.range 3).flatMap (fun a =>
    [.begin .get 1, .enter a 0, .find a, .load a (some 0), .bump a, .tally a])

example : cxFine cxStale = true ∧ ((cxRun cxStale).1.shard.info 1).map (·.referenced) = some 3 ∧
    cxNextFine (cxStale.take 16) (.load 2 (some 0)) = true ∧ (cxRun (cxStale.take 16)).1.ctl 2 = .saw 1 0 5 ∧
    has (fun e => match e with | .hit 2 1 5 => true | _ => false) (cxRun cxStale).2 = true :=
  ⟨by decide +kernel, by decide +kernel, by decide +kernel, by decide +kernel, by decide +kernel⟩

end QuickCache.Props
