import Verif.Proofs.Crowd
import Verif.Proofs.Calls
import Verif.Props.ConcExample

/-!
# Property C69: reference counters when several threads read at the same time

`get` reads the counter, compares it with the bound 2 and increments it in separate steps, so that several readers may all
pass the comparison before any of them increments. `Crowd n …` are the executions in which at most `n` callers hold the
shard's read lock at the same time.
-/

namespace QuickCache.Props
variable {K V RS : Type} [DecidableEq K] {c : Cfg K V RS} {target cap gcap n : Nat} {tr evs : List (Conc.Ev K V)}
  {s s' : Conc.State K V}
open Unsync Spec Conc

/-- With at most `n` readers at a time no counter exceeds `n + 1` (or 2, if there is just one reader at a time or none). -/
theorem C69_bound (hr : Crowd n c (State.new (Shard.new target cap gcap)) tr s) (hq : c.ptrEq = true) {k : K}
    {r : Resident K V} (hk : s.shard.info k = some r) : r.referenced ≤ max 2 (n + 1) := by
  obtain ⟨-, t, ht⟩ := ((hr.run.reach hq (.new ..)).inv.shard.toInv0.rep k r).mp hk
  have := hr.low hq (B := max 2 (n + 1)) (by unfold MAX_F; omega) (by omega) t r ht
  omega

/-- With fewer than 65535 readers at a time the 16-bit counters never wrap around: every increment of a counter makes it
greater by one, and changes nothing else about any item. -/
theorem C69_increment (hr : Crowd n c (State.new (Shard.new target cap gcap)) tr s) (hq : c.ptrEq = true)
    (hn : n + 1 < 2 ^ 16) {a : Nat} (hs : exec c s (.bump a) = some (.ok (s', evs))) :
    ∃ k r, s.shard.info k = some r ∧ r.referenced + 1 < 2 ^ 16 ∧
      s'.shard.info = put s.shard.info k { r with referenced := r.referenced + 1 } := by
  have hi := (hr.run.reach hq (.new ..)).inv
  have hlow := hr.low hq (B := max 2 (n + 1)) (by unfold MAX_F; omega) (by omega)
  cases hi.eff hq hs with
  | @bump _ k t v sh hc he =>
    cases he with
    | bumped r hk wrote plh same =>
      have h1 := hlow t r wrote.upd.before
      have h2 : 0 < bumpers s t := by
        apply List.length_pos_of_mem (a := a)
        simp only [List.mem_filter]
        exact ⟨(hi.lock.rd a).mpr (by rw [hc]; rfl), by rw [hc]; simp [Ctl.bumps]⟩
      have h3 : r.referenced + 1 < 2 ^ 16 := by omega
      have h4 := hi.shard.toInv0.info_slot wrote.upd.before
      rw [hk] at h4
      refine ⟨k, r, h4, h3, ?_⟩
      show sh.info = _
      rw [wrote.info_put hi.shard.toInv0 (by intro r' hr'; cases hr'; rfl), hk, Nat.mod_eq_of_lt h3]

/-- A load that reads the current value, or another action. -/
def cxCurrent : Act Nat Nat → Bool
  | .load _ (some _) => false
  | _ => true

/-- A list of actions is possible with at most `n` readers at a time, and loads that read the current values. -/
def cxCrowd (n : Nat) : List (Act Nat Nat) → State Nat Nat → Bool
  | [], _ => true
  | act :: acts, s =>
    match exec cxCfg s act with
    | some (.ok (s1, _)) => cxCurrent act && decide (s1.readers.length ≤ n) && cxCrowd n acts s1
    | _ => false

theorem cxCrowd_crowd {s0 s' : State Nat Nat} {t' : List (Ev Nat Nat)} :
    ∀ {acts : List (Act Nat Nat)} {s : State Nat Nat} {t : List (Ev Nat Nat)}, Crowd n cxCfg s0 t s →
      cxCrowd n acts s = true → runActs cxCfg s acts = some (s', t') → ∃ t'', Crowd n cxCfg s0 t'' s' := by
  intro acts
  induction acts generalizing t' with
  | nil => intro s t h _ h2; cases h2; exact ⟨_, h⟩
  | cons act acts ih =>
    intro s t h h1 h2
    unfold cxCrowd at h1
    unfold runActs at h2
    split at h1
    · rename_i s1 e1 he
      rw [he] at h2
      simp only [Bool.and_eq_true, decide_eq_true_eq] at h1
      simp only at h2
      split at h2
      · rename_i s2 e2 h3
        cases h2
        exact ih (.act h he h1.1.2 (by rintro a m rfl; cases h1.1.1)) h1.2 h3
      · cases h2
    · cases h1

/-- Key 1 is stored; three calls of `get` find it and read its counter, 0, before any of them increments it. -/
def cxHerd : List (Act Nat Nat) :=
  [.call (.insert 1 5), .begin .get 1, .begin .get 1, .begin .get 1, .enter 0 0, .enter 1 0, .enter 2 0,
    .find 0, .find 1, .find 2, .load 0, .load 1, .load 2]

/-- All three then increment it: the counter becomes 3, one more than is possible without concurrency. -/
example : cxCrowd 3 (cxHerd ++ [.bump 0, .bump 1]) cxNew = true ∧ cxNextFine (cxHerd ++ [.bump 0, .bump 1]) (.bump 2) = true ∧
    ((cxRun cxHerd).1.shard.info 1).map (·.referenced) = some 0 ∧
    ((cxNext (cxHerd ++ [.bump 0, .bump 1]) (.bump 2)).1.shard.info 1).map (·.referenced) = some 3 := by decide +kernel

/-- With a fourth reader the bound is attained: a reader that has seen 1 and not yet incremented, three more that see 1 as
well; the counter ends at 5. -/
example : cxCrowd 4 ([.call (.insert 1 5), .begin .get 1, .enter 0 0, .find 0, .load 0, .bump 0, .tally 0,
      .begin .get 1, .begin .get 1, .begin .get 1, .begin .get 1, .enter 1 0, .enter 2 0, .enter 3 0, .enter 4 0,
      .find 1, .find 2, .find 3, .find 4, .load 1, .load 2, .load 3, .load 4, .bump 1, .bump 2, .bump 3, .bump 4]) cxNew = true ∧
    ((cxRun [.call (.insert 1 5), .begin .get 1, .enter 0 0, .find 0, .load 0, .bump 0, .tally 0,
      .begin .get 1, .begin .get 1, .begin .get 1, .begin .get 1, .enter 1 0, .enter 2 0, .enter 3 0, .enter 4 0,
      .find 1, .find 2, .find 3, .find 4, .load 1, .load 2, .load 3, .load 4, .bump 1, .bump 2, .bump 3, .bump 4]).1.shard.info
        1).map (·.referenced) = some 5 := by decide +kernel

end QuickCache.Props
