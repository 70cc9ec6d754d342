import Verif.Proofs.RogueAgree
import Verif.Props.Release

/-!
# Badly behaved user code for the example cache
-/

namespace QuickCache.Props
open Unsync Spec Wild

/-- The code of the example cache, with comparisons that are true or false depending on how many were made before. -/
def fickle (answers : Nat → Bool) : Rogue Nat Nat Nat (List Nat) :=
  { honest exCfg with eqv := fun _ _ n => (some (answers n), n + 1) }

/-- A weighter that answers differently each time. -/
def moody : Rogue Nat Nat Nat (List Nat) :=
  { honest exCfg with weight := fun _ _ n => (some (n % 3), n + 1) }

/-- `is_pinned` says no until the world has reached `n`, and yes from then on: somebody pins all items at that time. -/
def pinAt (n : Nat) : Rogue Nat Nat Nat (List Nat) :=
  { honest exCfg with pinned := fun _ _ w => (some (decide (n ≤ w)), w + 1) }

/-- The example cache with one hot item that was read once. -/
def readOnce : Shard Nat Nat := (exRun [.insert 1 5, .get 1]).1

theorem wild_bind_error {W α β : Type} {x : Wild W α} {f : α → Wild W β} {w w1 : W} {e : Stop} (h : x w = (.error e, w1)) :
    (x >>= f) w = (.error e, w1) := by
  show Wild.bind x f w = _
  unfold Wild.bind
  rw [h]

theorem wild_bind_ok {W α β : Type} {x : Wild W α} {f : α → Wild W β} {w w1 : W} {a : α} (h : x w = (.ok a, w1)) :
    (x >>= f) w = f a w1 := by
  show Wild.bind x f w = _
  unfold Wild.bind
  rw [h]

theorem hot_spins {n : Nat} : ∀ {fuel w : Nat} {s : Shard Nat Nat} {q : Req Nat Nat (List Nat)} {t k : Nat} {r : Resident Nat Nat},
    s.entries.get t = some (.resident r, t) → 0 < k → n ≤ w →
    ∃ w1, (pinAt n).advanceHotLoop fuel s q t k w = (.error (.own .outOfFuel), w1)
  | 0, w, _, _, _, _, _, _, _, _ => ⟨w, rfl⟩
  | fuel + 1, w, s, q, t, k, r, hg, hk, hw => by
    unfold Rogue.advanceHotLoop
    rw [hg]
    have h1 : call ((pinAt n).pinned r.key r.value) w = (.ok true, w + 1) := by
      simp [call, pinAt, hw]
    obtain ⟨w1, h2⟩ := hot_spins (fuel := fuel) (q := q) (k := k)
      (s := s.setEntry t (.resident { r with referenced := min r.referenced MAX_F - 1 }))
      (Shard.get_setEntry hg) hk (Nat.le_succ_of_le hw)
    refine ⟨w1, ?_⟩
    simp only []
    rw [wild_bind_ok h1, if_pos rfl, if_neg (fun h => Nat.ne_of_gt hk h.1)]
    exact h2

theorem advanceHot_spins {fu : Fuel} {q : Req Nat Nat (List Nat)} :
    ∃ w1, (pinAt 1).advanceHot fu readOnce q 0 = (.error (.own .outOfFuel), w1) := by
  have hh : readOnce.hotHead = some 0 := by decide +kernel
  have hg : readOnce.entries.get 0 = some (.resident { key := 1, value := 5, state := .hot, referenced := 1 }, 0) := by
    decide +kernel
  unfold Rogue.advanceHot
  rw [hh]
  show ∃ w1, (pinAt 1).advanceHotLoop (fu.hot readOnce.entries.entries.length) readOnce q 0 0 0 = _
  cases fu.hot readOnce.entries.entries.length with
  | zero => exact ⟨0, rfl⟩
  | succ f =>
    obtain ⟨w1, h⟩ := hot_spins (n := 1) (fuel := f) (w := 1) (q := q) (k := 1) (t := 0)
      (s := readOnce.setEntry 0 (.resident { key := 1, value := 5, state := .hot, referenced := 0 }))
      (Shard.get_setEntry hg) (by decide) (by decide)
    refine ⟨w1, ?_⟩
    unfold Rogue.advanceHotLoop
    rw [hg]
    exact h

theorem evict_spins {fu : Fuel} {q : Req Nat Nat (List Nat)} : ∀ fuel,
    ∃ w1, (pinAt 1).evictLoop fu 6 fuel readOnce q 0 = (.error (.own .outOfFuel), w1)
  | 0 => ⟨0, rfl⟩
  | fuel + 1 => by
    obtain ⟨w1, h⟩ := advanceHot_spins (fu := fu) (q := q)
    refine ⟨w1, ?_⟩
    have hc : readOnce.coldHead = none := by decide +kernel
    have hw : readOnce.weightHot = 5 ∧ readOnce.weightCold = 0 ∧ readOnce.weightCapacity = 10 := by decide +kernel
    have h' : (pinAt 1).advanceCold fu readOnce q 0 = (.error (.own .outOfFuel), w1) := by
      unfold Rogue.advanceCold
      rw [hc]
      exact h
    unfold Rogue.evictLoop
    rw [wild_bind_ok (a := 5) (w1 := 0) (by rw [hw.1, hw.2.1]; rfl), wild_bind_ok (show lift (radd 5 6) (0 : Nat) = (.ok 11, 0) from rfl),
      if_pos (by rw [hw.2.2]; decide)]
    exact wild_bind_error h'

end QuickCache.Props
