import Verif.Model.Park
import Mathlib.Tactic.Ring

/-!
# The timed wait (C56)
-/

namespace QuickCache.Spec
open Park

/-- The clock never goes back: `now` is the last time known before these passes. -/
def Timeline (now : Nat) : List Pass → Prop
  | [] => True
  | x :: rest => now ≤ x.parkAt ∧ x.parkAt ≤ x.woke ∧ x.woke ≤ x.check ∧ Timeline x.check rest

/-- Up to a delay `δ` at each of its steps, the machine is ideal: it goes from one line of the loop to the next at once, and
`park_timeout` returns at the latest when its duration is over. -/
def Prompt (δ start now : Nat) : List Pass → Prop
  | [] => True
  | x :: rest =>
    x.parkAt ≤ now + δ ∧ x.woke ≤ x.parkAt + x.duration start + δ ∧ x.check ≤ x.woke + δ ∧ Prompt δ start x.check rest

/-- `park_timeout` does not return early without a notification, and a pass takes some time. -/
def Undisturbed (start now : Nat) : List Pass → Prop
  | [] => True
  | x :: rest =>
    x.flag = false ∧ x.flagLocked = false ∧ now ≤ x.parkAt ∧ x.parkAt + x.duration start ≤ x.woke ∧ x.woke ≤ x.check ∧
      now < x.check ∧ Undisturbed start x.check rest

end QuickCache.Spec

namespace QuickCache.Props
open Park Spec

/-- C56: `Timeout` is never returned before the timeout has elapsed, whatever the wake-ups and clock readings. -/
theorem C56_not_early {start timeout t : Nat} {l : List Pass} (ht : Timeline start l)
    (h : wait start timeout l = some (.timeout t)) : start + timeout ≤ t := by
  suffices ∀ now, start ≤ now → Timeline now l → start + timeout ≤ t from this start (Nat.le_refl _) ht
  clear ht
  induction l with
  | nil => simp [wait] at h
  | cons x rest ih =>
    intro now hn ⟨h1, h2, h3, h4⟩
    rw [wait] at h
    split at h
    · simp at h
    · split at h
      · exact ih h x.check (by omega) h4
      · split at h
        · simp at h
        · simp at h; omega

/-- C56: without delays other than parking (`δ = 0`) the wait ends before twice the timeout; in general each of the four
delays of the last pass is added. -/
theorem C56_overshoot {δ start timeout t : Nat} {l : List Pass} (hp : Prompt δ start start l) (hpos : 0 < timeout)
    (h : wait start timeout l = some (.timeout t)) : t < start + 2 * timeout + 4 * δ := by
  suffices ∀ now, now < start + timeout → Prompt δ start now l → t < start + 2 * timeout + 4 * δ from
    this start (by omega) hp
  clear hp
  induction l with
  | nil => simp [wait] at h
  | cons x rest ih =>
    intro now hn ⟨h1, h2, h3, h4⟩
    simp only [Pass.duration] at h2
    rw [wait] at h
    split at h
    · simp at h
    · split at h
      · exact ih h x.check (by omega) h4
      · split at h
        · simp at h
        · simp at h; omega

/-- C56: a wait with timeout 0 only suffers the delays. -/
theorem C56_overshoot_zero {δ start t : Nat} {l : List Pass} (hp : Prompt δ start start l)
    (h : wait start 0 l = some (.timeout t)) : t ≤ start + 4 * δ := by
  cases l with
  | nil => simp [wait] at h
  | cons x rest =>
    obtain ⟨h1, h2, h3, -⟩ := hp
    simp only [Pass.duration] at h2
    simp only [wait, Nat.not_lt_zero, if_false] at h
    split at h
    · simp at h
    · split at h
      · simp at h
      · simp at h; omega

/-- C56: the timed wait ends. Without notification and spurious wake-ups it takes at most `n + 1` passes when
`timeout ≤ 2 ^ n` (nanoseconds). -/
theorem C56_ends {start timeout n : Nat} {l : List Pass} (hu : Undisturbed start start l) (hn : timeout ≤ 2 ^ n)
    (hl : n < l.length) : ∃ t, wait start timeout l = some (.timeout t) := by
  have key : ∀ (l : List Pass) (m i : Nat) (now : Nat), start ≤ now → (i ≠ 0 → start + 2 ^ (i - 1) ≤ now) →
      i + m = n → m < l.length → Undisturbed start now l → ∃ t, wait start timeout l = some (.timeout t) := by
    intro l
    induction l with
    | nil => intro m i now _ _ _ h; simp at h
    | cons x rest ih =>
      intro m i now hs hi hm hlen ⟨f1, f2, h1, h2, h3, h4, h5⟩
      simp only [Pass.duration] at h2
      have hx : start + 2 ^ i ≤ x.check := by
        cases i with
        | zero => simp; omega
        | succ i =>
          have := hi (by omega)
          simp only [Nat.add_sub_cancel] at this
          rw [Nat.pow_succ]; omega
      by_cases hc : x.check - start < timeout
      · simp only [wait, f1, hc, if_true]
        have hm0 : m ≠ 0 := by
          rintro rfl
          have : i = n := by omega
          subst this; omega
        exact ih (m - 1) (i + 1) x.check (by omega) (fun _ => by simpa using hx) (by omega)
          (by simp only [List.length_cons] at hlen; omega) h5
      · exact ⟨x.check, by simp [wait, f1, f2, hc]⟩
  exact key l n 0 start (Nat.le_refl _) (fun h => absurd rfl h) (by omega) hl hu

/-! A wait for 100 ns started at time 1000, with a delay of 1 ns per step, woken once spuriously. It ends at 1169 only. -/

/-- The passes: elapsed times 1, 3, 7, 15, 31, 40 (spurious), 83, 169. -/
private def exPasses : List Pass :=
  [⟨1000, 1000, false, 1001, false⟩, ⟨1001, 1002, false, 1003, false⟩, ⟨1003, 1006, false, 1007, false⟩,
   ⟨1007, 1014, false, 1015, false⟩, ⟨1015, 1030, false, 1031, false⟩, ⟨1031, 1039, false, 1040, false⟩,
   ⟨1041, 1082, false, 1083, false⟩, ⟨1084, 1168, false, 1169, false⟩]

example : Timeline 1000 exPasses ∧ Prompt 1 1000 1000 exPasses ∧ wait 1000 100 exPasses = some (.timeout 1169) := by
  simp [Timeline, Prompt, exPasses, wait, Pass.duration]

/-- With `δ = 0` once the loop is going, and a pass that parks at 99 ns: the bound 2 × 100 is nearly reached. -/
example : ∃ l, Timeline 0 l ∧ wait 0 100 l = some (.timeout 198) ∧ Prompt 0 0 99 l :=
  ⟨[⟨99, 198, false, 198, false⟩], by simp [Timeline], by simp [wait], by simp [Prompt, Pass.duration]⟩

example : wait 0 0 [⟨1, 3, false, 4, false⟩] = some (.timeout 4) ∧ Prompt 1 0 0 [⟨1, 3, false, 4, false⟩] := by
  simp [wait, Prompt, Pass.duration]

/-- 100 ≤ 2 ^ 7, and 8 passes suffice. -/
example : Undisturbed 1000 1000
    [⟨1000, 1000, false, 1001, false⟩, ⟨1001, 1002, false, 1003, false⟩, ⟨1003, 1006, false, 1007, false⟩,
     ⟨1007, 1014, false, 1015, false⟩, ⟨1015, 1030, false, 1031, false⟩, ⟨1031, 1062, false, 1063, false⟩,
     ⟨1063, 1126, false, 1127, false⟩, ⟨1127, 1254, false, 1255, false⟩] := by
  simp [Undisturbed, Pass.duration]

end QuickCache.Props
