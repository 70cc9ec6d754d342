import Verif.Proofs.ClockStep
import Verif.Proofs.ClockBlind
import Verif.Proofs.Run

/-!
# Histories of the cache are histories of the abstract clock machine
-/

namespace QuickCache
variable {K V RS : Type} [DecidableEq K] {c : Cfg K V RS} {target cap gcap : Nat} {s0 s : Shard K V}
  {h : List (Unsync.Call K V)}
open Spec Unsync

theorem new_sim (c : Cfg K V RS) (target cap gcap : Nat) :
    (Shard.new target cap gcap : Shard K V).Implements c (.empty target cap gcap) :=
  drain_sim (s := Shard.new target cap gcap) (Reach.new c target cap gcap).inv.toInv0

theorem Unsync.Run.clock (hr : Run c s0 h s) (h0 : Reach c target cap gcap s0) {m0 : Clock K V} (hm : s0.Implements c m0) :
    ∃ m, Clock.Run c m0 h m ∧ s.Implements c m := by
  induction hr with
  | start => exact ⟨m0, .start, hm⟩
  | @layout h s m p hr hperm hp ih =>
    obtain ⟨m1, h1, R, F, h2, rfl⟩ := ih
    refine ⟨_, h1, R, F, h2, ?_⟩
    exact (Shard.abs_relayout (hr.reach h0).inv.toInv0 hperm hp).symm
  | @call h s s' op out q hr hs ih =>
    obtain ⟨m1, h1, R, F, h2, rfl⟩ := ih
    obtain ⟨m', h3, h4⟩ := (step_sim (hr.reach h0).inv.toInv0 h2 op).of_ok hs
    exact ⟨m', .call h1 h4, h3⟩

theorem Unsync.Run.clock_new (hr : Run c (Shard.new target cap gcap) h s) :
    ∃ m, Clock.Run c (.empty target cap gcap) h m ∧ s.Implements c m := hr.clock (.new ..) (new_sim ..)

theorem Shard.Implements.value {m : Clock K V} (h : s.Implements c m) : m.value = s.contents := by
  obtain ⟨R, F, h2, rfl⟩ := h
  exact Shard.abs_value s R

end QuickCache
