import Verif.Spec.Vary
import Verif.Proofs.History
import Verif.Proofs.ClockRun
import Verif.Proofs.ConcFacts
import Verif.Proofs.ConcProgress
import Verif.Proofs.ConcHistory

/-!
# Histories with changing lifecycles
-/

namespace QuickCache
variable {K V RS : Type} {c c' : Cfg K V RS} {target cap gcap : Nat} {s0 s : Shard K V}
open Spec Unsync

namespace Spec.Kin

theorem refl (c : Cfg K V RS) : Kin c c := ⟨rfl, rfl, rfl⟩
theorem symm (h : Kin c c') : Kin c' c := ⟨h.1.symm, h.2.symm, h.3.symm⟩

theorem ringOf (h : Kin c c') : c'.ringOf = c.ringOf := by
  funext e
  unfold Cfg.ringOf
  simp only [h.weight]

theorem wgtF (h : Kin c c') (st : St) : QuickCache.wgtF c' st = QuickCache.wgtF c st := by
  funext e
  unfold QuickCache.wgtF
  simp only [h.weight]

theorem index (h : Kin c c') {I : Nat → Option (Entry K V)} {m : List (UInt64 × Nat)} {p : UInt64 → UInt64 → Bool} {n : Nat}
    (hi : Index c I m p n) : Index c' I m p n := by
  obtain ⟨h1, h2, h3⟩ := h
  cases c; cases c'
  cases h1; cases h2; cases h3
  exact { hi with }

theorem inv0 (h : Kin c c') (hi : Inv0 c s) : Inv0 c' s where
  str := by
    have : c'.rho s.entries.item = c.rho s.entries.item := by
      funext t; unfold Cfg.rho; rw [h.ringOf]
    rw [this]; exact hi.str
  idx := h.index hi.idx
  cnt := ⟨hi.cnt.num, fun st => by rw [h.wgtF]; exact hi.cnt.wgt st, hi.cnt.ghost⟩

theorem inv (h : Kin c c') (hi : Inv c s) : Inv c' s := ⟨h.inv0 hi.toInv0, hi.ghosts⟩

theorem reach (h : Kin c c') (hi : Reach c target cap gcap s) : Reach c' target cap gcap s :=
  ⟨h.inv hi.inv, hi.target, hi.capacity, hi.ghostCap⟩

theorem implements [DecidableEq K] (h : Kin c c') {m : Clock K V} (hm : s.Implements c m) : s.Implements c' m := by
  obtain ⟨R, F, h1, h2⟩ := hm
  refine ⟨R, F, ?_, h2⟩
  have : c'.rho s.entries.item = c.rho s.entries.item := by
    funext t; unfold Cfg.rho; rw [h.ringOf]
  unfold Shard.HasRings at h1 ⊢
  rw [this]
  exact h1

end Spec.Kin

variable [DecidableEq K] {h : List (Cfg K V RS × Call K V)}

namespace Spec.Varied

theorem reach (hr : Varied c s0 h s) (h0 : Reach c target cap gcap s0) : Reach c target cap gcap s := by
  induction hr with
  | start => exact h0
  | layout m p hr hm hp ih => exact ih.relayout hm hp
  | call hr hk hs ih =>
    have := hk.reach ih
    exact hk.symm.reach (this.step (step_eff this.inv hs))

theorem reach_new (hr : Varied c (Shard.new target cap gcap) h s) : Reach c target cap gcap s := hr.reach (.new ..)

theorem lists (hr : Varied c (Shard.new target cap gcap) h s) : Lists s.iter s.contents := lists_iter hr.reach_new.inv.toInv0

theorem opSpec (hr : Varied c (Shard.new target cap gcap) h s) (hk : Kin c c') {op : Op K V} {s' : Shard K V} {out : Out K V}
    {q : Req K V RS} (hs : step c' s op = .ok (s', out, q)) : OpSpec c' target s.contents op out q.log s'.contents := by
  have hre := hk.reach hr.reach_new
  have := (step_eff hre.inv hs).opSpec hre.inv.toInv0
  rwa [hre.target] at this

theorem replays (hr : Varied c s0 h s) (h0 : Reach c target cap gcap s0) : VariedReplays target s0.contents h s.contents := by
  induction hr with
  | start => exact .start
  | layout m p hr hm hp ih => exact ih
  | call hr hk hs ih =>
    have hre := hk.reach (hr.reach h0)
    have := (step_eff hre.inv hs).opSpec hre.inv.toInv0
    rw [hre.target] at this
    exact .call ih this

theorem clock (hr : Varied c s0 h s) (h0 : Reach c target cap gcap s0) {m0 : Clock K V} (hm : s0.Implements c m0) :
    ∃ m, VariedClock m0 h m ∧ s.Implements c m := by
  induction hr with
  | start => exact ⟨m0, .start, hm⟩
  | @layout h s m p hr hperm hp ih =>
    obtain ⟨m1, h1, R, F, h2, rfl⟩ := ih
    refine ⟨_, h1, R, F, h2, ?_⟩
    exact (Shard.abs_relayout (hr.reach h0).inv.toInv0 hperm hp).symm
  | @call h s s' c' op out q hr hk hs ih =>
    obtain ⟨m1, h1, h2⟩ := ih
    obtain ⟨R, F, h5, rfl⟩ := hk.implements h2
    obtain ⟨m', h3, h4⟩ := (step_sim (hk.reach (hr.reach h0)).inv.toInv0 h5 op).of_ok hs
    exact ⟨m', .call h1 h4, hk.symm.implements h3⟩

end Spec.Varied

namespace Spec.VariedReplays

theorem latest {m : K → Option V} (hr : VariedReplays target (fun _ => none) h m) :
    ∀ k v, m k = some v → lastStored k (h.map (·.2)) = some v := by
  have : Latest m (fun k => lastStored k (h.map (·.2))) := by
    induction hr with
    | start => intro k v hk; cases hk
    | call hr hx ih =>
      intro k v hk
      have := hx.latest ih k v hk
      simpa [lastStored, List.foldl_append] using this
  exact this

theorem playAll {m : K → Option V} (hr : VariedReplays target (fun _ => none) h m) : m = Spec.playAll (h.map (·.2)) := by
  induction hr with
  | start => rfl
  | call hr hx ih =>
    rw [hx.play, ih]
    simp [Spec.playAll, List.foldl_append]

end Spec.VariedReplays

/-! ### Storing restores the bound -/

theorem Reach.repair {s' : Shard K V} (hre : Reach c target cap gcap s) (ht : target ≤ cap) {op : Op K V} {out : Out K V}
    {q : Req K V RS} (hs : Unsync.step c s op = .ok (s', out, q)) {k : K} {v : V} (hst : Stores s.contents op out k v)
    (hadm : Admissible c target k v) (hw : enterWeight c target k v ≠ 0) : total (evictable c) s'.iter ≤ cap := by
  rw [← evW_iter]
  obtain ⟨s1, str, hi1, hcon, hinfo, htot, he, -⟩ := (step_eff hre.inv hs).stores hre.inv.toInv0 hst
  have hent : enterWeight c target k v = Shard.addWeight c s1 c.begin k v := by
    rw [addWeight_begin, hcon.target, hre.target]
  generalize hx : ((s', q, none) : Shard K V × Req K V RS × Option V) = x at he
  cases he with
  | put q1 v1 hent' adm hp =>
    cases hx
    rw [hent, hent'.weight] at hw
    have h1 := hent'.evictable_le adm
    have hc1 : s1.weightCapacity = cap := hcon.capacity.trans hre.capacity
    have ht1 : s1.weightTargetHot = target := hcon.target.trans hre.target
    rcases hp.evW_le (by omega) with ⟨h0, -⟩ | h
    · exact absurd h0 hw
    · rwa [hc1] at h
  | reject q1 v1 hw0 hp hb hw1 hrej =>
    exfalso
    rcases hadm with h | h
    · rw [h] at hp; cases hp
    · rw [hent, (Entering.before hw0 hp hb).weight] at h
      rw [hcon.target, hre.target] at hw1
      omega
  | absent => cases hx

/-! ### The concurrent cache -/

open Conc

omit [DecidableEq K] in
theorem Spec.Kin.live (h : Kin c c') {sh : Shard K V} {k : K} {p : Plh} : PLive c' sh k p ↔ PLive c sh k p := by
  unfold PLive
  rw [h.hash]

theorem Spec.Kin.aok (h : Kin c c') {sh : Shard K V} {plh : Nat → Option (PState K V)} {x : Ctl K V} (ha : AOK c sh plh x) :
    AOK c' sh plh x := by
  cases x <;> try exact ha
  exact ⟨ha.1, h.live.mpr ha.2⟩

theorem Spec.Kin.cinv (h : Kin c c') {s : State K V} (hi : CInv c s) : CInv c' s where
  shard := h.inv hi.shard
  fresh := hi.fresh
  lock := hi.lock
  ag := fun a => h.aok (hi.ag a)
  kind := hi.kind
  thr := hi.thr
  pl := ⟨hi.pl.id, hi.pl.nodup, hi.pl.mem, hi.pl.idle, hi.pl.one, fun k q hs => by
    obtain ⟨ps, h1, h2, h3, h4⟩ := hi.pl.slot k q hs
    exact ⟨ps, h1, h2, h3, h.live.trans h4⟩⟩

theorem Spec.Kin.creach (h : Kin c c') {s : State K V} (hi : CReach c target cap gcap s) : CReach c' target cap gcap s :=
  ⟨h.cinv hi.inv, h.reach hi.reach⟩

namespace Spec.VariedConc
variable {z0 z : State K V} {tr : List (Cfg K V RS × List (Ev K V))}

theorem reach (hr : VariedConc c z0 tr z) (hq : c.ptrEq = true) (h0 : CReach c target cap gcap z0) :
    CReach c target cap gcap z := by
  induction hr with
  | start => exact h0
  | layout m p hr hm hp ih => exact ih.relayout hm hp
  | act hr hk hs ih =>
    have := hk.creach ih
    exact hk.symm.creach (this.step (this.inv.eff (hk.ptrEq.trans hq) hs))

theorem replays (hr : VariedConc c (State.new (Shard.new target cap gcap)) tr z) (hq : c.ptrEq = true) :
    VariedReplays target (fun _ => none) (variedCalls tr) z.shard.contents := by
  generalize h0 : State.new (Shard.new target cap gcap) = z0 at hr
  induction hr with
  | start => subst h0; exact .start
  | layout m p hr hm hp ih => exact ih
  | @act h s s' c' act evs hr hk hs ih =>
    subst h0
    have hre := hk.creach (hr.reach hq (.new ..))
    have he := hre.inv.eff (hk.ptrEq.trans hq) hs
    have : variedCalls (h ++ [(c', evs)]) = variedCalls h ++ (Spec.calls evs).map (fun y => (c', y)) := by
      simp [variedCalls]
    rw [this]
    rcases he.history hre.inv with ⟨h1, h2⟩ | ⟨x, h1, h2⟩
    · rw [h1, h2, List.map_nil, List.append_nil]; exact ih
    · rw [h1]
      rw [hre.reach.target] at h2
      exact .call ih h2

end Spec.VariedConc

theorem Spec.VariedSteps.work {z0 z : State K V} {n : Nat} (hs : VariedSteps c z0 n z) (hq : c.ptrEq = true)
    (h0 : CReach c target cap gcap z0) : CReach c target cap gcap z ∧ z.next = z0.next ∧ n + Conc.work z ≤ Conc.work z0 := by
  induction hs with
  | start => exact ⟨h0, rfl, by omega⟩
  | layout m p h hm hp ih => exact ⟨ih.1.relayout hm hp, ih.2.1, ih.2.2⟩
  | extra h hk hx hs ih =>
    have hre := hk.creach ih.1
    have he := hre.inv.eff (hk.ptrEq.trans hq) hs
    have hw := he.work hre.inv (by rintro kind k rfl; exact hx)
    exact ⟨hk.symm.creach (hre.step he), hw.1.trans ih.2.1, by rw [hw.2.1 hx]; exact ih.2.2⟩
  | act h hk hx hb hs ih =>
    have hre := hk.creach ih.1
    have he := hre.inv.eff (hk.ptrEq.trans hq) hs
    have hw := he.work hre.inv hb
    refine ⟨hk.symm.creach (hre.step he), hw.1.trans ih.2.1, ?_⟩
    have h1 := ih.2.2
    have h2 := hw.2.2 hx
    omega

end QuickCache
