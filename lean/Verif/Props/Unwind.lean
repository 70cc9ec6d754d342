import Verif.Proofs.UnwindStep
import Verif.Proofs.Protocol
import Verif.Props.Example

/-!
# Property C71: panics of user code
-/

namespace QuickCache
open Unsync

theorem Unsync.Bumpy.reach {K V RS : Type} [DecidableEq K] {c : Cfg K V RS} {target cap gcap : Nat} {s0 s : Shard K V}
    (hr : Bumpy c s0 s) (h0 : Reach c target cap gcap s0) : Reach c target cap gcap s := by
  induction hr with
  | start => exact h0
  | call hb hs ih => exact ih.step (step_eff ih.inv hs)
  | interrupted hb hp safe left ih =>
    rcases Unwind.step_pts ih.inv _ _ hp safe with ⟨s2, h1, h2⟩ | ⟨e, h1, -⟩
    · rw [h1] at left
      cases left
      exact ⟨h2.inv, h2.const.target.trans ih.target, h2.const.capacity.trans ih.capacity,
        h2.const.ghostCap.trans ih.ghostCap⟩
    · rw [h1] at left
      cases left
  | layout hb hm hp ih => exact ih.relayout hm hp

namespace Props
variable {K V RS : Type} [DecidableEq K] {c : Cfg K V RS} {target cap gcap : Nat} {s s' : Shard K V}
open Unsync Spec

/-! ### C71: panics of user code -/

/-- The functions that record the calls of user code do what the cache does. -/
theorem C71_agree (op : Op K V) : (Unwind.step c s op).run = step c s op := Unwind.run_step c s op

/-- After any history, possibly with interrupted calls, a panic at a safe place leaves a map the call may have been working
on: unchanged, or completed, or some items evicted to make room, or a loaded value stored but not yet written to. The
unwinding itself panics only if the call would have panicked anyway (by an overflow of the weight or of the slab). -/
theorem C71_left (hr : Bumpy c (Shard.new target cap gcap) s) {op : Op K V} {p : Point K V}
    (hp : p ∈ (Unwind.step c s op).points) (safe : p.site.safe = true) :
    (∃ s', p.left = .ok s' ∧ Left c target s.contents op s'.contents) ∨
    ∃ e, p.left = .error e ∧ step c s op = .error e := by
  have hre := hr.reach (.new ..)
  rcases Unwind.step_pts hre.inv op p hp safe with ⟨s', h1, h2⟩ | ⟨e, h1, h2⟩
  · refine Or.inl ⟨s', h1, ?_⟩
    have := h2.left
    rw [hre.target] at this
    exact this
  · exact Or.inr ⟨e, h1, by rw [← Unwind.run_step]; exact h2⟩

/-- With interrupted calls in the history too, every call meets its specification. -/
theorem C71_next (hr : Bumpy c (Shard.new target cap gcap) s) {op : Op K V} {out : Out K V} {q : Req K V RS}
    (hs : step c s op = .ok (s', out, q)) : OpSpec c target s.contents op out q.log s'.contents := by
  have hre := hr.reach (.new ..)
  have := (step_eff hre.inv hs).opSpec hre.inv.toInv0
  rw [hre.target] at this
  exact this

/-- With interrupted calls in the history too, a call panics by itself only as it does otherwise (`C06_panics`). -/
theorem C71_panics (hr : Bumpy c (Shard.new target cap gcap) s) {op : Op K V} {p : Panic}
    (hs : step c s op = .error p) :
    (p = .overflow ∧ ∃ w, Adds c target s.contents op w ∧ 2 ^ 64 ≤ total c.weight s.iter + w) ∨
    (p = .slabFull ∧ Grows s.contents op ∧ s.entries.entries.length = 2 ^ 32 - 2) := by
  have hre := hr.reach (.new ..)
  rcases step_sat hre.inv.toInv0 op with ⟨x, hx, -⟩ | ⟨p', hp', he⟩
  · rw [hx] at hs; cases hs
  · rw [hp'] at hs
    cases hs
    rcases he with ⟨rfl, w, hw, hle⟩ | ⟨rfl, hg, hlen⟩
    · rw [hre.target] at hw
      exact Or.inl ⟨rfl, w, hw, by rw [hre.inv.toInv0.total_iter]; exact hle⟩
    · exact Or.inr ⟨rfl, hg, by omega⟩

/-- An interrupted call leaves no load behind that was not there before: a guard held when the panic occurs is dropped. The
exceptions are the calls with a loader, which leave one too if the loader fails, and guards that are forgotten anyway. -/
theorem C71_guard (hr : Bumpy c (Shard.new target cap gcap) s) {op : Op K V} {p : Point K V}
    (hp : p ∈ (Unwind.step c s op).points) (safe : p.site.safe = true) (hl : p.left = .ok s') {k : K} {l : Plh}
    (hj : Joinable c s' k l) : (∃ l, Joinable c s k l) ∨ Opens op k := by
  have hre := hr.reach (.new ..)
  rcases Unwind.step_pts hre.inv op p hp safe with ⟨s2, h1, h2⟩ | ⟨e, h1, -⟩
  · rw [hl] at h1
    cases h1
    obtain ⟨⟨ph, g1, g2, g3⟩, g4⟩ := hj
    refine (h2.pend k ⟨_, ph, _, g1, g2, g4⟩).imp_left ?_
    rintro ⟨t, ph', hh, g5, g6, g7⟩
    have hi := hre.inv.toInv0.idx
    obtain ⟨g8, g9, -⟩ := hi.plh t ph' g5
    refine ⟨ph'.shared, ⟨ph', by rw [g8]; exact g5, g6, rfl⟩, ?_⟩
    have := hi.hash_of_mem g7 g5
    rw [g8, ← g6]
    rw [show c.hash ph'.key = hh from this]
    exact g7
  · rw [hl] at h1; cases h1

/-- A history with interruptions at safe places never leaves a damaged cache: `len()` and `weight()` agree with the items,
every item is found, no call panics. Keys stay unique, the number of ghosts stays within its bound, the capacity is what it
was. -/
theorem C71_intact (hr : Bumpy c (Shard.new target cap gcap) s) :
    ¬ Damaged c s ∧ (s.iter.map (·.1)).Nodup ∧ s.numNonResident ≤ gcap ∧ s.capacity = cap := by
  have hre := hr.reach (.new ..)
  have hi := hre.inv.toInv0
  refine ⟨fun hd => ?_, hi.nodup_iter, by rw [← hre.ghostCap]; exact hre.inv.ghosts, hre.capacity⟩
  cases hd with
  | len h => exact h hi.len_iter.symm
  | weight h ne =>
    unfold Shard.weight cadd at h
    split at h
    · cases h; exact ne hi.total_iter.symm
    · cases h
  | lost hm h ne =>
    obtain ⟨h1, -⟩ := C71_next hr h
    rw [hi.contents_iff.mpr hm] at h1
    exact ne h1
  | stuck h h1 h2 =>
    rcases C71_panics hr h with ⟨h3, -⟩ | ⟨h3, -⟩
    · exact h1 h3
    · exact h2 h3

/-! A history with two interruptions: the first while `insert 5 44` looks for a second item to evict, the second while
a guard is held. -/

/-- What is left of the example cache after a panic at the `n`-th call of user code. -/
def exLeft (s : Shard Nat Nat) (op : Op Nat Nat) (n : Nat) : Option (Site × Shard Nat Nat) :=
  match (Unwind.step exCfg s op).points[n]? with
  | some p => match p.left with
    | .ok s' => some (p.site, s')
    | .error _ => none
  | none => none

theorem exLeft_bumpy {s0 s s' : Shard Nat Nat} {op : Op Nat Nat} {n : Nat} {i : Site} (hb : Bumpy exCfg s0 s)
    (h : exLeft s op n = some (i, s')) (hs : i.safe = true) : Bumpy exCfg s0 s' := by
  unfold exLeft at h
  split at h
  · rename_i p hp
    split at h
    · rename_i s2 hl
      cases h
      exact .interrupted hb (List.mem_of_getElem? hp) hs hl
    · cases h
  · cases h

/-- The example cache after the two interruptions. -/
def exBumpy : Option (Site × Shard Nat Nat × Site × Shard Nat Nat) :=
  match exLeft (exRun (exOps.take 7)).1 (.insert 5 44) 12 with
  | some (i, s1) => match exLeft s1 (.getRefOrGuard 9 (.insert 12)) 6 with
    | some (j, s2) => some (i, s1, j, s2)
    | none => none
  | none => none

theorem run_bumpy {s0 : Shard K V} {h : List (Call K V)} (hr : Run c s0 h s) : Bumpy c s0 s := by
  induction hr with
  | start => exact .start
  | layout m p hr hm hp ih => exact .layout ih hm hp
  | call hr hs ih => exact .call ih hs

theorem exBumpy_bumpy {i j : Site} {s1 s2 : Shard Nat Nat} (h : exBumpy = some (i, s1, j, s2)) (hi : i.safe = true)
    (hj : j.safe = true) : Bumpy exCfg exNew s2 := by
  unfold exBumpy at h
  split at h
  · rename_i i' s1' h1
    split at h
    · rename_i j' s2' h2
      cases h
      exact exLeft_bumpy (exLeft_bumpy (run_bumpy (exRun_run (by decide))) h1 hi) h2 hj
    · cases h
  · cases h

/-- The first panic comes after item 1 was evicted and before item 5 is stored, the second while a guard is held. -/
example : (match exBumpy with
    | some (i, s1, j, s2) => decide (i = .pinnedHot ∧ (exRun (exOps.take 7)).1.iter = [(1, 13), (7, 105), (2, 50), (3, 32)] ∧
        s1.iter = [(7, 105), (2, 50), (3, 32)] ∧ j = .loader ∧ s2.iter = [(7, 105), (2, 50), (3, 32)] ∧ s2.len = 3)
    | none => false) = true := by decide +kernel

/-- Some load is pending. -/
def exLoads (s : Shard Nat Nat) : Bool :=
  s.map.any (fun b => match s.entries.item b.2 with | some (.placeholder _) => true | _ => false)

/-- No load is left in either case, though the second interrupted call had begun one. A panic of a loader leaves one. -/
example : (match exBumpy with
    | some (_, s1, _, s2) => !exLoads s1 && !exLoads s2
    | none => false) = true ∧
    (Unwind.step exCfg exNew (.getOrInsertWith 9 (some 12))).points.any (fun p => decide (p.site = .loader) &&
      match p.left with
      | .ok s => exLoads s
      | .error _ => false) = true := ⟨by decide +kernel, by decide +kernel⟩

/-- It is a history the theorems speak about, and the cache goes on working. -/
example : ∃ s s' q, Bumpy exCfg exNew s ∧ step exCfg s (.insert 5 44) = .ok (s', .unit, q) ∧
    s'.iter = [(7, 105), (2, 50), (5, 44)] := by
  have h : (match exBumpy with
    | some (i, _, j, s2) => i.safe && j.safe && (match step exCfg s2 (.insert 5 44) with
      | .ok (s', .unit, _) => decide (s'.iter = [(7, 105), (2, 50), (5, 44)])
      | _ => false)
    | none => false) = true := by decide +kernel
  rcases hb : exBumpy with _ | ⟨i, s1, j, s2⟩
  · rw [hb] at h; cases h
  · rw [hb] at h
    simp only [Bool.and_eq_true] at h
    obtain ⟨⟨hi, hj⟩, h⟩ := h
    refine ⟨s2, ?_⟩
    split at h
    · rename_i s' q hs
      exact ⟨s', q, exBumpy_bumpy hb hi hj, hs, of_decide_eq_true h⟩
    · cases h

/-! At every other place a panic can leave a damaged cache. -/

/-- Calls leading up to a call that is interrupted at a given unsafe place. -/
def unsafeCase : Site → List (Op Nat Nat) × Op Nat Nat
  | .beforeCold | .reweighCold | .hashCold => ([.insert 0 1, .insert 0 5, .insert 3 5], .insert 1 5)
  | .beforeHot | .reweighHot | .hashHot | .onHot => ([.insert 0 1, .insert 3 5], .insert 1 5)
  | .weighPromoted => ([.insert 0 1, .insert 0 1, .insert 3 5, .insert 1 53], .insert 1 5)
  | .weighRemoved => ([.insert 3 5], .remove 3)
  | .weighReplaced => ([.insert 0 1], .insert 0 5)
  | .weighLoad | .pinnedLoad | .beforeLoad | .reweighLoad => ([], .getOrInsertWith 0 (some 9))
  | .weighDrop => ([.insert 1 5], .getMut 1 (· + 1))
  | .rehash => ([.insert 0 1], .insert 3 5)
  | _ => ([], .clear)

/-- A check for damage: the counters, the items, and a few calls. -/
def seemsDamaged (s : Shard Nat Nat) : Bool :=
  decide (s.len ≠ s.iter.length) ||
  (match s.weight with
   | .ok w => decide (w ≠ total exCfg.weight s.iter)
   | .error _ => false) ||
  s.iter.any (fun x => match step exCfg s (.peek x.1) with
   | .ok (_, .value (some v), _) => decide (v ≠ x.2)
   | .ok (_, .value none, _) => true
   | _ => false) ||
  [Op.insert 0 1, .insert 3 5].any (fun op => match step exCfg s op with
   | .error e => decide (e ≠ .overflow ∧ e ≠ .slabFull)
   | .ok _ => false)

theorem damaged_of_seems {s : Shard Nat Nat} (h : seemsDamaged s = true) : Damaged exCfg s := by
  unfold seemsDamaged at h
  simp only [Bool.or_eq_true, decide_eq_true_eq, List.any_eq_true] at h
  rcases h with ((h | h) | ⟨⟨k, v⟩, hm, h⟩) | ⟨op, -, h⟩
  · exact .len h
  · split at h
    · rename_i w hw
      exact .weight hw (of_decide_eq_true h)
    · cases h
  · split at h
    · rename_i v' q hs
      exact .lost hm hs (by intro e; cases e; exact absurd rfl (of_decide_eq_true h))
    · rename_i q hs
      exact .lost hm hs (by intro e; cases e)
    · cases h
  · split at h
    · rename_i e hs
      exact .stuck hs (of_decide_eq_true h).1 (of_decide_eq_true h).2
    · cases h

/-- Every place not called safe is rightly not called so: there are a history, a call and a panic at that place after which
the cache is damaged. -/
theorem C71_unsafe (i : Site) (h : i.safe = false) :
    ∃ (c : Cfg Nat Nat (List Nat)) (hist : List (Call Nat Nat)) (s s' : Shard Nat Nat) (op : Op Nat Nat) (p : Point Nat Nat),
      Run c (Shard.new 8 10 3) hist s ∧ p ∈ (Unwind.step c s op).points ∧ p.site = i ∧ p.left = .ok s' ∧ Damaged c s' := by
  have key : (match runOps exCfg exNew (unsafeCase i).1 with
      | .ok (s, _) => (Unwind.step exCfg s (unsafeCase i).2).points.any (fun p => decide (p.site = i) && match p.left with
        | .ok s' => seemsDamaged s'
        | .error _ => false)
      | .error _ => false) = true := by
    cases i <;> first | exact absurd h (by decide) | decide +kernel
  split at key
  · rename_i s hist hrun
    rw [List.any_eq_true] at key
    obtain ⟨p, hp, hk⟩ := key
    simp only [Bool.and_eq_true, decide_eq_true_eq] at hk
    obtain ⟨hsite, hk⟩ := hk
    split at hk
    · rename_i s' hl
      exact ⟨exCfg, hist, s, s', _, p, runOps_run hrun, hp, hsite, hl, damaged_of_seems hk⟩
    · cases hk
  · cases key

/-- A panic of `on_evict` can abort the process: inserting through a guard may evict the inserted item itself; if `on_evict`
then panics, the index still has an entry for the freed slot, and dropping the guard during unwinding panics again, although
the call would have returned had `on_evict` not panicked. -/
theorem C71_abort : ∃ (c : Cfg Nat Nat (List Nat)) (hist : List (Call Nat Nat)) (s s' : Shard Nat Nat) (k : Nat) (v : Nat)
    (out : Out Nat Nat) (q : Req Nat Nat (List Nat)) (p : Point Nat Nat),
    Run c (Shard.new 8 10 3) hist s ∧ step c s (.getRefOrGuard k (.insert v)) = .ok (s', out, q) ∧
    p ∈ (Unwind.step c s (.getRefOrGuard k (.insert v))).points ∧ p.site = .onHot ∧ p.left = .error .unwrapNone := by
  have key : (match runOps exCfg exNew [.insert 1 108, .insert 0 5, .insert 3 5, .get 3, .remove 1] with
      | .ok (s, _) => (match step exCfg s (.getRefOrGuard 0 (.insert 8)) with | .ok _ => true | .error _ => false) &&
        (Unwind.step exCfg s (.getRefOrGuard 0 (.insert 8))).points.any (fun p => decide (p.site = .onHot) &&
          match p.left with
          | .ok _ => false
          | .error e => decide (e = .unwrapNone))
      | .error _ => false) = true := by decide +kernel
  split at key
  · rename_i s hist hrun
    rw [Bool.and_eq_true, List.any_eq_true] at key
    obtain ⟨hk, p, hp, hk'⟩ := key
    simp only [Bool.and_eq_true, decide_eq_true_eq] at hk'
    obtain ⟨hsite, hk'⟩ := hk'
    split at hk
    · rename_i x hx
      split at hk'
      · cases hk'
      · rename_i e hl
        have := of_decide_eq_true hk'
        subst this
        exact ⟨exCfg, hist, s, x.1, 0, 8, x.2.1, x.2.2, p, runOps_run hrun, hx, hp, hsite, hl⟩
    · cases hk
  · cases key

end Props
end QuickCache
