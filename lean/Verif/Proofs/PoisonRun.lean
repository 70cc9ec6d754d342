import Verif.Proofs.Poison

/-!
# Runs of the cache with the locks of `std`
-/

namespace QuickCache
variable {K V RS : Type} [DecidableEq K] {c : Cfg K V RS}
namespace Std
open Conc (Ctl PState Ev Act Where Stop LInv)
open Function (update)
open Spec (Dead Doomed Sound Clean Shardless UnderWriteLock Fatal Guarded)

variable {s : Conc.State K V} {t t' : State K V} {act : Act K V} {evs : List (Ev K V)} {o : Option Nat} {a : Nat}

/-! ### The end of a doomed agent -/

theorem at_leaving (hx : Conc.exec c s act ≠ none) (ha : agent act = some a) {k : K} {p : Plh}
    (hc : s.ctl a = .leaving k p) : act = .lockDrop a := by
  have := exec_ctl hx
  cases act <;> simp only [agent, Option.some.injEq, reduceCtorEq] at ha <;> subst ha <;> simp_all

theorem at_dropping (hx : Conc.exec c s act ≠ none) (ha : agent act = some a) {k : K} {p : Plh}
    (hc : s.ctl a = .dropping k p) : act = .finishDrop a := by
  have := exec_ctl hx
  cases act <;> simp only [agent, Option.some.injEq, reduceCtorEq] at ha <;> subst ha <;> simp_all

theorem at_waiting (hx : Conc.exec c s act ≠ none) (ha : agent act = some a) {k : K} {p : Plh}
    (hc : s.ctl a = .waiting k p) (hk : s.kind a = .task) : (∃ w, act = .poll a w) ∨ act = .cancel a := by
  have := exec_ctl hx
  cases act <;> simp only [agent, Option.some.injEq, reduceCtorEq] at ha <;> subst ha <;> simp_all

omit [DecidableEq K] in
theorem unwinds_of (ha : agent act = some a) (hu : t.unwinding a = true) : unwinds t act = true := by
  unfold unwinds; rw [ha]; exact hu

/-- Dropping a future that is neither notified nor a waiter panics. -/
theorem cancel_error {k : K} {p : Plh} (hk : s.kind a = .task) (hc : s.ctl a = .waiting k p) (hf : s.flag a = false)
    (hl : ∀ i ps, s.plh i = some ps → a ∉ ps.waiters) : ∃ e, Conc.exec c s (.cancel a) = some (.error e) := by
  simp only [Conc.exec, Conc.cancel, hc, hk]
  split
  · exact ⟨_, rfl⟩
  · rename_i ps hp
    rw [if_neg (by rw [hf]; simp)]
    split
    · exact ⟨_, rfl⟩
    · rename_i i hi
      have hlt := (List.findIdx?_eq_some_iff_findIdx_eq.mp hi).1
      have := List.findIdx?_eq_some_iff_getElem.mp hi
      obtain ⟨_, h1, -⟩ := this
      have h2 : ps.waiters[i] = a := by
        simp only [Bool.and_eq_true, beq_iff_eq] at h1
        exact h1.2
      exact absurd (h2 ▸ List.getElem_mem hlt) (hl _ _ hp)

/-- What a doomed agent does. -/
theorem _root_.QuickCache.Spec.Doomed.exec (hd : Doomed t a) (ha : agent act = some a) :
    exec c t act = none ∨ exec c t act = some .aborted ∨
      ∃ k p, t.base.ctl a = .leaving k p ∧ t.stateBad p.id = true ∧ act = .lockDrop a ∧
        exec c t act = some (.done { t with base := { t.base.go a (.dropping k p) with writer := some a } } []) := by
  by_cases hx : Conc.exec c t.base act = none
  · left; unfold Std.exec; rw [hx]; split <;> rfl
  cases hd with
  | @guard k p uw hat bad =>
    have hu := unwinds_of (t := t) ha uw
    rcases hat with hc | hc
    · obtain rfl := at_leaving hx ha hc
      by_cases hb : t.shardBad = true
      · refine Or.inr (Or.inl ?_)
        obtain ⟨r, hr⟩ := Option.ne_none_iff_exists'.mp hx
        unfold Std.exec
        rw [hr]
        simp [barred, locks, State.bad, hb, panics, hu]
      · obtain ⟨k', p', h1, h2⟩ := exec_ctl hx
        have he : Conc.exec c t.base (.lockDrop a) =
            some (.ok ({ t.base.go a (.dropping k p) with writer := some a }, [])) := by
          simp only [Conc.exec, Conc.lockDrop, hc, h2, if_true]
        refine Or.inr (Or.inr ⟨k, p, hc, bad, rfl, ?_⟩)
        unfold Std.exec
        rw [he]
        simp [barred, locks, State.bad, hb]
    · obtain rfl := at_dropping hx ha hc
      refine Or.inr (Or.inl ?_)
      obtain ⟨r, hr⟩ := Option.ne_none_iff_exists'.mp hx
      unfold Std.exec
      rw [hr]
      simp [barred, locks, stateLock, plhOf, hc, State.bad, bad, panics, hu]
  | @future k p uw task hc bad =>
    have hu := unwinds_of (t := t) ha uw
    rcases at_waiting hx ha hc task with ⟨w, rfl⟩ | rfl
    · left; unfold Std.exec; rw [if_pos]; exact uw
    · refine Or.inr (Or.inl ?_)
      obtain ⟨r, hr⟩ := Option.ne_none_iff_exists'.mp hx
      unfold Std.exec
      rw [hr]
      simp only [barred, Bool.false_eq_true, if_false]
      split
      · simp [panics, hu]
      · rename_i hl
        simp only [locks, hc, stateLock, plhOf, Option.map_some, Option.toList_some, List.cons_append, List.nil_append,
          List.find?_cons, List.find?_nil, State.bad] at hl
        split at hl
        · cases hl
        · rename_i h1
          split at hl
          · cases hl
          · rename_i h2
            rcases bad with h3 | h3 | ⟨h3, h4⟩
            · rw [h3] at h1; cases h1
            · rw [h3] at h2; cases h2
            · obtain ⟨e, he⟩ := cancel_error (c := c) task hc h3 h4
              rw [he] at hr
              cases hr
              simp [hu]

omit [DecidableEq K] in
theorem _root_.QuickCache.Spec.Doomed.active (hd : Doomed t a) : t.base.ctl a ≠ .idle ∧ t.unwinding a = true := by
  cases hd with
  | guard uw hat bad => refine ⟨?_, uw⟩; rcases hat with h | h <;> rw [h] <;> simp
  | future uw task hc bad => exact ⟨by rw [hc]; simp, uw⟩

/-- A doomed agent stays doomed. -/
theorem _root_.QuickCache.Spec.Doomed.next (hd : Doomed t a) (h : BInv t.base) (hn : Next c t o evs t') : Doomed t' a := by
  have hw := hn.worse
  obtain ⟨h', m⟩ := hn.binv h
  have hlt := h.lt hd.active.1
  have huw := hw.unwinding a hd.active.2
  by_cases ho : o = some a
  · cases hn with
    | act hs =>
      rcases hd.exec (c := c) ho with h1 | h1 | ⟨k, p, -, hb, rfl, h1⟩
      · rw [hs] at h1; cases h1
      · rw [hs] at h1; cases h1
      · rw [hs] at h1; cases h1
        exact .guard (k := k) (p := p) huw (Or.inr (by simp [Conc.State.go])) hb
    | poison hs =>
      have := (exec_panicked hs).2.1
      rw [unwinds_of ho hd.active.2] at this
      cases this
    | throw hs =>
      have := (throw_panicked hs).2.1
      rw [unwinds_of ho hd.active.2] at this
      cases this
    | crash hs =>
      cases ho
      obtain ⟨-, -, ⟨k, p, hc, rfl⟩ | ⟨-, -, rfl⟩⟩ := crash_ok hs
      · exfalso
        cases hd with
        | guard uw hat bad => rcases hat with h | h <;> rw [h] at hc <;> cases hc
        | future uw task hc' bad => rw [hc'] at hc; cases hc
      · cases hd with
        | guard uw hat bad => exact .guard huw hat bad
        | future uw task hc bad => exact .future huw task hc bad
  · cases hd with
    | guard uw hat bad => exact .guard huw (by rw [m.ctl a ho hlt]; exact hat) (hw.state _ bad)
    | future uw task hc bad =>
      refine .future huw (by rw [m.kind a hlt]; exact task) (by rw [m.ctl a ho hlt]; exact hc) ?_
      rcases bad with h1 | h1 | ⟨h1, h2⟩
      · exact Or.inl (hw.state _ h1)
      · exact Or.inr (Or.inl (hw.waiter _ h1))
      · refine Or.inr (Or.inr ⟨?_, fun i ps hp hm => ?_⟩)
        · cases hf : t'.base.flag a with
          | false => rfl
          | true =>
            rcases m.flag a ho hlt hf with h3 | ⟨i, ps, h3, h4⟩
            · rw [h1] at h3; cases h3
            · exact absurd h4 (h2 i ps h3)
        · rcases m.list i ps hp a hm with h3 | ⟨qs, h3, h4⟩
          · exact ho h3
          · exact h2 i qs h3 h4

/-! ### A poisoned shard -/

section
variable {s' : Conc.State K V}

/-- Nobody holds the lock of the shard. -/
def Free (s : Conc.State K V) : Prop := s.writer = none ∧ s.readers = []

/-- `s'` differs from `s` in nothing that concerns the shard, and nobody has got a guard. -/
structure Idle (s s' : Conc.State K V) : Prop where
  shard : s'.shard = s.shard
  free : Free s'
  guard : ∀ b k p, s'.ctl b = .guard k p → s.ctl b = .guard k p
  flag : ∀ b, s'.flag b = true → s.flag b = true ∨ Guarded s b

omit [DecidableEq K]

theorem BInv.none_reads (h : BInv s) (hf : Free s) : (s.ctl a).reads = false := by
  cases hr : (s.ctl a).reads with
  | false => rfl
  | true => have := (h.lock.rd a).mpr hr; rw [hf.2] at this; simp at this

theorem BInv.none_writes (h : BInv s) (hf : Free s) : (s.ctl a).writes = false := by
  cases hr : (s.ctl a).writes with
  | false => rfl
  | true => have := (h.lock.wr a).mpr hr; rw [hf.1] at this; cases this

theorem Idle.refl (hf : Free s) : Idle s s := ⟨rfl, hf, fun _ _ _ h => h, fun _ h => Or.inl h⟩

theorem Idle.go (hf : Free s) (h1 : s'.shard = s.shard) (h2 : s'.writer = s.writer) (h3 : s'.readers = s.readers)
    {x : Ctl K V} (h4 : s'.ctl = update s.ctl a x) (hx : ∀ k p, x ≠ .guard k p)
    (h5 : ∀ b, s'.flag b = true → s.flag b = true) : Idle s s' := by
  refine ⟨h1, ⟨by rw [h2]; exact hf.1, by rw [h3]; exact hf.2⟩, fun b k p hb => ?_, fun b hb => Or.inl (h5 b hb)⟩
  rw [h4] at hb
  by_cases e : b = a
  · subst e; rw [Function.update_self] at hb; exact absurd hb (hx k p)
  · rw [Function.update_of_ne e] at hb; exact hb

theorem Idle.foldl {N : List Nat} {s1 : Conc.State K V} (h : Idle s s1) (hN : ∀ b ∈ N, Guarded s b) :
    Idle s (N.foldl Conc.State.notify s1) := by
  refine ⟨by rw [foldl_notify]; exact h.shard, by rw [foldl_notify]; exact h.free, by rw [foldl_notify]; exact h.guard,
    fun b hb => ?_⟩
  rcases foldl_flag hb with h1 | h1
  · exact h.flag b h1
  · exact Or.inr (hN b h1)

theorem off_true {f : Nat → Bool} {i b : Nat} (h : update f i false b = true) : f b = true := by
  by_cases e : b = i
  · subst e; simp at h
  · rwa [Function.update_of_ne e] at h

theorem exec_idle [DecidableEq K] (h : BInv s) (hf : Free s) (hno : Lock.shard ∉ locks s act)
    (he : Conc.exec c s act = some (.ok (s', evs))) : Idle s s' ∧ ∀ e ∈ evs, Shardless e := by
  have hc := exec_ctl (c := c) (s := s) (act := act) (by rw [he]; simp)
  cases act with
  | begin kind k =>
    simp only [Conc.exec, Conc.begin] at he
    obtain ⟨-, he⟩ := Option.ite_none_right_eq_some.mp he
    cases he
    exact ⟨.go hf rfl rfl rfl rfl (by simp) (fun _ h => off_true h), by simp⟩
  | enter a w => exact absurd (by simp [locks]) hno
  | upsert a => exact absurd (by simp [locks]) hno
  | relock a => exact absurd (by simp [locks]) hno
  | store a => exact absurd (by simp [locks]) hno
  | lockDrop a => exact absurd (by simp [locks]) hno
  | call op => exact absurd (by simp [locks]) hno
  | find a => obtain ⟨k, hc⟩ := hc; have := h.none_reads hf (a := a); rw [hc] at this; cases this
  | load a _ => obtain ⟨k, _, _, hc⟩ := hc; have := h.none_reads hf (a := a); rw [hc] at this; cases this
  | bump a => obtain ⟨k, _, _, hc⟩ := hc; have := h.none_reads hf (a := a); rw [hc] at this; cases this
  | tally a => obtain ⟨k, _, hc⟩ := hc; have := h.none_reads hf (a := a); rw [hc] at this; cases this
  | rejoin a => obtain ⟨k, _, hc⟩ := hc; have := h.none_reads hf (a := a); rw [hc] at this; cases this
  | join a => obtain ⟨k, _, hc⟩ := hc; have := h.none_writes hf (a := a); rw [hc] at this; cases this
  | finishDrop a => obtain ⟨k, _, hc⟩ := hc; have := h.none_writes hf (a := a); rw [hc] at this; cases this
  | startLoading a =>
    obtain ⟨k, _, w, hc⟩ := hc
    cases w with
    | true => have := h.none_writes hf (a := a); rw [hc] at this; cases this
    | false => have := h.none_reads hf (a := a); rw [hc] at this; cases this
  | wake a =>
    simp only [Conc.exec, Conc.wake] at he
    split at he
    · split at he
      · cases he
        exact ⟨.go hf rfl rfl rfl rfl (by simp) (fun _ h => h), by simp⟩
      · cases he
    · cases he
  | poll a w =>
    simp only [Conc.exec, Conc.poll] at he
    split at he
    · split at he
      · cases he
        exact ⟨.go hf rfl rfl rfl rfl (by simp) (fun _ h => off_true h), by simp [Shardless]⟩
      · cases he
        exact ⟨⟨rfl, hf, fun _ _ _ h => h, fun _ h => Or.inl h⟩, by simp [Shardless]⟩
    · cases he
  | timeout a =>
    simp only [Conc.exec, Conc.timeout] at he
    split at he
    · split at he
      · cases he
      · split at he
        · cases he
          exact ⟨.go hf rfl rfl rfl rfl (by simp) (fun _ h => h), by simp⟩
        · split at he
          · cases he
          · cases he
            exact ⟨.go hf rfl rfl rfl rfl (by simp) (fun _ h => h), by simp [Shardless]⟩
    · cases he
  | publish a v =>
    simp only [Conc.exec, Conc.publish] at he
    split at he
    · rename_i k p hg
      split at he
      · cases he
      · rename_i ps hp
        cases he
        refine ⟨.foldl (.go hf rfl rfl rfl rfl (by simp) (fun _ h => h)) (fun b hb => ⟨a, k, p, ps, hg, hp, hb⟩),
          fun e hm => ?_⟩
        rcases List.mem_cons.mp hm with rfl | hm
        · trivial
        · obtain ⟨b, -, hb⟩ := List.mem_flatMap.mp hm
          unfold Conc.State.wakes at hb
          split at hb
          · simp only [List.mem_singleton] at hb; subst hb; trivial
          · simp at hb
    · cases he
  | drop a =>
    simp only [Conc.exec, Conc.drop] at he
    split at he
    · cases he
      exact ⟨.go hf rfl rfl rfl rfl (by simp) (fun _ h => h), by simp⟩
    · cases he
  | cancel a =>
    simp only [Conc.exec, Conc.cancel] at he
    split at he
    · cases he
      exact ⟨.go hf rfl rfl rfl rfl (by simp) (fun _ h => h), by simp [Shardless]⟩
    · split at he
      · cases he
      · split at he
        · split at he
          · cases he
            exact ⟨.go hf rfl rfl rfl rfl (by simp) (fun _ h => h), by simp [Shardless]⟩
          · cases he
            exact ⟨.go hf rfl rfl rfl rfl (by simp) (fun _ h => h), by simp [Shardless]⟩
        · split at he
          · cases he
          · cases he
            exact ⟨.go hf rfl rfl rfl rfl (by simp) (fun _ h => h), by simp [Shardless]⟩
    · cases he
  | abandon a =>
    simp only [Conc.exec, Conc.abandon] at he
    split at he
    · split at he
      · cases he
        exact ⟨.go hf rfl rfl rfl rfl (by simp) (fun _ h => h), by simp⟩
      · cases he
    · cases he

theorem onPoison_idle [DecidableEq K] (h : BInv t.base) (hf : Free t.base) {l : Lock}
    (hx : Conc.exec c t.base act ≠ none) (hl : l ∈ locks t.base act) : Idle t.base (onPoison t act l).base := by
  have hc := exec_ctl hx
  have hg : ∀ a, Idle t.base (t.base.go a .idle) := fun a => .go hf rfl rfl rfl rfl (by simp) (fun _ h => h)
  cases act with
  | enter a w => exact hg a
  | upsert a => exact hg a
  | store a => exact hg a
  | lockDrop a => exact hg a
  | timeout a => exact hg a
  | abandon a => exact hg a
  | call op => exact .refl hf
  | relock a =>
    obtain ⟨k, p, hc⟩ := hc
    simp only [onPoison, expel, hc]
    split
    · exact .go hf rfl rfl rfl rfl (by simp) (fun _ h => h)
    · exact hg a
  | poll a w =>
    obtain ⟨k, p, hc, -⟩ := hc
    simp only [onPoison, expel, hc]
    exact .refl hf
  | join a => obtain ⟨k, _, hc⟩ := hc; have := h.none_writes hf (a := a); rw [hc] at this; cases this
  | finishDrop a => obtain ⟨k, _, hc⟩ := hc; have := h.none_writes hf (a := a); rw [hc] at this; cases this
  | rejoin a => obtain ⟨k, _, hc⟩ := hc; have := h.none_reads hf (a := a); rw [hc] at this; cases this
  | startLoading a =>
    obtain ⟨k, _, w, hc⟩ := hc
    cases w with
    | true => have := h.none_writes hf (a := a); rw [hc] at this; cases this
    | false => have := h.none_reads hf (a := a); rw [hc] at this; cases this
  | publish a v =>
    obtain ⟨k, p, hc⟩ := hc
    rcases List.mem_append.mp hl with hl | hl
    · obtain rfl := mem_stateLock hl (p := p) (by rw [hc]; rfl)
      simp only [onPoison, hc]
      exact .go hf rfl rfl rfl rfl (by simp) (fun _ h => h)
    · obtain ⟨b, hb, -, rfl⟩ := mem_taskLocks hl
      simp only [onPoison, hc]
      split
      · rename_i ps hp
        exact .foldl (.go hf rfl rfl rfl rfl (by simp) (fun _ h => h))
          (fun b hb => ⟨a, k, p, ps, hc, hp, (List.takeWhile_sublist _).subset hb⟩)
      · exact .refl hf
  | cancel a =>
    obtain ⟨-, ⟨k, hc⟩ | ⟨k, p, hc⟩⟩ := hc
    · simp [locks, hc] at hl
    · simp only [locks, hc] at hl
      rcases List.mem_append.mp hl with hl | hl
      · obtain rfl := mem_stateLock hl (p := p) (by rw [hc]; rfl)
        exact hg a
      · simp only [List.mem_singleton] at hl
        subst hl
        simp only [onPoison, hc]
        exact hg a
  | _ => simp [locks] at hl

theorem stop_idle [DecidableEq K] (h : BInv s) (hf : Free s) (hno : Lock.shard ∉ locks s act) {y : Stop K V}
    (hy : y ∈ Conc.stops c s act) (hl : y.left = .ok s') : Idle s s' := by
  cases act with
  | enter a w => exact absurd (by simp [locks]) hno
  | upsert a => exact absurd (by simp [locks]) hno
  | store a => exact absurd (by simp [locks]) hno
  | call op => exact absurd (by simp [locks]) hno
  | find a =>
    simp only [Conc.stops, Conc.findStops] at hy
    split at hy
    · rename_i hc; have := h.none_reads hf (a := a); rw [hc] at this; cases this
    · simp at hy
  | tally a =>
    simp only [Conc.stops, Conc.tallyStops] at hy
    split at hy
    · rename_i hc; have := h.none_reads hf (a := a); rw [hc] at this; cases this
    · simp at hy
  | join a =>
    simp only [Conc.stops, Conc.joinStops] at hy
    split at hy
    · rename_i hc; have := h.none_writes hf (a := a); rw [hc] at this; cases this
    · simp at hy
  | rejoin a =>
    simp only [Conc.stops, Conc.rejoinStops] at hy
    split at hy
    · rename_i hc; have := h.none_reads hf (a := a); rw [hc] at this; cases this
    · simp at hy
  | poll a w =>
    simp only [Conc.stops, Conc.pollStops] at hy
    split at hy
    · split at hy
      · simp at hy
      · simp only [List.mem_singleton] at hy
        subst hy
        cases hl
        exact .refl hf
    · simp at hy
  | publish a v =>
    simp only [Conc.stops, Conc.publishStops] at hy
    split at hy
    · rename_i k p hg
      split at hy
      · rename_i ps hp
        rcases List.mem_cons.mp hy with hy | hy
        · subst hy
          cases hl
          exact .go hf rfl rfl rfl rfl (by simp) (fun _ h => h)
        · obtain ⟨i, -, hy⟩ := List.mem_filterMap.mp hy
          split at hy
          · split at hy
            · simp only [Option.some.injEq] at hy
              subst hy
              simp only [Except.ok.injEq] at hl
              subst hl
              exact .foldl (.go hf rfl rfl rfl rfl (by simp) (fun _ h => h))
                (fun b hb => ⟨a, k, p, ps, hg, hp, (List.take_sublist _ _).subset hb⟩)
            · cases hy
          · cases hy
      · simp at hy
    · simp at hy
  | finishDrop a =>
    simp only [Conc.stops, Conc.dropStops] at hy
    split at hy
    · rename_i he
      obtain ⟨k, _, hc⟩ := exec_ctl (c := c) (s := s) (act := .finishDrop a) (by simp only [Conc.exec]; rw [he]; simp)
      have := h.none_writes hf (a := a)
      rw [hc] at this
      cases this
    · simp at hy
  | _ => simp [Conc.stops] at hy

/-- Once the shard is poisoned. -/
theorem dead_next [DecidableEq K] (h : BInv t.base) (hd : Dead t) (hf : Free t.base) (hn : Next c t o evs t') :
    Idle t.base t'.base ∧ ∀ e ∈ evs, Shardless e := by
  have hno : ∀ act : Act K V, (locks t.base act).find? t.bad = none → Lock.shard ∉ locks t.base act := by
    intro act h1 h2
    have := List.find?_eq_none.mp h1 _ h2
    exact this hd
  cases hn with
  | act hs => obtain ⟨-, h1, b, he, rfl⟩ := exec_done hs; exact exec_idle h hf (hno _ h1) he
  | poison hs => obtain ⟨-, -, he, l, hl, -, rfl⟩ := exec_panicked hs; exact ⟨onPoison_idle h hf he hl, by simp⟩
  | throw hs =>
    obtain ⟨-, -, h1, x, hx, -, -, b, hl, rfl⟩ := throw_panicked hs
    rw [onThrow_base]
    exact ⟨stop_idle h hf (hno _ h1) hx hl, by simp⟩
  | crash hs =>
    obtain ⟨-, -, ⟨k, p, hc, rfl⟩ | ⟨-, -, rfl⟩⟩ := crash_ok hs
    · exact ⟨.go hf rfl rfl rfl rfl (by simp) (fun _ h => h), by simp⟩
    · exact ⟨.refl hf, by simp⟩

end

/-! ### What a panic of user code does -/

section
variable {s' : Conc.State K V}

omit [DecidableEq K] in
theorem searchResidentLoop_sites (sh : Shard K V) (eqv : K → Bool) : ∀ l, ∀ q ∈ (Unwind.searchResidentLoop sh eqv l).points,
    q.site = .compare := by
  intro l
  induction l with
  | nil => intro q hq; simp [Unwind.searchResidentLoop, pure] at hq
  | cons idx rest ih =>
    intro q hq
    unfold Unwind.searchResidentLoop at hq
    split at hq
    · simp [U.lift] at hq
    · rw [U.points_bind, List.mem_append] at hq
      rcases hq with hq | hq
      · simp only [U.user, List.mem_singleton] at hq; subst hq; rfl
      · simp only [U.user] at hq
        split at hq
        · simp [pure] at hq
        · exact ih q hq
    · exact ih q hq

omit [DecidableEq K] in
theorem ofPoints_site {f : Shard K V → Conc.State K V} {l : List (Point K V)} {y : Stop K V} (hy : y ∈ Conc.ofPoints f l) :
    ∃ q ∈ l, y.site = .code q.site := by
  unfold Conc.ofPoints at hy
  obtain ⟨q, hq, rfl⟩ := List.mem_map.mp hy
  exact ⟨q, hq, rfl⟩

theorem read_sites {op : Op K V} (hm : Conc.lockMode op = some false) {sh : Shard K V} :
    ∀ q ∈ (Unwind.step c sh op).points, q.site = .compare ∨ q.site = .hashKey := by
  intro q hq
  cases op <;> simp only [Conc.lockMode, Option.some.injEq, reduceCtorEq] at hm
  all_goals
    simp only [Unwind.step] at hq
    rw [U.points_bind, List.mem_append] at hq
    rcases hq with hq | hq
    · simp only [U.user, List.mem_singleton] at hq; subst hq; exact Or.inr rfl
    · simp only [U.user] at hq
      rw [U.points_bind, List.mem_append] at hq
      rcases hq with hq | hq
      · exact Or.inl (searchResidentLoop_sites _ _ _ q hq)
      · split at hq <;> simp [pure] at hq

omit [DecidableEq K] in
theorem underWrite_call {op : Op K V} {site : Where} : underWrite (.call op : Act K V) site = true ↔
    UnderWriteLock (.call op : Act K V) site := by
  cases op <;> simp [underWrite, UnderWriteLock, Conc.lockMode, and_assoc]

omit [DecidableEq K] in
theorem underWrite_iff {site : Where} (hj : ∀ a, act ≠ .join a) (hf : ∀ a, act ≠ .finishDrop a) :
    underWrite act site = true ↔ UnderWriteLock act site := by
  cases act with
  | call op => exact underWrite_call
  | join a => exact absurd rfl (hj a)
  | finishDrop a => exact absurd rfl (hf a)
  | _ => simp [underWrite, UnderWriteLock, and_assoc]

omit [DecidableEq K] in
theorem onThrow_under {b : Conc.State K V} {i : Nat} {site : Where} (hu : underWrite act site = true) :
    onThrow t b act i site = { t with base := b, shardBad := true } := by
  unfold onThrow; rw [if_pos hu]; rfl

/-- The interruptions under the write lock leave the lock free. -/
theorem stop_free (h : BInv s) {y : Stop K V} (hy : y ∈ Conc.stops c s act) (hl : y.left = .ok s')
    (hu : UnderWriteLock act y.site) : Free s' := by
  cases act with
  | upsert a =>
    simp only [Conc.stops, Conc.upsertStops] at hy
    split at hy
    · split at hy
      · rename_i hw
        have hw := unlocked_iff.mp hw
        rcases List.mem_append.mp hy with hy | hy
        · obtain ⟨sh, rfl⟩ := ofPoints_mem hy hl
          exact hw
        · split at hy
          · simp only [List.mem_singleton] at hy
            subst hy
            cases hl
            exact hw
          · simp at hy
      · simp at hy
    · simp at hy
  | store a =>
    simp only [Conc.stops, Conc.storeStops] at hy
    split at hy
    · rcases List.mem_cons.mp hy with hy | hy
      · subst hy
        exact absurd rfl hu.2.1
      · split at hy
        · rename_i hw
          have hw := unlocked_iff.mp hw
          rcases List.mem_append.mp hy with hy | hy
          · obtain ⟨sh, rfl⟩ := ofPoints_mem hy hl
            exact hw
          · split at hy
            · simp only [List.mem_singleton] at hy
              subst hy
              exact absurd rfl hu.2.2
            · simp at hy
        · simp at hy
    · simp at hy
  | call op =>
    have hu := underWrite_call.mpr hu
    simp only [Conc.stops, Conc.callStops] at hy
    split at hy
    · simp at hy
    · rename_i r he
      have hw : Free s := by
        simp only [underWrite, Bool.and_eq_true, beq_iff_eq] at hu
        unfold Conc.call at he
        rw [hu.2] at he
        simp only at he
        split at he
        · rename_i hw; exact unlocked_iff.mp hw
        · cases he
      rcases List.mem_append.mp hy with hy | hy
      · obtain ⟨sh, rfl⟩ := ofPoints_mem hy hl
        exact hw
      · split at hy
        · exact absurd hu (by simp [underWrite, Conc.lockMode])
        · simp at hy
  | join a =>
    simp only [Conc.stops, Conc.joinStops] at hy
    split at hy
    · rename_i k p hc
      have hr := h.lock.excl a ((h.lock.wr a).mpr (by rw [hc]; rfl))
      split at hy
      · split at hy
        · split at hy
          · simp only [List.mem_singleton] at hy
            subst hy
            cases hl
            exact ⟨rfl, hr⟩
          · simp at hy
        · simp only [List.mem_singleton] at hy
          subst hy
          cases hl
          exact ⟨rfl, hr⟩
        · simp at hy
      · simp at hy
    · simp at hy
  | finishDrop a =>
    simp only [Conc.stops, Conc.dropStops] at hy
    split at hy
    · rename_i he
      split at hy
      · simp only [List.mem_singleton] at hy
        subst hy
        cases hl
        unfold Conc.finishDrop at he
        split at he
        · rename_i k p hc
          have hr := h.lock.excl a ((h.lock.wr a).mpr (by rw [hc]; rfl))
          split at he
          · cases he
          · split at he
            · split at he
              · cases he
                exact ⟨rfl, hr⟩
              · cases he
            · cases hst : Sync.step c s.shard (.abandon k p) with
              | error e => rw [hst] at he; cases he
              | ok y =>
                obtain ⟨sh, out, q⟩ := y
                rw [hst] at he
                simp only [Res.ok_bind, Option.some.injEq, Except.ok.injEq, Prod.mk.injEq] at he
                obtain ⟨rfl, -⟩ := he
                exact ⟨rfl, hr⟩
        · cases he
      · simp at hy
    · simp at hy
  | _ => exact absurd hu (by simp [UnderWriteLock])

/-- A panic of user code poisons the shard, or dooms its agent, or does nothing but interrupt the action. -/
theorem throw_class {i : Nat} {site : Where} (h : BInv t.base) (hs : throw c t act i = some (.panicked t', site)) :
    (UnderWriteLock act site → Dead t' ∧ Free t'.base) ∧ (¬ UnderWriteLock act site → t'.shardBad = t.shardBad) ∧
    (Fatal site → ∃ a, agent act = some a ∧ Doomed t' a) ∧
    (¬ UnderWriteLock act site → ¬ Fatal site → site.safe = true ∧ t' = { t with base := t'.base }) ∧
    (UnderWriteLock act site → ¬ Fatal site) := by
  obtain ⟨-, huw, -, y, hy, hi, rfl, b, hl, rfl⟩ := throw_panicked hs
  have hb := h.stop hy hl
  rw [onThrow_base]
  have hW : UnderWriteLock act y.site → Dead (onThrow t b act i y.site) ∧ Free b := by
    intro hu
    refine ⟨?_, stop_free h hy hl hu⟩
    by_cases hj : ∃ a, act = .join a
    · obtain ⟨a, rfl⟩ := hj
      simp only [Conc.stops, Conc.joinStops] at hy
      split at hy
      · rename_i k p hc
        simp [onThrow, underWrite, agent, hc, plhOf, Dead, State.poisonShard, State.poisonState]
      · simp at hy
    · by_cases hf : ∃ a, act = .finishDrop a
      · obtain ⟨a, rfl⟩ := hf
        simp only [Conc.stops, Conc.dropStops] at hy
        split at hy
        · rename_i he
          obtain ⟨k, p, hc⟩ := exec_ctl (c := c) (s := t.base) (act := .finishDrop a)
            (by simp only [Conc.exec]; rw [he]; simp)
          simp only [onThrow, underWrite, agent, hc, plhOf, Dead]
          simp only [Bool.and_false, Bool.false_eq_true, if_false]
          split <;> rfl
        · simp at hy
      · rw [onThrow_under ((underWrite_iff (fun a e => hj ⟨a, e⟩) (fun a e => hf ⟨a, e⟩)).mpr hu)]
        rfl
  refine ⟨hW, ?_⟩
  cases act with
  | enter a w =>
    have hon : onThrow t b (.enter a w) i y.site = { t with base := b } := by
      simp [onThrow, underWrite]
    simp only [Conc.stops, Conc.enterStops] at hy
    split at hy
    · simp only [List.mem_singleton] at hy
      subst hy
      rw [hon]
      exact ⟨fun _ => rfl, fun hf => hf.elim, fun _ _ => ⟨rfl, rfl⟩, fun hf => hf.elim⟩
    · simp at hy
  | find a =>
    have hon : onThrow t b (.find a) i y.site = { t with base := b } := by
      simp [onThrow, underWrite]
    simp only [Conc.stops, Conc.findStops] at hy
    split at hy
    · obtain ⟨q, hq, hsite⟩ := ofPoints_site hy
      rw [searchResidentLoop_sites _ _ _ q hq] at hsite
      rw [hon, hsite]
      exact ⟨fun _ => rfl, fun hf => hf.elim, fun _ _ => ⟨rfl, rfl⟩, fun hf => hf.elim⟩
    · simp at hy
  | tally a =>
    have hon : onThrow t b (.tally a) i y.site = { t with base := b } := by
      simp [onThrow, underWrite]
    simp only [Conc.stops, Conc.tallyStops] at hy
    split at hy
    · split at hy
      · simp only [List.mem_singleton] at hy
        subst hy
        rw [hon]
        exact ⟨fun _ => rfl, fun hf => hf.elim, fun _ _ => ⟨rfl, rfl⟩, fun hf => hf.elim⟩
      · simp at hy
    · simp at hy
  | upsert a =>
    have hnf : ¬ Fatal y.site := by
      simp only [Conc.stops, Conc.upsertStops] at hy
      split at hy
      · split at hy
        · rcases List.mem_append.mp hy with hy | hy
          · obtain ⟨q, hq, hsite⟩ := ofPoints_site hy
            rw [hsite]; exact id
          · split at hy
            · simp only [List.mem_singleton] at hy
              subst hy; exact id
            · simp at hy
        · simp at hy
      · simp at hy
    have hon : ¬ UnderWriteLock (.upsert a : Act K V) y.site → onThrow t b (.upsert a) i y.site = { t with base := b } := by
      intro hu
      have : underWrite (.upsert a : Act K V) y.site = false := by
        rw [← Bool.not_eq_true, underWrite_iff (by simp) (by simp)]; exact hu
      simp [onThrow, this]
    refine ⟨fun hu => by rw [hon hu], fun hf => absurd hf hnf, fun hu _ => ⟨?_, by rw [hon hu]⟩, fun _ => hnf⟩
    simp only [UnderWriteLock, not_and_or, not_not] at hu
    rcases hu with e | e | e <;> rw [e] <;> rfl
  | store a =>
    have hnf : ¬ Fatal y.site := by
      simp only [Conc.stops, Conc.storeStops] at hy
      split at hy
      · rcases List.mem_cons.mp hy with hy | hy
        · subst hy; exact id
        · split at hy
          · rcases List.mem_append.mp hy with hy | hy
            · obtain ⟨q, hq, hsite⟩ := ofPoints_site hy
              rw [hsite]; exact id
            · split at hy
              · simp only [List.mem_singleton] at hy
                subst hy; exact id
              · simp at hy
          · simp at hy
      · simp at hy
    have hon : ¬ UnderWriteLock (.store a : Act K V) y.site → onThrow t b (.store a) i y.site = { t with base := b } := by
      intro hu
      have : underWrite (.store a : Act K V) y.site = false := by
        rw [← Bool.not_eq_true, underWrite_iff (by simp) (by simp)]; exact hu
      simp [onThrow, this]
    refine ⟨fun hu => by rw [hon hu], fun hf => absurd hf hnf, fun hu _ => ⟨?_, by rw [hon hu]⟩, fun _ => hnf⟩
    simp only [UnderWriteLock, not_and_or, not_not] at hu
    rcases hu with e | e | e <;> rw [e] <;> rfl
  | call op =>
    have hon : ¬ UnderWriteLock (.call op : Act K V) y.site → onThrow t b (.call op) i y.site = { t with base := b } := by
      intro hu
      have : underWrite (.call op : Act K V) y.site = false := by
        rw [← Bool.not_eq_true, underWrite_iff (by simp) (by simp)]; exact hu
      simp [onThrow, this]
    have hm : Conc.lockMode op ≠ none ∧ ¬ Fatal y.site ∧ (Conc.lockMode op = some false → y.site.safe = true) := by
      simp only [Conc.stops, Conc.callStops] at hy
      split at hy
      · simp at hy
      · rename_i r he
        have hm : Conc.lockMode op ≠ none := by
          intro hm
          unfold Conc.call at he
          rw [hm] at he
          cases he
        refine ⟨hm, ?_⟩
        rcases List.mem_append.mp hy with hy | hy
        · obtain ⟨q, hq, hsite⟩ := ofPoints_site hy
          rw [hsite]
          refine ⟨id, fun hm => ?_⟩
          rcases read_sites hm q hq with e | e <;> rw [e] <;> rfl
        · split at hy
          · simp only [List.mem_singleton] at hy
            subst hy
            exact ⟨id, fun _ => rfl⟩
          · simp at hy
    refine ⟨fun hu => by rw [hon hu], fun hf => absurd hf hm.2.1, fun hu _ => ⟨?_, by rw [hon hu]⟩, fun _ => hm.2.1⟩
    cases hmode : Conc.lockMode op with
    | none => exact absurd hmode hm.1
    | some m =>
      cases m with
      | false => exact hm.2.2 hmode
      | true =>
        rw [← underWrite_call] at hu
        simp only [underWrite, hmode, beq_self_eq_true, Bool.and_true, Bool.and_eq_true, decide_eq_true_eq, not_and_or,
          not_not] at hu
        rcases hu with (e | e) | e <;> rw [e] <;> rfl
  | join a =>
    refine ⟨fun hu => absurd trivial hu, fun hf => ?_, fun hu => absurd trivial hu, fun _ hf => ?_⟩ <;> exfalso
    all_goals
      simp only [Conc.stops, Conc.joinStops] at hy
      split at hy
      · split at hy
        · split at hy
          · split at hy
            · simp only [List.mem_singleton] at hy; subst hy; exact hf
            · simp at hy
          · simp only [List.mem_singleton] at hy; subst hy; exact hf
          · simp at hy
        · simp at hy
      · simp at hy
  | finishDrop a =>
    refine ⟨fun hu => absurd trivial hu, fun hf => ?_, fun hu => absurd trivial hu, fun _ hf => ?_⟩ <;> exfalso
    all_goals
      simp only [Conc.stops, Conc.dropStops] at hy
      split at hy
      · split at hy
        · simp only [List.mem_singleton] at hy; subst hy; exact hf
        · simp at hy
      · simp at hy
  | poll a w =>
    simp only [Conc.stops, Conc.pollStops] at hy
    split at hy
    · rename_i k p hc hk
      split at hy
      · simp at hy
      · simp only [List.mem_singleton] at hy
        subst hy
        cases hl
        have hon : onThrow t t.base (.poll a w) i .renewWaker = (t.unwind a).poisonWaiter a := by
          simp [onThrow, underWrite]
        rw [hon]
        refine ⟨fun _ => rfl, fun _ => ⟨a, rfl, .future (by simp [State.unwind, State.poisonWaiter]) hk hc
          (Or.inr (Or.inl (by simp [State.poisonWaiter])))⟩, fun _ hf => absurd trivial hf, fun hf => hf.elim⟩
    · simp at hy
  | rejoin a =>
    simp only [Conc.stops, Conc.rejoinStops] at hy
    split at hy
    · rename_i k p hc
      split at hy
      · split at hy
        · rename_i hk
          simp only [List.mem_singleton] at hy
          subst hy
          cases hl
          have hon : ∀ b, onThrow t b (.rejoin a) i .cloneForTask = { t.unwind a with base := b } := by
            intro b
            simp [onThrow, underWrite, hk, State.unwind]
          rw [hon]
          refine ⟨fun _ => rfl, fun _ => ⟨a, rfl, ?_⟩, fun _ hf => absurd trivial hf, fun hf => hf.elim⟩
          refine .future (k := k) (p := p) (by simp [State.unwind]) hk (by simp [Conc.State.go, Conc.State.unlockRead])
            (Or.inr (Or.inr ⟨?_, ?_⟩))
          · exact h.reset a hk (by rw [hc]; rfl)
          · exact h.absent (by rw [hc]; simp) (by rw [hc]; simp)
        · rename_i hk
          simp only [List.mem_singleton] at hy
          subst hy
          cases hl
          have hon : ∀ b, onThrow t b (.rejoin a) i .cloneForThread = { t with base := b } := by
            intro b
            simp [onThrow, underWrite, hk]
          rw [hon]
          exact ⟨fun _ => rfl, fun hf => hf.elim, fun _ _ => ⟨rfl, rfl⟩, fun hf => hf.elim⟩
      · simp at hy
    · simp at hy
  | publish a v =>
    simp only [Conc.stops, Conc.publishStops] at hy
    split at hy
    · rename_i k p hc
      have hon : ∃ t1, onThrow t b (.publish a v) i y.site = t1 ∧ t1.base = b ∧ t1.shardBad = t.shardBad ∧
          t1.unwinding a = true ∧ t1.stateBad p.id = true := by
        refine ⟨_, rfl, onThrow_base, ?_⟩
        simp only [onThrow, underWrite, Bool.and_false, Bool.false_eq_true, if_false, agent, hc, plhOf]
        split <;> simp [State.unwind, State.poisonState, State.poisonWaiter]
      obtain ⟨t1, hon, h1, h2, h3, h4⟩ := hon
      split at hy
      · rename_i ps hp
        have key : b.ctl a = .leaving k p ∧ Fatal y.site := by
          rcases List.mem_cons.mp hy with hy | hy
          · subst hy
            cases hl
            exact ⟨by simp [Conc.State.go], trivial⟩
          · obtain ⟨j, -, hy⟩ := List.mem_filterMap.mp hy
            split at hy
            · split at hy
              · simp only [Option.some.injEq] at hy
                subst hy
                simp only [Except.ok.injEq] at hl
                subst hl
                refine ⟨?_, trivial⟩
                rw [foldl_notify]
                simp [Conc.State.go]
              · cases hy
            · cases hy
        rw [hon]
        refine ⟨fun _ => h2, fun _ => ⟨a, rfl, .guard h3 (Or.inl (by rw [h1]; exact key.1)) h4⟩,
          fun _ hf => absurd key.2 hf, fun hf => hf.elim⟩
      · simp at hy
    · simp at hy
  | _ => simp [Conc.stops] at hy

end

/-! ### The invariant of all runs -/

omit [DecidableEq K] in
theorem expel_same (t : State K V) (a : Nat) : (expel t a).base.writer = t.base.writer ∧
    (expel t a).base.readers = t.base.readers ∧ (expel t a).shardBad = t.shardBad := by
  unfold expel
  split <;> (try split) <;> exact ⟨rfl, rfl, rfl⟩

omit [DecidableEq K] in
/-- A lock poisoned by its owner is free. -/
theorem release_dead (h : BInv t.base) {t1 : State K V} (hw : t1.base.writer = t.base.writer)
    (hr : t1.base.readers = t.base.readers) (hb : t1.shardBad = false) (hd : (release t1 a).shardBad = true) :
    Free (release t1 a).base := by
  unfold release at hd ⊢
  split at hd
  · rename_i e
    rw [if_pos e]
    refine ⟨rfl, ?_⟩
    show t1.base.readers = []
    rw [hr]
    exact h.lock.excl a (by rw [← hw]; exact e)
  · rw [hb] at hd
    cases hd

omit [DecidableEq K] in
theorem onPoison_dead (h : BInv t.base) {l : Lock} (hb : t.shardBad = false) (hd : (onPoison t act l).shardBad = true) :
    Free (onPoison t act l).base := by
  have key : ∀ a, (release (expel t a) a).shardBad = true → Free (release (expel t a) a).base := by
    intro a hd
    obtain ⟨h1, h2, h3⟩ := expel_same t a
    exact release_dead h h1 h2 (by rw [h3]; exact hb) hd
  cases act with
  | join a => exact key a hd
  | startLoading a => exact key a hd
  | rejoin a => exact key a hd
  | relock a =>
    have : (expel t a).shardBad = true := hd
    rw [(expel_same t a).2.2, hb] at this
    cases this
  | poll a w =>
    have : (expel t a).shardBad = true := hd
    rw [(expel_same t a).2.2, hb] at this
    cases this
  | finishDrop a =>
    cases l with
    | waiter b =>
      simp only [onPoison] at hd ⊢
      split at hd
      · rename_i k p hc
        split at hd
        · rename_i ps hp
          exact release_dead h rfl rfl hb hd
        · rw [hb] at hd; cases hd
      · rw [hb] at hd; cases hd
    | shard => exact release_dead (t1 := { t with base := t.base.go a .idle }) h rfl rfl hb hd
    | state p => exact release_dead (t1 := { t with base := t.base.go a .idle }) h rfl rfl hb hd
  | publish a v =>
    exfalso
    cases l <;> simp only [onPoison] at hd
    · rw [hb] at hd; cases hd
    · split at hd
      · rw [show (t.unwind a).shardBad = t.shardBad from rfl, hb] at hd; cases hd
      · rw [hb] at hd; cases hd
    · split at hd
      · split at hd
        · rw [show ∀ p, ((t.unwind a).poisonState p).shardBad = t.shardBad from fun _ => rfl, hb] at hd; cases hd
        · rw [hb] at hd; cases hd
      · rw [hb] at hd; cases hd
  | cancel a =>
    exfalso
    cases l <;> simp only [onPoison] at hd
    · rw [hb] at hd; cases hd
    · rw [hb] at hd; cases hd
    · split at hd
      · rw [show ∀ p, (t.poisonState p).shardBad = t.shardBad from fun _ => rfl, hb] at hd; cases hd
      · rw [hb] at hd; cases hd
  | _ =>
    exfalso
    have : t.shardBad = true := hd
    rw [hb] at this
    cases this

/-- When the lock of the shard gets poisoned, it is free. -/
theorem Next.dying (hn : Next c t o evs t') (h : BInv t.base) (hb : ¬ Dead t) (hd : Dead t') : Free t'.base := by
  have hb : t.shardBad = false := by simpa [Dead] using hb
  have hd : t'.shardBad = true := hd
  cases hn with
  | act hs =>
    obtain ⟨-, -, b, -, rfl⟩ := exec_done hs
    rw [hb] at hd; cases hd
  | poison hs =>
    obtain ⟨-, -, he, l, -, -, rfl⟩ := exec_panicked hs
    exact onPoison_dead h hb hd
  | @throw _ act i site hs =>
    obtain ⟨h1, h2, -⟩ := throw_class h hs
    by_cases hu : UnderWriteLock act site
    · exact (h1 hu).2
    · rw [h2 hu, hb] at hd; cases hd
  | crash hs =>
    obtain ⟨-, -, ⟨k, p, hc, rfl⟩ | ⟨-, -, rfl⟩⟩ := crash_ok hs
    · rw [show (t.unwind _).shardBad = t.shardBad from rfl, hb] at hd; cases hd
    · rw [show (t.unwind _).shardBad = t.shardBad from rfl, hb] at hd; cases hd

/-- The invariant. -/
structure RInv (t : State K V) : Prop where
  base : BInv t.base
  /-- a poisoned lock of the shard is free -/
  free : Dead t → Free t.base
  /-- other locks are poisoned only if that of the shard is, or if somebody is about to abort the process -/
  bad : (∃ i, t.stateBad i = true) ∨ (∃ a, t.waiterBad a = true) → Dead t ∨ ∃ a, Doomed t a

omit [DecidableEq K] in
theorem RInv.hopeless (h : RInv t) {l : Lock} (hb : t.bad l = true) : Dead t ∨ ∃ a, Doomed t a := by
  cases l with
  | shard => exact Or.inl hb
  | state p => exact h.bad (Or.inl ⟨_, hb⟩)
  | waiter b => exact h.bad (Or.inr ⟨_, hb⟩)

/-- What cannot be undone. -/
theorem Next.hopeless (hn : Next c t o evs t') (h : BInv t.base) (hd : Dead t ∨ ∃ a, Doomed t a) :
    Dead t' ∨ ∃ a, Doomed t' a := by
  rcases hd with hd | ⟨a, hd⟩
  · exact Or.inl (hn.worse.shard hd)
  · exact Or.inr ⟨a, hd.next h hn⟩

theorem RInv.next (h : RInv t) (hn : Next c t o evs t') : RInv t' where
  base := (hn.binv h.base).1
  free := fun hd => by
    by_cases hb : Dead t
    · exact (dead_next h.base hb (h.free hb) hn).1.free
    · exact hn.dying h.base hb hd
  bad := fun hb => by
    cases hn with
    | act hs =>
      have hn := Next.act hs
      obtain ⟨-, -, b, -, rfl⟩ := exec_done hs
      exact hn.hopeless h.base (h.bad hb)
    | poison hs =>
      obtain ⟨-, -, he, l, -, hl, -⟩ := exec_panicked hs
      exact (Next.poison hs).hopeless h.base (h.hopeless hl)
    | @throw _ act i site hs =>
      obtain ⟨h1, -, h3, h4, -⟩ := throw_class h.base hs
      by_cases hu : UnderWriteLock act site
      · exact Or.inl (h1 hu).1
      · by_cases hf : Fatal site
        · obtain ⟨a, -, ha⟩ := h3 hf
          exact Or.inr ⟨a, ha⟩
        · have hn := Next.throw hs
          rw [(h4 hu hf).2] at hb
          exact hn.hopeless h.base (h.bad hb)
    | crash hs =>
      have hn := Next.crash (c := c) hs
      obtain ⟨-, -, ⟨k, p, hc, rfl⟩ | ⟨-, -, rfl⟩⟩ := crash_ok hs <;> exact hn.hopeless h.base (h.bad hb)

omit [DecidableEq K] in
theorem RInv.new (sh : Shard K V) : RInv (State.new (Conc.State.new sh)) where
  base := ⟨fun _ _ => rfl, ⟨fun _ => by simp [State.new, Conc.State.new, Conc.Ctl.writes],
    fun _ => by simp [State.new, Conc.State.new, Conc.Ctl.reads], by simp [State.new, Conc.State.new],
    by simp [State.new, Conc.State.new]⟩,
    fun _ _ h => by simp [State.new, Conc.State.new] at h, fun _ _ h => by simp [State.new, Conc.State.new] at h,
    fun _ _ _ _ _ h => by simp [State.new, Conc.State.new] at h, fun _ _ _ => rfl⟩
  free := fun h => by simp [Dead, State.new] at h
  bad := fun h => by simp [State.new] at h

omit [DecidableEq K] in
theorem _root_.QuickCache.Spec.Doomed.shard (hd : Doomed t a) (sh : Shard K V) :
    Doomed { t with base := { t.base with shard := sh } } a := by
  cases hd with
  | guard uw hat bad => exact .guard uw hat bad
  | future uw task hat bad => exact .future uw task hat bad

omit [DecidableEq K] in
theorem _root_.QuickCache.Spec.Doomed.of_shard {sh : Shard K V}
    (hd : Doomed { t with base := { t.base with shard := sh } } a) : Doomed t a := by
  cases hd with
  | guard uw hat bad => exact .guard uw hat bad
  | future uw task hat bad => exact .future uw task hat bad

omit [DecidableEq K] in
theorem RInv.layout (h : RInv t) (sh : Shard K V) : RInv { t with base := { t.base with shard := sh } } where
  base := h.base.shard sh
  free := h.free
  bad := fun hb => (h.bad hb).imp id (fun ⟨a, ha⟩ => ⟨a, ha.shard sh⟩)

variable {ps : List Where} {tr : List (Ev K V)} {t0 : State K V}

theorem Run.rinv (hr : Run c t0 ps tr t) (h0 : RInv t0) : RInv t := by
  induction hr with
  | start => exact h0
  | layout m p hr ok hm hp ih => exact ih.layout _
  | act hr hs ih => exact ih.next (.act hs)
  | poison hr hs ih => exact ih.next (.poison hs)
  | throw hr hs ih => exact ih.next (.throw hs)
  | crash hr hs ih => exact ih.next (.crash (c := c) hs)

/-- As long as nothing is hopeless, the cache is in a state that it could also be in with locks that are not poisoned. -/
theorem Run.rough (hr : Run c t0 ps tr t) (h0 : RInv t0) (hs : Sound t) : Conc.Rough c t0.base t.base ∧ Clean t := by
  suffices h : Conc.Rough c t0.base t.base by
    refine ⟨h, ?_⟩
    have hi := hr.rinv h0
    have hn : ¬ (Dead t ∨ ∃ a, Doomed t a) := fun h => h.elim hs.1 (fun ⟨a, ha⟩ => hs.2 a ha)
    refine ⟨by simpa [Dead] using hs.1, fun i => ?_, fun a => ?_⟩
    · rw [← Bool.not_eq_true]; exact fun h => hn (hi.bad (Or.inl ⟨i, h⟩))
    · rw [← Bool.not_eq_true]; exact fun h => hn (hi.bad (Or.inr ⟨a, h⟩))
  have sound : ∀ {t t' : State K V} {o evs}, Next c t o evs t' → BInv t.base → Sound t' → Sound t := by
    intro t t' o evs hn hb hs
    refine ⟨fun h => ?_, fun a h => ?_⟩
    · exact (hn.hopeless hb (Or.inl h)).elim hs.1 (fun ⟨b, hb⟩ => hs.2 b hb)
    · exact (hn.hopeless hb (Or.inr ⟨a, h⟩)).elim hs.1 (fun ⟨b, hb⟩ => hs.2 b hb)
  induction hr with
  | start => exact .start
  | layout m p hr ok hm hp ih => exact .layout m p (ih ⟨hs.1, fun a h => hs.2 a (h.shard _)⟩) hm hp
  | act hr hx ih =>
    have h1 := ih (sound (.act hx) (hr.rinv h0).base hs)
    obtain ⟨-, -, b, he, rfl⟩ := exec_done hx
    exact .act h1 he
  | poison hr hx ih =>
    obtain ⟨-, -, he, l, -, hl, -⟩ := exec_panicked hx
    have hp := (Next.poison hx).hopeless (hr.rinv h0).base ((hr.rinv h0).hopeless hl)
    exact absurd hp (fun h => h.elim hs.1 (fun ⟨a, ha⟩ => hs.2 a ha))
  | @throw _ _ s s' act i site hr hx ih =>
    have h1 := ih (sound (.throw hx) (hr.rinv h0).base hs)
    obtain ⟨g1, -, g3, g4, -⟩ := throw_class (hr.rinv h0).base hx
    have hu : ¬ UnderWriteLock act site := fun h => hs.1 (g1 h).1
    have hf : ¬ Fatal site := fun h => by obtain ⟨a, -, ha⟩ := g3 h; exact hs.2 a ha
    obtain ⟨hsafe, -⟩ := g4 hu hf
    obtain ⟨-, -, -, y, hy, -, rfl, b, hl, rfl⟩ := throw_panicked hx
    rw [onThrow_base]
    exact .interrupted h1 hy hsafe hl
  | @crash _ _ _ _ a hr hx ih =>
    have h1 := ih (sound (.crash (c := c) hx) (hr.rinv h0).base hs)
    obtain ⟨-, -, ⟨k, p, hc, rfl⟩ | ⟨-, -, rfl⟩⟩ := crash_ok hx
    · refine .act (act := .drop a) (ev := []) h1 ?_
      simp only [Conc.exec, Conc.drop]
      rw [hc]
    · exact h1

/-! ### Waiting for ever -/

/-- A thread that waits without timeout, not notified, with nobody left to notify it. -/
structure Stuck (t : State K V) (b tid : Nat) (k : K) (p : Plh) : Prop where
  dead : Dead t
  kind : t.base.kind b = .thread tid false
  at_ : t.base.ctl b = .waiting k p
  flag : t.base.flag b = false
  alone : ¬ Guarded t.base b

variable {b tid : Nat} {k : K} {p : Plh}

/-- It has nothing to do. -/
theorem Stuck.none (h : Stuck t b tid k p) (ha : agent act = some b) : Conc.exec c t.base act = none := by
  by_contra hx
  have hc := exec_ctl hx
  cases act <;> simp only [agent, Option.some.injEq, reduceCtorEq] at ha <;> subst ha <;>
    simp_all [h.at_, h.kind]
  simp [Conc.exec, Conc.wake, h.at_, h.kind, h.flag] at hx

theorem Stuck.next (h : Stuck t b tid k p) (hi : RInv t) (hn : Next c t o evs t') : Stuck t' b tid k p := by
  have hlt := hi.base.lt (a := b) (by rw [h.at_]; simp)
  have ho : o ≠ some b := by
    intro ho
    cases hn with
    | act hs => obtain ⟨-, -, x, he, -⟩ := exec_done hs; rw [h.none ho] at he; cases he
    | poison hs => obtain ⟨-, -, he, -⟩ := exec_panicked hs; exact he (h.none ho)
    | @throw _ act i site hs =>
      obtain ⟨-, -, -, y, hy, -⟩ := throw_panicked hs
      have hx := h.none (c := c) ho
      have := h.at_
      have := h.kind
      cases act <;> simp only [agent, Option.some.injEq, reduceCtorEq] at ho <;> subst ho <;>
        simp_all [Conc.stops, Conc.enterStops, Conc.findStops, Conc.tallyStops, Conc.upsertStops, Conc.joinStops,
          Conc.pollStops, Conc.rejoinStops, Conc.publishStops, Conc.storeStops, Conc.dropStops, Conc.exec]
    | crash hs =>
      cases ho
      obtain ⟨-, -, ⟨k, p, hc, -⟩ | ⟨hk, -⟩⟩ := crash_ok hs
      · rw [h.at_] at hc; cases hc
      · rw [h.kind] at hk; cases hk
  obtain ⟨-, m⟩ := hn.binv hi.base
  obtain ⟨hid, -⟩ := dead_next hi.base h.dead (hi.free h.dead) hn
  refine ⟨hn.worse.shard h.dead, by rw [m.kind b hlt]; exact h.kind, by rw [m.ctl b ho hlt]; exact h.at_, ?_, ?_⟩
  · rw [← Bool.not_eq_true]
    intro hf
    rcases hid.flag b hf with h1 | h1
    · rw [h.flag] at h1; cases h1
    · exact h.alone h1
  · rintro ⟨a, k', q, ps, h1, h2, h3⟩
    rcases m.list _ ps h2 b h3 with h4 | ⟨qs, h4, h5⟩
    · exact ho h4
    · exact h.alone ⟨a, k', q, qs, hid.guard a k' q h1, h4, h5⟩

/-- … for ever. -/
theorem Run.stuck (hr : Run c t0 ps tr t) (h0 : RInv t0) (h : Stuck t0 b tid k p) : Stuck t b tid k p := by
  induction hr with
  | start => exact h
  | layout m p hr ok hm hp ih => have := ih.dead; rw [Dead, ok] at this; cases this
  | act hr hs ih => exact ih.next (hr.rinv h0) (.act hs)
  | poison hr hs ih => exact ih.next (hr.rinv h0) (.poison hs)
  | throw hr hs ih => exact ih.next (hr.rinv h0) (.throw hs)
  | crash hr hs ih => exact ih.next (hr.rinv h0) (.crash (c := c) hs)

/-- A poisoned shard is frozen. -/
theorem Run.frozen (hr : Run c t0 ps tr t) (h0 : RInv t0) (hd : Dead t0) :
    Dead t ∧ t.base.shard = t0.base.shard ∧ ∀ e ∈ tr, Shardless e := by
  induction hr with
  | start => exact ⟨hd, rfl, by simp⟩
  | layout m p hr ok hm hp ih => have := ih.1; rw [Dead, ok] at this; cases this
  | act hr hs ih =>
    have hi := hr.rinv h0
    have hn := Next.act hs
    obtain ⟨h1, h2⟩ := dead_next hi.base ih.1 (hi.free ih.1) hn
    refine ⟨hn.worse.shard ih.1, h1.shard.trans ih.2.1, fun e he => ?_⟩
    rcases List.mem_append.mp he with he | he
    · exact ih.2.2 e he
    · exact h2 e he
  | poison hr hs ih =>
    have hi := hr.rinv h0
    have hn := Next.poison hs
    obtain ⟨h1, h2⟩ := dead_next hi.base ih.1 (hi.free ih.1) hn
    exact ⟨hn.worse.shard ih.1, h1.shard.trans ih.2.1, ih.2.2⟩
  | throw hr hs ih =>
    have hi := hr.rinv h0
    have hn := Next.throw hs
    obtain ⟨h1, h2⟩ := dead_next hi.base ih.1 (hi.free ih.1) hn
    exact ⟨hn.worse.shard ih.1, h1.shard.trans ih.2.1, ih.2.2⟩
  | crash hr hs ih =>
    have hi := hr.rinv h0
    have hn := Next.crash (c := c) hs
    obtain ⟨h1, h2⟩ := dead_next hi.base ih.1 (hi.free ih.1) hn
    exact ⟨hn.worse.shard ih.1, h1.shard.trans ih.2.1, ih.2.2⟩

/-- A doomed agent stays doomed. -/
theorem Run.doomed (hr : Run c t0 ps tr t) (h0 : RInv t0) {a : Nat} (hd : Doomed t0 a) : Doomed t a := by
  induction hr with
  | start => exact hd
  | layout m p hr ok hm hp ih => exact ih.shard _
  | act hr hs ih => exact ih.next (hr.rinv h0).base (.act hs)
  | poison hr hs ih => exact ih.next (hr.rinv h0).base (.poison hs)
  | throw hr hs ih => exact ih.next (hr.rinv h0).base (.throw hs)
  | crash hr hs ih => exact ih.next (hr.rinv h0).base (.crash (c := c) hs)

theorem Run.append {ps' : List Where} {tr' : List (Ev K V)} (h1 : Run c t0 ps tr t) (h2 : Run c t ps' tr' t') :
    Run c t0 (ps ++ ps') (tr ++ tr') t' := by
  induction h2 with
  | start => simpa using h1
  | layout m p hr ok hm hp ih => exact .layout m p ih ok hm hp
  | act hr hs ih => rw [← List.append_assoc]; exact .act ih hs
  | poison hr hs ih => exact .poison ih hs
  | throw hr hs ih => rw [← List.append_assoc]; exact .throw ih hs
  | crash hr hs ih => exact .crash ih hs

/-- Without panics inside the cache the locks make no difference. -/
theorem Run.calm (hr : Run c t0 ps tr t) (hc : Clean t0) (hps : ps = []) :
    Clean t ∧ Conc.Run c t0.base tr t.base := by
  induction hr with
  | start => exact ⟨hc, .start⟩
  | layout m p hr ok hm hp ih => exact ⟨(ih hps).1, .layout m p (ih hps).2 hm hp⟩
  | act hr hs ih =>
    obtain ⟨-, -, b, he, rfl⟩ := exec_done hs
    exact ⟨(ih hps).1, .act (ih hps).2 he⟩
  | poison hr hs ih =>
    obtain ⟨-, -, he, l, -, hl, -⟩ := exec_panicked hs
    obtain ⟨h1, h2, h3⟩ := (ih hps).1
    cases l <;> simp_all [State.bad]
  | throw hr hs ih => simp at hps
  | @crash _ _ _ _ a hr hx ih =>
    obtain ⟨-, -, ⟨k, p, hc, rfl⟩ | ⟨-, -, rfl⟩⟩ := crash_ok hx
    · refine ⟨(ih hps).1, ?_⟩
      have := (ih hps).2.act (act := .drop a) (ev := []) (s' := _) (by simp only [Conc.exec, Conc.drop]; rw [hc])
      simpa using this
    · exact ih hps

/-! ### What can still be done -/

/-- The calls panic. -/
theorem dead_call (hi : RInv t) (hd : Dead t) {op : Op K V} (hop : (Conc.lockMode op).isSome = true) :
    exec c t (.call op) = some (.panicked t) := by
  have hf := hi.free hd
  have he : Conc.exec c t.base (.call op) ≠ Option.none := by
    simp only [Conc.exec, Conc.call]
    split
    · rw [if_pos (unlocked_iff.mpr hf)]; simp
    · rw [if_pos (by rw [hf.1]; rfl)]; simp
    · rename_i h; rw [h] at hop; cases hop
  obtain ⟨r, hr⟩ := Option.ne_none_iff_exists'.mp he
  unfold exec
  rw [hr]
  simp only [Dead] at hd
  simp [barred, locks, State.bad, hd, panics, unwinds, agent, onPoison]

/-- So does a caller that begins. -/
theorem dead_enter (hi : RInv t) (hd : Dead t) {k : K} (hc : t.base.ctl a = .start k) (hu : t.unwinding a = false) (w : Nat) :
    exec c t (.enter a w) = some (.panicked { t with base := t.base.go a .idle }) := by
  have hf := hi.free hd
  have he : Conc.exec c t.base (.enter a w) ≠ Option.none := by
    simp only [Conc.exec, Conc.enter, hc]
    split
    · simp
    · rename_i h; rw [hf.1] at h; exact absurd rfl h
  obtain ⟨r, hr⟩ := Option.ne_none_iff_exists'.mp he
  unfold exec
  rw [hr]
  simp only [Dead] at hd
  simp [barred, locks, State.bad, hd, panics, unwinds, agent, onPoison, hu]

/-- One that has been notified. -/
theorem dead_relock (hi : RInv t) (hd : Dead t) {k : K} {p : Plh} (hc : t.base.ctl a = .claimed k p)
    (hu : t.unwinding a = false) : exec c t (.relock a) = some (.panicked (expel t a)) ∧
      (t.base.kind a ≠ .task → (expel t a).base.ctl a = .idle) ∧ (t.base.kind a = .task → Doomed (expel t a) a) := by
  have hf := hi.free hd
  have he : Conc.exec c t.base (.relock a) ≠ Option.none := by
    simp only [Conc.exec, Conc.relock, hc]
    rw [if_pos (by rw [hf.1]; rfl)]
    simp
  obtain ⟨r, hr⟩ := Option.ne_none_iff_exists'.mp he
  refine ⟨?_, fun hk => ?_, fun hk => ?_⟩
  · unfold exec
    rw [hr]
    simp only [Dead] at hd
    simp [barred, locks, State.bad, hd, panics, unwinds, agent, onPoison, hu]
  · simp [expel, hc, hk, Conc.State.go]
  · simp only [expel, hc, hk, if_true]
    refine .future (k := k) (p := p) (by simp [State.unwind]) hk (by simp [Conc.State.go]) (Or.inr (Or.inr ⟨?_, ?_⟩))
    · exact hi.base.reset a hk (by rw [hc]; rfl)
    · exact hi.base.absent (by rw [hc]; simp) (by rw [hc]; simp)

/-- One that stores the value it has loaded. -/
theorem dead_store (hi : RInv t) (hd : Dead t) {k : K} {p : Plh} {v : V} {r : Bool} (hc : t.base.ctl a = .inserting k p v r)
    (hu : t.unwinding a = false) : exec c t (.store a) = some (.panicked { t with base := t.base.go a .idle }) := by
  have hf := hi.free hd
  have he : Conc.exec c t.base (.store a) ≠ Option.none := by
    simp only [Conc.exec, Conc.store, hc]
    rw [if_pos (unlocked_iff.mpr hf)]
    simp
  obtain ⟨r, hr⟩ := Option.ne_none_iff_exists'.mp he
  unfold exec
  rw [hr]
  simp only [Dead] at hd
  simp [barred, locks, State.bad, hd, panics, unwinds, agent, onPoison, hu]

/-- One that drops its guard: it panics, or aborts the process if it was panicking already. -/
theorem dead_drop (hi : RInv t) (hd : Dead t) {k : K} {p : Plh} (hc : t.base.ctl a = .leaving k p) :
    exec c t (.lockDrop a) = some (if t.unwinding a then .aborted else .panicked { t with base := t.base.go a .idle }) := by
  have hf := hi.free hd
  have he : Conc.exec c t.base (.lockDrop a) ≠ Option.none := by
    simp only [Conc.exec, Conc.lockDrop, hc]
    rw [if_pos (unlocked_iff.mpr hf)]
    simp
  obtain ⟨r, hr⟩ := Option.ne_none_iff_exists'.mp he
  unfold exec
  rw [hr]
  simp only [Dead] at hd
  simp [barred, locks, State.bad, hd, panics, unwinds, agent, onPoison]

/-- A doomed agent can abort the process, unless it has to wait for the lock of the shard. -/
theorem doomed_abort {a : Nat} (hd : Doomed t a) (hf : (∃ k p, t.base.ctl a = .leaving k p) → Free t.base) :
    (∃ act, exec c t act = some .aborted) ∨
      ∃ act t' act', exec c t act = some (.done t' []) ∧ exec c t' act' = some .aborted := by
  have drops : ∀ {t : State K V} {k : K} {p : Plh}, t.base.ctl a = .dropping k p → t.unwinding a = true →
      t.stateBad p.id = true → exec c t (.finishDrop a) = some .aborted := by
    intro t k p hc uw bad
    have he : Conc.exec c t.base (.finishDrop a) ≠ Option.none := by
      simp only [Conc.exec, Conc.finishDrop, hc]
      split <;> (try split) <;> (try split) <;> simp
    obtain ⟨r, hr⟩ := Option.ne_none_iff_exists'.mp he
    unfold exec
    rw [hr]
    simp [barred, locks, stateLock, plhOf, hc, State.bad, bad, panics, unwinds, agent, uw]
  cases hd with
  | @guard k p uw hat bad =>
    rcases hat with hc | hc
    · have hf := hf ⟨k, p, hc⟩
      by_cases hb : t.shardBad = true
      · refine Or.inl ⟨.lockDrop a, ?_⟩
        have he : Conc.exec c t.base (.lockDrop a) ≠ Option.none := by
          simp only [Conc.exec, Conc.lockDrop, hc]
          rw [if_pos (unlocked_iff.mpr hf)]
          simp
        obtain ⟨r, hr⟩ := Option.ne_none_iff_exists'.mp he
        unfold exec
        rw [hr]
        simp [barred, locks, State.bad, hb, panics, unwinds, agent, uw]
      · refine Or.inr ⟨.lockDrop a, { t with base := { t.base.go a (.dropping k p) with writer := some a } }, .finishDrop a, ?_,
          drops (k := k) (p := p) (by simp [Conc.State.go]) uw bad⟩
        have he : Conc.exec c t.base (.lockDrop a) =
            some (.ok ({ t.base.go a (.dropping k p) with writer := some a }, [])) := by
          simp only [Conc.exec, Conc.lockDrop, hc]
          rw [if_pos (unlocked_iff.mpr hf)]
        unfold exec
        rw [he]
        simp [barred, locks, State.bad, hb]
    · exact Or.inl ⟨.finishDrop a, drops hc uw bad⟩
  | @future k p uw task hc bad =>
    refine Or.inl ⟨.cancel a, ?_⟩
    have hd : Doomed t a := .future uw task hc bad
    rcases hd.exec (c := c) (act := .cancel a) rfl with h1 | h1 | ⟨_, _, h1, _⟩
    · exfalso
      have he : Conc.exec c t.base (.cancel a) ≠ Option.none := by
        simp only [Conc.exec, Conc.cancel, hc, task]
        split
        · simp
        · split
          · split <;> simp
          · split <;> simp
      obtain ⟨r, hr⟩ := Option.ne_none_iff_exists'.mp he
      unfold exec at h1
      rw [hr] at h1
      simp only [barred, Bool.false_eq_true, if_false] at h1
      split at h1
      · cases h1
      · split at h1 <;> cases h1
    · exact h1
    · rw [hc] at h1; cases h1

/-! ### The agents that are unwinding -/

/-- They are futures, or are dropping a guard, or are gone. -/
def UInv (t : State K V) : Prop := ∀ a, t.unwinding a = true → a < t.base.next ∧
  (t.base.kind a = .task ∨ t.base.ctl a = .idle ∨ (∃ k p, t.base.ctl a = .leaving k p) ∨ ∃ k p, t.base.ctl a = .dropping k p)

/-- Who starts unwinding because a lock is poisoned. -/
theorem onPoison_unwinding {l : Lock} {b : Nat} (hx : Conc.exec c t.base act ≠ none)
    (hb : (onPoison t act l).unwinding b = true) (hu : t.unwinding b = false) :
    agent act = some b ∧ t.base.ctl b ≠ .idle ∧
      (t.base.kind b = .task ∨ ∃ k p, (onPoison t act l).base.ctl b = .leaving k p) := by
  have hc := exec_ctl hx
  have up : ∀ {f : Nat → Bool} {a}, update f a true b = true → f b = false → a = b := by
    intro f a h1 h2
    by_contra e
    rw [Function.update_of_ne (fun x => e x.symm), h2] at h1
    cases h1
  have exp : ∀ {a}, (expel t a).unwinding b = true → ((∃ k p, t.base.ctl a = .waiting k p) → t.base.kind a = .task) →
      a = b ∧ t.base.kind b = .task := by
    intro a h1 hp
    unfold expel at h1
    split at h1
    · split at h1
      · rename_i hk; have := up h1 hu; subst this; exact ⟨rfl, hk⟩
      · rw [hu] at h1; cases h1
    · split at h1
      · rename_i hk; have := up h1 hu; subst this; exact ⟨rfl, hk⟩
      · rw [hu] at h1; cases h1
    · split at h1
      · rename_i hk; have := up h1 hu; subst this; exact ⟨rfl, hk⟩
      · rw [hu] at h1; cases h1
    · rename_i hc; have := up h1 hu; subst this; exact ⟨rfl, hp ⟨_, _, hc⟩⟩
    · rw [hu] at h1; cases h1
  have rel : ∀ {t1 : State K V} {a}, (release t1 a).unwinding = t1.unwinding := by
    intro t1 a; unfold release; split <;> rfl
  cases act with
  | relock a =>
    obtain ⟨k, p, hc⟩ := hc
    obtain ⟨rfl, h1⟩ := exp (a := a) hb (by rw [hc]; simp)
    exact ⟨rfl, by rw [hc]; simp, Or.inl h1⟩
  | poll a w =>
    obtain ⟨k, p, hc, hk⟩ := hc
    obtain ⟨rfl, h1⟩ := exp (a := a) hb (fun _ => hk)
    exact ⟨rfl, by rw [hc]; simp, Or.inl h1⟩
  | join a =>
    obtain ⟨k, p, hc⟩ := hc
    obtain ⟨rfl, h1⟩ := exp (a := a) (by rw [← rel]; exact hb) (by rw [hc]; simp)
    exact ⟨rfl, by rw [hc]; simp, Or.inl h1⟩
  | startLoading a =>
    obtain ⟨k, p, w, hc⟩ := hc
    obtain ⟨rfl, h1⟩ := exp (a := a) (by rw [← rel]; exact hb) (by rw [hc]; simp)
    exact ⟨rfl, by rw [hc]; simp, Or.inl h1⟩
  | rejoin a =>
    obtain ⟨k, p, hc⟩ := hc
    obtain ⟨rfl, h1⟩ := exp (a := a) (by rw [← rel]; exact hb) (by rw [hc]; simp)
    exact ⟨rfl, by rw [hc]; simp, Or.inl h1⟩
  | publish a v =>
    obtain ⟨k, p, hc⟩ := hc
    cases l with
    | shard => simp only [onPoison] at hb; rw [hu] at hb; cases hb
    | state q =>
      simp only [onPoison, hc] at hb ⊢
      have := up hb hu
      subst this
      exact ⟨rfl, by rw [hc]; simp, Or.inr ⟨k, q, by simp [Conc.State.go]⟩⟩
    | waiter d =>
      simp only [onPoison, hc] at hb ⊢
      split at hb
      · have := up hb hu
        subst this
        rename_i ps hp
        refine ⟨rfl, by rw [hc]; simp, Or.inr ⟨k, p, ?_⟩⟩
        rw [foldl_notify]
        simp [Conc.State.go]
      · rw [hu] at hb; cases hb
  | finishDrop a =>
    exfalso
    cases l with
    | waiter d =>
      simp only [onPoison] at hb
      split at hb
      · split at hb
        · rw [rel, show ∀ p, (t.poisonState p).unwinding = t.unwinding from fun _ => rfl, hu] at hb; cases hb
        · rw [hu] at hb; cases hb
      · rw [hu] at hb; cases hb
    | _ => simp only [onPoison] at hb; rw [rel, hu] at hb; cases hb
  | cancel a =>
    exfalso
    cases l with
    | waiter d =>
      simp only [onPoison] at hb
      split at hb
      · rw [show ∀ p, (t.poisonState p).unwinding = t.unwinding from fun _ => rfl, hu] at hb; cases hb
      · rw [hu] at hb; cases hb
    | _ => simp only [onPoison] at hb; rw [hu] at hb; cases hb
  | _ =>
    exfalso
    have : t.unwinding b = true := hb
    rw [hu] at this
    cases this

/-- Who starts unwinding because user code panics. -/
theorem throw_unwinding {i : Nat} {site : Where} {b : Nat}
    (hs : throw c t act i = some (.panicked t', site)) (hb : t'.unwinding b = true) (hu : t.unwinding b = false) :
    agent act = some b ∧ t.base.ctl b ≠ .idle ∧ (t.base.kind b = .task ∨ ∃ k p, t'.base.ctl b = .leaving k p) := by
  obtain ⟨-, -, -, y, hy, -, rfl, b', hl, rfl⟩ := throw_panicked hs
  have up : ∀ {f : Nat → Bool} {a}, update f a true b = true → f b = false → a = b := by
    intro f a h1 h2
    by_contra e
    rw [Function.update_of_ne (fun x => e x.symm), h2] at h1
    cases h1
  by_cases hW : underWrite act y.site = true
  · rw [onThrow_under hW] at hb
    have : t.unwinding b = true := hb
    rw [hu] at this; cases this
  have hW : underWrite act y.site = false := by simpa using hW
  cases act with
  | join a =>
    exfalso
    simp only [onThrow, hW, Bool.false_eq_true, if_false] at hb
    split at hb <;> simp_all [State.poisonShard, State.poisonState]
  | finishDrop a =>
    exfalso
    simp only [onThrow, hW, Bool.false_eq_true, if_false] at hb
    split at hb <;> (try split at hb) <;> simp_all [State.poisonShard, State.poisonState, State.poisonWaiter]
  | poll a w =>
    have hb : update t.unwinding a true b = true := by simpa [onThrow, hW, State.poisonWaiter, State.unwind] using hb
    have := up hb hu
    subst this
    simp only [Conc.stops, Conc.pollStops] at hy
    split at hy
    · rename_i k p hc hk
      exact ⟨rfl, by rw [hc]; simp, Or.inl hk⟩
    · simp at hy
  | rejoin a =>
    simp only [Conc.stops, Conc.rejoinStops] at hy
    split at hy
    · rename_i k p hc
      by_cases hk : t.base.kind a = .task
      · have hb : update t.unwinding a true b = true := by simpa [onThrow, hW, hk, State.unwind] using hb
        have := up hb hu
        subst this
        exact ⟨rfl, by rw [hc]; simp, Or.inl hk⟩
      · have : t.unwinding b = true := by simpa [onThrow, hW, hk] using hb
        rw [hu] at this; cases this
    · simp at hy
  | publish a v =>
    simp only [Conc.stops, Conc.publishStops] at hy
    split at hy
    · rename_i k p hc
      have hab : a = b := by
        simp only [onThrow, underWrite, Bool.and_false, Bool.false_eq_true, if_false, agent, hc, plhOf] at hb
        split at hb
        · exact up hb hu
        · exact up hb hu
      subst hab
      refine ⟨rfl, by rw [hc]; simp, Or.inr ⟨k, p, ?_⟩⟩
      rw [onThrow_base]
      split at hy
      · rcases List.mem_cons.mp hy with hy | hy
        · subst hy
          cases hl
          simp [Conc.State.go]
        · obtain ⟨j, -, hy⟩ := List.mem_filterMap.mp hy
          split at hy
          · split at hy
            · simp only [Option.some.injEq] at hy
              subst hy
              simp only [Except.ok.injEq] at hl
              subst hl
              rw [foldl_notify]
              simp [Conc.State.go]
            · cases hy
          · cases hy
      · simp at hy
    · simp at hy
  | _ =>
    exfalso
    have : t.unwinding b = true := by
      simp only [onThrow, hW, Bool.false_eq_true, if_false] at hb
      simpa using hb
    rw [hu] at this
    cases this

theorem UInv.next (h : UInv t) (hi : BInv t.base) (hn : Next c t o evs t') : UInv t' := by
  obtain ⟨hi', m⟩ := hn.binv hi
  intro a hu
  by_cases ha : t.unwinding a = true
  · obtain ⟨h1, h2⟩ := h a ha
    refine ⟨Nat.lt_of_lt_of_le h1 m.next, ?_⟩
    rw [m.kind a h1]
    by_cases ho : o = some a
    · rcases h2 with h2 | h2
      · exact Or.inl h2
      · right
        cases hn with
        | @act _ act evs hs =>
          obtain ⟨-, -, b, he, rfl⟩ := exec_done hs
          have hx : Conc.exec c t.base act ≠ none := by rw [he]; simp
          rcases h2 with h2 | ⟨k, p, h2⟩ | ⟨k, p, h2⟩
          · exfalso
            have := exec_ctl hx
            cases act <;> simp only [agent, Option.some.injEq, reduceCtorEq] at ho <;> subst ho <;> simp_all
          · obtain rfl := at_leaving hx ho h2
            simp only [Conc.exec, Conc.lockDrop, h2] at he
            split at he
            · cases he
              exact Or.inr (Or.inr ⟨k, p, by simp [Conc.State.go]⟩)
            · cases he
          · obtain rfl := at_dropping hx ho h2
            left
            simp only [Conc.exec, Conc.finishDrop, h2] at he
            split at he
            · cases he
            · split at he
              · split at he
                · cases he
                  simp [Conc.State.notify, Conc.State.unlockWrite, Conc.State.go]
                · cases he
              · rename_i ps hp _
                cases hst : Sync.step c t.base.shard (.abandon k p) with
                | error e => rw [hst] at he; cases he
                | ok y =>
                  obtain ⟨sh, out, q⟩ := y
                  rw [hst] at he
                  simp only [Res.ok_bind, Option.some.injEq, Except.ok.injEq, Prod.mk.injEq] at he
                  obtain ⟨rfl, -⟩ := he
                  simp [Conc.State.unlockWrite, Conc.State.go]
        | poison hs => have := (exec_panicked hs).2.1; rw [unwinds_of ho ha] at this; cases this
        | throw hs => have := (throw_panicked hs).2.1; rw [unwinds_of ho ha] at this; cases this
        | crash hs =>
          cases ho
          obtain ⟨-, -, ⟨k, p, hc, rfl⟩ | ⟨-, ⟨k, hc⟩, rfl⟩⟩ := crash_ok hs
          · exact Or.inr (Or.inl ⟨k, p, by simp [Conc.State.go]⟩)
          · exact h2
    · rw [m.ctl a ho h1]
      exact h2
  · have ha : t.unwinding a = false := by simpa using ha
    have fin : t.base.ctl a ≠ .idle → (t.base.kind a = .task ∨ ∃ k p, t'.base.ctl a = .leaving k p) →
        a < t'.base.next ∧ (t'.base.kind a = .task ∨ t'.base.ctl a = .idle ∨ (∃ k p, t'.base.ctl a = .leaving k p) ∨
          ∃ k p, t'.base.ctl a = .dropping k p) := by
      intro h1 h2
      have hlt := hi.lt h1
      refine ⟨Nat.lt_of_lt_of_le hlt m.next, ?_⟩
      rw [m.kind a hlt]
      rcases h2 with h2 | h2
      · exact Or.inl h2
      · exact Or.inr (Or.inr (Or.inl h2))
    cases hn with
    | act hs =>
      obtain ⟨-, -, b, -, rfl⟩ := exec_done hs
      have : t.unwinding a = true := hu
      rw [ha] at this; cases this
    | poison hs =>
      obtain ⟨-, -, he, l, hl, -, rfl⟩ := exec_panicked hs
      obtain ⟨-, h1, h2⟩ := onPoison_unwinding he hu ha
      exact fin h1 h2
    | throw hs =>
      obtain ⟨-, h1, h2⟩ := throw_unwinding hs hu ha
      exact fin h1 h2
    | @crash _ d hs =>
      have e : a = d := by
        obtain ⟨-, -, ⟨k, p, hc, rfl⟩ | ⟨-, ⟨k, hc⟩, rfl⟩⟩ := crash_ok hs <;>
        · by_contra e
          have : update t.unwinding d true a = true := hu
          rw [Function.update_of_ne e, ha] at this
          cases this
      subst e
      obtain ⟨-, -, ⟨k, p, hc, rfl⟩ | ⟨hk, ⟨k, hc⟩, rfl⟩⟩ := crash_ok hs
      · exact fin (by rw [hc]; simp) (Or.inr ⟨k, p, by simp [Conc.State.go]⟩)
      · exact fin (by rcases hc with ⟨p, hc⟩ | hc <;> rw [hc] <;> simp) (Or.inl hk)

theorem Run.uinv (hr : Run c t0 ps tr t) (h0 : RInv t0) (hu : UInv t0) : UInv t := by
  induction hr with
  | start => exact hu
  | layout m p hr ok hm hp ih => exact ih
  | act hr hs ih => exact ih.next (hr.rinv h0).base (.act hs)
  | poison hr hs ih => exact ih.next (hr.rinv h0).base (.poison hs)
  | throw hr hs ih => exact ih.next (hr.rinv h0).base (.throw hs)
  | crash hr hs ih => exact ih.next (hr.rinv h0).base (.crash (c := c) hs)

/-- An action that is possible without poisoning is possible, or its agent's future can be dropped. -/
theorem UInv.possible (h : UInv t) (hx : Conc.exec c t.base act ≠ none) : ∃ act, exec c t act ≠ none := by
  have key : ∀ act : Act K V, barred t act = false → Conc.exec c t.base act ≠ none → exec c t act ≠ none := by
    intro act hb hx
    obtain ⟨r, hr⟩ := Option.ne_none_iff_exists'.mp hx
    unfold exec
    rw [hb, hr]
    simp only [Bool.false_eq_true, if_false]
    split
    · simp
    · split <;> simp
  cases hb : barred t act with
  | false => exact ⟨act, key act hb hx⟩
  | true =>
    have hc := exec_ctl hx
    cases act with
    | enter a w =>
      obtain ⟨k, hc⟩ := hc
      have hu := (h a hb).2
      have hk : t.base.kind a = .task := by simpa [hc] using hu
      refine ⟨.cancel a, key _ rfl ?_⟩
      simp [Conc.exec, Conc.cancel, hc, hk]
    | poll a w =>
      obtain ⟨k, p, hc, hk⟩ := hc
      refine ⟨.cancel a, key _ rfl ?_⟩
      simp only [Conc.exec, Conc.cancel, hc, hk]
      split
      · simp
      · split
        · split <;> simp
        · split <;> simp
    | _ => cases hb

end Std
end QuickCache
