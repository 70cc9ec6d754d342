import Verif.Proofs.ConcUnwind
import Verif.Proofs.ConcFacts
import Verif.Props.ConcExample

/-!
# Property C73: panics of user code in the concurrent cache

`Rough c (State.new (Shard.new …)) s`: any interleaving of the actions of any number of callers, some of them interrupted by a
panic of user code (at a safe place). The locks are those of `parking_lot`, which are not poisoned.
-/

namespace QuickCache.Props
variable {K V RS : Type} [DecidableEq K] {c : Cfg K V RS} {target cap gcap : Nat} {s s' : Conc.State K V}
open Unsync Spec Conc

/-! ### C73: panics of user code in the concurrent cache -/

/-- A panic at a safe place leaves the locks free, the other agents where they were, every load as it was, and the contents
as in the single-threaded cache (`C71_left`); the agent is gone, or is dropping the guard it had. The unwinding itself panics
only if the action would have panicked anyway. -/
theorem C73_left (hr : Rough c (State.new (Shard.new target cap gcap)) s) (hq : c.ptrEq = true) {act : Act K V}
    {x : Stop K V} (hx : x ∈ stops c s act) (safe : x.site.safe = true) :
    (∃ s', x.left = .ok s' ∧ Aftermath c target s act s') ∨
    ∃ e, x.left = .error e ∧ exec c s act = some (.error e) := by
  have hre := hr.reach hq (.new ..)
  rcases stop_sat hre.inv hq hx safe with ⟨s', h1, h2⟩ | h
  · refine Or.inl ⟨s', h1, ?_⟩
    have := h2.after
    rw [hre.reach.target] at this
    exact this
  · exact Or.inr h

/-- With interrupted actions in the history too, every completed action is a call of a sequential cache or leaves the
contents alone. -/
theorem C73_next (hr : Rough c (State.new (Shard.new target cap gcap)) s) (hq : c.ptrEq = true) {act : Act K V}
    {evs : List (Ev K V)} (hs : exec c s act = some (.ok (s', evs))) :
    (calls evs = [] ∧ s'.shard.contents = s.shard.contents) ∨
    ∃ x, calls evs = [x] ∧ OpSpec c target s.shard.contents x.op x.out x.log s'.shard.contents := by
  have hre := hr.reach hq (.new ..)
  have := (hre.inv.eff hq hs).history hre.inv
  rw [hre.reach.target] at this
  exact this

/-- … and panics only if the cache is too large (`C49_asserts`). -/
theorem C73_panics (hr : Rough c (State.new (Shard.new target cap gcap)) s) (hq : c.ptrEq = true) {act : Act K V}
    {e : Panic} (hs : exec c s act = some (.error e)) :
    (e = .overflow ∧ ∃ k v, 2 ^ 64 ≤ total c.weight s.shard.iter + enterWeight c target k v) ∨
    (e = .slabFull ∧ s.shard.entries.entries.length = 2 ^ 32 - 2) :=
  (hr.reach hq (.new ..)).asserts hq hs

/-- A pending load has at most one caller entitled to provide its value. -/
theorem C73_one (hr : Rough c (State.new (Shard.new target cap gcap)) s) (hq : c.ptrEq = true) {a b : Nat} {p : Plh}
    (ha : Entitled s a p) (hb : Entitled s b p) : a = b :=
  (hr.reach hq (.new ..)).inv.entitled_one ha hb

/-- Nobody is stranded: as long as a caller waits without having been notified, another one is entitled to provide the
value. -/
theorem C73_responsible (hr : Rough c (State.new (Shard.new target cap gcap)) s) (hq : c.ptrEq = true) {a : Nat}
    {p : Plh} (hw : Waits s a p) : ∃ b, b ≠ a ∧ Entitled s b p := by
  have hi := (hr.reach hq (.new ..)).inv
  obtain ⟨ps, h1, h2, -, h4⟩ := hi.waits hw
  obtain ⟨b, hb⟩ := hi.entitled_exists ⟨ps, h1, h2, h4⟩
  refine ⟨b, ?_, hb⟩
  rintro rfl
  obtain ⟨⟨k, hc⟩, hf⟩ := hw
  cases hb with
  | notified k h flag => rw [hf] at flag; cases flag
  | _ => simp_all

/-- As long as some caller is not done, somebody can go on. -/
theorem C73_progress (hr : Rough c (State.new (Shard.new target cap gcap)) s) (hq : c.ptrEq = true) {a : Nat}
    (ha : s.ctl a ≠ .idle) : ∃ act, Due s act ∧ exec c s act ≠ none :=
  (hr.reach hq (.new ..)).inv.progress ha

/-- Once user code stops panicking and no more calls are made, the execution is finite. -/
theorem C73_finite (hr : Rough c (State.new (Shard.new target cap gcap)) s) (hq : c.ptrEq = true) {n : Nat}
    (hs : Steps c s n s') : n ≤ 14 * s.next := by
  have := ((hr.reach hq (.new ..)).steps hq hs).2.2
  have := work_le s
  omega

/-- If nothing is due any more, then nobody waits or holds a guard or a lock. -/
theorem C73_end (hr : Rough c (State.new (Shard.new target cap gcap)) s) (hq : c.ptrEq = true)
    (hd : ∀ act, Due s act → exec c s act = none) :
    (∀ a, s.ctl a = .idle) ∧ s.writer = none ∧ s.readers = [] ∧ ∀ i ps, s.plh i = some ps → ps.waiters = [] := by
  have hi := (hr.reach hq (.new ..)).inv
  have hidle : ∀ a, s.ctl a = .idle := by
    intro a
    by_contra ha
    obtain ⟨act, h1, h2⟩ := hi.progress ha
    exact h2 (hd act h1)
  refine ⟨hidle, ?_, ?_, ?_⟩
  · cases hw : s.writer with
    | none => rfl
    | some a => have := (hi.lock.wr a).mp hw; simp [hidle a, Ctl.writes] at this
  · cases hl : s.readers with
    | nil => rfl
    | cons a l => have := (hi.lock.rd a).mp (by simp [hl]); simp [hidle a, Ctl.reads] at this
  · intro i ps hp
    cases hl : ps.waiters with
    | nil => rfl
    | cons a l =>
      obtain ⟨k, h⟩ := (hi.waiter hp (by rw [hl]; simp : a ∈ ps.waiters)).1
      rw [hidle a] at h; cases h

/-- Keys stay unique, and `len()` and `weight()` agree with the items. (The weight may exceed the capacity after an
interrupted eviction, until the next insertion.) -/
theorem C73_structure (hr : Rough c (State.new (Shard.new target cap gcap)) s) (hq : c.ptrEq = true) :
    (s.shard.iter.map (·.1)).Nodup ∧ s.shard.len = s.shard.iter.length ∧
      (∀ w, s.shard.weight = .ok w → w = total c.weight s.shard.iter) ∧ s.shard.numNonResident ≤ gcap ∧
      s.shard.capacity = cap := by
  have hre := hr.reach hq (.new ..)
  have hi := hre.inv.shard.toInv0
  refine ⟨(lists_iter hi).1, hi.len_iter.symm, fun w hw => ?_, ?_, hre.reach.capacity⟩
  · rw [hi.total_iter]
    unfold Shard.weight cadd at hw
    split at hw
    · cases hw; rfl
    · cases hw
  · rw [← hre.reach.ghostCap]; exact hre.inv.shard.ghosts

/-! Examples: interrupted actions at safe places. -/

theorem run_rough {s0 : Conc.State K V} {tr : List (Ev K V)} (hr : Conc.Run c s0 tr s) : Rough c s0 s := by
  induction hr with
  | start => exact .start
  | layout m p hr hm hp ih => exact .layout m p ih hm hp
  | act hr hs ih => exact .act ih hs

/-- What is left of the example after a panic at the `n`-th call of user code in an action. -/
def cxHalt (s : Conc.State Nat Nat) (act : Act Nat Nat) (n : Nat) : Option (Where × Conc.State Nat Nat) :=
  match (stops cxCfg s act)[n]? with
  | some x => match x.left with
    | .ok s' => some (x.site, s')
    | .error _ => none
  | none => none

theorem cxHalt_rough {s0 s s' : Conc.State Nat Nat} {act : Act Nat Nat} {n : Nat} {i : Where} (hb : Rough cxCfg s0 s)
    (h : cxHalt s act n = some (i, s')) (hs : i.safe = true) : Rough cxCfg s0 s' := by
  unfold cxHalt at h
  split at h
  · rename_i x hp
    split at h
    · rename_i s2 hl
      cases h
      exact .interrupted hb (List.mem_of_getElem? hp) hs hl
    · cases h
  · cases h

/-- The state after a run, an interrupted action and more actions. -/
def cxThen (acts : List (Act Nat Nat)) (act : Act Nat Nat) (n : Nat) (more : List (Act Nat Nat)) :
    Option (Where × Conc.State Nat Nat × List (Ev Nat Nat)) :=
  match cxHalt (cxRun acts).1 act n with
  | some (i, s) => match runActs cxCfg s more with
    | some (s', t) => some (i, s', t)
    | none => none
  | none => none

theorem Rough.append {s0 s' : Conc.State K V} : ∀ {acts : List (Act K V)} {s : Conc.State K V} {t : List (Ev K V)},
    Rough c s0 s → runActs c s acts = some (s', t) → Rough c s0 s' := by
  intro acts
  induction acts with
  | nil => intro s t hr hs; cases hs; exact hr
  | cons act acts ih =>
    intro s t hr hs
    unfold runActs at hs
    split at hs
    · rename_i s1 e1 h1
      split at hs
      · rename_i s2 e2 h2
        cases hs
        exact ih (.act hr h1) h2
      · cases hs
    · cases hs

theorem cxThen_rough {acts more : List (Act Nat Nat)} {act : Act Nat Nat} {n : Nat} {i : Where} {s : Conc.State Nat Nat}
    {t : List (Ev Nat Nat)} (h : cxThen acts act n more = some (i, s, t)) (hf : cxFine acts = true) (hs : i.safe = true) :
    Rough cxCfg (State.new (Shard.new 8 10 3)) s := by
  unfold cxThen at h
  split at h
  · rename_i i1 s1 h1
    split at h
    · rename_i s2 t2 h2
      cases h
      exact Rough.append (cxHalt_rough (run_rough (cxRun_run hf)) h1 hs) h2
    · cases h
  · cases h

/-- Agent 0 has the guard of key 7, agents 1 and 2 wait. The `clone` of the value given to its `insert` panics: agent 0 drops
its guard, agent 2 gets it, inserts 12, and agent 1 receives that. -/
example : cxFine cxWait = true ∧ (match cxThen cxWait (.publish 0 11) 0 [] with
    | some (i, s, _) => i == .clonePublished && i.safe && decide (s.ctl 0 = .leaving 7 (ld 0 0) ∧
        s.ctl 1 = .waiting 7 (ld 0 0) ∧ s.flag 1 = false ∧ s.ctl 2 = .waiting 7 (ld 0 0))
    | none => false) = true ∧
    (match cxThen cxWait (.publish 0 11) 0 [.lockDrop 0, .finishDrop 0, .wake 2, .relock 2, .rejoin 2, .startLoading 2,
        .publish 2 12, .store 2, .poll 1 13, .relock 1, .rejoin 1] with
    | some (_, s, t) => decide (s.shard.iter = [(7, 12)]) && has (fun e => match e with | .received 1 7 _ 12 => true | _ => false) t
        && (List.range 3).all (fun a => decide (s.ctl a = .idle))
    | none => false) = true := ⟨by decide +kernel, by decide +kernel, by decide +kernel⟩

/-- Inserting item 4 in a full cache is interrupted after item 3 was evicted; the cache goes on working. -/
example : (match cxThen [.call (.insert 1 13), .call (.insert 2 14), .call (.insert 3 12)] (.call (.insert 4 16)) 10 [] with
    | some (i, s, _) => i.safe && decide (i = .code .pinnedHot ∧ s.shard.iter = [(1, 13), (2, 14)])
    | none => false) = true ∧
    (match cxThen [.call (.insert 1 13), .call (.insert 2 14), .call (.insert 3 12)] (.call (.insert 4 16)) 10
      [.call (.insert 5 12)] with
    | some (_, s, _) => decide (s.shard.iter = [(1, 13), (2, 14), (5, 12)])
    | none => false) = true := ⟨by decide +kernel, by decide +kernel⟩

/-! What a panic may leave behind nevertheless. -/

theorem mem_of_has {f : Ev Nat Nat → Bool} {t : List (Ev Nat Nat)} {e : Ev Nat Nat} (hf : ∀ x, f x = true → x = e)
    (h : has f t = true) : e ∈ t := by
  obtain ⟨x, hx, h⟩ := List.any_eq_true.mp h
  exact hf x h ▸ hx

/-- Key 7 is being loaded by agent 0, which has published the value 12 but not stored it. -/
def cxPublished : List (Act Nat Nat) := cxAsk 0 (.thread 0 false) 7 ++ [.startLoading 0, .publish 0 12]

/-- Agent 1 looks key 7 up, then agent 2 asks for it. -/
def cxLate : List (Act Nat Nat) := [.begin .get 7, .enter 1 0, .find 1, .tally 1] ++ cxAsk 2 .task 7 ++ [.join 2]

/-- A value that was published but not stored stays with its load: if `begin_request` panics in `guard.insert` (a safe place),
later calls of `get_value_or_guard` receive the value, although nobody is loading it any more and `get` does not find the key. -/
theorem C73_zombie : ∃ (c : Cfg Nat Nat (List Nat)) (s : Conc.State Nat Nat) (k v : Nat) (p : Plh) (more : List (Act Nat Nat))
    (s' : Conc.State Nat Nat) (t : List (Ev Nat Nat)),
    c.ptrEq = true ∧ Rough c (State.new (Shard.new 8 10 3)) s ∧ (∀ a < s.next, s.ctl a = .idle) ∧ Joinable c s.shard k p ∧
    runActs c s more = some (s', t) ∧ .miss 1 k ∈ t ∧ .received 2 k p v ∈ t ∧ s'.shard.iter = [] ∧
    Joinable c s'.shard k p := by
  have key : (match cxThen cxPublished (.store 0) 0 [] with
      | some (i, s, _) => i.safe && decide (∀ a < s.next, s.ctl a = .idle) &&
        decide (s.shard.entries.item 0 = some (.placeholder ⟨7, .cold, ld 0 0⟩)) && decide ((1, 0) ∈ s.shard.map) &&
        match runActs cxCfg s cxLate with
        | some (s', t) => has (fun e => match e with | .miss 1 7 => true | _ => false) t &&
          has (fun e => match e with | .received 2 7 ⟨0, 1, 0⟩ 12 => true | _ => false) t &&
          decide (s'.shard.iter = []) && decide (s'.shard.entries.item 0 = some (.placeholder ⟨7, .cold, ld 0 0⟩)) &&
          decide ((1, 0) ∈ s'.shard.map)
        | none => false
      | none => false) = true := by decide +kernel
  split at key
  · rename_i i s t0 hT
    simp only [Bool.and_eq_true, decide_eq_true_eq] at key
    obtain ⟨⟨⟨⟨h1, h2⟩, h3⟩, h4⟩, key⟩ := key
    split at key
    · rename_i s' t hm
      simp only [Bool.and_eq_true, decide_eq_true_eq] at key
      obtain ⟨⟨⟨⟨h5, h6⟩, h7⟩, h8⟩, h9⟩ := key
      refine ⟨cxCfg, s, 7, 12, ld 0 0, cxLate, s', t, rfl, cxThen_rough hT (by decide +kernel) h1, h2,
        ⟨⟨_, h3, rfl, rfl⟩, h4⟩, hm, mem_of_has ?_ h5, mem_of_has ?_ h6, h7, ⟨_, h8, rfl, rfl⟩, h9⟩
      all_goals
        intro x hx
        split at hx
        · rfl
        · cases hx
    · cases key
  · cases key

/-! At the two places of the protocol not called safe a panic breaks it. -/

/-- An action interrupted at the given place, what is done afterwards, and the action that panics then. -/
def cxBreak : Where → List (Act Nat Nat) × Act Nat Nat × Nat × List (Act Nat Nat) × Act Nat Nat
  | .cloneForTask => (cxDone.dropLast, .rejoin 1, 0, [], .cancel 1)
  | _ => (cxWait, .publish 0 12, 1, [.lockDrop 0, .finishDrop 0], .timeout 2)

/-- After a panic of a waker called in `guard.insert`, or of `clone` for a waiting future, an assertion of the protocol fails:
there are an execution, a panic at that place, and a continuation in which an action panics. -/
theorem C73_unsafe (i : Where) (hi : i = .cloneForTask ∨ i = .wakeInserted) :
    ∃ (c : Cfg Nat Nat (List Nat)) (tr : List (Ev Nat Nat)) (s s1 s2 : Conc.State Nat Nat) (act act' : Act Nat Nat)
      (x : Stop Nat Nat) (more : List (Act Nat Nat)) (t : List (Ev Nat Nat)),
      c.ptrEq = true ∧ Conc.Run c (State.new (Shard.new 8 10 3)) tr s ∧ x ∈ stops c s act ∧ x.site = i ∧ x.left = .ok s1 ∧
      runActs c s1 more = some (s2, t) ∧ exec c s2 act' = some (.error .unwrapNone) := by
  have key : (cxFine (cxBreak i).1 && match (stops cxCfg (cxRun (cxBreak i).1).1 (cxBreak i).2.1)[(cxBreak i).2.2.1]? with
      | some x => decide (x.site = i) && match x.left with
        | .ok s1 => match runActs cxCfg s1 (cxBreak i).2.2.2.1 with
          | some (s2, _) => match exec cxCfg s2 (cxBreak i).2.2.2.2 with
            | some (.error .unwrapNone) => true
            | _ => false
          | none => false
        | .error _ => false
      | none => false) = true := by
    rcases hi with rfl | rfl <;> decide +kernel
  rw [Bool.and_eq_true] at key
  obtain ⟨hf, key⟩ := key
  split at key
  · rename_i x hx
    rw [Bool.and_eq_true, decide_eq_true_eq] at key
    obtain ⟨hs, key⟩ := key
    split at key
    · rename_i s1 hl
      split at key
      · rename_i s2 t hm
        split at key
        · rename_i he
          exact ⟨cxCfg, _, _, s1, s2, _, _, x, _, t, rfl, cxRun_run hf, List.mem_of_getElem? hx, hs, hl, hm, he⟩
        · cases key
      · cases key
    · cases key
  · cases key

/-- In the case of the waker, a waiter is stranded: the load is over, agent 2 still waits, and is in no list of waiters. And
the future that was woken panics too when it is polled. -/
theorem C73_stranded : ∃ (c : Cfg Nat Nat (List Nat)) (tr : List (Ev Nat Nat)) (s s1 s2 s3 : Conc.State Nat Nat) (v : Nat)
      (x : Stop Nat Nat) (t t' : List (Ev Nat Nat)) (p : Plh) (ps : PState Nat Nat),
      c.ptrEq = true ∧ Conc.Run c (State.new (Shard.new 8 10 3)) tr s ∧ x ∈ stops c s (.publish 0 v) ∧
      x.site = .wakeInserted ∧ x.left = .ok s1 ∧ runActs c s1 [.lockDrop 0, .finishDrop 0] = some (s2, t) ∧
      Waits s2 2 p ∧ s2.plh p.id = some ps ∧ ps.loading = .terminated ∧ ps.waiters = [] ∧
      runActs c s2 [.poll 1 13, .relock 1] = some (s3, t') ∧ exec c s3 (.rejoin 1) = some (.error .unreachable) := by
  have key : (cxFine cxWait && match (stops cxCfg (cxRun cxWait).1 (.publish 0 12))[1]? with
      | some x => decide (x.site = .wakeInserted) && match x.left with
        | .ok s1 => match runActs cxCfg s1 [.lockDrop 0, .finishDrop 0] with
          | some (s2, _) => decide (s2.ctl 2 = .waiting 7 (ld 0 0)) && decide (s2.flag 2 = false) &&
            match s2.plh 0, runActs cxCfg s2 [.poll 1 13, .relock 1] with
            | some ps, some (s3, _) => decide (ps.loading = .terminated) && decide (ps.waiters = []) &&
              match exec cxCfg s3 (.rejoin 1) with
              | some (.error .unreachable) => true
              | _ => false
            | _, _ => false
          | none => false
        | .error _ => false
      | none => false) = true := by decide +kernel
  rw [Bool.and_eq_true] at key
  obtain ⟨hf, key⟩ := key
  split at key
  · rename_i x hx
    rw [Bool.and_eq_true, decide_eq_true_eq] at key
    obtain ⟨hs, key⟩ := key
    split at key
    · rename_i s1 hl
      split at key
      · rename_i s2 t hm
        simp only [Bool.and_eq_true, decide_eq_true_eq] at key
        obtain ⟨⟨h1, h2⟩, key⟩ := key
        split at key
        · rename_i ps s3 t' hps hm'
          simp only [Bool.and_eq_true, decide_eq_true_eq] at key
          obtain ⟨⟨h3, h4⟩, key⟩ := key
          split at key
          · rename_i he
            exact ⟨cxCfg, _, _, s1, s2, s3, 12, x, t, t', ld 0 0, ps, rfl, cxRun_run hf, List.mem_of_getElem? hx, hs, hl, hm,
              ⟨⟨7, h1⟩, h2⟩, hps, h3, h4, hm', he⟩
          · cases key
        · cases key
      · cases key
    · cases key
  · cases key

end QuickCache.Props
