import Verif.Proofs.PoisonRun
import Verif.Props.ConcUnwind

/-!
# Property C78: panics of user code in the concurrent cache with the locks of `std`

`Std.Run c (Std.State.new (State.new (Shard.new …))) ps tr s`: any interleaving of the actions of any number of callers, with
the completed operations `tr`, in which user code has panicked inside the cache at the places `ps`, guards and futures have been
dropped by panics elsewhere, and actions have panicked because a lock was poisoned. The process has not been aborted.
-/

namespace QuickCache.Props
variable {K V RS : Type} [DecidableEq K] {c : Cfg K V RS} {target cap gcap : Nat}
  {s s' : Std.State K V} {ps ps' : List Conc.Where} {tr tr' evs : List (Conc.Ev K V)} {act : Conc.Act K V} {a : Nat}
open Spec

/-- The states that the cache can be in, at most one of its shards being looked at. -/
abbrev Std.Reached (c : Cfg K V RS) (target cap gcap : Nat) (ps : List Conc.Where) (tr : List (Conc.Ev K V))
    (s : Std.State K V) : Prop :=
  Std.Run c (Std.State.new (Conc.State.new (Shard.new target cap gcap))) ps tr s

omit [DecidableEq K] in
theorem uinv_new (sh : Shard K V) : Std.UInv (Std.State.new (Conc.State.new sh)) := fun _ h => by
  simp [Std.State.new] at h

/-! ### C78: the cache with the locks of `std` -/

/-- As long as user code does not panic inside the cache, no lock is poisoned, and the cache behaves as with the locks of
`parking_lot`; loaders and other code around the cache may panic. -/
theorem C78_calm (hr : Std.Reached c target cap gcap [] tr s) :
    Clean s ∧ Conc.Run c (Conc.State.new (Shard.new target cap gcap)) tr s.base :=
  hr.calm ⟨rfl, fun _ => rfl, fun _ => rfl⟩ rfl

/-- A panic of user code under the write lock of the shard poisons the shard. One that happens while a value is given to the
waiters, while a future renews its waker, or while a value is cloned for a waiting future, leads to a second panic during the
unwinding. Any other panic poisons nothing. -/
theorem C78_panic (hr : Std.Reached c target cap gcap ps tr s) {i : Nat} {site : Conc.Where}
    (hs : Std.throw c s act i = some (.panicked s', site)) :
    (UnderWriteLock act site → Dead s') ∧
    (Fatal site → ∃ a, actor act = some a ∧ Doomed s' a) ∧
    (¬ UnderWriteLock act site → ¬ Fatal site →
      s'.shardBad = s.shardBad ∧ s'.stateBad = s.stateBad ∧ s'.waiterBad = s.waiterBad ∧ s'.unwinding = s.unwinding) := by
  obtain ⟨h1, -, h3, h4, -⟩ := Std.throw_class (hr.rinv (.new _)).base hs
  refine ⟨fun h => (h1 h).1, fun h => ?_, fun h h' => ?_⟩
  · obtain ⟨a, ha, hd⟩ := h3 h
    refine ⟨a, ?_, hd⟩
    rw [← ha]
    cases act <;> rfl
  · rw [(h4 h h').2]
    exact ⟨rfl, rfl, rfl, rfl⟩

/-- As long as the shard is not poisoned and no second panic is about to happen, no lock is poisoned at all, and the state of
the cache is one that panics at safe places lead to with the locks of `parking_lot`: everything proved as C73 holds. -/
theorem C78_intact (hr : Std.Reached c target cap gcap ps tr s) (hs : Sound s) :
    Clean s ∧ Conc.Rough c (Conc.State.new (Shard.new target cap gcap)) s.base := by
  obtain ⟨h1, h2⟩ := hr.rough (.new _) hs
  exact ⟨h2, h1⟩

/-- … every completed action is a call of a sequential cache or leaves the contents alone … -/
theorem C78_next (hr : Std.Reached c target cap gcap ps tr s) (hs : Sound s) (hq : c.ptrEq = true)
    (hx : Std.exec c s act = some (.done s' evs)) :
    (calls evs = [] ∧ s'.base.shard.contents = s.base.shard.contents) ∨
    ∃ x, calls evs = [x] ∧ OpSpec c target s.base.shard.contents x.op x.out x.log s'.base.shard.contents := by
  obtain ⟨-, -, b, he, rfl⟩ := Std.exec_done hx
  exact C73_next (C78_intact hr hs).2 hq he

/-- … no action panics because of a lock, or aborts the process, unless the cache is too large … -/
theorem C78_fine (hr : Std.Reached c target cap gcap ps tr s) (hs : Sound s) (hq : c.ptrEq = true)
    (hw : ∀ k v, total c.weight s.base.shard.iter + enterWeight c target k v < 2 ^ 64)
    (hn : s.base.shard.entries.entries.length < 2 ^ 32 - 2) {r : Std.Result K V} (hx : Std.exec c s act = some r) :
    ∃ s' evs, r = .done s' evs := by
  obtain ⟨⟨h1, h2, h3⟩, hro⟩ := C78_intact hr hs
  unfold Std.exec at hx
  split at hx
  · cases hx
  · split at hx
    · cases hx
    · rename_i r0 he
      split at hx
      · rename_i l hl
        have := List.find?_some hl
        cases l <;> simp_all [Std.State.bad]
      · split at hx
        · cases hx
          exact ⟨_, _, rfl⟩
        · exfalso
          rcases C73_panics hro hq he with ⟨-, k, v, h⟩ | ⟨-, h⟩
          · have := hw k v; omega
          · omega

/-- … and as long as some caller is not done, somebody can go on. -/
theorem C78_progress (hr : Std.Reached c target cap gcap ps tr s) (hs : Sound s) (hq : c.ptrEq = true)
    (ha : s.base.ctl a ≠ .idle) : ∃ act, Std.exec c s act ≠ none := by
  obtain ⟨act, -, h⟩ := C73_progress (C78_intact hr hs).2 hq ha
  exact (hr.uinv (.new _) (uinv_new _)).possible h

/-! ### The shard is poisoned -/

/-- A poisoned shard stays poisoned. It never changes again, and the only operations completed are those that do not look at it:
giving up waiting, dropping a future, handing out a loaded value to waiters. -/
theorem C78_dead (hr : Std.Reached c target cap gcap ps tr s) (hd : Dead s) (hr' : Std.Run c s ps' tr' s') :
    Dead s' ∧ s'.base.shard = s.base.shard ∧ ∀ e ∈ tr', Shardless e :=
  hr'.frozen (hr.rinv (.new _)) hd

/-- Every call of the map panics, without waiting. -/
theorem C78_calls (hr : Std.Reached c target cap gcap ps tr s) (hd : Dead s) {op : Op K V}
    (hop : match op with
      | .insert _ _ | .replace _ _ _ | .remove _ | .retain _ | .clear | .reserve | .peek _ | .containsKey _ => True
      | _ => False) : Std.exec c s (.call op) = some (.panicked s) :=
  Std.dead_call (hr.rinv (.new _)) hd (by cases op <;> first | rfl | exact hop.elim)

/-- So do `get`, `get_value_or_guard` and a poll of `get_value_or_guard_async`. -/
theorem C78_get (hr : Std.Reached c target cap gcap ps tr s) (hd : Dead s) {k : K} (hc : s.base.ctl a = .start k)
    (hu : s.unwinding a = false) (w : Nat) :
    ∃ s', Std.exec c s (.enter a w) = some (.panicked s') ∧ s'.base.ctl a = .idle :=
  ⟨_, Std.dead_enter (hr.rinv (.new _)) hd hc hu w, by simp [Conc.State.go]⟩

/-- So does `guard.insert`, after it has handed out the value to the waiters. -/
theorem C78_insert (hr : Std.Reached c target cap gcap ps tr s) (hd : Dead s) {k : K} {p : Plh} {v : V} {r : Bool}
    (hc : s.base.ctl a = .inserting k p v r) (hu : s.unwinding a = false) :
    ∃ s', Std.exec c s (.store a) = some (.panicked s') ∧ s'.base.ctl a = .idle :=
  ⟨_, Std.dead_store (hr.rinv (.new _)) hd hc hu, by simp [Conc.State.go]⟩

/-- Dropping a guard panics; it aborts the process if the guard is dropped by a panic. -/
theorem C78_drop (hr : Std.Reached c target cap gcap ps tr s) (hd : Dead s) {k : K} {p : Plh}
    (hc : s.base.ctl a = .leaving k p) :
    (s.unwinding a = true → Std.exec c s (.lockDrop a) = some .aborted) ∧
    (s.unwinding a = false → ∃ s', Std.exec c s (.lockDrop a) = some (.panicked s') ∧ s'.base.ctl a = .idle) := by
  have h := Std.dead_drop (c := c) (hr.rinv (.new _)) hd hc
  refine ⟨fun hu => ?_, fun hu => ?_⟩
  · rw [h, hu]; rfl
  · rw [hu] at h
    exact ⟨_, h, by simp [Conc.State.go]⟩

/-- So a panic of a loader, or of other code that has the guard, aborts the process. -/
theorem C78_loader (hr : Std.Reached c target cap gcap ps tr s) (hd : Dead s) {k : K} {p : Plh}
    (hc : s.base.ctl a = .guard k p) : ∃ s', Std.crash s a = some s' ∧ Std.exec c s' (.lockDrop a) = some .aborted := by
  have hx : Std.crash s a = some { s.unwind a with base := s.base.go a (.leaving k p) } := by simp [Std.crash, hc]
  refine ⟨_, hx, ?_⟩
  have h := Std.dead_drop (c := c) ((hr.rinv (.new _)).next (.crash (c := c) hx)) hd (a := a) (k := k) (p := p)
    (by simp [Conc.State.go])
  simpa [Std.State.unwind] using h

/-- A caller that has been notified does not get its value: a thread panics, and a future leads to a second panic. -/
theorem C78_notified (hr : Std.Reached c target cap gcap ps tr s) (hd : Dead s) {k : K} {p : Plh}
    (hc : s.base.ctl a = .claimed k p) (hu : s.unwinding a = false) :
    ∃ s', Std.exec c s (.relock a) = some (.panicked s') ∧ (s.base.kind a ≠ .task → s'.base.ctl a = .idle) ∧
      (s.base.kind a = .task → Doomed s' a) :=
  ⟨_, Std.dead_relock (hr.rinv (.new _)) hd hc hu⟩

/-- A thread that waits without timeout waits for ever, unless somebody has the guard. -/
theorem C78_hang (hr : Std.Reached c target cap gcap ps tr s) (hd : Dead s) {b tid : Nat} {p : Plh}
    (hk : s.base.kind b = .thread tid false) (hw : Waits s.base b p) (hg : ¬ Guarded s.base b)
    (hr' : Std.Run c s ps' tr' s') : Waits s'.base b p := by
  obtain ⟨⟨k, hc⟩, hf⟩ := hw
  have := hr'.stuck (hr.rinv (.new _)) ⟨hd, hk, hc, hf, hg⟩
  exact ⟨⟨k, this.at_⟩, this.flag⟩

/-! ### A second panic is about to happen -/

/-- It cannot be averted: the agent never gets out of dropping its guard or future. -/
theorem C78_doomed (hr : Std.Reached c target cap gcap ps tr s) (hd : Doomed s a) (hr' : Std.Run c s ps' tr' s') :
    Doomed s' a ∧ s'.base.ctl a ≠ .idle :=
  have h := hr'.doomed (hr.rinv (.new _)) hd
  ⟨h, h.active.1⟩

/-- All that the agent can do is abort the process, or take the lock of the shard before. -/
theorem C78_only (hd : Doomed s a) (ha : actor act = some a) {r : Std.Result K V} (hx : Std.exec c s act = some r) :
    r = .aborted ∨ ∃ s', act = .lockDrop a ∧ r = .done s' [] := by
  have ha : Std.agent act = some a := by rw [← ha]; cases act <;> rfl
  rcases hd.exec (c := c) ha with h | h | ⟨k, p, -, -, h1, h⟩
  · rw [hx] at h; cases h
  · rw [hx] at h; cases h; exact Or.inl rfl
  · rw [hx] at h; cases h; exact Or.inr ⟨_, h1, rfl⟩

/-- The process is aborted by the next action of the agent or by the one after it, unless the agent has to wait for the lock of
the shard. -/
theorem C78_abort (hd : Doomed s a)
    (hf : (∃ k p, s.base.ctl a = .leaving k p) → s.base.writer = none ∧ s.base.readers = []) :
    (∃ act, Std.exec c s act = some .aborted) ∨
      ∃ act s' act', Std.exec c s act = some (.done s' []) ∧ Std.exec c s' act' = some .aborted :=
  Std.doomed_abort hd hf

/-! ### Examples -/

/-- A step of an example: an action, an action in which the `i`-th call of user code panics, a panic elsewhere. -/
inductive PxStep where
  | act (act : Conc.Act Nat Nat)
  | throw (act : Conc.Act Nat Nat) (i : Nat)
  | crash (a : Nat)

/-- The example after a list of steps, all of which must be possible. -/
def pxRun : List PxStep → List Conc.Where × List (Conc.Ev Nat Nat) × Std.State Nat Nat →
    Option (List Conc.Where × List (Conc.Ev Nat Nat) × Std.State Nat Nat)
  | [], x => some x
  | .act act :: l, (ps, tr, s) =>
    match Std.exec cxCfg s act with
    | some (.done s' evs) => pxRun l (ps, tr ++ evs, s')
    | some (.panicked s') => pxRun l (ps, tr, s')
    | _ => none
  | .throw act i :: l, (ps, tr, s) =>
    match Std.throw cxCfg s act i with
    | some (.panicked s', site) => pxRun l (ps ++ [site], tr, s')
    | _ => none
  | .crash a :: l, (ps, tr, s) =>
    match Std.crash s a with
    | some s' => pxRun l (ps, tr, s')
    | none => none

def px (l : List PxStep) : Option (List Conc.Where × List (Conc.Ev Nat Nat) × Std.State Nat Nat) :=
  pxRun l ([], [], Std.State.new cxNew)

theorem pxRun_run : ∀ {l : List PxStep} {ps ps' : List Conc.Where} {tr tr' : List (Conc.Ev Nat Nat)}
    {s0 s s' : Std.State Nat Nat}, Std.Run cxCfg s0 ps tr s → pxRun l (ps, tr, s) = some (ps', tr', s') →
    Std.Run cxCfg s0 ps' tr' s' := by
  intro l
  induction l with
  | nil => intro ps ps' tr tr' s0 s s' hr h; cases h; exact hr
  | cons x l ih =>
    intro ps ps' tr tr' s0 s s' hr h
    cases x with
    | act act =>
      simp only [pxRun] at h
      split at h
      · rename_i hx; exact ih (.act hr hx) h
      · rename_i hx; exact ih (.poison hr hx) h
      · cases h
    | throw act i =>
      simp only [pxRun] at h
      split at h
      · rename_i hx; exact ih (.throw hr hx) h
      · cases h
    | crash a =>
      simp only [pxRun] at h
      split at h
      · rename_i hx; exact ih (.crash hr hx) h
      · cases h

/-- The states of the examples are reached. -/
theorem px_reached {l : List PxStep} {ps : List Conc.Where} {tr : List (Conc.Ev Nat Nat)} {s : Std.State Nat Nat}
    (h : px l = some (ps, tr, s)) : Std.Reached cxCfg 8 10 3 ps tr s := pxRun_run .start h

/-- The outcome of one more action. -/
def pxOutcome (s : Std.State Nat Nat) (act : Conc.Act Nat Nat) : Nat :=
  match Std.exec cxCfg s act with
  | none => 0
  | some (.done _ _) => 1
  | some (.panicked _) => 2
  | some .aborted => 3
  | some (.failed _) => 4

def pxActs (l : List (Conc.Act Nat Nat)) : List PxStep := l.map .act

/-- Key 7 is asked for by a thread (agent 0), which gets the guard, a future (agent 1) and two threads (agents 2 and 3), the
first of them with a timeout. -/
def pxWait : List PxStep :=
  pxActs (cxWait ++ cxAsk 3 (.thread 3 false) 7 ++ [.join 3])

/-- The weighter panics while key 8 is inserted. -/
def pxDead : List PxStep := pxWait ++ [.throw (.call (.insert 8 13)) 2]

/-- `C78_calm`: the loader of agent 0 panics; the guard is handed over to agent 3, and nothing is poisoned. -/
example : (match px (pxWait ++ [.crash 0, .act (.lockDrop 0), .act (.finishDrop 0), .act (.wake 3), .act (.relock 3),
      .act (.rejoin 3), .act (.startLoading 3)]) with
    | some (ps, _, s) => decide (ps = [] ∧ s.unwinding 0 = true ∧ s.base.ctl 0 = .idle ∧ s.base.ctl 3 = .guard 7 (ld 0 0) ∧
        s.shardBad = false)
    | none => false) = true := by decide +kernel

/-- `C78_panic`, `C78_intact`, `C78_next`: `clone` panics for a value found by `get`, and for one received by a waiting thread:
nothing is poisoned. -/
example : (match px [.act (.call (.insert 7 12)), .act (.begin .get 7), .act (.enter 0 0), .act (.find 0), .act (.load 0),
      .act (.bump 0), .throw (.tally 0) 0] with
    | some (ps, _, s) => decide (ps = [.cloneFound] ∧ s.shardBad = false ∧ s.base.ctl 0 = .idle) &&
        pxOutcome s (.call (.insert 8 13)) == 1
    | none => false) = true ∧
    (match px (pxWait ++ [.act (.publish 0 12), .act (.store 0), .act (.wake 3), .act (.relock 3), .throw (.rejoin 3) 0]) with
    | some (ps, _, s) => decide (ps = [.cloneForThread] ∧ s.shardBad = false ∧ s.stateBad 0 = false ∧ s.base.ctl 3 = .idle) &&
        pxOutcome s (.call (.insert 8 13)) == 1
    | none => false) = true := ⟨by decide +kernel, by decide +kernel⟩

/-- `C78_dead`, `C78_calls`, `C78_get`: the weighter panics while key 8 is inserted. The shard is poisoned; every call panics,
a new `get` panics; agent 2 can still give up waiting. -/
example : (match px pxDead with
    | some (ps, _, s) => decide (ps = [.code .weighNew] ∧ s.shardBad = true ∧ s.base.ctl 3 = .waiting 7 (ld 0 0)) &&
        pxOutcome s (.call (.peek 7)) == 2 && pxOutcome s (.call .clear) == 2 && pxOutcome s (.timeout 2) == 1
    | none => false) = true ∧
    (match px (pxDead ++ [.act (.begin .get 7)]) with
    | some (_, _, s) => decide (s.base.ctl 4 = .start 7) && pxOutcome s (.enter 4 0) == 2
    | none => false) = true := ⟨by decide +kernel, by decide +kernel⟩

/-- `C78_hang`, `C78_drop`, `C78_loader`: then agent 0 drops its guard, which panics; agent 3, a thread without timeout, waits for ever. If
agent 0 drops its guard because its loader panics, the process is aborted. -/
example : (match px (pxDead ++ [.act (.drop 0), .act (.lockDrop 0)]) with
    | some (_, _, s) => decide (s.shardBad = true ∧ s.base.kind 3 = .thread 3 false ∧ s.base.ctl 3 = .waiting 7 (ld 0 0) ∧
        s.base.flag 3 = false ∧ s.base.ctl 0 = .idle)
    | none => false) = true ∧
    (match px (pxDead ++ [.crash 0]) with
    | some (_, _, s) => decide (s.base.ctl 0 = .leaving 7 (ld 0 0)) && pxOutcome s (.lockDrop 0) == 3
    | none => false) = true := ⟨by decide +kernel, by decide +kernel⟩

/-- So a panic of the weighter, in the insertion of another key, can make a thread wait for ever: whatever happens later. -/
theorem C78_hangs : ∃ (c : Cfg Nat Nat (List Nat)) (tr : List (Conc.Ev Nat Nat)) (s : Std.State Nat Nat) (b : Nat) (p : Plh),
    c.ptrEq = true ∧ Std.Reached c 8 10 3 [.code .weighNew] tr s ∧ Waits s.base b p ∧
    ∀ ps' tr' s', Std.Run c s ps' tr' s' → Waits s'.base b p := by
  have key : (match px (pxDead ++ [.act (.drop 0), .act (.lockDrop 0)]) with
    | some (ps, _, s) => decide (ps = [.code .weighNew] ∧ s.shardBad = true ∧ s.base.kind 3 = .thread 3 false ∧
        s.base.ctl 3 = .waiting 7 (ld 0 0) ∧ s.base.flag 3 = false ∧ s.base.next = 4 ∧ s.base.ctl 0 = .idle ∧
        s.base.ctl 1 = .waiting 7 (ld 0 0) ∧ s.base.ctl 2 = .waiting 7 (ld 0 0))
    | none => false) = true := by decide +kernel
  split at key
  · rename_i ps tr s h
    simp only [decide_eq_true_eq] at key
    obtain ⟨rfl, h1, h2, h3, h4, h5, h6, h7, h8⟩ := key
    have hr := px_reached h
    refine ⟨cxCfg, tr, s, 3, ld 0 0, rfl, hr, ⟨⟨7, h3⟩, h4⟩, fun ps' tr' s' hr' =>
      C78_hang hr h1 h2 ⟨⟨7, h3⟩, h4⟩ ?_ hr'⟩
    rintro ⟨a, k, p, q, hg, -⟩
    have ha := (hr.rinv (.new _)).base.lt (a := a) (by rw [hg]; simp)
    rw [h5] at ha
    match a, ha with
    | 0, _ => rw [h6] at hg; cases hg
    | 1, _ => rw [h7] at hg; cases hg
    | 2, _ => rw [h8] at hg; cases hg
    | 3, _ => rw [h3] at hg; cases hg
  · cases key

/-- `C78_insert`, `C78_notified`, `C78_abort`: or agent 0 inserts the value 12; the waiters are notified, the value is not
stored; agent 3 panics; and the future of agent 1 panics when it is polled, and aborts the process when it is dropped. -/
example : (match px (pxDead ++ [.act (.publish 0 12), .act (.store 0)]) with
    | some (_, _, s) => decide (s.base.ctl 0 = .idle ∧ s.base.flag 1 = true ∧ s.base.flag 3 = true ∧ s.base.shard.iter = [])
    | none => false) = true ∧
    (match px (pxDead ++ [.act (.publish 0 12), .act (.store 0), .act (.wake 3), .act (.relock 3), .act (.poll 1 13),
        .act (.relock 1)]) with
    | some (_, _, s) => decide (s.base.ctl 3 = .idle ∧ s.base.ctl 1 = .waiting 7 (ld 0 0) ∧ s.unwinding 1 = true) &&
        pxOutcome s (.cancel 1) == 3
    | none => false) = true := ⟨by decide +kernel, by decide +kernel⟩

/-- `C78_panic`, `C78_doomed`, `C78_only`, `C78_abort`: the four places at which a panic aborts the process although it is not
under the lock of the shard. `clone` of the value given to `guard.insert`; the waker of agent 1 called in `guard.insert`;
`clone_from` of the waker of agent 1; `clone` for agent 1 of the value loaded. -/
example : (match px (pxWait ++ [.throw (.publish 0 12) 0, .act (.lockDrop 0)]) with
    | some (ps, _, s) => decide (ps = [.clonePublished] ∧ s.shardBad = false ∧ s.stateBad 0 = true ∧ s.unwinding 0 = true ∧
        s.base.ctl 0 = .dropping 7 (ld 0 0)) && pxOutcome s (.finishDrop 0) == 3
    | none => false) = true ∧
    (match px (pxWait ++ [.throw (.publish 0 12) 1, .act (.lockDrop 0)]) with
    | some (ps, _, s) => decide (ps = [.wakeInserted] ∧ s.stateBad 0 = true ∧ s.waiterBad 1 = true) &&
        pxOutcome s (.finishDrop 0) == 3
    | none => false) = true ∧
    (match px (pxWait ++ [.throw (.poll 1 11) 0]) with
    | some (ps, _, s) => decide (ps = [.renewWaker] ∧ s.waiterBad 1 = true ∧ s.unwinding 1 = true) &&
        pxOutcome s (.poll 1 11) == 0 && pxOutcome s (.cancel 1) == 3
    | none => false) = true ∧
    (match px (pxWait ++ [.act (.publish 0 12), .act (.store 0), .act (.poll 1 11), .act (.relock 1), .throw (.rejoin 1) 0]) with
    | some (ps, _, s) => decide (ps = [.cloneForTask] ∧ s.shardBad = false ∧ s.stateBad 0 = false ∧ s.unwinding 1 = true) &&
        pxOutcome s (.cancel 1) == 3
    | none => false) = true := ⟨by decide +kernel, by decide +kernel, by decide +kernel, by decide +kernel⟩

/-- `C78_panic`: cloning the waker of a future that has to wait (agent 4), and waking the future that the load is handed over
to, poison the shard. -/
example : (match px (pxWait ++ pxActs (cxAsk 4 .task 7) ++ [.throw (.join 4) 0]) with
    | some (ps, _, s) => decide (ps = [.cloneWaker] ∧ s.shardBad = true ∧ s.stateBad 0 = true ∧ s.base.ctl 4 = .idle ∧
        s.base.writer = none)
    | none => false) = true ∧
    (match px (pxActs (cxAsk 0 (.thread 0 false) 7 ++ [.startLoading 0] ++ cxAsk 1 .task 7 ++ [.join 1, .drop 0, .lockDrop 0]) ++
        [.throw (.finishDrop 0) 0]) with
    | some (ps, _, s) => decide (ps = [.wakeDropped] ∧ s.shardBad = true ∧ s.stateBad 0 = true ∧ s.waiterBad 1 = true ∧
        s.base.ctl 0 = .idle ∧ s.base.flag 1 = true)
    | none => false) = true := ⟨by decide +kernel, by decide +kernel⟩

end QuickCache.Props
