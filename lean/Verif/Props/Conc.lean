import Verif.Proofs.ConcFacts
import Verif.Props.ConcExample

/-!
# Properties C44 – C52, C54, C55: the concurrent protocol

One shard of `sync::Cache` with any number of callers. `Run c (State.new (Shard.new …)) tr s` says that `s` is the state
after some interleaving of their atomic actions and `tr` is everything that happened. Placeholders of `sync::Cache` are
`Arc`s, compared by address: `c.ptrEq = true`.
-/

namespace QuickCache.Props
variable {K V RS : Type} [DecidableEq K] {c : Cfg K V RS} {target cap gcap : Nat} {tr t1 t2 evs evs' : List (Conc.Ev K V)}
  {s s' s'' : Conc.State K V}
open Unsync Spec Conc

/-! ### C44: at most one loader per pending load -/

/-- At most one caller is entitled to provide the value of a pending load: it has the guard, is just getting or dropping
it, or was notified and will get it. -/
theorem C44_one (hr : Conc.Run c (State.new (Shard.new target cap gcap)) tr s) (hq : c.ptrEq = true) {a b : Nat} {p : Plh}
    (ha : Entitled s a p) (hb : Entitled s b p) : a = b :=
  (hr.reach hq (.new ..)).inv.entitled_one ha hb

/-- Of the guards returned for a load at most one is neither used nor dropped. -/
theorem C44_guards (hr : Conc.Run c (State.new (Shard.new target cap gcap)) tr s) (hq : c.ptrEq = true) (p : Plh) :
    (guards p tr).length ≤ 1 := by
  have hi := (hr.reach hq (.new ..)).inv
  obtain ⟨h1, h2⟩ := hr.guards hq p
  have ent : ∀ a ∈ guards p tr, Entitled s a p := by
    intro a ha
    have := h2 a ha
    unfold Ctl.holds at this
    split at this
    · rename_i hc; subst this; exact .guard _ hc
    · rename_i hc; subst this; exact .leaving _ hc
    · rename_i hc; subst this; exact .dropping _ hc
    · exact this.elim
  generalize guards p tr = l at h1 ent
  match l, h1, ent with
  | [], _, _ => simp
  | [_], _, _ => simp
  | a :: b :: l, h1, ent =>
    exfalso
    have := hi.entitled_one (ent a (by simp)) (ent b (by simp))
    simp [this] at h1

/-- Three callers of one key: the first has the guard; after dropping it the third has been notified, nobody else is
entitled. -/
example : (∃ p, Entitled (cxRun cxWait).1 0 p ∧ guards p (cxRun cxWait).2 = [0]) ∧
    ∃ p, Entitled (cxRun (cxWait ++ [.drop 0, .lockDrop 0, .finishDrop 0])).1 2 p ∧
      guards p (cxRun (cxWait ++ [.drop 0, .lockDrop 0, .finishDrop 0])).2 = [] ∧
      guards p (cxRun cxHand).2 = [2] :=
  ⟨⟨ld 0 0, .guard 7 (by decide +kernel), by decide +kernel⟩, ld 0 0,
    .notified 7 (by decide +kernel) (by decide +kernel) ⟨⟨7, (ld 0 0), [1], .loading⟩, by decide +kernel, rfl, rfl⟩, by decide +kernel,
    by decide +kernel⟩

/-! ### C45: single flight per key -/

/-- Two callers have guards for the same key at the same time only if the key was removed, cleared or inserted since one
of the two loads began. -/
theorem C45_single (hr : Conc.Run c (State.new (Shard.new target cap gcap)) tr s) (hq : c.ptrEq = true) {a b : Nat} {k : K}
    {p q : Plh} (ha : Loads s a k p) (hb : Loads s b k q) (hab : a ≠ b) :
    Superseded c target tr k p ∨ Superseded c target tr k q := by
  rcases hr.loads hq ha with h1 | h1
  · rcases hr.loads hq hb with h2 | h2
    · obtain rfl := h1.uniq (hr.reach hq (.new ..)).inv.shard.toInv0 h2
      exact absurd (hr.loads_one hq ha hb) hab
    · exact Or.inr h2
  · exact Or.inl h1

/-- It does happen: two guards of key 7, because it was removed in between. -/
example : cxFine cxTwo = true ∧ Loads (cxRun cxTwo).1 0 7 (ld 0 0) ∧ Loads (cxRun cxTwo).1 1 7 (ld 1 0) :=
  ⟨by decide +kernel, .guard (by decide +kernel), .guard (by decide +kernel)⟩

/-! ### C46: no waiter is stranded -/

/-- As long as a caller waits without having been notified, another one is entitled to provide the value. -/
theorem C46_responsible (hr : Conc.Run c (State.new (Shard.new target cap gcap)) tr s) (hq : c.ptrEq = true) {a : Nat}
    {p : Plh} (hw : Waits s a p) : ∃ b, b ≠ a ∧ Entitled s b p := by
  have hi := (hr.reach hq (.new ..)).inv
  obtain ⟨ps, h1, h2, -, h4⟩ := hi.waits hw
  obtain ⟨b, hb⟩ := hi.entitled_exists ⟨ps, h1, h2, h4⟩
  refine ⟨b, ?_, hb⟩
  rintro rfl
  obtain ⟨⟨k, hc⟩, hf⟩ := hw
  cases hb with
  | notified k h flag => rw [hf] at flag; cases flag
  | _ => simp_all

/-- Such a caller is in the list of waiters of the load. -/
theorem C46_listed (hr : Conc.Run c (State.new (Shard.new target cap gcap)) tr s) (hq : c.ptrEq = true) {a : Nat} {k : K}
    {p : Plh} (hc : s.ctl a = .waiting k p) (hf : s.flag a = false) :
    ∃ ps, s.plh p.id = some ps ∧ ps.key = k ∧ a ∈ ps.waiters := by
  have hi := (hr.reach hq (.new ..)).inv
  obtain ⟨ps, h1, -, h3, -⟩ := hi.waits ⟨⟨k, hc⟩, hf⟩
  have hA : AOK c s.shard s.plh (.waiting k p) := hi.at hc
  obtain ⟨ps', h4, h5, -⟩ := hA
  rw [h1] at h4; cases h4
  exact ⟨ps, h1, h5, h3⟩

example : cxFine cxWait = true ∧ Waits (cxRun cxWait).1 1 (ld 0 0) ∧ Waits (cxRun cxWait).1 2 (ld 0 0) :=
  ⟨by decide +kernel, ⟨⟨7, by decide +kernel⟩, by decide +kernel⟩, ⟨7, by decide +kernel⟩, by decide +kernel⟩

/-! ### C47: waiters receive the inserted value -/

/-- A value received from a load was inserted before through a guard of this load, a load of the same key. -/
theorem C47_value (hr : Conc.Run c (State.new (Shard.new target cap gcap)) tr s) (hq : c.ptrEq = true) {a : Nat} {k : K}
    {p : Plh} {v : V} (ht : tr = t1 ++ .received a k p v :: t2) :
    ∃ b u1 u2, t1 = u1 ++ .published b p v :: u2 ∧ .gotGuard b k p ∈ u1 := by
  have hs := hr.sourced hq
  obtain ⟨⟨b, h1⟩, d, h2⟩ := hs t1 _ t2 ht
  obtain ⟨u1, u2, rfl⟩ := List.append_of_mem h1
  obtain ⟨k', h3, d', h4⟩ := hs u1 (.published b p v) (u2 ++ .received a k p v :: t2) (by rw [ht]; simp)
  have hT := hr.tinv hq
  have hk : k' = k := by
    obtain ⟨l, h5⟩ := hT.beg d k p (by rw [ht]; exact List.mem_append_left _ h2)
    obtain ⟨l', h6⟩ := hT.beg d' k' p (by rw [ht]; simp [h4])
    rw [h5] at h6
    cases h6; rfl
  subst hk
  exact ⟨b, u1, u2, rfl, h3⟩

/-- All callers that receive a value from one load receive the same one. -/
theorem C47_same (hr : Conc.Run c (State.new (Shard.new target cap gcap)) tr s) (hq : c.ptrEq = true) {a b : Nat} {k k' : K}
    {p : Plh} {v w : V} (ha : .received a k p v ∈ tr) (hb : .received b k' p w ∈ tr) : k = k' ∧ v = w := by
  have hT := hr.tinv hq
  have get : ∀ {a k v}, .received a k p v ∈ tr → (∃ d, .began d k p ∈ tr) ∧ ∃ d, .published d p v ∈ tr := by
    intro a k v hm
    obtain ⟨u1, u2, hu⟩ := List.append_of_mem hm
    obtain ⟨⟨b, h1⟩, d, h2⟩ := hr.sourced hq u1 _ u2 hu
    exact ⟨⟨d, by rw [hu]; exact List.mem_append_left _ h2⟩, b, by rw [hu]; exact List.mem_append_left _ h1⟩
  obtain ⟨⟨d, h1⟩, h2⟩ := get ha
  obtain ⟨⟨d', h3⟩, h4⟩ := get hb
  obtain ⟨l, h5⟩ := hT.beg _ _ _ h1
  obtain ⟨l', h6⟩ := hT.beg _ _ _ h3
  rw [h5] at h6
  cases h6
  obtain ⟨_, h7⟩ := (hT.pub _ _).mp h2
  obtain ⟨_, h8⟩ := (hT.pub _ _).mp h4
  rw [h7] at h8
  cases h8
  exact ⟨rfl, rfl⟩

/-- A load provides at most one value. -/
theorem C47_once (hr : Conc.Run c (State.new (Shard.new target cap gcap)) tr s) (hq : c.ptrEq = true) {a b : Nat} {p : Plh}
    {v w : V} (ha : .published a p v ∈ tr) (hb : .published b p w ∈ tr) : a = b ∧ v = w := by
  have hT := hr.tinv hq
  refine ⟨hT.pub1 _ _ _ _ _ ha hb, ?_⟩
  obtain ⟨_, h7⟩ := (hT.pub _ _).mp ⟨_, ha⟩
  obtain ⟨_, h8⟩ := (hT.pub _ _).mp ⟨_, hb⟩
  rw [h7] at h8
  cases h8; rfl

example : cxFine cxDone = true ∧ has (fun e => match e with
    | .received 1 7 ⟨0, 1, 0⟩ 12 => true
    | _ => false) (cxRun cxDone).2 = true := ⟨by decide +kernel, by decide +kernel⟩

/-! ### C48: an abandoned guard is handed over exactly once -/

/-- Dropping a guard while somebody waits notifies exactly one waiter. That one becomes the one entitled to the guard, and
the others go on waiting. -/
theorem C48_handover (hr : Conc.Run c (State.new (Shard.new target cap gcap)) tr s) (hq : c.ptrEq = true) {a d : Nat} {k : K}
    {p : Plh} (hc : s.ctl a = .dropping k p) (hs : exec c s (.finishDrop a) = some (.ok (s', evs))) (hd : Waits s d p) :
    ∃ b, Waits s b p ∧ evs = .handedOver a p b :: (if s.kind b = .task then [.woke b (s.waker b)] else []) ∧
      Entitled s' b p ∧ (∀ x, x ≠ b → (Waits s' x p ↔ Waits s x p)) ∧ s'.shard = s.shard := by
  have hre := hr.reach hq (.new ..)
  have hi := hre.inv
  have hi' := ((Conc.Run.act hr hs).reach hq (.new ..)).inv
  have he := hi.eff hq hs
  obtain ⟨ps, h1, h2, h3, h4⟩ := hi.waits hd
  cases he
  case handOver b k1 p1 ps1 hp hk hh hl hb hc1 =>
    rw [hc] at hc1; cases hc1
    rw [h1] at hp; cases hp
    have hbm : b ∈ ps.waiters := List.mem_of_getLast? hb
    have hw : Waits s b p := (hi.mem_waits h1 h2).mp hbm
    have hba : b ≠ a := by
      rintro rfl
      obtain ⟨⟨k', h5⟩, -⟩ := hw
      rw [hc] at h5; cases h5
    obtain ⟨⟨k', hcb⟩, hfb⟩ := id hw
    refine ⟨b, hw, rfl, ?_, ?_, rfl⟩
    · refine .notified k' ?_ ?_ ⟨{ ps with waiters := ps.waiters.dropLast }, ?_, h2, h4⟩
      · simp [State.go, State.unlockWrite, State.notify, State.setPlh, hba, hcb]
      · simp [State.go, State.unlockWrite, State.notify, State.setPlh]
      · simp [State.go, State.unlockWrite, State.notify, State.setPlh]
    · intro x hx
      unfold Waits
      by_cases hxa : x = a
      · subst hxa
        simp [State.go, State.unlockWrite, State.notify, State.setPlh, hc]
      · simp [State.go, State.unlockWrite, State.notify, State.setPlh, hx, hxa]
  case giveUp k1 p1 ps1 sh hp hk hh hl hb hs hc1 =>
    rw [hc] at hc1; cases hc1
    rw [h1] at hp; cases hp
    rw [hb] at h3; cases h3

/-- Dropping a guard while nobody waits ends the load, and nobody is notified. -/
theorem C48_removed (hr : Conc.Run c (State.new (Shard.new target cap gcap)) tr s) (hq : c.ptrEq = true) {a : Nat} {k : K}
    {p : Plh} (hc : s.ctl a = .dropping k p) (hs : exec c s (.finishDrop a) = some (.ok (s', evs)))
    (hd : ∀ d, ¬ Waits s d p) :
    evs = [.sect (.abandon k p) .unit [], .dropped a k p] ∧ s'.flag = s.flag ∧ s'.shard.iter = s.shard.iter := by
  have hi := (hr.reach hq (.new ..)).inv
  have he := hi.eff hq hs
  cases he
  case handOver b k1 p1 ps1 hp hk hh hl hb hc1 =>
    rw [hc] at hc1; cases hc1
    exact absurd ((hi.mem_waits hp hh).mp (List.mem_of_getLast? hb)) (hd b)
  case giveUp k1 p1 ps1 sh hp hk hh hl hb he hc1 =>
    rw [hc] at hc1; cases hc1
    refine ⟨rfl, rfl, ?_⟩
    cases he with
    | abandoned inv same entries wgt num ghosts plh =>
      show sh.iter = s.shard.iter
      unfold Shard.iter
      rw [entries]

/-- After a load was given up nobody ever joins it, gets a guard of it, inserts through one, or receives a value from it. -/
theorem C48_gone (hr : Conc.Run c (State.new (Shard.new target cap gcap)) tr s) (hq : c.ptrEq = true) {a : Nat} {k : K}
    {p : Plh} (ht : tr = t1 ++ .dropped a k p :: t2) {e : Ev K V} (he : e ∈ t2) : ¬ About p e := by
  obtain ⟨u1, u2, rfl⟩ := List.append_of_mem he
  exact hr.engages hq (t1 ++ .dropped a k p :: u1) e u2 (by rw [ht]; simp) a k p (by simp)

/-- After a load was given up (and not superseded before), the next caller that asks for the key and does not find it
begins a new load, unless the key was inserted directly or another load of it began meanwhile. -/
theorem C48_fresh (hr : Conc.Run c (State.new (Shard.new target cap gcap)) tr s) (hq : c.ptrEq = true) {a b : Nat} {k : K}
    {p : Plh} (ht : tr = t1 ++ .dropped a k p :: t2) (hns : ¬ Superseded c target t1 k p) (hn : ∀ e ∈ t2, ¬ Enters k e)
    (hb : s.ctl b = .created k) (hs : exec c s (.upsert b) = some (.ok (s', evs))) :
    ∃ q, q ≠ p ∧ evs = [.sect (.upsert k) (.pending q true) [], .began b k q] := by
  have hi := (hr.reach hq (.new ..)).inv
  obtain ⟨q, h1, h2⟩ := (hr.vacant hq ht hns hn).began hi hb (hi.eff hq hs)
  refine ⟨q, ?_, ((hi.eff hq hs).began hi h1).2.2⟩
  rintro rfl
  have := ((hr.tinv hq).drp k q).mp ⟨a, by rw [ht]; simp⟩
  rw [h2] at this; cases this

/-- Handing over, with two waiters: the one that joined last is notified. -/
example : cxFine (cxWait ++ [.drop 0, .lockDrop 0]) = true ∧
    (cxRun (cxWait ++ [.drop 0, .lockDrop 0])).1.ctl 0 = .dropping 7 (ld 0 0) ∧
    Waits (cxRun (cxWait ++ [.drop 0, .lockDrop 0])).1 1 (ld 0 0) ∧
    cxNextFine (cxWait ++ [.drop 0, .lockDrop 0]) (.finishDrop 0) = true :=
  ⟨by decide +kernel, by decide +kernel, ⟨⟨7, by decide +kernel⟩, by decide +kernel⟩, by decide +kernel⟩

/-- Giving up: agent 0 drops its guard, agent 1 asks for the same key and begins another load. -/
def cxGone : List (Act Nat Nat) :=
  cxAsk 0 (.thread 0 false) 7 ++ [.startLoading 0, .drop 0, .lockDrop 0, .finishDrop 0] ++ (cxAsk 1 .task 7).take 4

example : cxFine cxGone = true ∧ has (fun e => match e with | .dropped 0 7 ⟨0, 1, 0⟩ => true | _ => false) (cxRun cxGone).2 ∧
    (cxRun cxGone).1.ctl 1 = .created 7 ∧ cxNextFine cxGone (.upsert 1) = true ∧
    (cxNext cxGone (.upsert 1)).1.ctl 1 = .starting 7 (ld 1 1) true :=
  ⟨by decide +kernel, by decide +kernel, by decide +kernel, by decide +kernel, by decide +kernel⟩

/-! ### C49: protocol assertions never fail -/

/-- No action panics, except that the cache may be too large: the total weight would reach `2^64`, or there are no more
slots. In particular the `unreachable!`s, `unwrap`s and assertions of the protocol are never reached. -/
theorem C49_asserts (hr : Conc.Run c (State.new (Shard.new target cap gcap)) tr s) (hq : c.ptrEq = true) {act : Act K V}
    {e : Panic} (hs : exec c s act = some (.error e)) :
    (e = .overflow ∧ ∃ k v, 2 ^ 64 ≤ total c.weight s.shard.iter + enterWeight c target k v) ∨
    (e = .slabFull ∧ s.shard.entries.entries.length = 2 ^ 32 - 2) :=
  (hr.reach hq (.new ..)).asserts hq hs

/-- The actions of the waiting protocol never panic at all: joining, taking a guard, waking up, polling, timing out,
receiving, publishing a value, dropping a guard, cancelling. -/
theorem C49_sites (hr : Conc.Run c (State.new (Shard.new target cap gcap)) tr s) (hq : c.ptrEq = true) {act : Act K V}
    {e : Panic} (hs : exec c s act = some (.error e)) :
    (∃ a, act = .upsert a ∨ act = .store a) ∨ ∃ op, act = .call op := by
  have hi := (hr.reach hq (.new ..)).inv
  rcases exec_sat hi hq hs with ⟨x, hx, -⟩ | ⟨e', he', hE⟩
  · cases hx
  · cases act with
    | upsert a => exact Or.inl ⟨a, Or.inl rfl⟩
    | store a => exact Or.inl ⟨a, Or.inr rfl⟩
    | call op => exact Or.inr ⟨op, rfl⟩
    | _ => exact hE.elim

/-- Joining, timing out and cancelling do occur, also in states where the assertions could fail. -/
example : cxFine cxWait = true ∧ cxNextFine cxWait (.timeout 2) = true ∧ cxNextFine cxWait (.cancel 1) = true ∧
    cxNextFine (cxDone.dropLast) (.rejoin 1) = true := ⟨by decide +kernel, by decide +kernel, by decide +kernel, by decide +kernel⟩

/-! ### C50: timeout and cancellation leave no trace -/

/-- A call that timed out, or a future that was dropped, is in no list of waiters from then on. -/
theorem C50_unlisted (hr : Conc.Run c (State.new (Shard.new target cap gcap)) tr s) (hq : c.ptrEq = true) {a : Nat}
    (ha : .timedOut a ∈ tr ∨ .cancelled a ∈ tr) {i : Nat} {ps : PState K V} (hp : s.plh i = some ps) : a ∉ ps.waiters := by
  have hi := (hr.reach hq (.new ..)).inv
  intro hm
  obtain ⟨k, hc⟩ := (hi.waiter hp hm).1
  rcases ha with ha | ha
  · rw [((hr.departed hq a).1 ha).2] at hc; cases hc
  · have := ((hr.departed hq a).2 ha).2
    rw [hc] at this; cases this

/-- All it may still do is to pass on the right to load that it had been notified of. -/
theorem C50_left (hr : Conc.Run c (State.new (Shard.new target cap gcap)) tr s) (hq : c.ptrEq = true) {a : Nat} :
    (.timedOut a ∈ tr → s.ctl a = .idle) ∧
    (.cancelled a ∈ tr → s.ctl a = .idle ∨ ∃ k p, s.ctl a = .abandoning k p ∨ s.ctl a = .leaving k p ∨ s.ctl a = .dropping k p) := by
  refine ⟨fun h => ((hr.departed hq a).1 h).2, fun h => ?_⟩
  have := ((hr.departed hq a).2 h).2
  unfold Ctl.left at this
  split at this
  · rename_i hc; exact Or.inl hc
  · rename_i hc; exact Or.inr ⟨_, _, Or.inl hc⟩
  · rename_i hc; exact Or.inr ⟨_, _, Or.inr (Or.inl hc)⟩
  · rename_i hc; exact Or.inr ⟨_, _, Or.inr (Or.inr hc)⟩
  · cases this

/-- A call times out only if it has not been notified; a notified one goes on to receive the value or the guard. -/
theorem C50_timeout (hr : Conc.Run c (State.new (Shard.new target cap gcap)) tr s) (hq : c.ptrEq = true) {a : Nat}
    (hs : exec c s (.timeout a) = some (.ok (s', evs))) :
    ∃ k p, s.ctl a = .waiting k p ∧
      ((s.flag a = false ∧ evs = [.timedOut a] ∧ s'.ctl a = .idle ∧ ∀ b q, b ≠ a → (Waits s' b q ↔ Waits s b q)) ∨
       (s.flag a = true ∧ evs = [] ∧ s'.ctl a = .claimed k p ∧ (LoadPending s p → Entitled s' a p))) := by
  have hi := (hr.reach hq (.new ..)).inv
  have he := hi.eff hq hs
  cases he
  case timely k p tid hc hk hf =>
    exact ⟨k, p, hc, Or.inr ⟨hf, rfl, by simp [State.go], fun hp => .claimed k (by simp [State.go]) hp⟩⟩
  case timeout k p tid ps ws hp hh hc hk hf hws =>
    refine ⟨k, p, hc, Or.inl ⟨hf, rfl, by simp [State.go, State.setPlh], fun b q hb => ?_⟩⟩
    simp [Waits, State.go, State.setPlh, hb]

/-- Dropping a waiting future: if it had been notified of the right to load, that right is still its own, so that (C50_left,
C46, C48) it will be passed on. If it had not been notified, it just stops waiting. -/
theorem C50_cancel (hr : Conc.Run c (State.new (Shard.new target cap gcap)) tr s) (hq : c.ptrEq = true) {a : Nat} {k : K}
    {p : Plh} (hc : s.ctl a = .waiting k p) (hs : exec c s (.cancel a) = some (.ok (s', evs))) :
    evs = [.cancelled a] ∧ (∀ b q, b ≠ a → (Waits s' b q ↔ Waits s b q)) ∧
      (s.flag a = true → LoadPending s p → Entitled s' a p) ∧
      (s.flag a = false ∨ ¬ LoadPending s p → s'.ctl a = .idle) := by
  have hi := (hr.reach hq (.new ..)).inv
  have he := hi.eff hq hs
  have other : ∀ {s' : State K V} {x : Ctl K V}, s'.ctl = Function.update s.ctl a x → s'.flag = s.flag →
      ∀ b q, b ≠ a → (Waits s' b q ↔ Waits s b q) := by
    intro s' x h1 h2 b q hb
    simp [Waits, h1, h2, hb]
  cases he
  case unpolled k1 hc1 hk => rw [hc] at hc1; cases hc1
  case cancelOwner k1 p1 ps hp hh hl hc1 hk hf =>
    rw [hc] at hc1; cases hc1
    refine ⟨rfl, other (x := .abandoning k p) rfl rfl, fun _ _ => .abandoning k (by simp [State.go]), ?_⟩
    rintro (h | h)
    · rw [hf] at h; cases h
    · exact absurd ⟨ps, hp, hh, hl⟩ h
  case cancelDone k1 p1 ps hp hh hl hc1 hk hf =>
    rw [hc] at hc1; cases hc1
    refine ⟨rfl, other (x := .idle) rfl rfl, fun _ h => ?_, fun _ => by simp [State.go]⟩
    obtain ⟨ps', h1, -, h3⟩ := h
    rw [hp] at h1; cases h1
    exact absurd h3 hl
  case cancel k1 p1 ps ws hp hh hc1 hk hf hws =>
    rw [hc] at hc1; cases hc1
    refine ⟨rfl, other (x := .idle) rfl rfl, fun h => ?_, fun _ => by simp [State.go, State.setPlh]⟩
    rw [hf] at h; cases h

/-- A timeout and a cancellation of callers not notified; a timeout and a cancellation coming too late. -/
example : (cxNext cxWait (.timeout 2)).1.plh 0 = some ⟨7, (ld 0 0), [1], .loading⟩ ∧
    (cxNext cxWait (.cancel 1)).1.plh 0 = some ⟨7, (ld 0 0), [2], .loading⟩ ∧
    (cxNext (cxWait ++ [.drop 0, .lockDrop 0, .finishDrop 0]) (.timeout 2)).1.ctl 2 = .claimed 7 (ld 0 0) ∧
    (cxNext (cxWait ++ [.timeout 2, .drop 0, .lockDrop 0, .finishDrop 0]) (.cancel 1)).1.ctl 1 = .abandoning 7 (ld 0 0) :=
  ⟨by decide +kernel, by decide +kernel, by decide +kernel, by decide +kernel⟩

/-! ### C51: guard insert fails exactly when the load was superseded -/

/-- `guard.insert(v)` returns `Err` exactly if, since the load began, its key was removed, cleared or inserted; the
error is the inserted value. -/
theorem C51_err (hr : Conc.Run c (State.new (Shard.new target cap gcap)) tr s) (hq : c.ptrEq = true) {a : Nat} {k : K}
    {p : Plh} {err : Option V} (ht : tr = t1 ++ .insertDone a k p err :: t2) :
    (err.isSome ↔ Superseded c target t1 k p) ∧ ∀ v, err = some v → .published a p v ∈ t1 :=
  hr.fills hq t1 _ t2 ht a k p err rfl

/-- If it fails, nothing stored in the cache changes and no lifecycle call is made; otherwise it is an `insert` of the
value. -/
theorem C51_effect (hr : Conc.Run c (State.new (Shard.new target cap gcap)) tr s) (hq : c.ptrEq = true) {a : Nat} {k : K}
    {p : Plh} {v : V} {r : Bool} (hc : s.ctl a = .inserting k p v r) (hs : exec c s (.store a) = some (.ok (s', evs))) :
    (evs = [.sect (.fill k p r v) (.filled (some v)) [], .insertDone a k p (some v)] ∧ s'.shard = s.shard) ∨
    (∃ log, evs = [.sect (.fill k p r v) (.filled none) log, .insertDone a k p none] ∧
      OpSpec c target s.shard.contents (.insert k v) .unit log s'.shard.contents) := by
  have hre := hr.reach hq (.new ..)
  have hi := hre.inv
  have he := hi.eff hq hs
  have hh := he.history hi
  cases he
  case superseded k1 p1 v1 r1 hw hr hg hc1 =>
    rw [hc] at hc1; cases hc1
    exact Or.inl ⟨rfl, rfl⟩
  case store k1 p1 v1 r1 sh q hw hr hl hs hc1 =>
    rw [hc] at hc1; cases hc1
    refine Or.inr ⟨q.log, rfl, ?_⟩
    rcases hh with ⟨h, -⟩ | ⟨x, h, h2⟩
    · cases h
    · cases h
      rw [hre.reach.target] at h2
      exact h2

/-- Both happen. -/
example : cxFine (cxTwo ++ [.publish 0 12, .store 0, .publish 1 13, .store 1]) = true ∧
    has (fun e => match e with | .insertDone 0 7 ⟨0, 1, 0⟩ (some 12) => true | _ => false)
      (cxRun (cxTwo ++ [.publish 0 12, .store 0, .publish 1 13, .store 1])).2 = true ∧
    has (fun e => match e with | .insertDone 1 7 ⟨1, 1, 0⟩ none => true | _ => false)
      (cxRun (cxTwo ++ [.publish 0 12, .store 0, .publish 1 13, .store 1])).2 = true :=
  ⟨by decide +kernel, by decide +kernel, by decide +kernel⟩

/-! ### C52: waiting callers always finish -/

/-- Without new calls every execution is finite: at most 14 actions per caller (not counting polls of futures that were
not notified, and calls that do not wait). -/
theorem C52_finite (hr : Conc.Run c (State.new (Shard.new target cap gcap)) tr s) (hq : c.ptrEq = true) {n : Nat}
    (hs : Steps c s n s') : n ≤ 14 * s.next := by
  have := ((hr.reach hq (.new ..)).steps hq hs).2.2
  have := work_le s
  omega

/-- As long as some caller is not done, somebody can go on: a running call can do its next action, a notified one can
notice it, or a guard holder can insert or drop. -/
theorem C52_progress (hr : Conc.Run c (State.new (Shard.new target cap gcap)) tr s) (hq : c.ptrEq = true) {a : Nat}
    (ha : s.ctl a ≠ .idle) : ∃ act, Due s act ∧ exec c s act ≠ none :=
  (hr.reach hq (.new ..)).inv.progress ha

/-- So an execution in which everybody does what is due ends, and then no caller is waiting or holds a guard or a lock. -/
theorem C52_end (hr : Conc.Run c (State.new (Shard.new target cap gcap)) tr s) (hq : c.ptrEq = true)
    (hd : ∀ act, Due s act → exec c s act = none) :
    (∀ a, s.ctl a = .idle) ∧ s.writer = none ∧ s.readers = [] ∧ ∀ i ps, s.plh i = some ps → ps.waiters = [] := by
  have hi := (hr.reach hq (.new ..)).inv
  have hidle : ∀ a, s.ctl a = .idle := by
    intro a
    by_contra ha
    obtain ⟨act, h1, h2⟩ := hi.progress ha
    exact h2 (hd act h1)
  refine ⟨hidle, ?_, ?_, ?_⟩
  · cases hw : s.writer with
    | none => rfl
    | some a => have := (hi.lock.wr a).mp hw; simp [hidle a, Ctl.writes] at this
  · cases hl : s.readers with
    | nil => rfl
    | cons a l => have := (hi.lock.rd a).mp (by simp [hl]); simp [hidle a, Ctl.reads] at this
  · intro i ps hp
    cases hl : ps.waiters with
    | nil => rfl
    | cons a l =>
      obtain ⟨k, h⟩ := (hi.waiter hp (by rw [hl]; simp : a ∈ ps.waiters)).1
      rw [hidle a] at h; cases h

/-- In the example the three callers finish. -/
example : cxFine cxDone = true ∧ (∀ a < 3, (cxRun cxDone).1.ctl a = .idle) ∧ (cxRun cxWait).1.ctl 1 ≠ .idle :=
  ⟨by decide +kernel, by decide +kernel, by decide +kernel⟩

/-! ### C54: wakeups reach the most recent waker -/

/-- The waker woken for a future is the one passed to its most recent poll. -/
theorem C54_waker (hr : Conc.Run c (State.new (Shard.new target cap gcap)) tr s) (hq : c.ptrEq = true) {a w : Nat}
    (ht : tr = t1 ++ .woke a w :: t2) : lastWaker a t1 = some w :=
  (hr.wakers hq).2 t1 _ t2 ht a w rfl

/-- A waiting future is woken when a value is published. -/
theorem C54_published (hr : Conc.Run c (State.new (Shard.new target cap gcap)) tr s) (hq : c.ptrEq = true) {a b : Nat} {v : V}
    {k : K} {p : Plh} (hc : s.ctl a = .guard k p) (hs : exec c s (.publish a v) = some (.ok (s', evs))) (hb : Waits s b p) :
    s'.flag b = true ∧ (s.kind b = .task → .woke b (s.waker b) ∈ evs) := by
  have hi := (hr.reach hq (.new ..)).inv
  obtain ⟨ps, h1, h2, h3, -⟩ := hi.waits hb
  have he := hi.eff hq hs
  cases he
  case publish k1 p1 ps1 hp hk hh hl hc1 =>
    rw [hc] at hc1; cases hc1
    rw [h1] at hp; cases hp
    refine ⟨by simp [h3], fun hk => ?_⟩
    exact List.mem_cons_of_mem _ (List.mem_flatMap.mpr ⟨b, h3, by simp [State.wakes, hk]⟩)

/-- Polled with waker 10 at first and with waker 11 later: 11 is woken. -/
example : cxFine (cxDone.take 28) = true ∧ (cxRun (cxDone.take 28)).1.waker 1 = 11 ∧
    has (fun e => match e with | .woke 1 11 => true | _ => false) (cxRun cxDone).2 = true ∧
    has (fun e => match e with | .woke 1 10 => true | _ => false) (cxRun cxDone).2 = false :=
  ⟨by decide +kernel, by decide +kernel, by decide +kernel, by decide +kernel⟩

/-! ### C55: concurrent reads are safe and linearizable -/

/-- The calls, each at the instant of one of its actions, form a history of a sequential cache, which leads to the
present contents. -/
theorem C55_linearizable (hr : Conc.Run c (State.new (Shard.new target cap gcap)) tr s) (hq : c.ptrEq = true) :
    Replays c target (fun _ => none) (calls tr) s.shard.contents ∧
      ∀ k v, (k, v) ∈ s.shard.iter ↔ playAll (calls tr) k = some v := by
  refine ⟨hr.replays hq, fun k v => ?_⟩
  rw [(lists_iter (hr.reach hq (.new ..)).inv.shard.toInv0).2 k v, (hr.replays hq).playAll]

/-- A lookup that returns a value returns the one stored at that instant (an action of the call), and that is the value
last stored. -/
theorem C55_hit (hr : Conc.Run c (State.new (Shard.new target cap gcap)) tr s) (hq : c.ptrEq = true) {act : Act K V}
    (hs : exec c s act = some (.ok (s', evs))) {a : Nat} {k : K} {v : V} (hm : .hit a k v ∈ evs) :
    (act = .tally a ∨ act = .upsert a) ∧ (k, v) ∈ s.shard.iter ∧ lastStored k (calls tr) = some v := by
  have hre := hr.reach hq (.new ..)
  have hi := hre.inv
  have he := hi.eff hq hs
  have key : (act = .tally a ∨ act = .upsert a) ∧ s.shard.contents k = some v := by
    have hh := he.history hi
    cases he
    case hit k1 v1 sh hc hs =>
      simp only [List.mem_cons, reduceCtorEq, List.not_mem_nil, or_false, false_or, Ev.hit.injEq] at hm
      obtain ⟨rfl, rfl, rfl⟩ := hm
      have hA : AOK c s.shard s.plh (.tally k (some v)) := hi.at hc
      exact ⟨Or.inl rfl, hA⟩
    case found k1 v1 sh hw hr hs hc =>
      simp only [List.mem_cons, reduceCtorEq, List.not_mem_nil, or_false, false_or, Ev.hit.injEq] at hm
      obtain ⟨rfl, rfl, rfl⟩ := hm
      refine ⟨Or.inr rfl, ?_⟩
      rcases hh with ⟨h, -⟩ | ⟨x, h, h2⟩
      · cases h
      · cases h
        obtain ⟨h2, -⟩ := h2
        rw [Out.value.injEq] at h2
        exact h2.symm
    all_goals first
      | (simp at hm; done)
      | (simp only [List.mem_cons, reduceCtorEq, false_or] at hm; exact absurd hm (not_mem_flatWakes rfl))
      | (simp only [List.mem_cons, reduceCtorEq, false_or] at hm; exact absurd hm (not_mem_wakes rfl))
  exact ⟨key.1, (lists_iter hi.shard.toInv0).2 k v |>.mpr key.2, (hr.replays hq).latest k v key.2⟩

/-- A `get` that returns `None` was made when the key was not stored. -/
theorem C55_miss (hr : Conc.Run c (State.new (Shard.new target cap gcap)) tr s) (hq : c.ptrEq = true) {act : Act K V}
    (hs : exec c s act = some (.ok (s', evs))) {a : Nat} {k : K} (hm : .miss a k ∈ evs) :
    act = .tally a ∧ ∀ v, (k, v) ∉ s.shard.iter := by
  have hre := hr.reach hq (.new ..)
  have hi := hre.inv
  have he := hi.eff hq hs
  have key : act = .tally a ∧ s.shard.contents k = none := by
    cases he
    case miss k1 sh hc hk hs =>
      simp only [List.mem_cons, reduceCtorEq, List.not_mem_nil, or_false, false_or, Ev.miss.injEq] at hm
      obtain ⟨rfl, rfl⟩ := hm
      have hA : AOK c s.shard s.plh (.tally k none) := hi.at hc
      exact ⟨rfl, hA⟩
    all_goals first
      | (simp at hm; done)
      | (simp only [List.mem_cons, reduceCtorEq, false_or] at hm; exact absurd hm (not_mem_flatWakes rfl))
      | (simp only [List.mem_cons, reduceCtorEq, false_or] at hm; exact absurd hm (not_mem_wakes rfl))
  refine ⟨key.1, fun v hv => ?_⟩
  have := (lists_iter hi.shard.toInv0).2 k v |>.mp hv
  rw [key.2] at this; cases this

/-- Both instants lie between the call and its return: the actions belong to the calling agent, which is inside the call,
and the lookup holds the shard lock from its search until then. -/
theorem C55_locked (hr : Conc.Run c (State.new (Shard.new target cap gcap)) tr s) (hq : c.ptrEq = true) {a : Nat} :
    ((∃ k, s.ctl a = .seek k) ∨ (∃ k t v, s.ctl a = .saw k t v ∨ s.ctl a = .bump k t v) ∨ (∃ k r, s.ctl a = .tally k r) →
      a ∈ s.readers ∧ s.writer = none) ∧
    (∀ k r, s.ctl a = .tally k r → s.shard.contents k = r) := by
  have hi := (hr.reach hq (.new ..)).inv
  refine ⟨fun h => ?_, fun k r h => ?_⟩
  · have hrd : (s.ctl a).reads = true := by
      rcases h with ⟨k, h⟩ | ⟨k, t, v, h | h⟩ | ⟨k, r, h⟩ <;> rw [h] <;> rfl
    have hm := (hi.lock.rd a).mpr hrd
    refine ⟨hm, ?_⟩
    cases hw : s.writer with
    | none => rfl
    | some b => rw [hi.lock.excl b hw] at hm; cases hm
  · have hA : AOK c s.shard s.plh (.tally k r) := hi.at h
    exact hA

/-- At every moment, with any number of readers in the middle of `get`: every key is stored at most once, `len` and
`weight` are exact, and the evictable weight is within the capacity. -/
theorem C55_structure (hr : Conc.Run c (State.new (Shard.new target cap gcap)) tr s) (hq : c.ptrEq = true) :
    (s.shard.iter.map (·.1)).Nodup ∧ s.shard.len = s.shard.iter.length ∧
      (∀ w, s.shard.weight = .ok w → w = total c.weight s.shard.iter) ∧
      (target ≤ cap → total (evictable c) s.shard.iter ≤ cap) := by
  have hre := hr.reach hq (.new ..)
  have hi := hre.inv.shard.toInv0
  refine ⟨(lists_iter hi).1, hi.len_iter.symm, fun w hw => ?_, fun ht => ?_⟩
  · rw [hi.total_iter]
    unfold Shard.weight cadd at hw
    split at hw
    · cases hw; rfl
    · cases hw
  · rw [← evW_iter]
    exact hr.evW_le hq ht

/-- Two callers look up the same key at the same time. -/
example : cxFine cxRead = true ∧
    has (fun e => match e with | .hit 0 7 12 => true | _ => false) (cxRun cxRead).2 = true ∧
    has (fun e => match e with | .hit 1 7 12 => true | _ => false) (cxRun cxRead).2 = true ∧
    (cxRun (cxRead.take 7)).1.readers = [1, 0] :=
  ⟨by decide +kernel, by decide +kernel, by decide +kernel, by decide +kernel⟩

end QuickCache.Props
