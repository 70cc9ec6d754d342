import Verif.Proofs.FineWork
import Verif.Proofs.ConcHistory
import Verif.Props.ConcExample

/-!
# C76: parking and notification, access by access
-/

namespace QuickCache
open Conc Fine

/-- Performing a list of actions, all of which must be possible. -/
def fineActs (f : Fine.State Nat Nat) : List (FAct Nat Nat) → Option (Fine.State Nat Nat × List (Ev Nat Nat))
  | [] => some (f, [])
  | act :: acts =>
    match Fine.step cxCfg f act with
    | some (.ok (f1, e1)) =>
      match fineActs f1 acts with
      | some (f2, e2) => some (f2, e1 ++ e2)
      | none => none
    | _ => none

theorem fineActs_run {f0 : Fine.State Nat Nat} :
    ∀ {acts : List (FAct Nat Nat)} {f f' : Fine.State Nat Nat} {t t' : List (Ev Nat Nat)}, Fine.Run cxCfg f0 t f →
      fineActs f acts = some (f', t') → Fine.Run cxCfg f0 (t ++ t') f' := by
  intro acts
  induction acts with
  | nil =>
    intro f f' t t' hr hs
    cases hs
    simpa using hr
  | cons act acts ih =>
    intro f f' t t' hr hs
    unfold fineActs at hs
    split at hs
    · rename_i f1 e1 h1
      split at hs
      · rename_i f2 e2 h2
        cases hs
        have := ih (.act hr h1) h2
        simpa using this
      · cases hs
    · cases hs

/-- The example cache with nobody using it. -/
def gxNew : Fine.State Nat Nat := .new (Shard.new 8 10 3)

/-- The example after a list of actions. -/
def gxRun (acts : List (FAct Nat Nat)) : Fine.State Nat Nat × List (Ev Nat Nat) := (fineActs gxNew acts).getD (gxNew, [])

/-- All actions of the list are possible. -/
def gxFine (acts : List (FAct Nat Nat)) : Bool := (fineActs gxNew acts).isSome

theorem gxRun_run {acts : List (FAct Nat Nat)} (h : gxFine acts = true) :
    Fine.Run cxCfg (.new (Shard.new 8 10 3)) (gxRun acts).2 (gxRun acts).1 := by
  unfold gxFine at h
  unfold gxRun
  rcases hr : fineActs gxNew acts with _ | ⟨s, t⟩
  · rw [hr] at h; cases h
  · have := fineActs_run (f0 := gxNew) .start hr
    rw [List.nil_append] at this
    exact this

/-- Agent 0 has the guard of key 7, a future (agent 1) and a thread with a timeout (agent 2) wait, the thread in `park`. -/
def gxWait : List (FAct Nat Nat) := cxWait.map .act ++ [.park 2]

/-- Agent 0 inserts: it has set both flags and woken the future, and is about to unpark the thread. -/
def gxMid : List (FAct Nat Nat) := gxWait ++ [.lock 0 (some 12), .note 0, .note 0, .note 0]

/-- The thread wakes up by itself, notices its flag, and gets as far as the state lock; then it is unparked. The future is
polled meanwhile. -/
def gxEarly : List (FAct Nat Nat) := gxMid ++ [.spurious 2, .look 2 false, .relock 2, .poll 1 13, .note 0]

/-- The insertion ends, and both receive the value; the token of the thread is still there. -/
def gxDone : List (FAct Nat Nat) :=
  gxEarly ++ [.unlock 0, .act (.rejoin 2), .act (.relock 1), .act (.rejoin 1), .act (.store 0)]

/-- Park is disturbed. -/
def gxDisturbs : FAct Nat Nat → Bool
  | .stray _ | .steal _ | .spurious _ => true
  | _ => false

/-- Neither a new call nor one of one section nor a poll. -/
def gxCalm : FAct Nat Nat → Bool
  | .act (.begin _ _) | .act (.call _) | .poll _ _ => false
  | _ => true

theorem fineActs_steps {f0 : Fine.State Nat Nat} :
    ∀ {acts : List (FAct Nat Nat)} {f f' : Fine.State Nat Nat} {n d : Nat} {t' : List (Ev Nat Nat)},
      Spec.FineSteps cxCfg f0 n d f → acts.all gxCalm = true → fineActs f acts = some (f', t') →
      Spec.FineSteps cxCfg f0 (n + acts.countP (fun x => !gxDisturbs x)) (d + acts.countP gxDisturbs) f' := by
  intro acts
  induction acts with
  | nil =>
    intro f f' n d t' hr _ hs
    cases hs
    simpa using hr
  | cons act acts ih =>
    intro f f' n d t' hr hc hs
    unfold fineActs at hs
    split at hs
    · rename_i f1 e1 h1
      split at hs
      · rename_i f2 e2 h2
        cases hs
        simp only [List.all_cons, Bool.and_eq_true] at hc
        by_cases hd : gxDisturbs act = true
        · have hd' : Spec.Disturbs act := by
            cases act <;> simp only [gxDisturbs, Bool.false_eq_true] at hd <;> trivial
          have := ih (.disturb hr hd' h1) hc.2 h2
          rw [List.countP_cons_of_neg (by simp [hd]), List.countP_cons_of_pos hd]
          rwa [Nat.add_assoc d 1, Nat.add_comm 1] at this
        · have hd' : ¬ Spec.Disturbs act := by
            intro h
            cases act <;> simp only [Spec.Disturbs] at h <;> exact hd rfl
          have hx : ¬ Spec.FineExtra f act := by
            intro h
            cases act with
            | act x =>
              cases x <;> simp only [Spec.FineExtra] at h
              simp [gxCalm] at hc
            | poll a w => simp [gxCalm] at hc
            | _ => exact h
          have hb : ∀ kind k, act ≠ .act (.begin kind k) := by
            rintro kind k rfl
            simp [gxCalm] at hc
          have := ih (.act hr hx hd' hb h1) hc.2 h2
          rw [List.countP_cons_of_pos (by simpa using hd), List.countP_cons_of_neg hd]
          rwa [Nat.add_assoc n 1, Nat.add_comm 1] at this
      · cases hs
    · cases hs

namespace Props
open Spec
variable {K V RS : Type} [DecidableEq K] {c : Cfg K V RS} {target cap gcap : Nat} {f f' : Fine.State K V} {tr ev : List (Ev K V)}

/-! ## C76 -/

/-- Whatever happens between the accesses of notifiers and waiters, it is an execution of the coarse model in which notifying
is one action, with the same events: all theorems about `Conc.Run` apply. -/
theorem C76_refines (hr : Fine.Run c (.new (Shard.new target cap gcap)) tr f) :
    Conc.Run c (.new (Shard.new target cap gcap)) tr f.base := hr.base

/-- The value is received by both, once. -/
example : gxFine gxDone = true ∧ (∀ a < 3, (gxRun gxDone).1.base.ctl a = .idle) ∧ (gxRun gxDone).1.token 2 = true ∧
    has (fun e => match e with | .received 2 7 ⟨0, 1, 0⟩ 12 => true | _ => false) (gxRun gxDone).2 = true :=
  ⟨by decide +kernel, by decide +kernel, by decide +kernel, by decide +kernel⟩

/-- While nobody is notifying, the state is exactly that of the coarse model. -/
theorem C76_settled (hr : Fine.Run c (.new (Shard.new target cap gcap)) tr f) (hq : c.ptrEq = true) (hh : ∀ i, f.hold i = none)
    (a : Nat) : f.flag a = f.base.flag a ∧ f.early a = none ∧ f.readers = [] := by
  obtain ⟨h1, h2, h3⟩ := (hr.inv hq (.new ..)).still hh
  exact ⟨by simp [Fine.State.flag, h1 a], h2 a, h3⟩

/-- Otherwise it is ahead only for callers that wait for a load whose state lock is held by somebody who notifies them, and
has set their flag: nobody notices a notification that is not meant for them. -/
theorem C76_ahead (hr : Fine.Run c (.new (Shard.new target cap gcap)) tr f) (hq : c.ptrEq = true) {a : Nat}
    (ha : f.flag a ≠ f.base.flag a ∨ f.early a ≠ none ∨ a ∈ f.readers) :
    ∃ k p h ps, f.base.ctl a = .waiting k p ∧ f.base.flag a = false ∧ f.flag a = true ∧ f.hold p.id = some h ∧
      f.base.plh p.id = some ps ∧ .flag a ∉ h.todo ∧ a ∈ ps.waiters ∧ (h.value = none → ps.waiters.getLast? = some a) := by
  have h := hr.inv hq (.new ..)
  have hra : f.raised a = true := by
    rcases ha with ha | ha | ha
    · cases hx : f.raised a with
      | true => rfl
      | false => simp [Fine.State.flag, hx] at ha
    · exact h.early a ha
    · exact h.early a (h.readers a ha)
  obtain ⟨k, p, i, hd, ps, g1, g2, rfl, g4, g5, -, g7, g8⟩ := h.marked hra
  refine ⟨k, p, hd, ps, g1, g2, by simp [Fine.State.flag, hra], g4, g5.plh, g8, called_sub g7, fun hv => ?_⟩
  rw [hv] at g7
  simpa [called] using g7

/-- The thread is ahead: it has noticed its flag and locked the shard while the value is being published. -/
example : gxFine gxEarly = true ∧ (gxRun gxEarly).1.early 2 ≠ none ∧ 2 ∈ (gxRun gxEarly).1.readers ∧
    (gxRun gxEarly).1.base.flag 2 = false :=
  ⟨by decide +kernel, by decide +kernel, by decide +kernel, by decide +kernel⟩

/-- A thread that goes to sleep or sleeps though its flag is set finds its token, or will get it from its notifier. -/
theorem C76_no_lost (hr : Fine.Run c (.new (Shard.new target cap gcap)) tr f) (hq : c.ptrEq = true) {a t : Nat} {timed : Bool}
    (hw : Fine.waits f a = some (t, timed)) (hp : f.pc a = .about ∨ f.pc a = .parked) (hf : f.flag a = true) :
    f.token t = true ∨ Unparks f a := by
  have h := hr.inv hq (.new ..)
  obtain ⟨⟨k, p, h1⟩, h2, h3⟩ := waits_some hw
  exact h.token a t timed k p h2 h1 h3 (hp.imp_right Or.inl) hf

/-- The flag is set, the thread sleeps, and it is about to be unparked; one step later its token is there. -/
example : gxFine gxMid = true ∧ (gxRun gxMid).1.flag 2 = true ∧ (gxRun gxMid).1.pc 2 = .parked ∧
    Fine.waits (gxRun gxMid).1 2 = some (2, true) ∧ (gxRun gxMid).1.token 2 = false ∧
    (gxRun gxMid).1.hold 0 = some ⟨0, some 12, [.unpark 2]⟩ ∧ (gxRun (gxMid ++ [.note 0])).1.token 2 = true :=
  ⟨by decide +kernel, by decide +kernel, by decide +kernel, by decide +kernel, by decide +kernel, by decide +kernel,
   by decide +kernel⟩

/-- So a thread that is blocked is about to be unparked, or was not notified, is listed as a waiter, and somebody else is
entitled to provide the value. -/
theorem C76_blocked (hr : Fine.Run c (.new (Shard.new target cap gcap)) tr f) (hq : c.ptrEq = true) {a t : Nat}
    (hb : Blocked f a t) :
    Unparks f a ∨ (f.flag a = false ∧ ∃ p ps, Waits f.base a p ∧ f.base.plh p.id = some ps ∧ a ∈ ps.waiters ∧
      ∃ b, b ≠ a ∧ Entitled f.base b p) := by
  obtain ⟨⟨timed, hw⟩, hpc, ht⟩ := hb
  by_cases hf : f.flag a = true
  · rcases C76_no_lost hr hq hw (Or.inr hpc) hf with h | h
    · rw [ht] at h; cases h
    · exact Or.inl h
  · right
    have hi := (hr.inv hq (.new ..)).reach.inv
    obtain ⟨⟨k, p, h1⟩, -, -⟩ := waits_some hw
    simp only [Fine.State.flag, Bool.or_eq_true, not_or, Bool.not_eq_true] at hf
    have hW : Waits f.base a p := ⟨⟨k, h1⟩, hf.1⟩
    obtain ⟨ps, g1, g2, g3, g4⟩ := hi.waits hW
    refine ⟨by simp [Fine.State.flag, hf], p, ps, hW, g1, g3, ?_⟩
    obtain ⟨b, hb⟩ := hi.entitled_exists ⟨ps, g1, g2, g4⟩
    refine ⟨b, ?_, hb⟩
    rintro rfl
    cases hb with
    | notified k h flag => rw [hf.1] at flag; cases flag
    | _ => simp_all

/-- Both cases occur. -/
example : gxFine gxWait = true ∧ Blocked (gxRun gxWait).1 2 2 ∧ (gxRun gxWait).1.flag 2 = false ∧
    gxFine gxMid = true ∧ Blocked (gxRun gxMid).1 2 2 ∧ Unparks (gxRun gxMid).1 2 :=
  ⟨by decide +kernel, ⟨⟨true, by decide +kernel⟩, by decide +kernel, by decide +kernel⟩, by decide +kernel,
   by decide +kernel, ⟨⟨true, by decide +kernel⟩, by decide +kernel, by decide +kernel⟩,
   ⟨0, ⟨0, some 12, [.unpark 2]⟩, by decide +kernel, by decide +kernel⟩⟩

/-- The waker about to be called is that of the latest poll of the future, and the future has not been polled since its flag
was set: it cannot be, its waiter is locked. -/
theorem C76_waker (hr : Fine.Run c (.new (Shard.new target cap gcap)) tr f) (hq : c.ptrEq = true) {i a b : Nat} {v : Option V}
    {rest : List Note} (hh : f.hold i = some ⟨a, v, .wake b :: rest⟩) :
    lastWaker b tr = some (f.base.waker b) ∧ f.early b = none ∧ ∀ w, Fine.poll c f b w = none := by
  have h := hr.inv hq (.new ..)
  obtain ⟨ps, k, hk, hb, hc, hid, hkind, -⟩ := h.woken hh List.mem_cons_self
  refine ⟨((hr.base.wakers hq).1 b hkind).2 (by rw [hc]; rfl), ?_, fun w => ?_⟩
  · by_contra hne
    exact hr.woken hq (.new ..) (fun b i hd hb => absurd rfl hb) b i _ hne hh List.mem_cons_self
  · have hwk : f.waking b = true := by simp [Fine.State.waking, hc, Conc.Ctl.plh, hid, hh]
    unfold Fine.poll
    split
    · rw [if_pos hwk]
    · rfl

/-- The future's flag is set and its waker is about to be called. -/
example : gxFine (gxWait ++ [.lock 0 (some 12), .note 0]) = true ∧
    (gxRun (gxWait ++ [.lock 0 (some 12), .note 0])).1.hold 0 = some ⟨0, some 12, [.wake 1, .flag 2, .unpark 2]⟩ :=
  ⟨by decide +kernel, by decide +kernel⟩

/-- The only panics are those of a cache that got too large: no assertion of the notification fails. -/
theorem C76_asserts (hr : Fine.Run c (.new (Shard.new target cap gcap)) tr f) (hq : c.ptrEq = true) {act : FAct K V} {e : Panic}
    (hs : Fine.step c f act = some (.error e)) :
    (e = .overflow ∧ ∃ k v, 2 ^ 64 ≤ total c.weight f.base.shard.iter + enterWeight c target k v) ∨
    (e = .slabFull ∧ f.base.shard.entries.entries.length = 2 ^ 32 - 2) := by
  have h := hr.inv hq (.new ..)
  obtain ⟨x, hx⟩ := h.error hq hs
  exact h.reach.asserts hq hx

/-- As long as some caller is not done, something that is due can be done. -/
theorem C76_progress (hr : Fine.Run c (.new (Shard.new target cap gcap)) tr f) (hq : c.ptrEq = true) {a : Nat}
    (ha : f.base.ctl a ≠ .idle) : ∃ act, FineDue f act ∧ Fine.step c f act ≠ none :=
  (hr.inv hq (.new ..)).progress hq ha

/-- Apart from calls of one section and polls of futures not notified there are finitely many actions, even if threads are
disturbed in `park` finitely often: the loops around `park` do not spin. -/
theorem C76_finite (hr : Fine.Run c (.new (Shard.new target cap gcap)) tr f) (hq : c.ptrEq = true) {n d : Nat}
    (hs : FineSteps c f n d f') : n ≤ 24 * f.base.next + 3 * d := by
  have := ((hr.inv hq (.new ..)).steps hq hs).2.2
  have := Fine.total_le f
  omega

/-- The thread is woken for nothing twice and goes back to sleep; then the guard is dropped and handed over to it: 11 actions and
2 disturbances. -/
example : ∃ f', FineSteps cxCfg (gxRun gxWait).1 11 2 f' := by
  have h : (fineActs (gxRun gxWait).1 [.stray 2, .unparked 2, .look 2 false, .park 2, .spurious 2, .look 2 false, .park 2,
      .act (.drop 0), .act (.lockDrop 0), .lock 0 none, .note 0, .note 0, .unlock 0]).isSome = true := by decide +kernel
  obtain ⟨⟨f', t'⟩, hf⟩ := Option.isSome_iff_exists.mp h
  exact ⟨f', fineActs_steps .start (by decide) hf⟩

/-- When nothing due can be done, everybody is done, nobody waits and no lock is held. -/
theorem C76_end (hr : Fine.Run c (.new (Shard.new target cap gcap)) tr f) (hq : c.ptrEq = true)
    (hd : ∀ act, FineDue f act → Fine.step c f act = none) :
    (∀ a, f.base.ctl a = .idle) ∧ (∀ i, f.hold i = none) ∧ f.readers = [] ∧ f.base.writer = none ∧ f.base.readers = [] ∧
      ∀ i ps, f.base.plh i = some ps → ps.waiters = [] := by
  have h := hr.inv hq (.new ..)
  have hi := h.reach.inv
  have hidle : ∀ a, f.base.ctl a = .idle := by
    intro a
    by_contra ha
    obtain ⟨act, h1, h2⟩ := h.progress hq ha
    exact h2 (hd act h1)
  have hhold : ∀ i, f.hold i = none := by
    intro i
    cases hh : f.hold i with
    | none => rfl
    | some hd =>
      obtain ⟨a, v, todo⟩ := hd
      obtain ⟨ps, hk⟩ := h.hold i _ hh
      obtain ⟨k, ⟨-, hc⟩ | ⟨-, hc⟩⟩ := hold_ctl hk <;> rw [hidle] at hc <;> cases hc
  refine ⟨hidle, hhold, (h.still hhold).2.2, ?_, ?_, ?_⟩
  · cases hw : f.base.writer with
    | none => rfl
    | some a => have := (hi.lock.wr a).mp hw; simp [hidle a, Ctl.writes] at this
  · cases hl : f.base.readers with
    | nil => rfl
    | cons a l => have := (hi.lock.rd a).mp (by rw [hl]; simp); simp [hidle a, Ctl.reads] at this
  · intro i ps hp
    by_contra hne
    obtain ⟨b, hb⟩ := List.exists_mem_of_ne_nil _ hne
    obtain ⟨k, hc⟩ := (hi.waiter hp hb).1
    rw [hidle] at hc; cases hc

/-- In the example, nobody is left. -/
example : gxFine gxDone = true ∧ (gxRun gxDone).1.base.next = 3 ∧ (gxRun gxDone).1.readers = [] ∧ (gxRun gxDone).1.hold 0 = none :=
  ⟨by decide +kernel, by decide +kernel, by decide +kernel, by decide +kernel⟩

end Props
end QuickCache
