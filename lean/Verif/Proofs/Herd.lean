import Verif.Model.Herd
import Verif.Proofs.ConcFacts
import Verif.Proofs.ConcHistory
import Verif.Proofs.ConcProgress
import Verif.Proofs.Sharded

/-!
# Proofs about the crate's own concurrent tests
-/

namespace QuickCache.Herd
variable {K V RS : Type}
open Conc Spec Shard
open Function (update)

/-! ### Facts about the protocol -/

section
variable [DecidableEq K] {c : Cfg K V RS} {s s' : Conc.State K V} {act : Act K V} {evs : List (Ev K V)}

/-- The agent that acts. -/
def actor : Act K V → Option Nat
  | .begin _ _ | .call _ => none
  | .enter a _ | .find a | .load a _ | .bump a | .tally a | .upsert a | .join a | .startLoading a | .wake a | .poll a _
  | .timeout a | .relock a | .rejoin a | .publish a _ | .store a | .drop a | .lockDrop a | .finishDrop a | .cancel a
  | .abandon a => some a

theorem ctl_others (he : Eff c s act s' evs) {a : Nat} (ha : actor act = some a) :
    (∀ b, b ≠ a → s'.ctl b = s.ctl b) ∧ s'.kind = s.kind ∧ s'.next = s.next := by
  cases he
  case begin => cases ha
  case read => cases ha
  case write => cases ha
  case guard w h =>
    cases ha
    cases w <;> exact ⟨fun b hb => Function.update_of_ne hb .., rfl, rfl⟩
  case pending => exact ⟨fun b hb => rfl, rfl, rfl⟩
  all_goals
    cases ha
    exact ⟨fun b hb => Function.update_of_ne hb .., rfl, rfl⟩

theorem contents_same (he : Eff c s act s' evs) (hi : CInv c s) (h1 : ∀ op, act ≠ .call op) (h2 : ∀ a, act ≠ .store a) :
    s'.shard.contents = s.shard.contents := by
  cases he
  case read => exact absurd rfl (h1 _)
  case write => exact absurd rfl (h1 _)
  case store => exact absurd rfl (h2 _)
  case superseded => exact absurd rfl (h2 _)
  case guard w h => cases w <;> rfl
  all_goals first
    | rfl
    | (rename_i he; exact (he.contents hi.shard).1)

theorem no_calls (he : Eff c s act s' evs) (h1 : ∀ op, act ≠ .call op) {op : Op K V} {out : SOut K V} {log : List (Event K V)} :
    .sect (.call op) out log ∉ evs := by
  intro hm
  cases he
  case read => exact absurd rfl (h1 _)
  case write => exact absurd rfl (h1 _)
  all_goals first
    | (simp only [List.mem_cons, reduceCtorEq, List.not_mem_nil, or_false, false_or, Ev.sect.injEq, false_and] at hm; done)
    | exact absurd hm (not_mem_poll (by simp))
    | (simp only [List.mem_cons, reduceCtorEq, false_or] at hm
       first | exact absurd hm (not_mem_wakes rfl) | exact absurd hm (not_mem_flatWakes rfl))

theorem no_publish (he : Eff c s act s' evs) (h1 : ∀ a v, act ≠ .publish a v) {a : Nat} {p : Plh} {v : V} :
    .published a p v ∉ evs := by
  intro hm
  cases he
  case publish => exact h1 _ _ rfl
  all_goals first
    | (simp only [List.mem_cons, reduceCtorEq, List.not_mem_nil, or_false, false_or] at hm; done)
    | exact absurd hm (not_mem_poll (by simp))
    | (simp only [List.mem_cons, reduceCtorEq, false_or] at hm; exact absurd hm (not_mem_wakes rfl))

/-- A value is published in an action, or was before. -/
theorem inserted_from (he : Eff c s act s' evs) (hi : CInv c s) {i : Nat} {k : K} {p : Plh} {v : V}
    (hc : (s'.plh i).map core = some (k, p, .inserted v)) : (s.plh i).map core = some (k, p, .inserted v) ∨
      ∃ a r, .published a p v ∈ evs ∧ s'.ctl a = .inserting k p v r := by
  cases he.fate i with
  | same h => rw [h] at hc; exact .inl hc
  | began a k' p' hm hp =>
    have := (he.began hi hm).2.1
    rw [hp] at this; rw [this] at hc; cases hc
  | published a p' w hm hp =>
    obtain ⟨k', r, -, h2, -, h4, -⟩ := he.published hm
    have h4 := h4.core
    rw [hp, hc] at h4; cases h4
    exact .inr ⟨a, r, hm, h2⟩
  | dropped a k' p' hm hp =>
    obtain ⟨-, -, -, h4⟩ := he.dropped hm
    have h4 := h4.core
    rw [hp, hc] at h4; cases h4

theorem inserted_back (he : Eff c s act s' evs) (hi : CInv c s) (h1 : ∀ a v, act ≠ .publish a v) {i : Nat} {k : K} {p : Plh} {v : V}
    (hc : (s'.plh i).map core = some (k, p, .inserted v)) : (s.plh i).map core = some (k, p, .inserted v) := by
  rcases inserted_from he hi hc with h | ⟨a, r, h, -⟩
  · exact h
  · exact absurd h (no_publish he h1)

theorem leave_inserting (he : Eff c s act s' evs) (hi : CInv c s) {b : Nat} {k : K} {p : Plh} {v : V} {r : Bool}
    (hb : s.ctl b = .inserting k p v r) : s'.ctl b = .inserting k p v r ∨
      act = .store b ∧ (.insertDone b k p none ∈ evs ∨ ∀ k, ¬ PSlot s.shard k p) := by
  cases ha : actor act with
  | some a =>
    by_cases hab : b = a
    · subst hab
      cases he
      case superseded h hw hr hg =>
        cases ha
        rw [hb] at h; cases h
        exact .inr ⟨rfl, .inr hg⟩
      case store h hw hr hl he =>
        cases ha
        rw [hb] at h; cases h
        exact .inr ⟨rfl, .inl (by simp)⟩
      case read => cases ha
      case write => cases ha
      case begin => cases ha
      all_goals
        cases ha
        rename_i h _
        simp_all
    · rw [(ctl_others he ha).1 b hab]; exact .inl hb
  | none =>
    cases he
    case read => exact .inl hb
    case write => exact .inl hb
    case begin =>
      refine .inl ?_
      have : b ≠ s.next := by
        rintro rfl
        rw [hi.fresh _ (Nat.le_refl _)] at hb; cases hb
      simp only [Function.update_of_ne this]; exact hb
    all_goals cases ha

/-- The one who published the value of a load that is still in the cache has yet to store it. -/
def Followed (c : Cfg K V RS) (s : Conc.State K V) : Prop := ∀ k p v, PLive c s.shard k p →
  (s.plh p.id).map core = some (k, p, .inserted v) → ∃ a r, s.ctl a = .inserting k p v r

theorem followed {target cap gcap : Nat} {tr : List (Ev K V)}
    (hr : Conc.Run c (Conc.State.new (Shard.new target cap gcap)) tr s) (hq : c.ptrEq = true) : Followed c s := by
  refine hr.induct hq (CReach.new c target cap gcap) (P := fun _ s => Followed c s) ?_ ?_ ?_
  · intro k p v _ h; cases h
  · intro tr s m q hre h hm k p v hl hc
    exact h k p v ((PLive.relayout hm).mp hl) hc
  · intro tr s act s' evs hre h he k p v hl hc
    have hi := hre.inv
    rcases inserted_from he hi hc with h1 | ⟨a, r, -, h1⟩
    · rcases (he.live hi k p).mp hl with ⟨h2, -, h3, -⟩ | ⟨a, hm⟩
      · obtain ⟨a, r, ha⟩ := h k p v h2 h1
        rcases leave_inserting he hi ha with h4 | ⟨-, h4 | h4⟩
        · exact ⟨a, r, h4⟩
        · exact absurd h4 (h3 a k)
        · exact absurd h2.1 (h4 k)
      · rw [(he.began hi hm).1] at h1; cases h1
    · exact ⟨a, r, h1⟩

end

/-! ### Callers and agents -/

section
variable [DecidableEq K] [DecidableEq V] {c : Cfg K V RS} {T : Test K V} {s s' : State K V}

/-- Where the agent of a caller is. -/
def Fits (T : Test K V) : Pos → Ctl K V → Prop
  | .asking _, x => (x.calling = true ∨ ∃ k p, x = .guard k p) ∧ x.key = some T.key
  | .holding _ _, x => ∃ p, x = .guard T.key p
  | .spending _, x => ∃ p, (∃ r, x = .inserting T.key p T.good r) ∨ x = .leaving T.key p ∨ x = .dropping T.key p
  | .quitting _, x => ∃ p, x = .waiting T.key p ∨ x = .abandoning T.key p ∨ x = .leaving T.key p ∨ x = .dropping T.key p
  | _, _ => False

/-- Every agent belongs to one caller. -/
structure Link (T : Test K V) (s : State K V) : Prop where
  own : ∀ j a, (s.pos j).agent = some a → Fits T (s.pos j) (s.base.ctl a) ∧ s.base.kind a = T.kind j
  inj : ∀ i j a, (s.pos i).agent = some a → (s.pos j).agent = some a → i = j
  all : ∀ a, s.base.ctl a ≠ .idle → ∃ j, (s.pos j).agent = some a
  lt : ∀ j, s.pos j ≠ .ready → j < T.callers

omit [DecidableEq K] [DecidableEq V] in
theorem kind_get (T : Test K V) (j : Nat) : T.kind j ≠ .get := by
  unfold Test.kind; split <;> simp

omit [DecidableEq K] in
theorem onValue_agent {v : V} {q : Pos} (h : onValue T v = .ok q) : q.agent = none ∧ q ≠ .ready := by
  unfold onValue at h
  split at h
  · cases h; exact ⟨rfl, by simp⟩
  · split at h
    · cases h; exact ⟨rfl, by simp⟩
    · cases h

omit [DecidableEq K] [DecidableEq V] in
theorem onUsed_agent {evs : List (Ev K V)} {q : Pos} (h : onUsed T evs = .ok q) : q.agent = none := by
  unfold onUsed at h
  split at h
  · cases h; rfl
  · split at h <;> cases h; rfl

theorem fits_step {b b' : Conc.State K V} {act : Act K V} {evs : List (Ev K V)} {x q : Pos} {a : Nat}
    (hm : may T x act = true) (ha : x.agent = some a) (hf : Fits T x (b.ctl a)) (hk : b.kind a ≠ .get)
    (he : Eff c b act b' evs) (hn : next T evs (b'.ctl a) x = .ok q) :
    actor act = some a ∧ ((q.agent = some a ∧ Fits T q (b'.ctl a)) ∨ (q.agent = none ∧ b'.ctl a = .idle)) := by
  cases x with
  | asking a1 =>
    cases ha
    cases act <;> simp only [may, Bool.false_eq_true, beq_iff_eq] at hm <;> subst hm <;> refine ⟨rfl, ?_⟩ <;> cases he
    case asking.refl.startLoading.guard k p w h =>
      have e : (if w then (b.go a (.guard k p)).unlockWrite else (b.go a (.guard k p)).unlockRead a).ctl a = .guard k p := by
        cases w <;> simp [State.go, State.unlockWrite, State.unlockRead]
      cases hn
      rw [h] at hf
      rw [e]; exact .inl ⟨rfl, .inr ⟨_, _, rfl⟩, hf.2⟩
    case asking.refl.enter.enter w k hw h =>
      have e : returned (if b.kind a = .task then [Ev.polled a w] else [] : List (Ev K V)) = none := by split <;> rfl
      simp only [next, e] at hn
      cases hn
      rw [h] at hf
      exact .inl ⟨rfl, .inl (by simp [State.go, Ctl.calling]), by simpa [State.go, Ctl.key] using hf.2⟩
    case asking.refl.load.load =>
      cases hn
      rw [‹b.ctl a = .saw _ _ _›] at hf
      refine .inl ⟨rfl, .inl ?_, ?_⟩
      · simp only [State.go, Function.update_self]; split <;> rfl
      · simp only [State.go, Function.update_self]; split <;> exact hf.2
    case asking.refl.tally.miss => exact absurd ‹b.kind a = .get› hk
    case asking.refl.poll.pending w k p h hk1 hf1 =>
      cases hn
      exact .inl ⟨rfl, hf⟩
    case asking.refl.timeout.timeout =>
      cases hn
      exact .inr ⟨rfl, by simp [State.go]⟩
    case asking.refl.tally.hit => exact .inr ⟨(onValue_agent hn).1, by simp [State.go]⟩
    case asking.refl.upsert.found => exact .inr ⟨(onValue_agent hn).1, by simp [State.go]⟩
    case asking.refl.join.late => exact .inr ⟨(onValue_agent hn).1, by simp [State.go, State.unlockWrite]⟩
    case asking.refl.rejoin.received => exact .inr ⟨(onValue_agent hn).1, by simp [State.go, State.unlockRead]⟩
    all_goals
      cases hn
      refine .inl ⟨rfl, .inl ?_, ?_⟩
      · simp only [State.go, State.setPlh, State.unlockWrite, State.unlockRead, Function.update_self, Ctl.calling]
      · simp only [State.go, State.setPlh, State.unlockWrite, State.unlockRead, Function.update_self]
        simp_all [Fits, Ctl.key]
  | holding a1 st =>
    cases ha
    cases st <;> cases act <;> simp only [may, Bool.false_eq_true, beq_iff_eq, Bool.and_eq_true] at hm
    · subst hm
      refine ⟨rfl, ?_⟩
      cases he with
      | drop h =>
        cases hn
        rw [h] at hf
        obtain ⟨p, hp⟩ := hf
        cases hp
        exact .inl ⟨rfl, _, .inr (.inl (Function.update_self ..))⟩
    · obtain ⟨rfl, rfl⟩ := hm
      refine ⟨rfl, ?_⟩
      cases he with
      | publish v h hp hk hh hl =>
        cases hn
        rw [h] at hf
        obtain ⟨p, hp⟩ := hf
        cases hp
        exact .inl ⟨rfl, _, .inl ⟨_, Function.update_self ..⟩⟩
  | spending a1 =>
    cases ha
    cases act <;> simp only [may, Bool.false_eq_true, beq_iff_eq] at hm <;> subst hm <;> refine ⟨rfl, ?_⟩ <;> cases he
    case spending.refl.lockDrop.lockDrop k p hw hr h =>
      simp only [next, State.go, Function.update_self] at hn
      cases hn
      rw [h] at hf
      obtain ⟨p, ⟨r, hp⟩ | hp | hp⟩ := hf <;> cases hp
      exact .inl ⟨rfl, _, .inr (.inr (Function.update_self ..))⟩
    all_goals
      refine .inr ⟨?_, by simp [State.go, State.setPlh, State.notify, State.unlockWrite]⟩
      simp only [next, State.go, State.setPlh, State.notify, State.unlockWrite, Function.update_self] at hn
      exact onUsed_agent hn
  | quitting a1 =>
    cases ha
    cases act <;> simp only [may, Bool.false_eq_true, beq_iff_eq] at hm <;> subst hm <;> refine ⟨rfl, ?_⟩ <;> cases he
    all_goals
      simp only [next, State.go, State.setPlh, State.notify, State.unlockWrite, Function.update_self] at hn ⊢
      cases hn
      first
        | exact .inr ⟨rfl, by simp⟩
        | (refine .inl ⟨rfl, ?_⟩; simp_all [Fits])
  | _ => cases ha

/-! ### The moves -/

/-- What a move does. -/
inductive Does (c : Cfg K V RS) (T : Test K V) (s : State K V) : State K V → Prop
  | ask {j : Nat} {b : Conc.State K V} {evs : List (Ev K V)} (hj : j < T.callers) (hp : s.pos j = .ready)
      (he : Eff c s.base (.begin (T.kind j) T.key) b evs) (hx : exec c s.base (.begin (T.kind j) T.key) = some (.ok (b, evs))) :
      Does c T s { s with base := b, pos := update s.pos j (.asking s.base.next) }
  | step {j a : Nat} {act : Act K V} {b : Conc.State K V} {evs : List (Ev K V)} {q : Pos} (ha : (s.pos j).agent = some a)
      (hm : may T (s.pos j) act = true) (he : Eff c s.base act b evs) (hx : exec c s.base act = some (.ok (b, evs)))
      (hn : next T evs (b.ctl a) (s.pos j) = .ok q) : Does c T s { s with base := b, pos := update s.pos j q }
  | count {j a : Nat} {k : K} {p : Plh} (hp : s.pos j = .asking a) (hc : s.base.ctl a = .guard k p) :
      Does c T s { s with entered := s.entered + 1, pos := update s.pos j (.holding a (T.stores s.entered)) }
  | again {j : Nat} (hp : s.pos j = .sawOther ∨ s.pos j = .gaveUp) : Does c T s { s with pos := update s.pos j .ready }
  | lapse {j a : Nat} {k : K} {p : Plh} (hp : s.pos j = .asking a) (hc : s.base.ctl a = .waiting k p) :
      Does c T s { s with pos := update s.pos j (.quitting a) }
  | meddle {j : Nat} {op : Op K V} {b : Conc.State K V} {evs : List (Ev K V)} {q : Pos} (hT : T.meddles = true)
      (hop : op = .remove T.key ∨ op = .insert T.key T.other) (he : Eff c s.base (.call op) b evs)
      (hx : exec c s.base (.call op) = some (.ok (b, evs)))
      (hp : ((s.pos j = .sawOther ∨ s.pos j = .gaveUp) ∧ q = .ready) ∨
        ∃ a k p, s.pos j = .asking a ∧ s.base.ctl a = .waiting k p ∧ q = .quitting a) :
      Does c T s { s with base := b, pos := update s.pos j q }

omit [DecidableEq K] [DecidableEq V] in
theorem after_ok {o : Outcome K V} {f : Conc.State K V → List (Ev K V) → Res (State K V)} {s' : State K V}
    (h : after o f = some (.ok s')) : ∃ b evs, o = some (.ok (b, evs)) ∧ f b evs = .ok s' := by
  unfold after at h
  split at h
  · cases h
  · cases h
  · rename_i b evs; exact ⟨b, evs, rfl, Option.some.inj h⟩

omit [DecidableEq K] [DecidableEq V] in
theorem after_error {o : Outcome K V} {f : Conc.State K V → List (Ev K V) → Res (State K V)} {p : Panic}
    (h : after o f = some (.error p)) : o = some (.error p) ∨ ∃ b evs, o = some (.ok (b, evs)) ∧ f b evs = .error p := by
  unfold after at h
  split at h
  · cases h
  · cases h; exact .inl rfl
  · rename_i b evs; exact .inr ⟨b, evs, rfl, Option.some.inj h⟩

omit [DecidableEq V] in
theorem optionally_ok {b b' : Conc.State K V} {yes : Bool} {op : Op K V} {evs : List (Ev K V)}
    (h : optionally c T b yes op = some (.ok (b', evs))) :
    b' = b ∨ (T.meddles = true ∧ exec c b (.call op) = some (.ok (b', evs))) := by
  unfold optionally at h
  cases yes with
  | false => cases h; exact .inl rfl
  | true =>
    simp only at h
    split at h
    · rename_i hT; exact .inr ⟨hT, h⟩
    · cases h

omit [DecidableEq V] in
theorem optionally_error {b : Conc.State K V} {yes : Bool} {op : Op K V} {p : Panic}
    (h : optionally c T b yes op = some (.error p)) : T.meddles = true ∧ exec c b (.call op) = some (.error p) := by
  unfold optionally at h
  cases yes with
  | false => cases h
  | true =>
    simp only at h
    split at h
    · rename_i hT; exact ⟨hT, h⟩
    · cases h

theorem does (hi : CInv c s.base) (hq : c.ptrEq = true) {m : Move K V} (hs : step c T s m = some (.ok s')) : Does c T s s' := by
  cases m with
  | ask j =>
    simp only [step] at hs
    split at hs
    · rename_i hj
      obtain ⟨b, evs, h1, h2⟩ := after_ok hs
      cases h2
      exact .ask hj.1 hj.2 (hi.eff hq h1) h1
    · cases hs
  | step j act =>
    simp only [step] at hs
    split at hs
    · cases hs
    · rename_i a ha
      split at hs
      · rename_i hm
        obtain ⟨b, evs, h1, h2⟩ := after_ok hs
        cases hn : next T evs (b.ctl a) (s.pos j) with
        | error e => rw [hn] at h2; cases h2
        | ok q =>
          rw [hn] at h2; cases h2
          exact .step ha hm (hi.eff hq h1) h1 hn
      · cases hs
  | count j =>
    simp only [step] at hs
    split at hs
    · rename_i a hp
      split at hs
      · rename_i k p hc
        cases hs; exact .count hp hc
      · cases hs
    · cases hs
  | meddle j yes =>
    simp only [step] at hs
    split at hs
    · rename_i hp
      obtain ⟨b, evs, h1, h2⟩ := after_ok hs
      cases h2
      rcases optionally_ok h1 with rfl | ⟨hT, h1⟩
      · exact .again (.inl hp)
      · exact .meddle hT (.inl rfl) (hi.eff hq h1) h1 (.inl ⟨.inl hp, rfl⟩)
    · rename_i hp
      obtain ⟨b, evs, h1, h2⟩ := after_ok hs
      cases h2
      rcases optionally_ok h1 with rfl | ⟨hT, h1⟩
      · exact .again (.inr hp)
      · exact .meddle hT (.inr rfl) (hi.eff hq h1) h1 (.inl ⟨.inr hp, rfl⟩)
    · cases hs
  | lapse j yes =>
    simp only [step] at hs
    split at hs
    · rename_i a hp
      split at hs
      · rename_i k p hk hc
        obtain ⟨b, evs, h1, h2⟩ := after_ok hs
        cases h2
        rcases optionally_ok h1 with rfl | ⟨hT, h1⟩
        · exact .lapse hp hc
        · exact .meddle hT (.inr rfl) (hi.eff hq h1) h1 (.inr ⟨a, k, p, hp, hc, rfl⟩)
      · cases hs
    · cases hs

omit [DecidableEq K] in
theorem may_call {x : Pos} {op : Op K V} : may T x (.call op) = false := by
  cases x <;> simp only [may]

/-- The ways in which a move fails: in the cache, or in an assertion of the test. -/
theorem fails (hi : CInv c s.base) (hq : c.ptrEq = true) {m : Move K V} {e : Panic} (hs : step c T s m = some (.error e)) :
    (∃ act, (T.meddles = false → ∀ op, act ≠ .call op) ∧ exec c s.base act = some (.error e)) ∨
    ∃ j a act b evs, (s.pos j).agent = some a ∧ may T (s.pos j) act = true ∧ Eff c s.base act b evs ∧
      next T evs (b.ctl a) (s.pos j) = .error e := by
  cases m with
  | ask j =>
    simp only [step] at hs
    split at hs
    · rcases after_error hs with h1 | ⟨b, evs, h1, h2⟩
      · exact .inl ⟨_, by simp, h1⟩
      · cases h2
    · cases hs
  | step j act =>
    simp only [step] at hs
    split at hs
    · cases hs
    · rename_i a ha
      split at hs
      · rename_i hm
        rcases after_error hs with h1 | ⟨b, evs, h1, h2⟩
        · exact .inl ⟨act, (fun _ op h => by subst h; rw [may_call] at hm; cases hm), h1⟩
        · cases hn : next T evs (b.ctl a) (s.pos j) with
          | error e =>
            rw [hn] at h2; cases h2
            exact .inr ⟨j, a, act, b, evs, ha, hm, hi.eff hq h1, hn⟩
          | ok q => rw [hn] at h2; cases h2
      · cases hs
  | count j =>
    simp only [step] at hs
    split at hs
    · split at hs <;> cases hs
    · cases hs
  | meddle j yes =>
    simp only [step] at hs
    split at hs
    · rcases after_error hs with h1 | ⟨b, evs, h1, h2⟩
      · exact .inl ⟨_, fun hT => absurd (optionally_error h1).1 (by rw [hT]; simp), (optionally_error h1).2⟩
      · cases h2
    · rcases after_error hs with h1 | ⟨b, evs, h1, h2⟩
      · exact .inl ⟨_, fun hT => absurd (optionally_error h1).1 (by rw [hT]; simp), (optionally_error h1).2⟩
      · cases h2
    · cases hs
  | lapse j yes =>
    simp only [step] at hs
    split at hs
    · split at hs
      · rcases after_error hs with h1 | ⟨b, evs, h1, h2⟩
        · exact .inl ⟨_, fun hT => absurd (optionally_error h1).1 (by rw [hT]; simp), (optionally_error h1).2⟩
        · cases h2
      · cases hs
    · cases hs

omit [DecidableEq K] [DecidableEq V] in
/-- Caller `j` goes on; nothing changes for the agents of the others. -/
theorem Link.move (h : Link T s) {j : Nat} {q : Pos} {b : Conc.State K V} {n : Nat} (hj : q ≠ .ready → j < T.callers)
    (hc : ∀ x, (s.pos j).agent ≠ some x → q.agent ≠ some x → b.ctl x = s.base.ctl x)
    (hk : ∀ x, s.base.ctl x ≠ .idle → b.kind x = s.base.kind x)
    (hq : ∀ a, q.agent = some a → Fits T q (b.ctl a) ∧ b.kind a = T.kind j ∧ ∀ i, i ≠ j → (s.pos i).agent ≠ some a)
    (hd : ∀ a, (s.pos j).agent = some a → q.agent = some a ∨ b.ctl a = .idle) :
    Link T { s with base := b, entered := n, pos := update s.pos j q } := by
  have hne : ∀ {x y a}, Fits T (x : Pos) y → y = (.idle : Ctl K V) → (x : Pos).agent = some a → False := by
    intro x y a h1 h2 h3
    subst h2
    cases x <;> simp [Fits, Ctl.calling] at h1 h3
  refine ⟨?_, ?_, ?_, ?_⟩
  · intro i a hi
    by_cases hij : i = j
    · subst hij
      simp only [Function.update_self] at hi ⊢
      exact ⟨(hq a hi).1, (hq a hi).2.1⟩
    · simp only [Function.update_of_ne hij] at hi ⊢
      obtain ⟨h1, h2⟩ := h.own i a hi
      have : b.ctl a = s.base.ctl a := hc a (fun h3 => hij (h.inj _ _ _ hi h3)) (fun h3 => (hq a h3).2.2 i hij hi)
      rw [this]
      exact ⟨h1, (hk a (fun h3 => hne h1 h3 hi)).trans h2⟩
  · intro i i' a hi hi'
    by_cases hij : i = j <;> by_cases hij' : i' = j
    · rw [hij, hij']
    · subst hij
      simp only [Function.update_self, Function.update_of_ne hij'] at hi hi'
      exact absurd hi' ((hq a hi).2.2 i' hij')
    · subst hij'
      simp only [Function.update_self, Function.update_of_ne hij] at hi hi'
      exact absurd hi ((hq a hi').2.2 i hij)
    · simp only [Function.update_of_ne hij, Function.update_of_ne hij'] at hi hi'
      exact h.inj _ _ _ hi hi'
  · intro a ha
    simp only at ha
    by_cases h1 : q.agent = some a
    · exact ⟨j, by simp only [Function.update_self]; exact h1⟩
    · by_cases h2 : (s.pos j).agent = some a
      · rcases hd a h2 with h3 | h3
        · exact absurd h3 h1
        · exact absurd h3 ha
      · rw [hc a h2 h1] at ha
        obtain ⟨i, hi⟩ := h.all a ha
        refine ⟨i, ?_⟩
        have : i ≠ j := by rintro rfl; exact h2 hi
        simp only [Function.update_of_ne this]; exact hi
  · intro i hi
    by_cases hij : i = j
    · subst hij
      simp only [Function.update_self] at hi
      exact hj hi
    · simp only [Function.update_of_ne hij] at hi
      exact h.lt i hi

theorem Link.does (h : Link T s) (hi : CInv c s.base) (hd : Does c T s s') : Link T s' := by
  have busy : ∀ {j x}, s.pos j = x → x ≠ .ready → j < T.callers := fun h1 h2 => h.lt _ (by rw [h1]; exact h2)
  have other : ∀ {j a}, (s.pos j).agent = some a → ∀ i, i ≠ j → (s.pos i).agent ≠ some a :=
    fun h1 i h2 h3 => h2 (h.inj _ _ _ h3 h1)
  cases hd with
  | @ask j b evs hj hp he hx =>
    cases he with
    | begin _ _ hk =>
      have fresh : ∀ i, (s.pos i).agent ≠ some s.base.next := by
        intro i h1
        have h2 := (h.own i _ h1).1
        rw [hi.fresh _ (Nat.le_refl _)] at h2
        cases hx : s.pos i <;> rw [hx] at h1 h2 <;> simp [Fits, Ctl.calling, Pos.agent] at h1 h2
      refine h.move (fun _ => hj) ?_ ?_ ?_ ?_
      · intro x h1 h2
        have : x ≠ s.base.next := fun h3 => h2 (by rw [h3]; rfl)
        simp only [Function.update_of_ne this]
      · intro x h1
        have : x ≠ s.base.next := by rintro rfl; exact h1 (hi.fresh _ (Nat.le_refl _))
        simp only [Function.update_of_ne this]
      · intro a ha
        cases ha
        refine ⟨⟨.inl ?_, ?_⟩, ?_, fun i _ => fresh i⟩ <;> simp [Ctl.calling, Ctl.key]
      · intro a ha; rw [hp] at ha; cases ha
  | @step j a act b evs q ha hm he hx hn =>
    obtain ⟨hf, hk⟩ := h.own j a ha
    obtain ⟨h1, h2⟩ := fits_step hm ha hf (by rw [hk]; exact kind_get T j) he hn
    obtain ⟨h3, h4, h5⟩ := ctl_others he h1
    refine h.move (fun _ => h.lt j (by rintro h6; rw [h6] at ha; cases ha)) ?_ ?_ ?_ ?_
    · intro x h6 h7
      exact h3 x (fun h8 => h6 (by rw [h8]; exact ha))
    · intro x _; rw [h4]
    · intro a' ha'
      rcases h2 with ⟨h6, h7⟩ | ⟨h6, h7⟩
      · rw [h6] at ha'; cases ha'
        exact ⟨h7, by rw [h4]; exact hk, other ha⟩
      · rw [h6] at ha'; cases ha'
    · intro a' ha'
      rw [ha] at ha'; cases ha'
      exact h2.imp (·.1) (·.2)
  | @count j a k p hp hc =>
    have ha : (s.pos j).agent = some a := by rw [hp]; rfl
    obtain ⟨hf, hk⟩ := h.own j a ha
    refine h.move (fun _ => busy hp (by simp)) (fun _ _ _ => rfl) (fun _ _ => rfl) ?_ ?_
    · intro a' ha'
      cases ha'
      rw [hp, hc] at hf
      refine ⟨⟨p, ?_⟩, hk, other ha⟩
      rw [hc]
      have := hf.2
      simp only [Ctl.key, Option.some.injEq] at this
      rw [this]
    · intro a' ha'
      rw [ha] at ha'; cases ha'; exact .inl rfl
  | @again j hp =>
    refine h.move (fun h1 => absurd rfl h1) (fun _ _ _ => rfl) (fun _ _ => rfl) ?_ ?_
    · intro a' ha'; cases ha'
    · intro a' ha'; rcases hp with hp | hp <;> rw [hp] at ha' <;> cases ha'
  | @lapse j a k p hp hc =>
    have ha : (s.pos j).agent = some a := by rw [hp]; rfl
    obtain ⟨hf, hk⟩ := h.own j a ha
    refine h.move (fun _ => busy hp (by simp)) (fun _ _ _ => rfl) (fun _ _ => rfl) ?_ ?_
    · intro a' ha'
      cases ha'
      rw [hp, hc] at hf
      refine ⟨⟨p, .inl ?_⟩, hk, other ha⟩
      rw [hc]
      have := hf.2
      simp only [Ctl.key, Option.some.injEq] at this
      rw [this]
    · intro a' ha'
      rw [ha] at ha'; cases ha'; exact .inl rfl
  | @meddle j op b evs q hT hop he hx hp =>
    have hb : b.ctl = s.base.ctl ∧ b.kind = s.base.kind := by
      cases he <;> exact ⟨rfl, rfl⟩
    rcases hp with ⟨hp, rfl⟩ | ⟨a, k, p, hp, hc, rfl⟩
    · refine h.move (fun h1 => absurd rfl h1) (fun _ _ _ => by rw [hb.1]) (fun _ _ => by rw [hb.2]) ?_ ?_
      · intro a' ha'; cases ha'
      · intro a' ha'; rcases hp with hp | hp <;> rw [hp] at ha' <;> cases ha'
    · have ha : (s.pos j).agent = some a := by rw [hp]; rfl
      obtain ⟨hf, hk⟩ := h.own j a ha
      refine h.move (fun _ => busy hp (by simp)) (fun _ _ _ => by rw [hb.1]) (fun _ _ => by rw [hb.2]) ?_ ?_
      · intro a' ha'
        cases ha'
        rw [hp, hc] at hf
        refine ⟨⟨p, .inl ?_⟩, by rw [hb.2]; exact hk, other ha⟩
        rw [hb.1, hc]
        have := hf.2
        simp only [Ctl.key, Option.some.injEq] at this
        rw [this]
      · intro a' ha'
        rw [ha] at ha'; cases ha'; exact .inl rfl

/-! ### The executions -/

omit [DecidableEq V] in
/-- Storing a value that is not too heavy into an empty cache. -/
theorem store_empty {target cap gcap : Nat} {b b' : Conc.State K V} (hre : CReach c target cap gcap b) (htc : target ≤ cap) {a : Nat}
    {k : K} {p : Plh} {v : V} {r : Bool} {evs : List (Ev K V)} (he : Eff c b (.store a) b' evs)
    (hc : b.ctl a = .inserting k p v r) (hl : PLive c b.shard k p) (hn : ∀ k, b.shard.contents k = none)
    (hw : c.weight k v ≤ target) : refused evs = false ∧ b'.shard.contents = put b.shard.contents k v := by
  cases he with
  | superseded h hw hr hg => rw [hc] at h; cases h; exact absurd hl.1 (hg k)
  | store h hw1 hr hl1 he =>
    rw [hc] at h; cases h
    refine ⟨rfl, ?_⟩
    cases he with
    | filled hl h plh np =>
      have hnot : ¬ (target < c.weight k v ∧ c.pinned k v = false) := by omega
      have hew : enterWeight c target k v = c.weight k v := if_neg hnot
      have hev : enterValue c target k v = v := if_neg hnot
      obtain ⟨st, L, -, -, h3, h4⟩ := h.whole hre.inv.shard.toInv0 hre.reach.target (.inr (by rw [hew]; exact hw))
      have hit : b.shard.iter = [] := by
        rw [List.eq_nil_iff_forall_not_mem]
        rintro ⟨k', v'⟩ hm
        have := ((lists_iter hre.inv.shard.toInv0).2 k' v').mp hm
        rw [hn] at this; cases this
      have h0 : b.shard.weightHot + b.shard.weightCold = 0 := by
        rw [← hre.inv.shard.toInv0.total_iter, hit]; rfl
      have := h4 (by rw [hew, hre.reach.capacity]; omega)
      subst this
      rw [hev] at h3
      exact h3.nil_eq

/-- What holds in all executions. -/
structure Good (c : Cfg K V RS) (T : Test K V) (target cap gcap : Nat) (s : State K V) : Prop where
  run : ∃ tr, Conc.Run c (Conc.State.new (Shard.new target cap gcap)) tr s.base ∧
    (T.meddles = false → ∀ op out log, .sect (.call op) out log ∉ tr)
  link : Link T s
  only : ∀ k, k ≠ T.key → s.base.shard.contents k = none

omit [DecidableEq V] in
theorem Good.reach {target cap gcap : Nat} (h : Good c T target cap gcap s) (hq : c.ptrEq = true) : CReach c target cap gcap s.base := by
  obtain ⟨tr, hr, -⟩ := h.run
  exact hr.reach hq (.new ..)

omit [DecidableEq K] in
theorem may_actor {x : Pos} {act : Act K V} {a : Nat} (hm : may T x act = true) (ha : x.agent = some a) :
    actor act = some a := by
  cases x with
  | asking a1 => cases ha; cases act <;> simp only [may, Bool.false_eq_true, beq_iff_eq] at hm <;> subst hm <;> rfl
  | holding a1 st =>
    cases ha
    cases st <;> cases act <;> simp only [may, Bool.false_eq_true, beq_iff_eq, Bool.and_eq_true] at hm
    · subst hm; rfl
    · obtain ⟨rfl, rfl⟩ := hm; rfl
  | spending a1 => cases ha; cases act <;> simp only [may, Bool.false_eq_true, beq_iff_eq] at hm <;> subst hm <;> rfl
  | quitting a1 => cases ha; cases act <;> simp only [may, Bool.false_eq_true, beq_iff_eq] at hm <;> subst hm <;> rfl
  | _ => cases ha

theorem Good.does {target cap gcap : Nat} (h : Good c T target cap gcap s) (hq : c.ptrEq = true) (hd : Does c T s s') :
    Good c T target cap gcap s' := by
  have hi := (h.reach hq).inv
  have hl := h.link.does hi hd
  obtain ⟨tr, hr, hn⟩ := h.run
  refine ⟨?_, hl, ?_⟩
  · have more : ∀ {act b evs}, exec c s.base act = some (.ok (b, evs)) → (T.meddles = false → ∀ op, act ≠ .call op) →
        ∃ tr, Conc.Run c (Conc.State.new (Shard.new target cap gcap)) tr b ∧
          (T.meddles = false → ∀ op out log, .sect (.call op) out log ∉ tr) := by
      intro act b evs hx hno
      refine ⟨tr ++ evs, hr.act hx, ?_⟩
      intro hT op out log hm
      rcases List.mem_append.mp hm with hm | hm
      · exact hn hT _ _ _ hm
      · exact no_calls (hi.eff hq hx) (hno hT) hm
    cases hd with
    | ask hj hp he hx => exact more hx (by intro _ op; simp)
    | step ha hm he hx hn =>
      refine more hx ?_
      rintro - op rfl
      rw [may_call] at hm; cases hm
    | count => exact ⟨tr, hr, hn⟩
    | again => exact ⟨tr, hr, hn⟩
    | lapse => exact ⟨tr, hr, hn⟩
    | meddle hT hop he hx hp => exact more hx (by intro hT'; rw [hT] at hT'; cases hT')
  · intro k hk
    have h0 := h.only k hk
    cases hd with
    | ask hj hp he hx => rw [contents_same he hi (by simp) (by simp)]; exact h0
    | @step j a act b evs q ha hm he hx hn =>
      by_cases hst : ∃ b, act = .store b
      · obtain ⟨b', rfl⟩ := hst
        have := may_actor hm ha
        cases this
        cases he with
        | superseded h hw hr hg => exact h0
        | store hc hw1 hr hl1 he =>
          have hs := he.contents hi.shard
          simp only [Section.asCall] at hs
          by_contra hne
          have := hs.appears h0 hne
          cases this
          have hf := (h.link.own j a ha).1
          rw [hc] at hf
          cases hx : s.pos j <;> rw [hx] at hf ha <;> simp [Fits, Ctl.calling, Pos.agent] at hf ha
          exact hk hf.1
      · rw [contents_same he hi ?_ (fun a ha => hst ⟨a, ha⟩)]
        · exact h0
        · rintro op rfl
          rw [may_call] at hm; cases hm
    | count => exact h0
    | again => exact h0
    | lapse => exact h0
    | @meddle j op b evs q hT hop he hx hp =>
      have hs : ∃ out log, OpSpec c s.base.shard.weightTargetHot s.base.shard.contents op out log b.shard.contents := by
        cases he with
        | read hop he => exact ⟨_, _, he.contents hi.shard⟩
        | write hop hw hr he => exact ⟨_, _, he.contents hi.shard⟩
      obtain ⟨out, log, hs⟩ := hs
      by_contra hne
      have := hs.appears h0 hne
      rcases hop with rfl | rfl
      · cases this
      · cases this; exact hk rfl

theorem good {target cap gcap : Nat} (hr : Run c T (State.new (Shard.new target cap gcap)) s) (hq : c.ptrEq = true) :
    Good c T target cap gcap s := by
  induction hr with
  | start =>
    refine ⟨⟨[], .start, by simp⟩, ⟨?_, ?_, ?_, ?_⟩, ?_⟩
    · intro j a h; cases h
    · intro i j a h; cases h
    · intro a h; exact absurd rfl h
    · intro j h; exact absurd rfl h
    · intro k _; rfl
  | layout m p hr hm hp ih =>
    obtain ⟨tr, h1, h2⟩ := ih.run
    refine ⟨⟨tr, .layout m p h1 hm hp, h2⟩, ⟨ih.link.own, ih.link.inj, ih.link.all, ih.link.lt⟩, ?_⟩
    intro k hk
    exact ih.only k hk
  | move hr hs ih => exact ih.does hq (does (ih.reach hq).inv hq hs)

/-! ### Asking -/

/-- A call that will return the good value without looking at the cache again. -/
def Doomed (T : Test K V) (b : Conc.State K V) : Ctl K V → Prop
  | .saw _ _ v | .bump _ _ v => v = T.good
  | .tally _ r => r = some T.good
  | .joining _ p | .waiting _ p | .claimed _ p | .rejoining _ p => (b.plh p.id).map core = some (T.key, p, .inserted T.good)
  | _ => False

/-- How a call goes on. -/
inductive Asks (c : Cfg K V RS) (T : Test K V) (b : Conc.State K V) (a : Nat) (b' : Conc.State K V) (evs : List (Ev K V)) : Prop
  | on (hr : returned evs = none) (hd : Doomed T b' (b'.ctl a) → Doomed T b (b.ctl a) ∨ b.shard.contents T.key = some T.good ∨
      ∃ x p r, b.ctl x = .inserting T.key p T.good r)
  | value (v : V) (hr : returned evs = some (some v)) (hv : b.shard.contents T.key = some v ∨
      ∃ p, (b.plh p.id).map core = some (T.key, p, .inserted v))
      (hd : v = T.good → Doomed T b (b.ctl a) ∨ b.shard.contents T.key = some T.good)
  | timeout (hr : returned evs = some none)

theorem asks {b b' : Conc.State K V} {act : Act K V} {evs : List (Ev K V)} {a : Nat} (hi : CInv c b) (hfo : Followed c b)
    (hm : may T (.asking a) act = true) (hf : Fits T (.asking a) (b.ctl a)) (hk : b.kind a ≠ .get)
    (he : Eff c b act b' evs) : Asks c T b a b' evs := by
  have hkey := hf.2
  cases act <;> simp only [may, Bool.false_eq_true, beq_iff_eq] at hm <;> subst hm <;> cases he
  case startLoading.guard w h =>
    refine .on rfl (fun h => absurd h ?_)
    cases w <;> simp [State.go, State.unlockWrite, State.unlockRead, Doomed]
  case enter.enter =>
    refine .on (by split <;> rfl) (fun h => absurd h ?_)
    simp [State.go, Doomed]
  case find.located =>
    refine .on rfl (fun h => .inr (.inl ?_))
    simp only [State.go, Function.update_self, Doomed] at h
    have hc := ‹b.ctl a = .seek _›
    rw [hc] at hkey
    cases hkey
    exact hi.shard.toInv0.contents_slot.mpr ⟨_, _, ‹b.shard.entries.item _ = some (.resident _)›, by assumption, h⟩
  case find.absent => exact .on rfl (fun h => absurd h (by simp [State.go, Doomed]))
  case load.load =>
    have hc := ‹b.ctl a = .saw _ _ _›
    refine .on rfl (fun h => .inl ?_)
    rw [hc]
    simp only [State.go, Function.update_self] at h
    split at h
    · exact h
    · simpa [Doomed] using h
  case bump.bump =>
    have hc := ‹b.ctl a = .bump _ _ _›
    refine .on rfl (fun h => .inl ?_)
    rw [hc]
    simpa [State.go, Doomed] using h
  case tally.hit v _ _ _ =>
    have hc := ‹b.ctl a = .tally _ _›
    have hA := hi.at hc
    rw [hc] at hkey
    cases hkey
    refine .value v rfl (.inl hA) (fun h => .inr ?_)
    rw [← h]; exact hA
  case tally.miss => exact absurd ‹b.kind a = .get› hk
  case tally.goOn => exact .on rfl (fun h => absurd h (by simp [State.go, Doomed]))
  case upsert.found he _ =>
    have hc := ‹b.ctl a = .created _›
    rw [hc] at hkey
    cases hkey
    cases he with
    | found t r hk wrote =>
      have := hi.shard.toInv0.contents_slot.mpr ⟨t, r, wrote.upd.before, hk, rfl⟩
      refine .value _ rfl (.inl this) (fun h => .inr ?_)
      rw [← h]; exact this
  case upsert.created => exact .on rfl (fun h => absurd h (by simp [State.go, Doomed]))
  case upsert.joining he _ =>
    have hc := ‹b.ctl a = .created _›
    rw [hc] at hkey
    cases hkey
    refine .on rfl (fun h => .inr (.inr ?_))
    simp only [State.go, Function.update_self, Doomed] at h
    cases he with
    | joined hp hl =>
      obtain ⟨x, r, hx⟩ := hfo _ _ _ hl h
      exact ⟨x, _, r, hx⟩
  case join.enlist =>
    refine .on rfl (fun h => absurd h ?_)
    simp_all [State.go, State.setPlh, State.unlockWrite, Doomed, core]
  case join.late v _ _ _ _ _ =>
    have hc := ‹b.ctl a = .joining _ _›
    rw [hc] at hkey
    cases hkey
    have hcore : (b.plh _).map core = some (T.key, _, .inserted v) := At.core ⟨_, by assumption, by assumption, by assumption, by assumption⟩
    refine .value v rfl (.inr ⟨_, hcore⟩) (fun h => .inl ?_)
    rw [hc]; subst h; exact hcore
  case wake.wake =>
    refine .on rfl (fun h => .inl ?_)
    rw [‹b.ctl a = .waiting _ _›]
    simpa [State.go, Doomed] using h
  case poll.claim =>
    refine .on rfl (fun h => .inl ?_)
    rw [‹b.ctl a = .waiting _ _›]
    simpa [State.go, Doomed] using h
  case poll.pending => exact .on rfl (fun h => .inl h)
  case timeout.timely =>
    refine .on rfl (fun h => .inl ?_)
    rw [‹b.ctl a = .waiting _ _›]
    simpa [State.go, Doomed] using h
  case timeout.timeout => exact .timeout rfl
  case relock.relock =>
    refine .on rfl (fun h => .inl ?_)
    rw [‹b.ctl a = .claimed _ _›]
    simpa [State.go, Doomed] using h
  case rejoin.retry => exact .on rfl (fun h => absurd h (by simp [State.go, Doomed]))
  case rejoin.received v _ _ _ _ _ =>
    have hc := ‹b.ctl a = .rejoining _ _›
    rw [hc] at hkey
    cases hkey
    have hcore : (b.plh _).map core = some (T.key, _, .inserted v) := At.core ⟨_, by assumption, by assumption, by assumption, by assumption⟩
    refine .value v rfl (.inr ⟨_, hcore⟩) (fun h => .inl ?_)
    rw [hc]; subst h; exact hcore

/-! ### The test that meddles -/

/-- A caller that has not finished, and will look at the cache again before it does. -/
def Active (T : Test K V) (s : State K V) (j : Nat) : Prop :=
  j < T.callers ∧ s.pos j ≠ .done ∧ ∀ a, s.pos j = .asking a → ¬ Doomed T s.base (s.base.ctl a)

/-- The good value is there, or somebody goes on. -/
def Settles (T : Test K V) (s : State K V) : Prop := s.base.shard.contents T.key = some T.good ∨ ∃ j, Active T s j

omit [DecidableEq V] in
theorem active_of {j : Nat} {b : Conc.State K V} {n : Nat} {q : Pos} (hj : j < T.callers) (hd : q ≠ .done)
    (ha : ∀ a, q ≠ .asking a) : Settles T { s with base := b, entered := n, pos := update s.pos j q } := by
  refine .inr ⟨j, hj, ?_, ?_⟩
  · simp only [Function.update_self]; exact hd
  · intro a h
    simp only [Function.update_self] at h
    exact absurd h (ha a)

theorem Settles.does {target cap gcap : Nat} (h : Settles T s) (hg : Good c T target cap gcap s) (hq : c.ptrEq = true)
    (hT : T.meddles = true) (hd : Does c T s s') : Settles T s' := by
  have hi := (hg.reach hq).inv
  have busy : ∀ {j x}, s.pos j = x → x ≠ .ready → j < T.callers := fun h1 h2 => hg.link.lt _ (by rw [h1]; exact h2)
  cases hd with
  | @ask j b evs hj hp he hx =>
    refine .inr ⟨j, hj, ?_, ?_⟩
    · simp
    · intro a ha
      simp only [Function.update_self, Pos.asking.injEq] at ha
      subst ha
      cases he with
      | begin _ _ hk => simp [Doomed]
  | @count j a k p hp hc => exact active_of (busy hp (by simp)) (by simp) (by simp)
  | @again j hp =>
    have hj : j < T.callers := hp.elim (fun hp => busy hp (by simp)) (fun hp => busy hp (by simp))
    exact active_of hj (by simp) (by simp)
  | @lapse j a k p hp hc => exact active_of (busy hp (by simp)) (by simp) (by simp)
  | @meddle j op b evs q hT hop he hx hp =>
    rcases hp with ⟨hp, rfl⟩ | ⟨a, k, p, hp, hc, rfl⟩
    · have hj : j < T.callers := hp.elim (fun hp => busy hp (by simp)) (fun hp => busy hp (by simp))
      exact active_of hj (by simp) (by simp)
    · exact active_of (busy hp (by simp)) (by simp) (by simp)
  | @step j a act b evs q ha hm he hx hn =>
    have hj : j < T.callers := hg.link.lt j (by rintro h1; rw [h1] at ha; cases ha)
    cases hp : s.pos j with
    | asking a1 =>
      rw [hp] at ha hm hn
      cases ha
      obtain ⟨hf, hk⟩ := hg.link.own j a (by rw [hp]; rfl)
      rw [hp] at hf
      obtain ⟨tr, hr, -⟩ := hg.run
      have hA := asks hi (followed hr hq) hm hf (by rw [hk]; exact kind_get T j) he
      have hcon : b.shard.contents = s.base.shard.contents := by
        refine contents_same he hi ?_ ?_
        · rintro op rfl; rw [may_call] at hm; cases hm
        · rintro x rfl; simp [may] at hm
      have hpub : ∀ x v, act ≠ .publish x v := by rintro x v rfl; simp [may] at hm
      obtain ⟨h3, -, -⟩ := ctl_others he (may_actor hm rfl)
      rcases h with h | ⟨i, h⟩
      · left; simp only; rw [hcon]; exact h
      · by_cases hij : i = j
        · subst hij
          have hnd := h.2.2 a hp
          cases hA with
          | on hr hd =>
            simp only [next, hr] at hn
            cases hn
            by_cases hdo : Doomed T b (b.ctl a)
            · rcases hd hdo with h4 | h4 | ⟨x, p, r, hx⟩
              · exact absurd h4 hnd
              · left; simp only; rw [hcon]; exact h4
              · obtain ⟨j', hj'⟩ := hg.link.all x (by rw [hx]; simp)
                have hf' := (hg.link.own j' x hj').1
                rw [hx] at hf'
                cases hp' : s.pos j' <;> rw [hp'] at hf' hj' <;> simp [Fits, Ctl.calling, Pos.agent] at hf' hj'
                have hne : j' ≠ i := by rintro rfl; rw [hp] at hp'; cases hp'
                refine .inr ⟨j', busy hp' (by simp), ?_, ?_⟩
                · simp only [Function.update_of_ne hne, hp']; simp
                · intro a' ha'; simp only [Function.update_of_ne hne, hp'] at ha'; cases ha'
            · refine .inr ⟨i, hj, by simp, ?_⟩
              intro a' ha'
              simp only [Function.update_self, Pos.asking.injEq] at ha'
              subst ha'
              exact hdo
          | value v hr hv hd =>
            simp only [next, hr, onValue, hT, if_true] at hn
            split at hn
            · rename_i hv
              rcases hd hv with h4 | h4
              · exact absurd h4 hnd
              · left; simp only; rw [hcon]; exact h4
            · cases hn
              exact active_of hj (by simp) (by simp)
          | timeout hr =>
            simp only [next, hr] at hn
            cases hn
            exact active_of hj (by simp) (by simp)
        · refine .inr ⟨i, h.1, ?_, ?_⟩
          · simp only [Function.update_of_ne hij]; exact h.2.1
          · intro a' ha'
            simp only [Function.update_of_ne hij] at ha' ⊢
            have hne : a' ≠ a := by
              rintro rfl
              exact hij (hg.link.inj i j a' (by rw [ha']; rfl) (by rw [hp]; rfl))
            have h1 := h.2.2 a' ha'
            rw [h3 a' hne]
            intro h2
            apply h1
            cases hc : s.base.ctl a' <;> rw [hc] at h2 <;> first
              | exact h2
              | exact inserted_back he hi hpub h2
    | holding a1 st =>
      rw [hp] at hn
      cases hn
      exact active_of hj (by simp) (by simp)
    | spending a1 =>
      rw [hp] at hn
      simp only [next, onUsed, hT, if_true] at hn
      split at hn <;> cases hn <;> exact active_of hj (by simp) (by simp)
    | quitting a1 =>
      rw [hp] at hn
      simp only [next] at hn
      split at hn <;> cases hn <;> exact active_of hj (by simp) (by simp)
    | _ => rw [hp] at ha; cases ha

theorem settles {target cap gcap : Nat} (hr : Run c T (State.new (Shard.new target cap gcap)) s) (hq : c.ptrEq = true)
    (hT : T.meddles = true) (hn : 0 < T.callers) : Settles T s := by
  induction hr with
  | start => exact .inr ⟨0, hn, by simp [State.new], by simp [State.new]⟩
  | layout m p hr hm hp ih => exact ih
  | move hr hs ih =>
    have hg := good hr hq
    exact ih.does hg hq hT (does (hg.reach hq).inv hq hs)

/-! ### The tests that do not meddle -/

/-- The caller has had its guard, or is done. -/
def Pos.late : Pos → Bool
  | .holding _ _ | .spending _ | .done => true
  | _ => false

/-- The number of callers that have had a guard or are done. -/
def lates (T : Test K V) (s : State K V) : Nat := ((Finset.range T.callers).filter (fun j => (s.pos j).late = true)).card

omit [DecidableEq K] [DecidableEq V] in
theorem lates_le {j : Nat} {q : Pos} {b : Conc.State K V} {n : Nat} (hq : q.late = true → (s.pos j).late = true) :
    lates T { s with base := b, entered := n, pos := update s.pos j q } ≤ lates T s := by
  refine Finset.card_le_card ?_
  intro i hi
  simp only [Finset.mem_filter] at hi ⊢
  refine ⟨hi.1, ?_⟩
  by_cases hij : i = j
  · subst hij; simp only [Function.update_self] at hi; exact hq hi.2
  · simp only [Function.update_of_ne hij] at hi; exact hi.2

omit [DecidableEq K] [DecidableEq V] in
theorem lates_succ {j : Nat} {q : Pos} {b : Conc.State K V} {n : Nat} :
    lates T { s with base := b, entered := n, pos := update s.pos j q } ≤ lates T s + 1 := by
  refine (Finset.card_le_card (t := insert j ((Finset.range T.callers).filter (fun j => (s.pos j).late = true))) ?_).trans
    (Finset.card_insert_le _ _)
  intro i hi
  simp only [Finset.mem_filter, Finset.mem_insert] at hi ⊢
  by_cases hij : i = j
  · exact .inl hij
  · simp only [Function.update_of_ne hij] at hi; exact .inr hi

/-- The value is on its way, or has arrived. -/
def Coming (T : Test K V) (s : State K V) : Prop :=
  ((∃ j a, s.pos j = .holding a true) ∧ s.base.shard.contents T.key = none) ∨
  ((∃ a p r, s.base.ctl a = .inserting T.key p T.good r) ∧ s.base.shard.contents T.key = none) ∨
  s.base.shard.contents T.key = some T.good

/-- Before and after the one who provides the value. -/
inductive Phase (T : Test K V) (solve : Nat) (s : State K V) : Prop
  | before (he : s.entered ≤ solve) (hc : s.base.shard.contents T.key = none)
      (hv : ∀ i k p v, (s.base.plh i).map core ≠ some (k, p, .inserted v)) (hh : ∀ j a, s.pos j ≠ .holding a true)
      (hn : lates T s ≤ s.entered)
  | after (he : s.entered = solve + 1) (hv : ∀ i k p v, (s.base.plh i).map core = some (k, p, .inserted v) → v = T.good)
      (hc : Coming T s)

omit [DecidableEq V] in
/-- Without calls in between no load is superseded. -/
theorem Good.live {target cap gcap : Nat} (h : Good c T target cap gcap s) (hq : c.ptrEq = true) (hT : T.meddles = false) {a : Nat}
    {k : K} {p : Plh} (ha : Loads s.base a k p) : PLive c s.base.shard k p := by
  obtain ⟨tr, hr, hn⟩ := h.run
  rcases hr.loads hq ha with h1 | ⟨t1, x, t2, e, h1, h2, h3⟩
  · exact h1
  · have hm : e ∈ tr := by rw [h1]; exact List.mem_append_right _ (List.mem_cons_of_mem _ h2)
    cases h3 <;> exact absurd hm (hn hT _ _ _)

omit [DecidableEq K] [DecidableEq V] in
theorem refused_mem {evs : List (Ev K V)} (h : refused evs = true) : ∃ a k p v, .insertDone a k p (some v) ∈ evs := by
  unfold refused at h
  obtain ⟨e, h1, h2⟩ := List.any_eq_true.mp h
  split at h2
  · exact ⟨_, _, _, _, h1⟩
  · cases h2

omit [DecidableEq V] in
/-- `guard.insert` succeeds. -/
theorem Good.unrefused {target cap gcap : Nat} (h : Good c T target cap gcap s) (hq : c.ptrEq = true) (hT : T.meddles = false)
    {act : Act K V} {b : Conc.State K V} {evs : List (Ev K V)} (he : Eff c s.base act b evs) : refused evs = false := by
  by_contra hne
  obtain ⟨a, k, p, v, hm⟩ := refused_mem (by simpa using hne)
  obtain ⟨w, r, h1, -, ⟨-, -, h2⟩ | ⟨h2, -⟩⟩ := he.insertDone hm
  · exact h2 k (h.live hq hT (.inserting w r h1)).1
  · cases h2

omit [DecidableEq V] in
/-- The value that a call returns. -/
theorem Phase.value {solve : Nat} (h : Phase T solve s) {v : V} (hv : s.base.shard.contents T.key = some v ∨
      ∃ p, (s.base.plh p.id).map core = some (T.key, p, .inserted v)) : s.entered = solve + 1 ∧ v = T.good := by
  cases h with
  | before he hc hv' hh hn =>
    rcases hv with hv | ⟨p, hv⟩
    · rw [hc] at hv; cases hv
    · exact absurd hv (hv' _ _ _ _)
  | after he hv' hc =>
    refine ⟨he, ?_⟩
    rcases hv with hv | ⟨p, hv⟩
    · rcases hc with ⟨-, h1⟩ | ⟨-, h1⟩ | h1
      · rw [h1] at hv; cases hv
      · rw [h1] at hv; cases hv
      · rw [h1] at hv; cases hv; rfl
    · exact hv' _ _ _ _ hv

omit [DecidableEq V] in
/-- A move that neither publishes nor stores. -/
theorem Phase.quiet {solve : Nat} (h : Phase T solve s) {j : Nat} {q : Pos} {b : Conc.State K V} {act : Act K V}
    {evs : List (Ev K V)} (hi : CInv c s.base) (he : Eff c s.base act b evs) (h1 : ∀ op, act ≠ .call op) (h2 : ∀ a, act ≠ .store a)
    (h3 : ∀ a v, act ≠ .publish a v) (hs : ∀ a, s.pos j ≠ .holding a true) (hh : ∀ a, q ≠ .holding a true)
    (hl : q.late = true → (s.pos j).late = true ∨ s.entered = solve + 1) :
    Phase T solve { s with base := b, pos := update s.pos j q } := by
  have hcon := contents_same he hi h1 h2
  cases h with
  | before hle hc hv hh' hn =>
    refine .before hle (by simp only; rw [hcon]; exact hc) (fun i k p v hx => hv i k p v (inserted_back he hi h3 hx)) ?_ ?_
    · intro i a hx
      by_cases hij : i = j
      · subst hij; simp only [Function.update_self] at hx; exact hh a hx
      · simp only [Function.update_of_ne hij] at hx; exact hh' i a hx
    · refine (lates_le (fun hx => ?_)).trans hn
      rcases hl hx with hx | hx
      · exact hx
      · omega
  | after hle hv hc =>
    refine .after hle (fun i k p v hx => hv i k p v (inserted_back he hi h3 hx)) ?_
    unfold Coming
    simp only
    rw [hcon]
    rcases hc with ⟨⟨i, a, hx⟩, hy⟩ | ⟨⟨a, p, r, hx⟩, hy⟩ | hy
    · refine .inl ⟨⟨i, a, ?_⟩, hy⟩
      have : i ≠ j := by rintro rfl; exact hs a hx
      simp only [Function.update_of_ne this]; exact hx
    · refine .inr (.inl ⟨⟨a, p, r, ?_⟩, hy⟩)
      rcases leave_inserting he hi hx with hz | ⟨hz, -⟩
      · exact hz
      · exact absurd hz (h2 a)
    · exact .inr (.inr hy)

omit [DecidableEq V] in
/-- A move that is none of the cache. -/
theorem Phase.still {solve : Nat} (h : Phase T solve s) {j : Nat} {q : Pos} (hs : ∀ a, s.pos j ≠ .holding a true)
    (hh : ∀ a, q ≠ .holding a true) (hl : q.late = false) : Phase T solve { s with pos := update s.pos j q } := by
  cases h with
  | before hle hc hv hh' hn =>
    refine .before hle hc hv ?_ ((lates_le (fun hx => by rw [hl] at hx; cases hx)).trans hn)
    intro i a hx
    by_cases hij : i = j
    · subst hij; simp only [Function.update_self] at hx; exact hh a hx
    · simp only [Function.update_of_ne hij] at hx; exact hh' i a hx
  | after hle hv hc =>
    refine .after hle hv ?_
    rcases hc with ⟨⟨i, a, hx⟩, hy⟩ | hc
    · refine .inl ⟨⟨i, a, ?_⟩, hy⟩
      have : i ≠ j := by rintro rfl; exact hs a hx
      simp only [Function.update_of_ne this]; exact hx
    · exact .inr hc

theorem Phase.does {target cap gcap solve : Nat} (h : Phase T solve s) (hg : Good c T target cap gcap s) (hq : c.ptrEq = true)
    (hT : T.meddles = false) (hS : ∀ n, T.stores n = true ↔ n = solve) (hw : c.weight T.key T.good ≤ target) (htc : target ≤ cap)
    (hd : Does c T s s') : Phase T solve s' := by
  have hi := (hg.reach hq).inv
  have hi0 := hi.shard.toInv0
  cases hd with
  | @ask j b evs hj hp he hx =>
    exact h.quiet hi he (by simp) (by simp) (by simp) (by rw [hp]; simp) (by simp) (by simp [Pos.late])
  | @again j hp =>
    refine h.still ?_ (by simp) rfl
    rcases hp with hp | hp <;> rw [hp] <;> simp
  | @lapse j a k p hp hc => exact h.still (by rw [hp]; simp) (by simp) rfl
  | @meddle j op b evs q hT' hop he hx hp => rw [hT] at hT'; cases hT'
  | @count j a k p hp hc =>
    have hk : k = T.key := by
      have := (hg.link.own j a (by rw [hp]; rfl)).1
      rw [hp, hc] at this
      simpa [Ctl.key] using this.2
    subst hk
    have hload : Loads s.base a T.key p := .guard hc
    have hlive := hg.live hq hT hload
    have hnone : s.base.shard.contents T.key = none := hi0.contents_none.mpr (hlive.noRes hi0)
    cases h with
    | before hle hc' hv hh hn =>
      by_cases hlt : s.entered = solve
      · refine .after (by simp only; omega) (fun i k p v hx => absurd hx (hv i k p v)) (.inl ⟨⟨j, a, ?_⟩, hnone⟩)
        simp only [Function.update_self]
        rw [(hS _).mpr hlt]
      · have hf : T.stores s.entered = false := by
          cases hb : T.stores s.entered with
          | false => rfl
          | true => exact absurd ((hS _).mp hb) hlt
        refine .before (by simp only; omega) hnone hv ?_ ?_
        · intro i a' hx
          by_cases hij : i = j
          · subst hij; simp only [Function.update_self, hf, Pos.holding.injEq] at hx; cases hx.2
          · simp only [Function.update_of_ne hij] at hx; exact hh i a' hx
        · exact lates_succ.trans (by simp only; omega)
    | after hle hv hcm =>
      exfalso
      obtain ⟨tr, hr, -⟩ := hg.run
      rcases hcm with ⟨⟨i, a', hx⟩, -⟩ | ⟨⟨a', p', r, hx⟩, -⟩ | hx
      · obtain ⟨p', hc'⟩ : ∃ p, s.base.ctl a' = .guard T.key p := by
          have := (hg.link.own i a' (by rw [hx]; rfl)).1
          rw [hx] at this; exact this
        have hload' : Loads s.base a' T.key p' := .guard hc'
        have := (hg.live hq hT hload').uniq hi0 hlive
        subst this
        have := hr.loads_one hq hload hload'
        subst this
        have := hg.link.inj i j a (by rw [hx]; rfl) (by rw [hp]; rfl)
        subst this
        rw [hp] at hx; cases hx
      · have hload' : Loads s.base a' T.key p' := .inserting _ _ hx
        have := (hg.live hq hT hload').uniq hi0 hlive
        subst this
        have := hr.loads_one hq hload hload'
        subst this
        rw [hc] at hx; cases hx
      · rw [hnone] at hx; cases hx
  | @step j a act b evs q ha hm he hx hn =>
    have hcall : ∀ op, act ≠ .call op := by rintro op rfl; rw [may_call] at hm; cases hm
    cases hp : s.pos j with
    | asking a1 =>
      rw [hp] at ha hm hn
      cases ha
      obtain ⟨hf, hk⟩ := hg.link.own j a (by rw [hp]; rfl)
      rw [hp] at hf
      obtain ⟨tr, hr, -⟩ := hg.run
      have hA := asks hi (followed hr hq) hm hf (by rw [hk]; exact kind_get T j) he
      have hst : ∀ x, act ≠ .store x := by rintro x rfl; simp [may] at hm
      have hpub : ∀ x v, act ≠ .publish x v := by rintro x v rfl; simp [may] at hm
      refine h.quiet hi he hcall hst hpub (by rw [hp]; simp) ?_ ?_
      · rintro x rfl
        cases hA with
        | on hr hd => simp only [next, hr] at hn; cases hn
        | value v hr hv hd => simp only [next, hr] at hn; exact absurd (onValue_agent hn).1 (by simp [Pos.agent])
        | timeout hr => simp only [next, hr] at hn; cases hn
      · intro hl
        cases hA with
        | on hr hd => simp only [next, hr] at hn; cases hn; cases hl
        | value v hr hv hd => exact .inr (h.value hv).1
        | timeout hr => simp only [next, hr] at hn; cases hn; cases hl
    | holding a1 st =>
      rw [hp] at ha hm hn
      cases ha
      cases hn
      cases st with
      | false =>
        refine h.quiet hi he hcall ?_ ?_ (by rw [hp]; simp) (by simp) (fun _ => .inl (by rw [hp]; rfl))
        · rintro x rfl; simp [may] at hm
        · rintro x v rfl; simp [may] at hm
      | true =>
        cases h with
        | before hle hc hv hh hn => exact absurd hp (hh j a)
        | after hle hv hc =>
          cases act <;> simp only [may, Bool.false_eq_true, beq_iff_eq, Bool.and_eq_true] at hm
          obtain ⟨rfl, rfl⟩ := hm
          have hcon := contents_same he hi (by simp) (by simp)
          cases he with
          | publish v h hp' hk hh hl =>
            have hf := (hg.link.own j a (by rw [hp]; rfl)).1
            rw [hp, h] at hf
            obtain ⟨p', hf⟩ := hf
            cases hf
            refine .after hle ?_ ?_
            · intro i k p v hx
              simp only [State.go, State.setPlh, Function.update_apply] at hx
              split at hx
              · simp only [Option.map_some, core, Option.some.injEq, Prod.mk.injEq, Loading.inserted.injEq] at hx
                exact hx.2.2.symm
              · exact hv i k p v hx
            · have hcase : s.base.shard.contents T.key = none ∨ s.base.shard.contents T.key = some T.good := by
                rcases hc with ⟨-, h1⟩ | ⟨-, h1⟩ | h1
                · exact .inl h1
                · exact .inl h1
                · exact .inr h1
              rcases hcase with h1 | h1
              · exact .inr (.inl ⟨⟨a, _, _, Function.update_self ..⟩, h1⟩)
              · exact .inr (.inr h1)
    | spending a1 =>
      rw [hp] at ha hm
      cases ha
      have hlate : (s.pos j).late = true := by rw [hp]; rfl
      have hqh : ∀ x, q ≠ .holding x true := by
        rintro x rfl
        rw [hp] at hn
        simp only [next, onUsed, hT, hg.unrefused hq hT he] at hn
        split at hn <;> cases hn
      by_cases hst : ∃ x, act = .store x
      · obtain ⟨x, rfl⟩ := hst
        have := may_actor hm rfl
        cases this
        have hf := (hg.link.own j a (by rw [hp]; rfl)).1
        rw [hp] at hf
        obtain ⟨p, ⟨r, hf⟩ | hf | hf⟩ := hf
        · have hlive := hg.live hq hT (.inserting _ _ hf)
          have hnone : s.base.shard.contents T.key = none := hi0.contents_none.mpr (hlive.noRes hi0)
          obtain ⟨-, hs⟩ := store_empty (hg.reach hq) htc he hf hlive
            (fun k => by by_cases hk : k = T.key; (· rw [hk]; exact hnone); exact hg.only k hk) hw
          have hAt := (hi.at hf : AOK c s.base.shard s.base.plh (.inserting T.key p T.good r))
          have hAt : (s.base.plh p.id).map core = some (T.key, p, .inserted T.good) := At.core hAt
          cases h with
          | before hle hc hv hh hn => exact absurd hAt (hv _ _ _ _)
          | after hle hv hc =>
            refine .after hle (fun i k p v hx => hv i k p v (inserted_back he hi (by simp) hx)) (.inr (.inr ?_))
            simp only
            rw [hs]
            simp [put]
        · cases he with
          | superseded h hw hr hg => rw [hf] at h; cases h
          | store h hw hr hl he => rw [hf] at h; cases h
        · cases he with
          | superseded h hw hr hg => rw [hf] at h; cases h
          | store h hw hr hl he => rw [hf] at h; cases h
      · refine h.quiet hi he hcall (fun x hx => hst ⟨x, hx⟩) ?_ (by rw [hp]; simp) hqh (fun _ => .inl hlate)
        rintro x v rfl; simp [may] at hm
    | quitting a1 =>
      rw [hp] at ha hm hn
      cases ha
      have hql : q.late = false ∧ ∀ x, q ≠ .holding x true := by
        simp only [next] at hn
        split at hn <;> cases hn <;> exact ⟨rfl, by simp⟩
      refine h.quiet hi he hcall ?_ ?_ (by rw [hp]; simp) hql.2 (fun hx => by rw [hql.1] at hx; cases hx)
      · rintro x rfl; simp [may] at hm
      · rintro x v rfl; simp [may] at hm
    | _ => rw [hp] at ha; cases ha

theorem phase {target cap gcap solve : Nat} (hr : Run c T (State.new (Shard.new target cap gcap)) s) (hq : c.ptrEq = true)
    (hT : T.meddles = false) (hS : ∀ n, T.stores n = true ↔ n = solve) (hw : c.weight T.key T.good ≤ target) (htc : target ≤ cap) :
    Phase T solve s := by
  induction hr with
  | start =>
    refine .before (Nat.zero_le _) rfl ?_ ?_ ?_
    · intro i k p v h; cases h
    · intro j a h; cases h
    · simp [lates, State.new, Pos.late]
  | layout m p hr hm hp ih =>
    cases ih with
    | before he hc hv hh hn => exact .before he hc hv hh hn
    | after he hv hc => exact .after he hv hc
  | move hr hs ih =>
    have hg := good hr hq
    exact ih.does hg hq hT hS hw htc (does (hg.reach hq).inv hq hs)

end
end QuickCache.Herd
