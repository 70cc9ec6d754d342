import Verif.Proofs.ConcHistory

/-!
# Progress of the concurrent protocol
-/

set_option linter.unusedSimpArgs false

namespace QuickCache.Conc
variable {K V RS : Type}
open Shard Unsync Spec
open Function (update)

/-- The number of actions an agent can still take. -/
def rank : Ctl K V → Nat
  | .idle => 0
  | .start _ => 14
  | .seek _ => 13
  | .saw _ _ _ => 12
  | .bump _ _ _ => 11
  | .tally _ _ => 10
  | .created _ => 9
  | .joining _ _ => 8
  | .waiting _ _ => 7
  | .claimed _ _ => 6
  | .rejoining _ _ => 5
  | .starting _ _ _ => 4
  | .abandoning _ _ => 3
  | .guard _ _ => 3
  | .inserting _ _ _ _ => 1
  | .leaving _ _ => 2
  | .dropping _ _ => 1

/-- The sum over the agents so far. -/
def work (s : State K V) : Nat := ((List.range s.next).map (fun a => rank (s.ctl a))).sum

theorem sum_update_lt {f : Nat → Nat} {a x : Nat} (hx : x < f a) {n : Nat} (ha : a < n) :
    ((List.range n).map (update f a x)).sum + 1 ≤ ((List.range n).map f).sum := by
  induction n with
  | zero => omega
  | succ n ih =>
    rw [List.range_succ, List.map_append, List.map_append, List.sum_append, List.sum_append]
    simp only [List.map_cons, List.map_nil, List.sum_cons, List.sum_nil, Nat.add_zero]
    by_cases han : a = n
    · subst han
      have : (List.range a).map (update f a x) = (List.range a).map f := by
        apply List.map_congr_left
        intro b hb
        rw [List.mem_range] at hb
        rw [Function.update_of_ne (by omega)]
      rw [this, Function.update_self]; omega
    · rw [Function.update_of_ne (Ne.symm han)]
      have := ih (by omega)
      omega

theorem work_le (s : State K V) : work s ≤ 14 * s.next := by
  unfold work
  generalize s.next = n
  induction n with
  | zero => simp
  | succ n ih =>
    rw [List.range_succ, List.map_append, List.sum_append]
    simp only [List.map_cons, List.map_nil, List.sum_cons, List.sum_nil, Nat.add_zero]
    have : rank (s.ctl n) ≤ 14 := by cases s.ctl n <;> simp [rank]
    omega

section
variable [DecidableEq K] {c : Cfg K V RS} {s s' : State K V} {act : Act K V} {evs tr : List (Ev K V)}

/-- Extra actions change nothing, the others use up one of the remaining actions. -/
theorem Eff.work (he : Eff c s act s' evs) (h : CInv c s) (hb : ∀ kind k, act ≠ .begin kind k) :
    s'.next = s.next ∧ (Extra s act → Conc.work s' = Conc.work s) ∧ (¬ Extra s act → Conc.work s' + 1 ≤ Conc.work s) := by
  have less : ∀ {s' : State K V} {act : Act K V} {a : Nat} {x : Ctl K V}, s'.ctl = update s.ctl a x → s'.next = s.next →
      rank x < rank (s.ctl a) → ¬ Extra s act → s'.next = s.next ∧ (Extra s act → Conc.work s' = Conc.work s) ∧
        (¬ Extra s act → Conc.work s' + 1 ≤ Conc.work s) := by
    intro s' act a x h1 h2 h3 h4
    refine ⟨h2, fun hx => absurd hx h4, fun _ => ?_⟩
    unfold Conc.work
    rw [h1, h2]
    have ha : a < s.next := by
      refine h.lt_next rfl (fun hi => ?_)
      rw [hi] at h3; simp [rank] at h3
    rw [comp_update (fun x : Ctl K V => rank x)]
    exact sum_update_lt h3 ha
  cases he
  case begin kind k hk => exact absurd rfl (hb kind k)
  case read => exact ⟨rfl, fun _ => rfl, fun h => absurd trivial h⟩
  case write => exact ⟨rfl, fun _ => rfl, fun h => absurd trivial h⟩
  case pending a w k p hc hk hf => exact ⟨rfl, fun _ => rfl, fun h => absurd hf h⟩
  case claim a w k p hc hk hf => exact less rfl rfl (by simp [rank, hc]) (by simp [Extra, hf])
  case guard a k q w hc => cases w <;> exact less rfl rfl (by rw [hc]; simp [rank]) (by simp [Extra])
  case load a k t v hc n old => exact less rfl rfl (by rw [hc]; split <;> simp [rank]) (by simp [Extra])
  all_goals exact less rfl rfl (by simp [rank, *]) (by simp [Extra])

theorem CReach.steps {target cap gcap n : Nat} {s0 : State K V} (h0 : CReach c target cap gcap s0) (hq : c.ptrEq = true)
    (hs : Steps c s0 n s) : CReach c target cap gcap s ∧ s.next = s0.next ∧ n + work s ≤ work s0 := by
  induction hs with
  | start => exact ⟨h0, rfl, by omega⟩
  | layout m p h hm hp ih => exact ⟨ih.1.relayout hm hp, ih.2.1, ih.2.2⟩
  | extra h hx hs ih =>
    have he := ih.1.inv.eff hq hs
    have hw := he.work ih.1.inv (by rintro kind k rfl; exact hx)
    exact ⟨ih.1.step he, hw.1.trans ih.2.1, by rw [hw.2.1 hx]; exact ih.2.2⟩
  | act h hx hb hs ih =>
    have he := ih.1.inv.eff hq hs
    have hw := he.work ih.1.inv hb
    refine ⟨ih.1.step he, hw.1.trans ih.2.1, ?_⟩
    have h1 := ih.2.2
    have h2 := hw.2.2 hx
    omega

/-! ### Somebody can go on -/

/-- Whoever is responsible for a load can go on if the shard is not locked. -/
theorem CInv.resp_due (h : CInv c s) (hw : s.writer = none) (hr : s.readers = []) {a : Nat} {p : Plh}
    (ha : resp s a = some p) : ∃ act, Due s act ∧ exec c s act ≠ none := by
  have hnr : (s.ctl a).reads = false ∧ (s.ctl a).writes = false := by
    constructor
    · have := (h.lock.rd a).not.mp (by rw [hr]; simp)
      simpa using this
    · have := (h.lock.wr a).not.mp (by rw [hw]; simp)
      simpa using this
  unfold resp respOf at ha
  split at ha <;> rename_i hc
  · rename_i w; rw [hc] at hnr; cases w <;> simp [Ctl.reads, Ctl.writes] at hnr
  · exact ⟨.drop a, .drop a, by simp [exec, drop, hc]⟩
  · exact ⟨.lockDrop a, .lockDrop a, by simp [exec, lockDrop, hc, State.unlocked, hw, hr]⟩
  · rw [hc] at hnr; simp [Ctl.writes] at hnr
  · exact ⟨.abandon a, .abandon a, by simp only [exec, abandon, hc]; split <;> simp⟩
  · exact ⟨.relock a, .relock a, by simp [exec, relock, hc, hw]⟩
  · rw [hc] at hnr; simp [Ctl.reads] at hnr
  · split at ha
    · rename_i hf
      have hk := h.kindOf hc rfl
      cases hkind : s.kind a with
      | get => exact absurd hkind hk
      | thread tid t => exact ⟨.wake a, .wake a, by simp [exec, wake, hc, hkind, hf]⟩
      | task => exact ⟨.poll a 0, .poll a 0 hf, by simp [exec, poll, hc, hkind, hf]⟩
    · cases ha
  · cases ha

/-- The holder of a lock can go on. -/
theorem CInv.lock_due {a : Nat} (ha : (s.ctl a).reads = true ∨ (s.ctl a).writes = true) :
    ∃ act, Due s act ∧ exec c s act ≠ none := by
  cases hc : s.ctl a with
  | seek k => exact ⟨.find a, .find a, by simp [exec, find, hc]⟩
  | saw k t v => exact ⟨.load a, .load a none, by simp [exec, load, hc]⟩
  | bump k t v => exact ⟨.bump a, .bump a, by simp [exec, Conc.bump, hc]⟩
  | tally k r => exact ⟨.tally a, .tally a, by simp [exec, tally, hc]⟩
  | joining k p =>
    refine ⟨.join a, .join a, ?_⟩
    simp only [exec, join, hc]
    split
    · simp
    · split <;> simp
  | starting k p w => exact ⟨.startLoading a, .startLoading a, by simp only [exec, startLoading, hc]; split <;> simp⟩
  | rejoining k p => exact ⟨.rejoin a, .rejoin a, by simp only [exec, rejoin, hc]; split <;> simp⟩
  | dropping k p =>
    refine ⟨.finishDrop a, .finishDrop a, ?_⟩
    simp only [exec, finishDrop, hc]
    split
    · simp
    · split
      · split <;> simp
      · simp
  | _ => rw [hc] at ha; simp [Ctl.reads, Ctl.writes] at ha

theorem CInv.progress (h : CInv c s) {a : Nat} (ha : s.ctl a ≠ .idle) : ∃ act, Due s act ∧ exec c s act ≠ none := by
  by_cases hw : s.writer = none
  · by_cases hr : s.readers = []
    · -- nobody holds the lock
      have hu : s.unlocked = true := by simp [State.unlocked, hw, hr]
      have hnr : (s.ctl a).reads = false ∧ (s.ctl a).writes = false := by
        constructor
        · have := (h.lock.rd a).not.mp (by rw [hr]; simp)
          simpa using this
        · have := (h.lock.wr a).not.mp (by rw [hw]; simp)
          simpa using this
      cases hc : s.ctl a with
      | idle => exact absurd hc ha
      | start k => exact ⟨.enter a 0, .enter a 0, by simp [exec, enter, hc, hw]⟩
      | created k => exact ⟨.upsert a, .upsert a, by simp [exec, upsert, hc, hu]⟩
      | waiting k p =>
        cases hf : s.flag a with
        | true => exact h.resp_due hw hr (a := a) (p := p) (by simp [resp, respOf, hc, hf])
        | false =>
          have hwait : wait s a = some p := by simp [wait, waitOf, hc, hf]
          obtain ⟨ps, hp⟩ := h.wait_at hwait
          have hA : AOK c s.shard s.plh (.waiting k p) := h.at hc
          obtain ⟨ps', hp', -, hh, -⟩ := hA
          rw [hp] at hp'
          obtain rfl := Option.some.inj hp'
          have hm : a ∈ ps.waiters := (h.pl.mem _ _ hp a).mpr (by rw [hh]; exact hwait)
          have hl := h.pl.idle _ _ hp (List.ne_nil_of_mem hm)
          obtain ⟨b, hb, -⟩ := h.pl.one _ _ hp hl
          exact h.resp_due hw hr hb
      | claimed k p => exact h.resp_due hw hr (a := a) (p := p) (by simp [resp, respOf, hc])
      | guard k p => exact h.resp_due hw hr (a := a) (p := p) (by simp [resp, respOf, hc])
      | leaving k p => exact h.resp_due hw hr (a := a) (p := p) (by simp [resp, respOf, hc])
      | abandoning k p => exact h.resp_due hw hr (a := a) (p := p) (by simp [resp, respOf, hc])
      | inserting k p v r => exact ⟨.store a, .store a, by simp [exec, store, hc, hu]⟩
      | starting k p w => rw [hc] at hnr; cases w <;> simp [Ctl.reads, Ctl.writes] at hnr
      | _ => rw [hc] at hnr; simp [Ctl.reads, Ctl.writes] at hnr
    · obtain ⟨b, hb⟩ := List.exists_mem_of_ne_nil _ hr
      exact CInv.lock_due (Or.inl ((h.lock.rd b).mp hb))
  · obtain ⟨b, hb⟩ := Option.ne_none_iff_exists'.mp hw
    exact CInv.lock_due (Or.inr ((h.lock.wr b).mp hb))

end
end QuickCache.Conc
