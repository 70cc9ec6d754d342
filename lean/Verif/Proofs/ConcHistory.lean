import Verif.Proofs.ConcTrace
import Verif.Proofs.Weight

/-!
# The sequential history of a run; wakers, guards and departed callers
-/

set_option linter.unusedSimpArgs false
set_option linter.unusedTactic false
set_option linter.unreachableTactic false

namespace QuickCache.Conc
variable {K V RS : Type}
open Shard Unsync Spec
open Function (update)

section
variable [DecidableEq K] {c : Cfg K V RS} {s s' : State K V} {act : Act K V} {evs tr : List (Ev K V)}

/-! ### The history -/

omit [DecidableEq K] in
theorem calls_append (t1 t2 : List (Ev K V)) : calls (t1 ++ t2) = calls t1 ++ calls t2 := by
  unfold calls; rw [List.filterMap_append]

omit [DecidableEq K] in
theorem calls_wakes {l : List Nat} : calls (l.flatMap s.wakes) = [] := by
  unfold calls
  rw [List.filterMap_eq_nil_iff]
  intro e he
  obtain ⟨b, -, h, -⟩ := mem_flatWakes he
  rw [h]; rfl

/-- An action contributes at most one call to the history, which acts on the contents as specified. -/
theorem Eff.history (he : Eff c s act s' evs) (h : CInv c s) :
    (calls evs = [] ∧ s'.shard.contents = s.shard.contents) ∨
      ∃ x, calls evs = [x] ∧ OpSpec c s.shard.weightTargetHot s.shard.contents x.op x.out x.log s'.shard.contents := by
  cases he
  case enter =>
    refine Or.inl ⟨?_, rfl⟩
    split <;> rfl
  case bump k t v sh hc he => exact Or.inl ⟨rfl, (he.read h.shard trivial).contents⟩
  case hit a k v sh hc he =>
    refine Or.inr ⟨⟨.get k, .value (some v), []⟩, rfl, ?_⟩
    have hA : AOK c s.shard s.plh (.tally k (some v)) := h.at hc
    have hA : s.shard.contents k = some v := hA
    exact ⟨by rw [hA], rfl, (he.read h.shard trivial).contents⟩
  case miss a k sh hc hk he =>
    refine Or.inr ⟨⟨.get k, .value none, []⟩, rfl, ?_⟩
    have hA : AOK c s.shard s.plh (.tally k none) := h.at hc
    have hA : s.shard.contents k = none := hA
    exact ⟨by rw [hA], rfl, (he.read h.shard trivial).contents⟩
  case goOn k sh hc hk he => exact Or.inl ⟨rfl, (he.read h.shard trivial).contents⟩
  case found a k v sh hc hw hr he =>
    refine Or.inr ⟨⟨.get k, .value (some v), []⟩, rfl, ?_⟩
    have h1 := (he.contents h.shard).1
    refine ⟨?_, rfl, h1⟩
    cases he with
    | found t r hk wrote hits misses plh np =>
      rw [h.shard.contents_slot.mpr ⟨t, r, wrote.upd.before, hk, rfl⟩]
  case created k p sh hc hw hr he => exact Or.inl ⟨rfl, (he.contents h.shard).1⟩
  case joining k p sh hc hw hr he => exact Or.inl ⟨rfl, (he.contents h.shard).1⟩
  case guard w hc => cases w <;> exact Or.inl ⟨rfl, rfl⟩
  case publish a v k p ps hc hp hk hh hl =>
    refine Or.inl ⟨?_, rfl⟩
    have := calls_wakes (s := s) (l := ps.waiters)
    unfold calls at this ⊢
    rw [List.filterMap_cons, this]; rfl
  case handOver a b k p ps hc hp hk hh hl hb =>
    refine Or.inl ⟨?_, rfl⟩
    have := calls_wakes (s := s) (l := [b])
    simp only [List.flatMap_cons, List.flatMap_nil, List.append_nil] at this
    unfold calls at this ⊢
    rw [List.filterMap_cons, this]; rfl
  case store a k p v rf sh q hc hw hr hl he =>
    exact Or.inr ⟨⟨.insert k v, .unit, q.log⟩, rfl, he.contents h.shard⟩
  case giveUp a k p ps sh hc hp hk hh hl hb he => exact Or.inl ⟨rfl, (he.contents h.shard).1⟩
  case read op out hop he => exact Or.inr ⟨⟨op, out, []⟩, rfl, he.contents h.shard⟩
  case write op sh out q hop hw hr he => exact Or.inr ⟨⟨op, out, q.log⟩, rfl, he.contents h.shard⟩
  all_goals exact Or.inl ⟨rfl, rfl⟩

theorem Run.replays {target cap gcap : Nat} (hr : Run c (State.new (Shard.new target cap gcap)) tr s) (hq : c.ptrEq = true) :
    Replays c target (fun _ => none) (calls tr) s.shard.contents := by
  refine hr.induct hq (CReach.new c target cap gcap)
    (P := fun tr s => Replays c target (fun _ => none) (calls tr) s.shard.contents) .start
    (fun _ _ _ _ _ h _ => h) ?_
  intro tr s act s' evs hre h he
  rw [calls_append]
  rcases he.history hre.inv with ⟨h1, h2⟩ | ⟨x, h1, h2⟩
  · rw [h1, h2, List.append_nil]; exact h
  · rw [h1]
    rw [hre.reach.target] at h2
    exact .call h h2

/-! ### Wakers -/

omit [DecidableEq K] in
theorem lastWaker_append (a : Nat) (t1 t2 : List (Ev K V)) (h : ∀ w, .polled a w ∉ t2) :
    lastWaker a (t1 ++ t2) = lastWaker a t1 := by
  unfold lastWaker
  rw [List.foldl_append]
  generalize List.foldl _ none t1 = x
  induction t2 generalizing x with
  | nil => rfl
  | cons e t2 ih =>
    rw [List.foldl_cons, ih (fun w hm => h w (List.mem_cons_of_mem _ hm))]
    cases e with
    | polled b w =>
      have : b ≠ a := by
        rintro rfl
        exact h w (by simp)
      simp [this]
    | _ => rfl

omit [DecidableEq K] in
theorem lastWaker_polled (a w : Nat) (t : List (Ev K V)) : lastWaker a (t ++ [.polled a w]) = some w := by
  unfold lastWaker
  rw [List.foldl_append]
  simp

/-- In the first poll, before waiting. -/
def _root_.QuickCache.Conc.Ctl.first : Ctl K V → Bool
  | .seek _ | .saw _ _ _ | .bump _ _ _ | .tally _ _ | .created _ | .joining _ _ => true
  | _ => false

def _root_.QuickCache.Conc.Ctl.waits : Ctl K V → Bool
  | .waiting _ _ => true
  | _ => false

/-- The wakers known to the system are those of the most recent polls. -/
def Wakers (tr : List (Ev K V)) (s : State K V) : Prop :=
  ∀ a, s.kind a = .task → ((s.ctl a).first = true → lastWaker a tr = some (s.cx a)) ∧
    ((s.ctl a).waits = true → lastWaker a tr = some (s.waker a))

theorem Wakers.step (h : Wakers tr s) (he : Eff c s act s' evs) : Wakers (tr ++ evs) s' := by
  intro b hk
  have quiet : ∀ {evs : List (Ev K V)}, (∀ w, .polled b w ∉ evs) → lastWaker b (tr ++ evs) = lastWaker b tr :=
    fun hq => lastWaker_append b tr _ hq
  have pass : ∀ {s' : State K V} {evs : List (Ev K V)} {a : Nat} {x : Ctl K V}, s'.ctl = update s.ctl a x →
      s'.kind = s.kind → s'.cx = s.cx → s'.waker = s.waker →
      (∀ w, .polled b w ∉ evs) → (x.first = true → (s.ctl a).first = true) → (x.waits = true → (s.ctl a).waits = true) →
      s'.kind b = .task → ((s'.ctl b).first = true → lastWaker b (tr ++ evs) = some (s'.cx b)) ∧
        ((s'.ctl b).waits = true → lastWaker b (tr ++ evs) = some (s'.waker b)) := by
    intro s' evs a x h1 h2 h3 h4 h5 h6 h7 hk
    rw [quiet h5, h1, h3, h4]
    rw [h2] at hk
    by_cases hb : b = a
    · subst hb
      rw [Function.update_self]
      exact ⟨fun hf => (h b hk).1 (h6 hf), fun hf => (h b hk).2 (h7 hf)⟩
    · rw [Function.update_of_ne hb]
      exact h b hk
  cases he
  case begin kind k hk' =>
    simp only [List.append_nil]
    by_cases hb : b = s.next
    · subst hb; simp [Ctl.first, Ctl.waits]
    · simp only [Function.update_of_ne hb] at hk ⊢
      exact h b hk
  case enter a w k hc hw =>
    by_cases hb : b = a
    · subst hb
      have hk' : s.kind b = .task := hk
      rw [if_pos hk', lastWaker_polled]
      simp [State.go, Ctl.first, Ctl.waits]
    · rw [quiet (by split <;> simp [hb])]
      simp only [State.go, Function.update_of_ne hb] at hk ⊢
      exact h b hk
  case pending a w k p hc hk' hf =>
    by_cases hb : b = a
    · subst hb
      rw [lastWaker_polled]
      simp [hc, Ctl.first]
    · rw [quiet (by simp [hb])]
      simp only [Function.update_of_ne hb] at hk ⊢
      exact h b hk
  case claim a w k p hc hk' hf =>
    by_cases hb : b = a
    · subst hb
      simp [State.go, Ctl.first, Ctl.waits]
    · rw [quiet (by simp [hb])]
      simp only [State.go, Function.update_of_ne hb] at hk ⊢
      exact h b hk
  case enlist a k p ps hc hp hk' hh hl =>
    rw [List.append_nil]
    by_cases hb : b = a
    · subst hb
      have := (h b hk).1 (by rw [hc]; rfl)
      rw [this]
      simp [State.go, State.unlockWrite, Ctl.first]
    · simp only [State.go, State.unlockWrite, State.setPlh, Function.update_of_ne hb] at hk ⊢
      exact h b hk
  case guard a k p w hc =>
    rw [quiet (by simp)]
    by_cases hb : b = a
    · subst hb
      cases w <;> simp [State.go, State.unlockWrite, State.unlockRead, Ctl.first, Ctl.waits]
    · have h1 := h b (by cases w <;> exact hk)
      cases w <;> simpa [State.go, State.unlockWrite, State.unlockRead, Function.update_of_ne hb] using h1
  case load a k t v hc n old =>
    rw [quiet (by simp)]
    by_cases hb : b = a
    · subst hb
      have h1 := (h b hk).1 (by rw [hc]; rfl)
      simp only [State.go, Function.update_self, h1]
      split <;> simp [Ctl.waits]
    · simp only [State.go, Function.update_of_ne hb]
      exact h b hk
  case publish a v k p ps hc hp hk' hh hl =>
    rw [quiet (by
      intro w hm
      simp only [List.mem_cons, reduceCtorEq, false_or] at hm
      exact absurd hm (not_mem_flatWakes rfl))]
    by_cases hb : b = a
    · subst hb; simp [State.go, Ctl.first, Ctl.waits]
    · simp only [State.go, State.setPlh, Function.update_of_ne hb]
      exact h b hk
  case handOver a b1 k p ps hc hp hk' hh hl hb1 =>
    rw [quiet (by
      intro w hm
      simp only [List.mem_cons, reduceCtorEq, false_or] at hm
      exact absurd hm (not_mem_wakes rfl))]
    by_cases hb : b = a
    · subst hb; simp [State.go, State.unlockWrite, Ctl.first, Ctl.waits]
    · simp only [State.go, State.setPlh, State.notify, State.unlockWrite, Function.update_of_ne hb]
      exact h b hk
  case read => rw [quiet (by simp)]; exact h b hk
  case write => rw [quiet (by simp)]; exact h b hk
  all_goals
    first
      | exact pass rfl rfl rfl rfl (by simp) (by simp [Ctl.first, *]) (by simp [Ctl.waits]) hk

omit [DecidableEq K] in
theorem Wakers.new (sh : Shard K V) : Wakers [] (State.new sh) := by
  intro a hk; cases hk

/-- The wakers woken are those of the most recent polls. -/
theorem Run.wakers {target cap gcap : Nat} (hr : Run c (State.new (Shard.new target cap gcap)) tr s) (hq : c.ptrEq = true) :
    Wakers tr s ∧ Always (fun t1 e => ∀ a w, e = .woke a w → lastWaker a t1 = some w) tr := by
  refine hr.induct hq (CReach.new c target cap gcap)
    (P := fun tr s => Wakers tr s ∧ Always (fun t1 e => ∀ a w, e = .woke a w → lastWaker a t1 = some w) tr)
    ⟨.new _, .nil⟩ (fun _ _ _ _ _ h _ => h) ?_
  rintro tr s act s' evs hre ⟨h1, h2⟩ he
  refine ⟨h1.step he, h2.append ?_⟩
  rintro t1 e t2 heq a w rfl
  have hm : Ev.woke a w ∈ evs := by rw [heq]; simp
  have fin : ∀ b, (s.ctl b).waits = true → s.kind b = .task → (Ev.woke a w : Ev K V) = .woke b (s.waker b) →
      (∀ w, Ev.polled a w ∉ t1) → lastWaker a (tr ++ t1) = some w := by
    intro b h3 h4 h5 h6
    rw [lastWaker_append _ _ _ h6]
    cases h5
    exact (h1 _ h4).2 h3
  cases he
  case publish a' v k p ps hc hp hk' hh hl =>
    simp only [List.mem_cons, reduceCtorEq, false_or] at hm
    obtain ⟨b, hb, h3, h4⟩ := mem_flatWakes hm
    refine fin b ?_ h4 h3 ?_
    · obtain ⟨⟨k', h5⟩, -⟩ := hre.inv.waiter hp hb
      rw [h5]; rfl
    · intro w' hm'
      have : Ev.polled a w' ∈ Ev.published a' p v :: ps.waiters.flatMap s.wakes := by rw [heq]; simp [hm']
      simp only [List.mem_cons, reduceCtorEq, false_or] at this
      exact absurd this (not_mem_flatWakes rfl)
  case handOver a' b k p ps hc hp hk' hh hl hb1 =>
    simp only [List.mem_cons, reduceCtorEq, false_or] at hm
    obtain ⟨h3, h4⟩ := mem_wakes hm
    refine fin b ?_ h4 h3 ?_
    · obtain ⟨⟨k', h5⟩, -⟩ := hre.inv.waiter hp (List.mem_of_getLast? hb1)
      rw [h5]; rfl
    · intro w' hm'
      have : Ev.polled a w' ∈ Ev.handedOver a' p b :: s.wakes b := by rw [heq]; simp [hm']
      simp only [List.mem_cons, reduceCtorEq, false_or] at this
      exact absurd this (not_mem_wakes rfl)
  case enter => exact absurd hm (not_mem_poll (by simp))
  all_goals (simp at hm; done)

/-! ### Guards -/

/-- Events that do not change who holds a guard. -/
def _root_.QuickCache.Conc.Ev.plain : Ev K V → Bool
  | .gotGuard _ _ _ | .published _ _ _ | .handedOver _ _ _ | .dropped _ _ _ => false
  | _ => true

omit [DecidableEq K] in
theorem guards_plain (p : Plh) (t1 t2 : List (Ev K V)) (h : ∀ e ∈ t2, e.plain = true) : guards p (t1 ++ t2) = guards p t1 := by
  unfold guards
  rw [List.foldl_append]
  generalize List.foldl _ [] t1 = x
  induction t2 generalizing x with
  | nil => rfl
  | cons e t2 ih =>
    rw [List.foldl_cons, ih (fun e hm => h e (List.mem_cons_of_mem _ hm))]
    have := h e (by simp)
    cases e <;> first | rfl | cases this

omit [DecidableEq K] in
theorem guards_cons (p : Plh) (t1 t2 : List (Ev K V)) (e : Ev K V) (h : ∀ e ∈ t2, e.plain = true) :
    guards p (t1 ++ e :: t2) = guards p (t1 ++ [e]) := by
  rw [show t1 ++ e :: t2 = (t1 ++ [e]) ++ t2 by simp]
  exact guards_plain p _ t2 h

/-- Holding a guard of `p`, or dropping it. -/
def _root_.QuickCache.Conc.Ctl.holds (p : Plh) : Ctl K V → Prop
  | .guard _ q | .leaving _ q | .dropping _ q => q = p
  | _ => False

/-- Those who got a guard and did not lose it hold it. -/
def Guards (tr : List (Ev K V)) (s : State K V) : Prop :=
  ∀ p, (guards p tr).Nodup ∧ ∀ a ∈ guards p tr, (s.ctl a).holds p

theorem Guards.step (h : Guards tr s) (hi : CInv c s) (he : Eff c s act s' evs) : Guards (tr ++ evs) s' := by
  intro p
  obtain ⟨h1, h2⟩ := h p
  have pass : ∀ {s' : State K V} {evs : List (Ev K V)} {a : Nat} {x : Ctl K V}, s'.ctl = update s.ctl a x →
      (∀ e ∈ evs, e.plain = true) → ((s.ctl a).holds p → x.holds p) →
      (guards p (tr ++ evs)).Nodup ∧ ∀ a ∈ guards p (tr ++ evs), (s'.ctl a).holds p := by
    intro s' evs a x e1 e2 e3
    rw [guards_plain p tr evs e2]
    refine ⟨h1, fun b hb => ?_⟩
    rw [e1]
    by_cases hba : b = a
    · subst hba; rw [Function.update_self]; exact e3 (h2 b hb)
    · rw [Function.update_of_ne hba]; exact h2 b hb
  have lose : ∀ {s' : State K V} {a : Nat} {x : Ctl K V} {q : Plh}, s'.ctl = update s.ctl a x → (s.ctl a).holds q →
      (if q = p then (guards p tr).erase a else guards p tr).Nodup ∧
        ∀ b ∈ (if q = p then (guards p tr).erase a else guards p tr), (s'.ctl b).holds p := by
    intro s' a x q e1 e2
    rw [e1]
    split
    · refine ⟨h1.erase a, fun b hb => ?_⟩
      have hba : b ≠ a := by
        rintro rfl
        exact h1.not_mem_erase hb
      rw [Function.update_of_ne hba]
      exact h2 b (List.mem_of_mem_erase hb)
    · rename_i hq
      refine ⟨h1, fun b hb => ?_⟩
      have hba : b ≠ a := by
        rintro rfl
        have := h2 b hb
        apply hq
        unfold Ctl.holds at e2 this
        split at e2 <;> first | exact e2.elim | (rename_i hc; rw [hc] at this; exact e2.symm.trans this)
      rw [Function.update_of_ne hba]
      exact h2 b hb
  cases he
  case guard a k q w hc =>
    have hg : guards p (tr ++ [.gotGuard a k q]) = if q = p then a :: guards p tr else guards p tr := by
      unfold guards; rw [List.foldl_append]; rfl
    have hna : a ∉ guards p tr := by
      intro hm
      have := h2 a hm
      rw [hc] at this; exact this
    have hctl : (if w = true then (s.go a (.guard k q)).unlockWrite else (s.go a (.guard k q)).unlockRead a).ctl =
        update s.ctl a (.guard k q) := by cases w <;> rfl
    rw [hg, hctl]
    split
    · rename_i hq
      refine ⟨List.nodup_cons.mpr ⟨hna, h1⟩, fun b hb => ?_⟩
      by_cases hba : b = a
      · subst hba; rw [Function.update_self]; exact hq
      · rw [Function.update_of_ne hba]
        simp only [List.mem_cons, hba, false_or] at hb
        exact h2 b hb
    · refine ⟨h1, fun b hb => ?_⟩
      have hba : b ≠ a := by rintro rfl; exact hna hb
      rw [Function.update_of_ne hba]
      exact h2 b hb
  case publish a v k q ps hc hp hk hh hl =>
    rw [guards_cons p tr _ _ (by
      intro e he
      obtain ⟨b, -, hb, -⟩ := mem_flatWakes he
      rw [hb]; rfl)]
    have hg : guards p (tr ++ [.published a q v]) = if q = p then (guards p tr).erase a else guards p tr := by
      unfold guards; rw [List.foldl_append]; rfl
    rw [hg]
    exact lose rfl (by rw [hc]; rfl)
  case handOver a b k q ps hc hp hk hh hl hb =>
    rw [guards_cons p tr _ _ (by
      intro e he
      rw [(mem_wakes he).1]; rfl)]
    have hg : guards p (tr ++ [.handedOver a q b]) = if q = p then (guards p tr).erase a else guards p tr := by
      unfold guards; rw [List.foldl_append]; rfl
    rw [hg]
    exact lose rfl (by rw [hc]; rfl)
  case giveUp a k q ps sh hc hp hk hh hl hb he =>
    have hg : guards p (tr ++ [.sect (.abandon k q) .unit [], .dropped a k q]) =
        if q = p then (guards p tr).erase a else guards p tr := by
      unfold guards; rw [List.foldl_append]; rfl
    rw [hg]
    exact lose rfl (by rw [hc]; rfl)
  case begin kind k hk =>
    rw [List.append_nil]
    refine ⟨h1, fun b hb => ?_⟩
    by_cases hba : b = s.next
    · subst hba
      have := h2 _ hb
      rw [hi.fresh _ (Nat.le_refl _)] at this
      exact this.elim
    · simp only [Function.update_of_ne hba]; exact h2 b hb
  case read => rw [guards_plain p tr _ (by simp [Ev.plain])]; exact ⟨h1, h2⟩
  case write => rw [guards_plain p tr _ (by simp [Ev.plain])]; exact ⟨h1, h2⟩
  case pending => rw [guards_plain p tr _ (by simp [Ev.plain])]; exact ⟨h1, h2⟩
  case enter a w k hc hw =>
    exact pass rfl (by intro e he; split at he <;> simp at he; rw [he]; rfl) (by simp [Ctl.holds, *])
  all_goals
    exact pass rfl (by simp [Ev.plain]) (by simp [Ctl.holds, *])

theorem Run.guards {target cap gcap : Nat} (hr : Run c (State.new (Shard.new target cap gcap)) tr s) (hq : c.ptrEq = true) :
    Guards tr s :=
  hr.induct hq (CReach.new c target cap gcap) (P := Guards) (fun _ => ⟨List.nodup_nil, by simp [Spec.guards]⟩)
    (fun _ _ _ _ _ h _ => h) (fun _ _ _ _ _ hre h he => h.step hre.inv he)

/-! ### Departed callers -/

/-- Finished, or dropping the guard it was notified for. -/
def _root_.QuickCache.Conc.Ctl.left : Ctl K V → Bool
  | .idle | .abandoning _ _ | .leaving _ _ | .dropping _ _ => true
  | _ => false

theorem Eff.left_stays (he : Eff c s act s' evs) {b : Nat} (hb : b < s.next) (hl : (s.ctl b).left = true) :
    b < s'.next ∧ (s'.ctl b).left = true ∧ (s.ctl b = .idle → s'.ctl b = .idle) := by
  have pass : ∀ {s' : State K V} {a : Nat} {x : Ctl K V}, s'.ctl = update s.ctl a x → s'.next = s.next →
      ((s.ctl a).left = true → x.left = true) → (s.ctl a = .idle → x = .idle) →
      b < s'.next ∧ (s'.ctl b).left = true ∧ (s.ctl b = .idle → s'.ctl b = .idle) := by
    intro s' a x h1 h2 h3 h4
    rw [h1, h2]
    by_cases hba : b = a
    · subst hba; rw [Function.update_self]; exact ⟨hb, h3 hl, h4⟩
    · rw [Function.update_of_ne hba]; exact ⟨hb, hl, id⟩
  cases he
  case begin kind k hk =>
    have hbn : b ≠ s.next := by omega
    simp only [Function.update_of_ne hbn]
    exact ⟨by omega, hl, id⟩
  case read | write | pending => exact ⟨hb, hl, id⟩
  case guard a k q w hc => cases w <;> exact pass rfl rfl (by simp [Ctl.left, *]) (by simp [*])
  all_goals
    exact pass rfl rfl (by simp [Ctl.left, *]) (by simp [*])

/-- Callers that gave up are gone, or pass on the notification they got. -/
def Departed (tr : List (Ev K V)) (s : State K V) : Prop :=
  ∀ a, (.timedOut a ∈ tr → a < s.next ∧ s.ctl a = .idle) ∧ (.cancelled a ∈ tr → a < s.next ∧ (s.ctl a).left = true)

theorem CInv.lt_next (h : CInv c s) {a : Nat} {x : Ctl K V} (hx : s.ctl a = x) (hn : x ≠ .idle) : a < s.next := by
  rcases Nat.lt_or_ge a s.next with h1 | h1
  · exact h1
  · rw [h.fresh a h1] at hx; exact absurd hx.symm hn

theorem Departed.step (h : Departed tr s) (hi : CInv c s) (he : Eff c s act s' evs) : Departed (tr ++ evs) s' := by
  intro b
  obtain ⟨h1, h2⟩ := h b
  have tnew : .timedOut b ∈ evs → b < s'.next ∧ s'.ctl b = .idle := by
    intro hm
    cases he
    case timeout a k p tid ps ws hc hk hf hp hh hws =>
      simp only [List.mem_cons, List.not_mem_nil, or_false, Ev.timedOut.injEq] at hm
      subst hm
      exact ⟨hi.lt_next hc (by simp), by simp [State.go]⟩
    case enter => exact absurd hm (not_mem_poll (by simp))
    case publish =>
      simp only [List.mem_cons, reduceCtorEq, false_or] at hm
      exact absurd hm (not_mem_flatWakes rfl)
    case handOver =>
      simp only [List.mem_cons, reduceCtorEq, false_or] at hm
      exact absurd hm (not_mem_wakes rfl)
    all_goals (simp at hm; done)
  have cnew : .cancelled b ∈ evs → b < s'.next ∧ (s'.ctl b).left = true := by
    intro hm
    cases he
    case unpolled a k hc hk =>
      simp only [List.mem_cons, List.not_mem_nil, or_false, Ev.cancelled.injEq] at hm
      subst hm
      exact ⟨hi.lt_next hc (by simp), by simp [State.go, Ctl.left]⟩
    case cancelOwner a k p ps hc hk hf hp hh hl =>
      simp only [List.mem_cons, List.not_mem_nil, or_false, Ev.cancelled.injEq] at hm
      subst hm
      exact ⟨hi.lt_next hc (by simp), by simp [State.go, Ctl.left]⟩
    case cancelDone a k p ps hc hk hf hp hh hl =>
      simp only [List.mem_cons, List.not_mem_nil, or_false, Ev.cancelled.injEq] at hm
      subst hm
      exact ⟨hi.lt_next hc (by simp), by simp [State.go, Ctl.left]⟩
    case cancel a k p ps ws hc hk hf hp hh hl =>
      simp only [List.mem_cons, List.not_mem_nil, or_false, Ev.cancelled.injEq] at hm
      subst hm
      exact ⟨hi.lt_next hc (by simp), by simp [State.go, Ctl.left]⟩
    case enter => exact absurd hm (not_mem_poll (by simp))
    case publish =>
      simp only [List.mem_cons, reduceCtorEq, false_or] at hm
      exact absurd hm (not_mem_flatWakes rfl)
    case handOver =>
      simp only [List.mem_cons, reduceCtorEq, false_or] at hm
      exact absurd hm (not_mem_wakes rfl)
    all_goals (simp at hm; done)
  constructor
  · intro hm
    rcases List.mem_append.mp hm with hm | hm
    · obtain ⟨h3, h4⟩ := h1 hm
      obtain ⟨h5, -, h6⟩ := he.left_stays h3 (by rw [h4]; rfl)
      exact ⟨h5, h6 h4⟩
    · exact tnew hm
  · intro hm
    rcases List.mem_append.mp hm with hm | hm
    · obtain ⟨h3, h4⟩ := h2 hm
      obtain ⟨h5, h6, -⟩ := he.left_stays h3 h4
      exact ⟨h5, h6⟩
    · exact cnew hm

theorem Run.departed {target cap gcap : Nat} (hr : Run c (State.new (Shard.new target cap gcap)) tr s) (hq : c.ptrEq = true) :
    Departed tr s :=
  hr.induct hq (CReach.new c target cap gcap) (P := Departed) (fun _ => by simp)
    (fun _ _ _ _ _ h _ => h) (fun _ _ _ _ _ hre h he => h.step hre.inv he)

/-! ### The weight -/

theorem SecEff.evW_le {sh : Shard K V} {sec : Section K V} {z : Shard K V × SOut K V × Req K V RS} (hi : Inv c sh)
    (h : SecEff c sh sec z) (ht : sh.weightTargetHot ≤ sh.weightCapacity)
    (hc : ∀ op, sec = .call op → ∀ out log, Calm c ⟨op, out, log⟩) : evW c z.1 ≤ max (evW c sh) sh.weightCapacity := by
  have hk := (h.keeps hi).1
  have same : z.1.contents = sh.contents → evW c z.1 ≤ max (evW c sh) sh.weightCapacity := by
    intro he
    rw [evW_of_contents hi.toInv0 hk.toInv0 he]; omega
  obtain ⟨sh', out, q⟩ := z
  have hcon := h.contents hi
  cases h with
  | call hop h => exact step_calm hi.toInv0 h ht (hc _ rfl _ _)
  | filled hl h => exact h.evW_le ht
  | _ => exact same hcon.1

omit [DecidableEq K] in
/-- None of the calls of the concurrent cache writes through a mutable reference. -/
theorem calm_shared {op : Op K V} {b : Bool} (hop : lockMode op = some b) (out : Out K V) (log : List (Event K V)) :
    Calm c ⟨op, out, log⟩ := by
  cases op <;> first | (cases hop; done) | exact trivial

theorem Eff.evW_le (he : Eff c s act s' evs) (h : CInv c s) (ht : s.shard.weightTargetHot ≤ s.shard.weightCapacity) :
    evW c s'.shard ≤ max (evW c s.shard) s.shard.weightCapacity := by
  have sec : ∀ {sec z}, SecEff c s.shard sec z → (∀ op, sec ≠ .call op) →
      evW c z.1 ≤ max (evW c s.shard) s.shard.weightCapacity :=
    fun hs hn => SecEff.evW_le h.shard hs ht (fun op ho => absurd ho (hn op))
  cases he with
  | bump _ he => exact sec he (by simp)
  | hit _ he => exact sec he (by simp)
  | miss _ _ he => exact sec he (by simp)
  | goOn _ _ he => exact sec he (by simp)
  | found _ _ _ he => exact sec he (by simp)
  | created _ _ _ he => exact sec he (by simp)
  | joining _ _ _ he => exact sec he (by simp)
  | store _ _ _ _ he => exact sec he (by simp)
  | giveUp _ _ _ _ _ _ he => exact sec he (by simp)
  | write hop _ _ he =>
    exact SecEff.evW_le h.shard he ht (fun op ho out log => by cases ho; exact calm_shared hop out log)
  | @guard a k p w h => cases w <;> exact Nat.le_max_left _ _
  | _ => exact Nat.le_max_left _ _

theorem Run.evW_le {target cap gcap : Nat} (hr : Run c (State.new (Shard.new target cap gcap)) tr s) (hq : c.ptrEq = true)
    (ht : target ≤ cap) : evW c s.shard ≤ cap := by
  refine hr.induct hq (CReach.new c target cap gcap) (P := fun _ s => evW c s.shard ≤ cap) ?_
    (fun _ _ _ _ _ h _ => h) ?_
  · rw [evW_iter]; exact Nat.zero_le _
  · intro tr s act s' evs hre h he
    have := he.evW_le hre.inv (by rw [hre.reach.target, hre.reach.capacity]; exact ht)
    rw [hre.reach.capacity] at this
    omega

end
end QuickCache.Conc
