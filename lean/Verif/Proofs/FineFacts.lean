import Verif.Proofs.Fine
import Verif.Proofs.ConcFacts
import Verif.Spec.Fine

/-!
# Notification and parking at the granularity of atomic accesses: consequences
-/

set_option linter.unusedSimpArgs false

namespace QuickCache.Fine
variable {K V RS : Type} [DecidableEq K] {c : Cfg K V RS} {target cap gcap : Nat} {f f' : State K V} {ev tr : List (Conc.Ev K V)}
open Conc (Act Ctl Kind Outcome Ev PState exec CReach CInv Eff)
open Function (update)
open Spec

/-! ### Panics -/

theorem lift_error {x : Act K V} {g : Conc.State K V → State K V} {e : Panic} (h : lift c f [x] g = some (.error e)) :
    exec c f.base x = some (.error e) := by
  unfold lift at h
  split at h
  · cases h
  · rename_i e' hp
    cases h
    simp only [perform] at hp
    split at hp
    · cases hp
    · rename_i e'' hx; cases hp; exact hx
    · cases hp
  · cases h

/-- An action fails only if an action of `Conc` does. -/
theorem FInv.error (h : FInv c target cap gcap f) (hq : c.ptrEq = true) {act : FAct K V} {e : Panic}
    (hs : Fine.step c f act = some (.error e)) : ∃ x, exec c f.base x = some (.error e) := by
  have noticed : ∀ {a w : Nat} {x : Act K V}, Fine.notice c f a w x = some (.error e) →
      ∃ x, exec c f.base x = some (.error e) := by
    intro a w x hn
    unfold Fine.notice at hn
    split at hn
    · exact ⟨_, lift_error hn⟩
    · cases hn
  cases act with
  | act x =>
    have hs : Fine.plain c f x = _ := hs
    unfold Fine.plain at hs
    split at hs
    · exact ⟨_, lift_error hs⟩
    · cases hs
  | park a =>
    have hs : Fine.park f a = _ := hs
    unfold Fine.park at hs
    split at hs <;> cases hs
  | unparked a =>
    have hs : Fine.unparked f a = _ := hs
    unfold Fine.unparked at hs
    split at hs
    · split at hs <;> cases hs
    · cases hs
  | spurious a =>
    have hs : Fine.spurious f a = _ := hs
    unfold Fine.spurious at hs
    split at hs <;> cases hs
  | look a o =>
    have hs : Fine.look c f a o = _ := hs
    unfold Fine.look at hs
    split at hs
    · split at hs
      · exact noticed hs
      · cases hs
    · cases hs
  | miss a o =>
    have hs : Fine.miss f a o = _ := hs
    unfold Fine.miss at hs
    split at hs
    · split at hs <;> cases hs
    · cases hs
  | expire a =>
    have hs : Fine.expire c f a = _ := hs
    unfold Fine.expire at hs
    split at hs
    · split at hs
      · exact ⟨_, lift_error hs⟩
      · cases hs
    · cases hs
  | poll a w =>
    have hs : Fine.poll c f a w = _ := hs
    unfold Fine.poll at hs
    split at hs
    · split at hs
      · cases hs
      · split at hs
        · exact noticed hs
        · exact ⟨_, lift_error hs⟩
    · cases hs
  | relock a =>
    have hs : Fine.relock f a = _ := hs
    unfold Fine.relock at hs
    split at hs <;> cases hs
  | lock a v =>
    have hs : Fine.lock f a v = _ := hs
    unfold Fine.lock at hs
    simp only at hs
    split at hs
    · split at hs <;> cases hs
    · split at hs
      · cases hs
      · split at hs <;> cases hs
    · cases hs
  | note i =>
    have hs : Fine.note f i = _ := hs
    unfold Fine.note at hs
    split at hs
    · rename_i a v x rest hi
      simp only at hs
      split at hs
      · cases hs
      · rename_i b
        split at hs
        · cases hs
        · rename_i hno
          exfalso
          obtain ⟨ps, hk⟩ := h.hold i _ hi
          have hm : Note.unpark b ∈ (called v ps.waiters).flatMap (notes f.base.kind) := hk.todo.subset List.mem_cons_self
          obtain ⟨b', hb, h1 | h1⟩ := mem_notes hm
          · cases h1
          · unfold second at h1
            split at h1
            · cases h1
            · rename_i hnt
              cases h1
              obtain ⟨⟨k, hc⟩, -⟩ := hk.waits h.reach.inv hb
              have hng := h.reach.inv.kindOf hc rfl
              cases hkb : f.base.kind b with
              | get => exact hng hkb
              | task => exact hnt hkb
              | thread t m => exact hno t m hkb
      · cases hs
    · cases hs
  | unlock i =>
    have hs : Fine.unlock c f i = some (.error e) := hs
    have : ∃ a v, f.hold i = some ⟨a, v, []⟩ := by
      unfold Fine.unlock at hs
      split at hs
      · rename_i a v ps h1 h2; exact ⟨a, v, h1⟩
      · cases hs
    obtain ⟨a, v, hi⟩ := this
    obtain ⟨f2, ev2, h1, h2⟩ := h.unlock hq hi
    rw [hs] at h1
    cases h1
  | stray t => cases hs
  | steal t =>
    have hs : Fine.steal f t = _ := hs
    unfold Fine.steal at hs
    split at hs <;> cases hs

/-! ### Progress -/

theorem lift_ne {x : Act K V} {g : Conc.State K V → State K V} (h : exec c f.base x ≠ none) : lift c f [x] g ≠ none := by
  unfold lift
  simp only [perform]
  cases hx : exec c f.base x with
  | none => exact absurd hx h
  | some r =>
    cases r with
    | error e => simp
    | ok y => obtain ⟨s, e⟩ := y; simp

/-- Nobody notifies: nothing is ahead of `base`. -/
theorem FInv.still (h : FInv c target cap gcap f) (hn : ∀ i, f.hold i = none) :
    (∀ b, f.raised b = false) ∧ (∀ b, f.early b = none) ∧ f.readers = [] := by
  have h1 : ∀ b, f.raised b = false := by
    intro b
    by_contra hb
    obtain ⟨i, hd, ps, h1, -⟩ := (h.raised b).mp (by simpa using hb)
    rw [hn i] at h1; cases h1
  have h2 : ∀ b, f.early b = none := by
    intro b
    by_contra hb
    have := h.early b hb
    rw [h1 b] at this; cases this
  refine ⟨h1, h2, ?_⟩
  by_contra hr
  obtain ⟨b, hb⟩ := List.exists_mem_of_ne_nil _ hr
  exact h.readers b hb (h2 b)

theorem FInv.progress (h : FInv c target cap gcap f) (hq : c.ptrEq = true) {a : Nat} (ha : f.base.ctl a ≠ .idle) :
    ∃ act, FineDue f act ∧ Fine.step c f act ≠ none := by
  by_cases hold : ∃ i hd, f.hold i = some hd
  · obtain ⟨i, ⟨b, v, todo⟩, hi⟩ := hold
    obtain ⟨ps, hk⟩ := h.hold i _ hi
    cases todo with
    | nil =>
      refine ⟨.unlock i, .unlock i, ?_⟩
      obtain ⟨f', ev, h1, -⟩ := h.unlock hq hi
      have h1 : Fine.step c f (.unlock i) = _ := h1
      rw [h1]; simp
    | cons x rest =>
      refine ⟨.note i, .note i, ?_⟩
      show Fine.note f i ≠ none
      unfold Fine.note
      rw [hi]
      simp only
      split
      · simp
      · split <;> simp
      · simp
  · have hn : ∀ i, f.hold i = none := by
      intro i
      cases hi : f.hold i with
      | none => rfl
      | some hd => exact absurd ⟨i, hd, hi⟩ hold
    obtain ⟨hra, hea, hrd⟩ := h.still hn
    have hfree : ∀ b, f.stateFree b = true := by
      intro b
      unfold State.stateFree
      split
      · rw [hn]; rfl
      · rfl
    have hbusy : ∀ b, f.busy b = false := by
      intro b
      unfold State.busy
      split
      · rw [hn]; rfl
      · rfl
    obtain ⟨x, hd, hx⟩ := h.reach.inv.progress ha
    have pl : ∀ {x : Act K V}, Due f.base x → exec c f.base x ≠ none → allowed f x = true →
        ∃ act, FineDue f act ∧ Fine.step c f act ≠ none := by
      intro x hd hx hal
      refine ⟨.act x, .act hd, ?_⟩
      show Fine.plain c f x ≠ none
      unfold Fine.plain
      rw [if_pos hal]
      exact lift_ne hx
    cases hd with
    | enter a w => exact pl (.enter a w) hx rfl
    | find a => exact pl (.find a) hx rfl
    | load a old => exact pl (.load a old) hx rfl
    | bump a => exact pl (.bump a) hx rfl
    | tally a => exact pl (.tally a) hx rfl
    | upsert a => exact pl (.upsert a) hx (by simp [allowed, hrd])
    | join a => exact pl (.join a) hx (hfree a)
    | startLoading a => exact pl (.startLoading a) hx (hfree a)
    | relock a => exact pl (.relock a) hx rfl
    | rejoin a => exact pl (.rejoin a) hx (hfree a)
    | store a => exact pl (.store a) hx (by simp [allowed, hrd])
    | drop a => exact pl (.drop a) hx (by simp [allowed, hbusy])
    | lockDrop a => exact pl (.lockDrop a) hx (by simp [allowed, hrd])
    | abandon a => exact pl (.abandon a) hx (hfree a)
    | wake b =>
      have hx : Conc.wake f.base b ≠ none := hx
      unfold Conc.wake at hx
      split at hx
      case h_2 => exact absurd rfl hx
      rename_i k p t m hc hkind
      split at hx
      case isFalse => exact absurd rfl hx
      rename_i hf
      have hw : waits f b = some (t, m) := by simp [waits, hc, hkind, hea]
      have hff : f.flag b = true := by simp [State.flag, hf]
      cases hpc : f.pc b with
      | about => exact ⟨.park b, .park b, by simp [Fine.step, Fine.park, hw, hpc]⟩
      | parked =>
        rcases h.token b t m k p hkind hc (hea b) (Or.inr (Or.inl hpc)) hff with ht | ⟨i, hd, hi, -⟩
        · exact ⟨.unparked b, .unparked b, by simp [Fine.step, Fine.unparked, hw, hpc, ht]⟩
        · rw [hn i] at hi; cases hi
      | awake =>
        refine ⟨.look b false, .look b false, ?_⟩
        simp only [Fine.step, Fine.look, hw, hpc, hff, if_true, Fine.notice, hf]
        exact lift_ne (by simp [exec, Conc.wake, hc, hkind, hf])
      | late =>
        refine ⟨.expire b, .expire b, ?_⟩
        simp only [Fine.step, Fine.expire, hw, hpc, hfree, if_true]
        refine lift_ne ?_
        have := h.late b t m k p hkind hc hpc
        subst this
        simp only [exec, Conc.timeout, hc, hkind]
        split
        · simp
        · simp [hf]
    | poll b w hf =>
      have hx : Conc.poll f.base b w ≠ none := hx
      unfold Conc.poll at hx
      split at hx
      case h_2 => exact absurd rfl hx
      rename_i k p hc hkind
      refine ⟨.poll b w, .poll b w (by simp [State.flag, hf]), ?_⟩
      have hwk : f.waking b = false := by simp [State.waking, hc, Conc.Ctl.plh, hn]
      simp only [Fine.step, Fine.poll, hc, hkind, hea, hwk, State.flag, hf, Fine.notice]
      exact lift_ne (by simp [exec, Conc.poll, hc, hkind, hf])
    | publish b v =>
      have hx : Conc.publish f.base b v ≠ none := hx
      unfold Conc.publish at hx
      split at hx
      case h_2 => exact absurd rfl hx
      rename_i k p hc
      have hA : Conc.AOK c f.base.shard f.base.plh (.guard k p) := h.reach.inv.at hc
      obtain ⟨ps, hp, -⟩ := hA
      refine ⟨.lock b (some v), .lock b (some v), ?_⟩
      simp [Fine.step, Fine.lock, hc, hn, hp]
    | finishDrop b =>
      have hx' : Conc.finishDrop c f.base b ≠ none := hx
      unfold Conc.finishDrop at hx'
      split at hx'
      case h_2 => exact absurd rfl hx'
      rename_i k p hc
      have hA : Conc.AOK c f.base.shard f.base.plh (.dropping k p) := h.reach.inv.at hc
      obtain ⟨ps, hp, -⟩ := hA
      by_cases hw : ps.waiters = []
      · exact pl (.finishDrop b) hx (by simp [allowed, hfree, hc, Conc.Ctl.plh, hp, hw])
      · refine ⟨.lock b none, .lock b none, ?_⟩
        simp [Fine.step, Fine.lock, hc, hn, hp, hw]

/-! ### Wakers -/

theorem suffix_head {kind : Nat → Kind} {l : List Nat} {b : Nat} {todo : List Note} (h : todo <:+ l.flatMap (notes kind))
    (hm : second kind b ∈ todo) (hn : .flag b ∉ todo) : todo.head? = some (second kind b) := by
  have back : ∀ {l : List Nat}, second kind b ∈ l.flatMap (notes kind) → Note.flag b ∈ l.flatMap (notes kind) := by
    intro l hm
    obtain ⟨b', hb, h1 | h1⟩ := mem_notes hm
    · exact absurd h1 (second_ne_flag _ _ _)
    · rw [second_inj h1]; exact flag_mem.mpr hb
  induction l with
  | nil => simp at h; subst h; cases hm
  | cons a l ih =>
    rw [List.flatMap_cons, notes_eq] at h
    simp only [List.cons_append, List.nil_append] at h
    rcases List.suffix_cons_iff.mp h with rfl | h
    · rcases List.mem_cons.mp hm with h1 | hm
      · exact absurd h1 (second_ne_flag _ _ _)
      · rcases List.mem_cons.mp hm with h1 | hm
        · have := second_inj h1
          subst this
          exact absurd List.mem_cons_self hn
        · exact absurd (List.mem_cons_of_mem _ (List.mem_cons_of_mem _ (back hm))) hn
    · rcases List.suffix_cons_iff.mp h with rfl | h
      · rcases List.mem_cons.mp hm with h1 | hm
        · rw [h1]; rfl
        · exact absurd (List.mem_cons_of_mem _ (back hm)) hn
      · exact ih h

/-- Who is about to be woken: a waiting future. -/
theorem FInv.woken (h : FInv c target cap gcap f) {i : Nat} {hd : Hold V} {b : Nat} (hi : f.hold i = some hd)
    (hm : .wake b ∈ hd.todo) : ∃ ps k, HoldOK f.base i hd ps ∧ b ∈ called hd.value ps.waiters ∧
      f.base.ctl b = .waiting k ps.handle ∧ ps.handle.id = i ∧ f.base.kind b = .task ∧ second f.base.kind b = .wake b := by
  obtain ⟨ps, hk⟩ := h.hold i hd hi
  obtain ⟨b', hb, h1 | h1⟩ := mem_notes (hk.todo.subset hm)
  · cases h1
  · have hs : b' = b ∧ f.base.kind b' = .task := by
      unfold second at h1
      split at h1
      · rename_i hkb
        cases h1
        exact ⟨rfl, hkb⟩
      · cases h1
    obtain ⟨rfl, hkb⟩ := hs
    obtain ⟨⟨k, hc⟩, -⟩ := hk.waits h.reach.inv hb
    exact ⟨ps, k, hk, hb, hc, (h.reach.inv.pl.id _ _ hk.plh).2, hkb, h1.symm⟩

/-- A future does not notice its flag before its waker was called. -/
def Woken (f : State K V) : Prop := ∀ b i h, f.early b ≠ none → f.hold i = some h → .wake b ∉ h.todo

omit [DecidableEq K] in
theorem Woken.same (h : Woken f) (h1 : f'.early = f.early) (h2 : f'.hold = f.hold) : Woken f' := by
  intro b i hd hb hi
  rw [h1] at hb
  rw [h2] at hi
  exact h b i hd hb hi

theorem Woken.step (hf : FInv c target cap gcap f) (h : Woken f) {act : FAct K V}
    (hs : Fine.step c f act = some (.ok (f', ev))) : Woken f' := by
  have lifted : ∀ {xs : List (Act K V)} {g : Conc.State K V → State K V},
      (∀ s, (g s).early = f.early ∧ (g s).hold = f.hold) → lift c f xs g = some (.ok (f', ev)) → Woken f' := by
    intro xs g hg hl
    obtain ⟨s, h1, rfl⟩ := lift_ok hl
    exact h.same (hg s).1 (hg s).2
  have noticed : ∀ {a w : Nat} {x : Act K V}, (f.base.flag a = false → ∀ i hd, f.hold i = some hd → .wake a ∉ hd.todo) →
      Fine.notice c f a w x = some (.ok (f', ev)) → Woken f' := by
    intro a w x hno hn
    unfold Fine.notice at hn
    split at hn
    · exact lifted (by simp) hn
    · rename_i hfl
      cases hn
      intro b i hd hb hi
      by_cases hba : b = a
      · subst hba; exact hno (by simpa using hfl) i hd hi
      · simp only [Function.update_of_ne hba] at hb
        exact h b i hd hb hi
  cases act with
  | act x =>
    have hs : Fine.plain c f x = _ := hs
    unfold Fine.plain at hs
    split at hs
    · exact lifted (by simp) hs
    · cases hs
  | park a =>
    have hs : Fine.park f a = _ := hs
    unfold Fine.park at hs
    split at hs
    · cases hs
      split <;> exact h.same rfl rfl
    · cases hs
  | unparked a =>
    have hs : Fine.unparked f a = _ := hs
    unfold Fine.unparked at hs
    split at hs
    · split at hs
      · cases hs; exact h.same rfl rfl
      · cases hs
    · cases hs
  | spurious a =>
    have hs : Fine.spurious f a = _ := hs
    unfold Fine.spurious at hs
    split at hs
    · cases hs; exact h.same rfl rfl
    · cases hs
  | look a o =>
    have hs : Fine.look c f a o = _ := hs
    unfold Fine.look at hs
    split at hs
    · rename_i t m hw hpc
      split at hs
      · refine noticed (fun _ i hd hi hm => ?_) hs
        obtain ⟨-, -, -, -, -, -, hk, -⟩ := hf.woken hi hm
        rw [(waits_some hw).2.1] at hk
        cases hk
      · cases hs; exact h.same rfl rfl
    · cases hs
  | miss a o =>
    have hs : Fine.miss f a o = _ := hs
    unfold Fine.miss at hs
    split at hs
    · split at hs
      · cases hs; exact h.same rfl rfl
      · cases hs
    · cases hs
  | expire a =>
    have hs : Fine.expire c f a = _ := hs
    unfold Fine.expire at hs
    split at hs
    · split at hs
      · exact lifted (by simp) hs
      · cases hs
    · cases hs
  | poll a w =>
    have hs : Fine.poll c f a w = _ := hs
    unfold Fine.poll at hs
    split at hs
    · rename_i k p hc hk he
      split at hs
      · cases hs
      · rename_i hwk
        split at hs
        · rename_i hfl
          refine noticed (fun hbf i hd hi hm => hwk ?_) hs
          obtain ⟨ps, k', hH, hcl, hc', hid, -, hsec⟩ := hf.woken hi hm
          rw [hc] at hc'
          cases hc'
          have hr : f.raised a = true := by simpa [State.flag, hbf] using hfl
          obtain ⟨k2, p2, i2, hd2, ps2, g1, -, g3, g4, -, -, -, g8⟩ := hf.marked hr
          rw [hc] at g1
          cases g1
          rw [hid] at g3
          subst g3
          rw [hi] at g4
          cases g4
          have := suffix_head hH.todo (by rw [hsec]; exact hm) g8
          rw [hsec] at this
          simp [State.waking, hc, Conc.Ctl.plh, hid, hi, this]
        · exact lifted (by simp) hs
    · cases hs
  | relock a =>
    have hs : Fine.relock f a = _ := hs
    unfold Fine.relock at hs
    split at hs
    · cases hs; exact h.same rfl rfl
    · cases hs
  | lock a v =>
    have hs : Fine.lock f a v = _ := hs
    have hf' := hf.lock hs
    have : ∃ i hd, f.hold i = none ∧ f' = { f with hold := update f.hold i (some hd) } := by
      unfold Fine.lock at hs
      simp only at hs
      split at hs
      · split at hs
        · rename_i h1 h2; cases hs; exact ⟨_, _, h1, rfl⟩
        · cases hs
      · split at hs
        · cases hs
        · split at hs
          · rename_i h1 h2; cases hs; exact ⟨_, _, h1, rfl⟩
          · cases hs
      · cases hs
    obtain ⟨j, hd', hj, rfl⟩ := this
    intro b i hd hb hi hm
    by_cases hij : i = j
    · subst hij
      obtain ⟨ps, k, hH, hcl, hc, hid, -⟩ := hf'.woken hi hm
      have hr := hf.early b hb
      obtain ⟨k2, p2, i2, hd2, ps2, g1, -, g3, g4, -⟩ := hf.marked hr
      have hc : f.base.ctl b = .waiting k ps.handle := hc
      rw [hc] at g1
      cases g1
      rw [hid] at g3
      subst g3
      rw [hj] at g4
      cases g4
    · simp only [Function.update_of_ne hij] at hi
      exact h b i hd hb hi hm
  | note i =>
    have hs : Fine.note f i = _ := hs
    unfold Fine.note at hs
    split at hs
    · rename_i a v x rest hi
      have key : ∀ {f' : State K V}, f'.early = f.early → f'.hold = update f.hold i (some ⟨a, v, rest⟩) → Woken f' := by
        intro f' h1 h2 b j hd hb hj hm
        rw [h1] at hb
        rw [h2] at hj
        by_cases hij : j = i
        · subst hij
          simp only [Function.update_self] at hj
          cases hj
          exact h b j _ hb hi (List.mem_cons_of_mem _ hm)
        · simp only [Function.update_of_ne hij] at hj
          exact h b j hd hb hj hm
      simp only at hs
      split at hs
      · cases hs; exact key rfl rfl
      · split at hs
        · cases hs; exact key rfl rfl
        · cases hs
      · cases hs; exact key rfl rfl
    · cases hs
  | unlock i =>
    have hs : Fine.unlock c f i = _ := hs
    unfold Fine.unlock at hs
    split at hs
    · obtain ⟨s, h1, rfl⟩ := lift_ok hs
      intro b j hd hb hj
      by_cases hij : j = i
      · subst hij; simp at hj
      · simp only [Function.update_of_ne hij] at hj
        refine h b j hd (fun hn => hb ?_) hj
        simp [hn]
    · cases hs
  | stray t => cases hs; exact h.same rfl rfl
  | steal t =>
    have hs : Fine.steal f t = _ := hs
    unfold Fine.steal at hs
    split at hs
    · cases hs
    · cases hs; exact h.same rfl rfl

theorem Run.woken {f0 : State K V} (hr : Run c f0 tr f) (hq : c.ptrEq = true) (h0 : FInv c target cap gcap f0) (h1 : Woken f0) :
    Woken f := by
  induction hr with
  | start => exact h1
  | layout m p hr hm hp ih => exact ih.same rfl rfl
  | act hr hs ih => exact Woken.step (hr.inv hq h0) ih hs

end QuickCache.Fine
