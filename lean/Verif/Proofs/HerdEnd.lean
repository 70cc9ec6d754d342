import Verif.Spec.Herd
import Verif.Proofs.Herd
import Verif.Proofs.FuzzSync

/-!
# The crate's own concurrent tests: failures, progress, termination
-/

namespace QuickCache.Herd
variable {K V RS : Type}
open Conc Spec Shard
open Function (update)

/-! ### The number of slots -/

/-- The call has not yet come to `upsert_placeholder`. -/
def early : Ctl K V → Bool
  | .start _ | .seek _ | .saw _ _ _ | .bump _ _ _ | .tally _ _ | .created _ => true
  | _ => false

/-- The number of such calls. -/
def earlies (s : Conc.State K V) : Nat := ((Finset.range s.next).filter (fun a => early (s.ctl a) = true)).card

theorem earlies_le {s s' : Conc.State K V} (hn : s'.next = s.next) (h : ∀ a, early (s'.ctl a) = true → early (s.ctl a) = true) :
    earlies s' ≤ earlies s := by
  refine Finset.card_le_card ?_
  intro a ha
  simp only [Finset.mem_filter, hn] at ha ⊢
  exact ⟨ha.1, h a ha.2⟩

theorem earlies_lt {s s' : Conc.State K V} (hn : s'.next = s.next) (h : ∀ a, early (s'.ctl a) = true → early (s.ctl a) = true)
    {a : Nat} (ha : a < s.next) (h1 : early (s.ctl a) = true) (h2 : early (s'.ctl a) = false) : earlies s' + 1 ≤ earlies s := by
  refine Finset.card_lt_card ?_
  rw [Finset.ssubset_iff]
  refine ⟨a, by simp [h2], ?_⟩
  intro b hb
  simp only [Finset.mem_insert, Finset.mem_filter, Finset.mem_range, hn] at hb ⊢
  rcases hb with rfl | hb
  · exact ⟨ha, h1⟩
  · exact ⟨hb.1, h b hb.2⟩

section
variable [DecidableEq K] {c : Cfg K V RS} {s s' : Conc.State K V} {act : Act K V} {evs : List (Ev K V)}

theorem earlies_step (he : Eff c s act s' evs) (hi : CInv c s) (hc : ∀ op, act ≠ .call op) :
    earlies s' + FuzzSync.grows act + s.next ≤ earlies s + s'.next := by
  have upd : ∀ {a g : Nat} {x : Ctl K V} {s' : Conc.State K V}, s'.ctl = update s.ctl a x → s'.next = s.next → g = 0 →
      (early x = true → early (s.ctl a) = true) → earlies s' + g + s.next ≤ earlies s + s'.next := by
    intro a g x s' h1 h2 h0 h3
    have : earlies s' ≤ earlies s := ?_
    · omega
    refine earlies_le h2 (fun b hb => ?_)
    by_cases hba : b = a
    · subst hba; rw [h1, Function.update_self] at hb; exact h3 hb
    · rw [h1, Function.update_of_ne hba] at hb; exact hb
  have ups : ∀ {a : Nat} {x : Ctl K V} {k : K} {s' : Conc.State K V}, s.ctl a = .created k → s'.ctl = update s.ctl a x →
      s'.next = s.next → early x = false → earlies s' + 1 ≤ earlies s := by
    intro a x k s' h0 h1 h2 h3
    refine earlies_lt h2 (fun b hb => ?_) (hi.lt_next h0 (by simp)) (by rw [h0]; rfl) (by rw [h1, Function.update_self]; exact h3)
    by_cases hba : b = a
    · subst hba; rw [h1, Function.update_self, h3] at hb; cases hb
    · rw [h1, Function.update_of_ne hba] at hb; exact hb
  cases he
  case begin kind k hk =>
    have : earlies { s with
          next := s.next + 1
          kind := update s.kind s.next kind
          ctl := update s.ctl s.next (.start k)
          flag := update s.flag s.next false } ≤ earlies s + 1 := by
      refine (Finset.card_le_card (t := insert s.next ((Finset.range s.next).filter (fun a => early (s.ctl a) = true))) ?_).trans
        (Finset.card_insert_le _ _)
      intro b hb
      simp only [Finset.mem_filter, Finset.mem_range, Finset.mem_insert] at hb ⊢
      by_cases hbn : b = s.next
      · exact .inl hbn
      · rw [Function.update_of_ne hbn] at hb; exact .inr ⟨by omega, hb.2⟩
    simp only [FuzzSync.grows]
    omega
  case read op out hop he => exact absurd rfl (hc op)
  case write op sh out q hop hw hr he => exact absurd rfl (hc op)
  case pending => exact Nat.le_refl _
  case found a k v sh h hw hr he =>
    have := ups (s' := { s with shard := sh }.go a .idle) h rfl rfl rfl
    simp only [FuzzSync.grows, State.go] at this ⊢; omega
  case created a k p sh h hw hr he =>
    have := ups (s' := { (({ s with shard := sh }.setPlh p ⟨k, p, [], .loading⟩).go a (.starting k p true)) with
        writer := some a }) h rfl rfl rfl
    simp only [FuzzSync.grows, State.go, State.setPlh] at this ⊢; omega
  case joining a k p sh h hw hr he =>
    have := ups (s' := { { s with shard := sh }.go a (.joining k p) with writer := some a }) h rfl rfl rfl
    simp only [FuzzSync.grows, State.go] at this ⊢; omega
  case guard a k p w h =>
    cases w
    · exact upd (a := a) (x := .guard k p) rfl rfl rfl (by simp [early])
    · exact upd (a := a) (x := .guard k p) rfl rfl rfl (by simp [early])
  all_goals
    refine upd rfl rfl rfl ?_
    simp [early, *]

end

section
variable [DecidableEq K] [DecidableEq V] {c : Cfg K V RS} {T : Test K V} {s s' : State K V}

/-- Every slot is owed to one call. -/
theorem slots_le {target cap gcap : Nat} (hr : Run c T (State.new (Shard.new target cap gcap)) s) (hq : c.ptrEq = true)
    (hT : T.meddles = false) : s.base.shard.entries.entries.length + earlies s.base ≤ s.base.next := by
  induction hr with
  | start => exact Nat.le_refl _
  | layout m p hr hm hp ih => exact ih
  | @move s s' m hr hs ih =>
    have hg := good hr hq
    have hi := (hg.reach hq).inv
    have key : ∀ {act : Act K V} {b : Conc.State K V} {evs : List (Ev K V)}, Eff c s.base act b evs →
        exec c s.base act = some (.ok (b, evs)) → (∀ op, act ≠ .call op) →
        b.shard.entries.entries.length + earlies b ≤ b.next := by
      intro act b evs he hx hc
      have h1 := earlies_step he hi hc
      have h2 := FuzzSync.len_exec hi hq hx
      omega
    cases does hi hq hs with
    | ask hj hp he hx => exact key he hx (by simp)
    | step ha hm he hx hn => exact key he hx (by rintro op rfl; rw [may_call] at hm; cases hm)
    | count => exact ih
    | again => exact ih
    | lapse => exact ih
    | meddle hT' => rw [hT] at hT'; cases hT'

/-- The test does not fail. -/
theorem no_failure {target cap gcap solve : Nat} (hr : Run c T (State.new (Shard.new target cap gcap)) s) (hq : c.ptrEq = true)
    (hT : T.meddles = false) (hS : ∀ n, T.stores n = true ↔ n = solve) (hw : c.weight T.key T.good ≤ target) (htc : target ≤ cap)
    (h64 : target < 2 ^ 64) (hn : s.base.next < 2 ^ 32 - 2) {m : Move K V} {e : Panic} : step c T s m ≠ some (.error e) := by
  intro hs
  have hg := good hr hq
  have hre := hg.reach hq
  have hi := hre.inv
  have hph := phase hr hq hT hS hw htc
  have hlen := slots_le hr hq hT
  rcases fails hi hq hs with ⟨act, h1, h2⟩ | ⟨j, a, act, b, evs, ha, hm, he, hx⟩
  · have h1 := h1 hT
    rcases exec_sat hi hq h2 with ⟨x, hx, -⟩ | ⟨e', -, hE⟩
    · cases hx
    · cases act with
      | upsert a =>
        obtain ⟨k, -, -, -, h⟩ := hE
        omega
      | store a =>
        obtain ⟨k, p, v, r, hc, -, h⟩ := hE
        obtain ⟨j, hj⟩ := hg.link.all a (by rw [hc]; simp)
        have hf := (hg.link.own j a hj).1
        rw [hc] at hf
        have hkv : k = T.key ∧ v = T.good := by
          cases hp : s.pos j with
          | asking a1 =>
            rw [hp] at hf
            obtain ⟨hx | ⟨k, p, hx⟩, -⟩ := hf
            · cases hx
            · cases hx
          | holding a1 st => rw [hp] at hf; obtain ⟨p, hx⟩ := hf; cases hx
          | spending a1 =>
            rw [hp] at hf
            obtain ⟨p, ⟨r, hx⟩ | hx | hx⟩ := hf
            · cases hx; exact ⟨rfl, rfl⟩
            · cases hx
            · cases hx
          | quitting a1 => rw [hp] at hf; obtain ⟨p, hx | hx | hx | hx⟩ := hf <;> cases hx
          | _ => rw [hp] at hj; cases hj
        obtain ⟨rfl, rfl⟩ := hkv
        have hlive := hg.live hq hT (.inserting _ _ hc)
        have hi0 := hi.shard.toInv0
        have hnone : s.base.shard.contents T.key = none := hi0.contents_none.mpr (hlive.noRes hi0)
        have hit : s.base.shard.iter = [] := by
          rw [List.eq_nil_iff_forall_not_mem]
          rintro ⟨k', v'⟩ hm
          have hx := ((lists_iter hi0).2 k' v').mp hm
          by_cases hk : k' = T.key
          · rw [hk, hnone] at hx; cases hx
          · rw [hg.only k' hk] at hx; cases hx
        have h0 : s.base.shard.weightHot + s.base.shard.weightCold = 0 := by
          rw [← hi0.total_iter, hit]; rfl
        have hew : enterWeight c target T.key T.good = c.weight T.key T.good := if_neg (by omega)
        rw [h0, hre.reach.target, hew] at h
        omega
      | call op => exact h1 op rfl
      | _ => exact hE.elim
  · cases hp : s.pos j with
    | asking a1 =>
      rw [hp] at ha hm hx
      cases ha
      obtain ⟨hf, hk⟩ := hg.link.own j a (by rw [hp]; rfl)
      rw [hp] at hf
      obtain ⟨tr, hr', -⟩ := hg.run
      cases asks hi (followed hr' hq) hm hf (by rw [hk]; exact kind_get T j) he with
      | on hr hd => simp only [next, hr] at hx; cases hx
      | value v hr hv hd =>
        have := (hph.value hv).2
        subst this
        simp only [next, hr, onValue, if_true] at hx
        cases hx
      | timeout hr => simp only [next, hr] at hx; cases hx
    | holding a1 st => rw [hp] at hx; cases hx
    | spending a1 =>
      rw [hp] at hx
      simp only [next, onUsed, hT, hg.unrefused hq hT he] at hx
      split at hx <;> cases hx
    | quitting a1 =>
      rw [hp] at hx
      simp only [next] at hx
      split at hx <;> cases hx
    | _ => rw [hp] at ha; cases ha

/-- With callers that disturb each other, only the cache can fail, by being too large. -/
theorem only_full {target cap gcap : Nat} (hr : Run c T (State.new (Shard.new target cap gcap)) s) (hq : c.ptrEq = true)
    (hT : T.meddles = true) {m : Move K V} {e : Panic} (hs : step c T s m = some (.error e)) :
    (e = .overflow ∧ ∃ k v, 2 ^ 64 ≤ total c.weight s.base.shard.iter + enterWeight c target k v) ∨
    (e = .slabFull ∧ s.base.shard.entries.entries.length = 2 ^ 32 - 2) := by
  have hre := (good hr hq).reach hq
  rcases fails hre.inv hq hs with ⟨act, -, h2⟩ | ⟨j, a, act, b, evs, ha, hm, he, hx⟩
  · exact hre.asserts hq h2
  · exfalso
    cases hp : s.pos j with
    | asking a1 =>
      rw [hp] at hx
      simp only [next, onValue, hT] at hx
      split at hx
      · split at hx
        · cases hx
        · cases hx
      · cases hx
      · cases hx
    | holding a1 st => rw [hp] at hx; cases hx
    | spending a1 =>
      rw [hp] at hx
      simp only [next, onUsed, hT] at hx
      split at hx <;> cases hx
    | quitting a1 =>
      rw [hp] at hx
      simp only [next] at hx
      split at hx <;> cases hx
    | _ => rw [hp] at ha; cases ha

/-! ### Progress -/

omit [DecidableEq K] [DecidableEq V] in
theorem kind_thread {T : Test K V} {i tid : Nat} {t : Bool} (h : T.kind i = .thread tid t) : tid = i := by
  unfold Test.kind at h
  split at h
  · cases h; rfl
  · cases h

theorem step_ask (hl : Link T s) {j : Nat} (hj : j < T.callers) (hp : s.pos j = .ready) : step c T s (.ask j) ≠ none := by
  simp only [step, hj, hp, and_self, if_true]
  have : ∃ x, exec c s.base (.begin (T.kind j) T.key) = some (.ok x) := by
    cases hk : T.kind j with
    | thread tid t =>
      simp only [exec, Conc.begin]
      split
      · exact ⟨_, rfl⟩
      · rename_i hno
        exfalso
        apply hno
        simp only [Bool.not_eq_true', List.any_eq_false, List.mem_range]
        intro b hb hbad
        split at hbad
        · rename_i tid' t' hkb
          simp only [Bool.and_eq_true, beq_iff_eq] at hbad
          obtain ⟨rfl, hc⟩ := hbad
          obtain ⟨i, hi⟩ := hl.all b (by intro h0; rw [h0] at hc; cases hc)
          have h1 := (hl.own i b hi).2
          rw [hkb] at h1
          have h2 := kind_thread h1.symm
          have h3 := kind_thread hk
          rw [h2] at h3
          rw [h3, hp] at hi
          cases hi
        · cases hbad
    | _ => simp [exec, Conc.begin]
  obtain ⟨x, hx⟩ := this
  rw [hx]
  simp [after]

theorem step_act {j a : Nat} {act : Act K V} (ha : (s.pos j).agent = some a) (hm : may T (s.pos j) act = true)
    (hx : exec c s.base act ≠ none) : step c T s (.step j act) ≠ none := by
  simp only [step, ha, hm, if_true]
  unfold after
  split
  · rename_i h; exact absurd h hx
  · simp
  · simp

/-- Only futures are given up. -/
theorem quits {m : Move K V} (hs : step c T s m = some (.ok s')) {i a : Nat} (h : s'.pos i = .quitting a) :
    s.pos i = .quitting a ∨ (s.pos i = .asking a ∧ s.base.kind a = .task) := by
  have upd : ∀ {j : Nat} {q : Pos}, update s.pos j q i = .quitting a → q ≠ .quitting a → s.pos i = .quitting a := by
    intro j q h1 h2
    by_cases hij : i = j
    · subst hij; rw [Function.update_self] at h1; exact absurd h1 h2
    · rwa [Function.update_of_ne hij] at h1
  cases m with
  | ask j =>
    simp only [step] at hs
    split at hs
    · obtain ⟨b, evs, -, h2⟩ := after_ok hs
      cases h2
      exact .inl (upd h (by simp))
    · cases hs
  | step j act =>
    simp only [step] at hs
    split at hs
    · cases hs
    · rename_i b ha
      split at hs
      · obtain ⟨b', evs, -, h2⟩ := after_ok hs
        cases hn : next T evs (b'.ctl b) (s.pos j) with
        | error e => rw [hn] at h2; cases h2
        | ok q =>
          rw [hn] at h2; cases h2
          by_cases hqq : q = .quitting a
          · subst hqq
            refine .inl ?_
            by_cases hij : i = j
            · subst hij
              cases hp : s.pos i with
              | asking a1 =>
                rw [hp] at hn
                simp only [next] at hn
                split at hn
                · exact absurd (onValue_agent hn).1 (by simp [Pos.agent])
                · cases hn
                · cases hn
              | holding a1 st => rw [hp] at hn; cases hn
              | spending a1 =>
                rw [hp] at hn
                simp only [next] at hn
                split at hn
                · exact absurd (onUsed_agent hn) (by simp [Pos.agent])
                · cases hn
              | quitting a1 =>
                rw [hp] at hn
                simp only [next] at hn
                split at hn <;> cases hn
                rfl
              | _ => rw [hp] at ha; cases ha
            · simp only [Function.update_of_ne hij] at h; exact h
          · exact .inl (upd h hqq)
      · cases hs
  | count j =>
    simp only [step] at hs
    split at hs
    · split at hs
      · cases hs; exact .inl (upd h (by simp))
      · cases hs
    · cases hs
  | meddle j yes =>
    simp only [step] at hs
    split at hs
    · obtain ⟨b, evs, -, h2⟩ := after_ok hs
      cases h2
      exact .inl (upd h (by simp))
    · obtain ⟨b, evs, -, h2⟩ := after_ok hs
      cases h2
      exact .inl (upd h (by simp))
    · cases hs
  | lapse j yes =>
    simp only [step] at hs
    split at hs
    · rename_i b hp
      split at hs
      · rename_i hk hc
        obtain ⟨b', evs, -, h2⟩ := after_ok hs
        cases h2
        by_cases hij : i = j
        · subst hij
          simp only [Function.update_self, Pos.quitting.injEq] at h
          subst h
          exact .inr ⟨hp, hk⟩
        · simp only [Function.update_of_ne hij] at h; exact .inl h
      · cases hs
    · cases hs

theorem quitters {target cap gcap : Nat} (hr : Run c T (State.new (Shard.new target cap gcap)) s) (hq : c.ptrEq = true) {i a : Nat}
    (h : s.pos i = .quitting a) : T.kind i = .task := by
  induction hr generalizing a with
  | start => cases h
  | layout m p hr hm hp ih => exact ih h
  | move hr hs ih =>
    rcases quits hs h with h1 | ⟨h1, h2⟩
    · exact ih h1
    · rw [← ((good hr hq).link.own i a (by rw [h1]; rfl)).2]; exact h2

/-- Whenever some caller is not done, some caller can carry on. -/
theorem carries_on {target cap gcap : Nat} (hr : Run c T (State.new (Shard.new target cap gcap)) s) (hq : c.ptrEq = true)
    {j : Nat} (hj : j < T.callers) (hd : s.pos j ≠ .done) : ∃ m, Steady s m ∧ step c T s m ≠ none := by
  have hg := good hr hq
  have hi := (hg.reach hq).inv
  have hl := hg.link
  have agent : ∀ j a, (s.pos j).agent = some a → ∃ m, Steady s m ∧ step c T s m ≠ none := by
    intro j a ha
    have hne : s.base.ctl a ≠ .idle := by
      intro h0
      have hf := (hl.own j a ha).1
      rw [h0] at hf
      cases hp : s.pos j with
      | asking a1 =>
        rw [hp] at hf
        obtain ⟨hx | ⟨k, p, hx⟩, -⟩ := hf
        · cases hx
        · cases hx
      | holding a1 st => rw [hp] at hf; obtain ⟨p, hx⟩ := hf; cases hx
      | spending a1 => rw [hp] at hf; obtain ⟨p, ⟨r, hx⟩ | hx | hx⟩ := hf <;> cases hx
      | quitting a1 => rw [hp] at hf; obtain ⟨p, hx | hx | hx | hx⟩ := hf <;> cases hx
      | _ => rw [hp] at ha; cases ha
    obtain ⟨act, hdue, hx⟩ := hi.progress hne
    -- the caller on whose behalf it is
    have find : ∀ b, s.base.ctl b ≠ .idle → ∃ i, (s.pos i).agent = some b := fun b hb => hl.all b hb
    have go : ∀ i b, (s.pos i).agent = some b → actor act = some b → ∃ m, Steady s m ∧ step c T s m ≠ none := by
      intro i b hib hab
      have hf := (hl.own i b hib).1
      cases hp : s.pos i with
      | asking a1 =>
        rw [hp] at hf hib
        cases hib
        by_cases hgd : ∃ k p, s.base.ctl b = .guard k p
        · obtain ⟨k, p, hc⟩ := hgd
          exact ⟨.count i, trivial, by simp only [step, hp, hc]; simp⟩
        · refine ⟨.step i act, ?_, step_act (a := b) (by rw [hp]; rfl) ?_ hx⟩
          · cases hdue <;> trivial
          · rw [hp]
            obtain ⟨hcall | hcall, -⟩ := hf
            · cases hdue <;> (cases hab) <;> simp only [may, beq_self_eq_true] <;> exfalso <;> apply hx <;> revert hcall <;>
                cases hc : s.base.ctl b <;>
                simp [exec, Conc.publish, Conc.store, Conc.drop, Conc.lockDrop, Conc.finishDrop, Conc.abandon, Ctl.calling, hc]
            · exact absurd hcall hgd
      | holding a1 st =>
        rw [hp] at hf hib
        cases hib
        obtain ⟨p, hc⟩ := hf
        cases st with
        | true =>
          refine ⟨.step i (.publish b T.good), trivial, step_act (a := b) (by rw [hp]; rfl) (by rw [hp]; simp [may]) ?_⟩
          simp only [exec, Conc.publish, hc]
          split <;> simp
        | false =>
          refine ⟨.step i (.drop b), trivial, step_act (a := b) (by rw [hp]; rfl) (by rw [hp]; simp [may]) ?_⟩
          simp [exec, Conc.drop, hc]
      | spending a1 =>
        rw [hp] at hf hib
        cases hib
        refine ⟨.step i act, ?_, step_act (a := b) (by rw [hp]; rfl) ?_ hx⟩
        · cases hdue <;> trivial
        · rw [hp]
          obtain ⟨p, ⟨r, hc⟩ | hc | hc⟩ := hf <;>
          cases hdue <;> (cases hab) <;> simp only [may, beq_self_eq_true] <;> exfalso <;> apply hx <;>
            simp [exec, enter, Conc.find, Conc.load, Conc.bump, Conc.tally, Conc.upsert, Conc.join, Conc.startLoading, Conc.wake,
              Conc.poll, Conc.relock, Conc.rejoin, Conc.publish, Conc.drop, Conc.abandon, hc]
      | quitting a1 =>
        rw [hp] at hf hib
        cases hib
        have hkind := (hl.own i b (by rw [hp]; rfl)).2
        obtain ⟨p, hc⟩ := hf
        rcases hc with hc | hc | hc | hc
        · refine ⟨.step i (.cancel b), trivial, step_act (a := b) (by rw [hp]; rfl) (by rw [hp]; simp [may]) ?_⟩
          rw [quitters hr hq hp] at hkind
          simp only [exec, Conc.cancel, hc, hkind]
          split
          · simp
          · split
            · split <;> simp
            · split <;> simp
        all_goals
          refine ⟨.step i act, ?_, step_act (a := b) (by rw [hp]; rfl) ?_ hx⟩
          · cases hdue <;> trivial
          · rw [hp]
            cases hdue <;> (cases hab) <;> simp only [may, beq_self_eq_true] <;> exfalso <;> apply hx <;>
              simp [exec, enter, Conc.find, Conc.load, Conc.bump, Conc.tally, Conc.upsert, Conc.join, Conc.startLoading, Conc.wake,
                Conc.poll, Conc.relock, Conc.rejoin, Conc.publish, Conc.drop, Conc.store, hc]
      | _ => rw [hp] at hib; cases hib
    have hb : ∃ b, actor act = some b ∧ s.base.ctl b ≠ .idle := by
      cases hdue <;> refine ⟨_, rfl, ?_⟩ <;> intro h0 <;> apply hx <;>
        simp [exec, enter, Conc.find, Conc.load, Conc.bump, Conc.tally, Conc.upsert, Conc.join, Conc.startLoading, Conc.wake,
          Conc.poll, Conc.relock, Conc.rejoin, Conc.publish, Conc.drop, Conc.store, Conc.lockDrop, Conc.finishDrop, Conc.abandon, h0]
    obtain ⟨b, hab, hb⟩ := hb
    obtain ⟨i, hib⟩ := hl.all b hb
    exact go i b hib hab
  cases hp : s.pos j with
  | ready => exact ⟨.ask j, trivial, step_ask hl hj hp⟩
  | sawOther => exact ⟨.meddle j false, rfl, by simp [step, hp, optionally, after]⟩
  | gaveUp => exact ⟨.meddle j false, rfl, by simp [step, hp, optionally, after]⟩
  | done => exact absurd hp hd
  | asking a => exact agent j a (by rw [hp]; rfl)
  | holding a st => exact agent j a (by rw [hp]; rfl)
  | spending a => exact agent j a (by rw [hp]; rfl)
  | quitting a => exact agent j a (by rw [hp]; rfl)

/-! ### Termination -/

/-- What a caller has still to do, apart from its present call. -/
def Pos.cost : Pos → Nat
  | .ready => 16
  | .asking _ => 1
  | .holding _ _ | .spending _ | .done => 0
  | .sawOther | .gaveUp | .quitting _ => 17

/-- A bound for the moves to come. -/
def effort (T : Test K V) (s : State K V) : Nat := ((List.range T.callers).map (fun j => (s.pos j).cost)).sum + work s.base

omit [DecidableEq K] [DecidableEq V] in
theorem sum_update {f : Nat → Nat} {j x n : Nat} (hj : j < n) :
    ((List.range n).map (update f j x)).sum + f j = ((List.range n).map f).sum + x := by
  induction n with
  | zero => omega
  | succ n ih =>
    rw [List.range_succ, List.map_append, List.map_append, List.sum_append, List.sum_append]
    simp only [List.map_cons, List.map_nil, List.sum_cons, List.sum_nil, Nat.add_zero]
    by_cases hjn : j = n
    · subst hjn
      have : (List.range j).map (update f j x) = (List.range j).map f := by
        apply List.map_congr_left
        intro b hb
        rw [List.mem_range] at hb
        rw [Function.update_of_ne (by omega)]
      rw [this, Function.update_self]; omega
    · rw [Function.update_of_ne (Ne.symm hjn)]
      have := ih (by omega)
      omega

omit [DecidableEq K] [DecidableEq V] in
theorem effort_update {j n : Nat} {q : Pos} {b : Conc.State K V} (hj : j < T.callers) :
    effort T { base := b, entered := n, pos := update s.pos j q } + (s.pos j).cost + work s.base =
      effort T s + q.cost + work b := by
  have h := sum_update (f := fun j => (s.pos j).cost) (x := q.cost) hj
  have h2 : (fun i => (update s.pos j q i).cost) = update (fun j => (s.pos j).cost) j q.cost := by
    funext i
    by_cases hij : i = j
    · subst hij; simp
    · simp [Function.update_of_ne hij]
  unfold effort
  simp only [h2] at h ⊢
  omega

omit [DecidableEq V] in
theorem work_begin {b b' : Conc.State K V} {kind : Kind} {k : K} {evs : List (Ev K V)} (he : Eff c b (.begin kind k) b' evs) :
    work b' = work b + 14 ∧ b'.next = b.next + 1 := by
  cases he
  unfold work
  refine ⟨?_, rfl⟩
  simp only [List.range_succ, List.map_append, List.sum_append, List.map_cons, List.map_nil, List.sum_cons, List.sum_nil,
    Function.update_self, Nat.add_zero]
  congr 1
  congr 1
  apply List.map_congr_left
  intro x hx
  rw [List.mem_range] at hx
  rw [Function.update_of_ne (by omega)]

omit [DecidableEq V] in
theorem timed_out {b b' : Conc.State K V} {act : Act K V} {evs : List (Ev K V)} (he : Eff c b act b' evs)
    (h : returned evs = some none) : ∃ a, act = .timeout a := by
  have wk : ∀ l : List Nat, returned (l.flatMap b.wakes) = none := by
    intro l
    unfold returned
    rw [List.findSome?_eq_none_iff]
    intro e he
    obtain ⟨x, -, hx⟩ := List.mem_flatMap.mp he
    unfold State.wakes at hx
    split at hx
    · rw [List.mem_singleton] at hx; subst hx; rfl
    · cases hx
  have wk1 : ∀ x, returned (b.wakes x) = none := by
    intro x
    have := wk [x]
    simpa using this
  cases he
  case timeout => exact ⟨_, rfl⟩
  case enter => split at h <;> simp [returned] at h
  case publish a v k p ps h1 h2 h3 h4 h5 =>
    have := wk ps.waiters
    simp only [returned, List.findSome?_cons] at h this
    rw [this] at h; cases h
  case handOver a x k p ps h1 h2 h3 h4 h5 h6 =>
    have := wk1 x
    simp only [returned, List.findSome?_cons] at h this
    rw [this] at h; cases h
  all_goals simp [returned] at h

/-- Every steady move brings the end nearer, and there are not more calls than that. -/
theorem effort_step {target cap gcap : Nat} (hr : Run c T (State.new (Shard.new target cap gcap)) s) (hq : c.ptrEq = true)
    (hT : T.meddles = false) {m : Move K V} (hm : Steady s m) (hs : step c T s m = some (.ok s')) :
    effort T s' + 1 ≤ effort T s ∧ s'.base.next + effort T s' ≤ s.base.next + effort T s := by
  have hg := good hr hq
  have hi := (hg.reach hq).inv
  have hl := hg.link
  cases m with
  | ask j =>
    simp only [step] at hs
    split at hs
    · rename_i hj
      obtain ⟨b, evs, h1, h2⟩ := after_ok hs
      cases h2
      obtain ⟨h3, h4⟩ := work_begin (hi.eff hq h1)
      have h5 := effort_update (s := s) (q := .asking s.base.next) (b := b) (n := s.entered) hj.1
      rw [hj.2] at h5
      simp only [Pos.cost] at h5
      simp only
      omega
    · cases hs
  | step j act =>
    simp only [step] at hs
    split at hs
    · cases hs
    · rename_i a ha
      split at hs
      · rename_i hmay
        obtain ⟨b, evs, h1, h2⟩ := after_ok hs
        cases hn : next T evs (b.ctl a) (s.pos j) with
        | error e => rw [hn] at h2; cases h2
        | ok q =>
          rw [hn] at h2; cases h2
          have he := hi.eff hq h1
          have hj := hl.lt j (by intro h0; rw [h0] at ha; cases ha)
          obtain ⟨h3, -, h4⟩ := he.work hi (by
            rintro kind k rfl
            cases hp : s.pos j <;> rw [hp] at hmay <;> simp [may] at hmay)
          have h4 := h4 (by
            intro hx
            cases act <;> simp only [Extra] at hx
            · simp only [Steady] at hm; rw [hm] at hx; cases hx
            · rw [may_call] at hmay; cases hmay)
          have h5 := effort_update (s := s) (q := q) (b := b) (n := s.entered) hj
          have hcost : q.cost ≤ (s.pos j).cost := by
            cases hp : s.pos j with
            | asking a1 =>
              rw [hp] at hn
              simp only [next] at hn
              split at hn
              · simp only [onValue, hT] at hn
                split at hn
                · cases hn; exact Nat.zero_le _
                · cases hn
              · rename_i hret
                obtain ⟨x, rfl⟩ := timed_out he hret
                exact hm.elim
              · cases hn; exact Nat.le_refl _
            | holding a1 st => rw [hp] at hn; cases hn; exact Nat.zero_le _
            | spending a1 =>
              rw [hp] at hn
              simp only [next, onUsed, hT] at hn
              split at hn
              · split at hn
                · rename_i hx; cases hx
                · split at hn
                  · cases hn
                  · cases hn; exact Nat.zero_le _
              · cases hn; exact Nat.le_refl _
            | quitting a1 =>
              rw [hp] at hn
              simp only [next] at hn
              split at hn <;> cases hn <;> simp [Pos.cost]
            | _ => rw [hp] at ha; cases ha
          simp only
          omega
      · cases hs
  | count j =>
    simp only [step] at hs
    split at hs
    · rename_i a hp
      have hj := hl.lt j (by rw [hp]; simp)
      split at hs
      · cases hs
        have h5 := effort_update (s := s) (q := .holding a (T.stores s.entered)) (b := s.base) (n := s.entered + 1) hj
        rw [hp] at h5
        simp only [Pos.cost] at h5
        simp only
        omega
      · cases hs
    · cases hs
  | meddle j yes =>
    have hy : yes = false := hm
    subst hy
    have fin : s.pos j = .sawOther ∨ s.pos j = .gaveUp → s' = { s with pos := update s.pos j .ready } →
        effort T s' + 1 ≤ effort T s ∧ s'.base.next + effort T s' ≤ s.base.next + effort T s := by
      rintro hp rfl
      have hj := hl.lt j (by rcases hp with hp | hp <;> rw [hp] <;> simp)
      have h5 := effort_update (s := s) (q := .ready) (b := s.base) (n := s.entered) hj
      have hc : (s.pos j).cost = 17 := by rcases hp with hp | hp <;> rw [hp] <;> rfl
      rw [hc] at h5
      simp only [Pos.cost] at h5
      simp only
      omega
    simp only [step] at hs
    split at hs
    · rename_i hp
      obtain ⟨b, evs, h1, h2⟩ := after_ok hs
      cases h1
      cases h2
      exact fin (.inl hp) rfl
    · rename_i hp
      obtain ⟨b, evs, h1, h2⟩ := after_ok hs
      cases h1
      cases h2
      exact fin (.inr hp) rfl
    · cases hs
  | lapse j yes => exact hm.elim

omit [DecidableEq K] [DecidableEq V] in
theorem effort_le (T : Test K V) (s : State K V) : effort T s ≤ 17 * T.callers + 14 * s.base.next := by
  have h1 := work_le s.base
  have h2 : ∀ n, ((List.range n).map (fun j => (s.pos j).cost)).sum ≤ 17 * n := by
    intro n
    induction n with
    | zero => simp
    | succ n ih =>
      rw [List.range_succ, List.map_append, List.sum_append]
      simp only [List.map_cons, List.map_nil, List.sum_cons, List.sum_nil, Nat.add_zero]
      have : (s.pos n).cost ≤ 17 := by cases s.pos n <;> simp [Pos.cost]
      omega
  have := h2 T.callers
  unfold effort
  omega

theorem Steadily.run {target cap gcap n : Nat} (h : Steadily c T s n s')
    (hr : Run c T (State.new (Shard.new target cap gcap)) s) : Run c T (State.new (Shard.new target cap gcap)) s' := by
  induction h with
  | start => exact hr
  | layout m p h hm hp ih => exact .layout m p ih hm hp
  | move h hm hs ih => exact .move ih hs

/-- Steady executions end. -/
theorem Steadily.bound {target cap gcap n : Nat} (h : Steadily c T s n s')
    (hr : Run c T (State.new (Shard.new target cap gcap)) s) (hq : c.ptrEq = true) (hT : T.meddles = false) :
    n + effort T s' ≤ effort T s ∧ s'.base.next + effort T s' ≤ s.base.next + effort T s := by
  induction h with
  | start => omega
  | layout m p h hm hp ih => exact ih
  | move h hm hs ih =>
    have := effort_step (Steadily.run h hr) hq hT hm hs
    omega

theorem Steadily.trans {n m : Nat} {s'' : State K V} (h1 : Steadily c T s n s') (h2 : Steadily c T s' m s'') :
    Steadily c T s (n + m) s'' := by
  induction h2 with
  | start => exact h1
  | layout m p h hm hp ih => exact .layout m p ih hm hp
  | move h hm hs ih => exact .move ih hm hs

/-- From every state the test can be brought to an end. -/
theorem finishes {target cap gcap solve : Nat} (hq : c.ptrEq = true)
    (hT : T.meddles = false) (hS : ∀ n, T.stores n = true ↔ n = solve) (hw : c.weight T.key T.good ≤ target) (htc : target ≤ cap)
    (h64 : target < 2 ^ 64) : ∀ (k : Nat) (s : State K V), Run c T (State.new (Shard.new target cap gcap)) s → effort T s ≤ k →
      s.base.next + effort T s < 2 ^ 32 - 2 → ∃ n s', Steadily c T s n s' ∧ ∀ j < T.callers, s'.pos j = .done := by
  intro k
  induction k with
  | zero =>
    intro s hr hk hn
    by_cases hd : ∀ j < T.callers, s.pos j = .done
    · exact ⟨0, s, .start, hd⟩
    · push Not at hd
      obtain ⟨j, hj, hd⟩ := hd
      obtain ⟨m, hm, hx⟩ := carries_on hr hq hj hd
      cases hs : step c T s m with
      | none => exact absurd hs hx
      | some r =>
        cases r with
        | error e => exact absurd hs (no_failure hr hq hT hS hw htc h64 (by omega))
        | ok s' => have := (effort_step hr hq hT hm hs).1; omega
  | succ k ih =>
    intro s hr hk hn
    by_cases hd : ∀ j < T.callers, s.pos j = .done
    · exact ⟨0, s, .start, hd⟩
    · push Not at hd
      obtain ⟨j, hj, hd⟩ := hd
      obtain ⟨m, hm, hx⟩ := carries_on hr hq hj hd
      cases hs : step c T s m with
      | none => exact absurd hs hx
      | some r =>
        cases r with
        | error e => exact absurd hs (no_failure hr hq hT hS hw htc h64 (by omega))
        | ok s' =>
          obtain ⟨h1, h2⟩ := effort_step hr hq hT hm hs
          obtain ⟨n, s'', h3, h4⟩ := ih s' (.move hr hs) (by omega) (by omega)
          exact ⟨_, s'', Steadily.trans (.move .start hm hs) h3, h4⟩

omit [DecidableEq V] in
/-- When everybody is done, one of them provided the value. -/
theorem solved {solve : Nat} (h : Phase T solve s) (hl : Link T s) (hn : solve < T.callers) (hd : ∀ j < T.callers, s.pos j = .done) :
    s.entered = solve + 1 ∧ s.base.shard.contents T.key = some T.good := by
  cases h with
  | before he hc hv hh hl =>
    exfalso
    have : lates T s = T.callers := by
      unfold lates
      rw [Finset.filter_true_of_mem, Finset.card_range]
      intro j hj
      rw [hd j (Finset.mem_range.mp hj)]; rfl
    omega
  | after he hv hc =>
    refine ⟨he, ?_⟩
    have idle : ∀ j a, (s.pos j).agent ≠ some a := by
      intro j a ha
      have hj := hl.lt j (by intro h0; rw [h0] at ha; cases ha)
      rw [hd j hj] at ha; cases ha
    rcases hc with ⟨⟨j, a, hp⟩, -⟩ | ⟨⟨a, p, r, hp⟩, -⟩ | h1
    · exact absurd (by rw [hp]; rfl) (idle j a)
    · obtain ⟨j, hj⟩ := hl.all a (by rw [hp]; simp)
      exact absurd hj (idle j a)
    · exact h1

end
end QuickCache.Herd
