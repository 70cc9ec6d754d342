import Verif.Proofs.Counters
import Verif.Proofs.ConcRun
import Verif.Spec.Crowd
import Mathlib.Data.List.Perm.Subperm

/-!
# Reference counters when several threads read
-/

namespace QuickCache.Conc
variable {K V RS : Type _} [DecidableEq K] {c : Cfg K V RS} {s s' : State K V} {act : Act K V} {evs : List (Ev K V)}
open Function (update)
open Shard Unsync Spec

/-- About to increment the counter of slot `t`. -/
def _root_.QuickCache.Conc.Ctl.bumps (t : Nat) : Ctl K V → Bool
  | .bump _ t' _ => t' == t
  | _ => false

omit [DecidableEq K] in
theorem Ctl.bumps_reads {t : Nat} {x : Ctl K V} (h : x.bumps t = true) : x.reads = true := by
  cases x <;> simp_all [Ctl.bumps, Ctl.reads]

/-- The number of agents about to increment the counter of slot `t`. -/
def bumpers (s : State K V) (t : Nat) : Nat := (s.readers.filter (fun a => (s.ctl a).bumps t)).length

omit [DecidableEq K] in
theorem bumpers_le (s : State K V) (t : Nat) : bumpers s t ≤ s.readers.length := List.length_filter_le _ _

theorem CInv.bumpers_mono (h : CInv c s) (h' : CInv c s') {t : Nat}
    (hb : ∀ a, (s'.ctl a).bumps t = true → (s.ctl a).bumps t = true) : bumpers s' t ≤ bumpers s t := by
  apply List.Subperm.length_le
  apply List.Nodup.subperm (h'.lock.nodup.filter _)
  intro a ha
  simp only [List.mem_filter] at ha ⊢
  exact ⟨(h.lock.rd a).mpr (Ctl.bumps_reads (hb a ha.2)), hb a ha.2⟩

theorem CInv.bumpers_lt (h : CInv c s) (h' : CInv c s') {t a : Nat} (ha : (s.ctl a).bumps t = true)
    (hn : (s'.ctl a).bumps t = false)
    (hb : ∀ a, (s'.ctl a).bumps t = true → (s.ctl a).bumps t = true) : bumpers s' t + 1 ≤ bumpers s t := by
  have : (a :: s'.readers.filter (fun a => (s'.ctl a).bumps t)).Subperm (s.readers.filter (fun a => (s.ctl a).bumps t)) := by
    apply List.Nodup.subperm
    · refine List.nodup_cons.mpr ⟨?_, h'.lock.nodup.filter _⟩
      simp [hn]
    intro b hb'
    simp only [List.mem_cons, List.mem_filter] at hb' ⊢
    rcases hb' with rfl | hb'
    · exact ⟨(h.lock.rd b).mpr (Ctl.bumps_reads ha), ha⟩
    · exact ⟨(h.lock.rd b).mpr (Ctl.bumps_reads (hb b hb'.2)), hb b hb'.2⟩
  simpa [bumpers] using this.length_le

/-- The counters, and the increments about to be made, are bounded. -/
def Low (B : Nat) (s : State K V) : Prop :=
  ∀ t r, s.shard.entries.item t = some (.resident r) → r.referenced + bumpers s t ≤ B

theorem _root_.QuickCache.SecEff.refLe {sh : Shard K V} {B : Nat} {sec : Section K V} {x : Shard K V × SOut K V × Req K V RS}
    (h : SecEff c sh sec x) (hi : Inv0 c sh) (hB : MAX_F ≤ B) (hb : ∀ k t, sec ≠ .bump k t) (hr : RefLe B sh) :
    RefLe B x.1 := by
  cases h with
  | call hop h plh np => exact h.refLe hi hB hr
  | found t r hk wrote hits misses plh np =>
    refine wrote.refLe hr (fun r' h' => ?_)
    cases h'
    have := hr t r wrote.upd.before
    have := bumpRef_le r.referenced
    simp only
    omega
  | created hp hno plh id np => exact hp.refLe hr
  | joined hp hl => exact hr
  | gone hg => exact hr
  | filled hl h plh np => exact h.refLe hB hr
  | abandoned inv same entries => intro t r ht; rw [entries] at ht; exact hr t r ht
  | located t r ht hk => exact hr
  | absent hno => exact hr
  | loaded r ht hk => exact hr
  | bumped r hk wrote plh same => exact absurd rfl (hb _ _)
  | counted hit => cases hit <;> exact hr

/-- Actions other than loading and incrementing a counter. -/
theorem Eff.quiet (he : Eff c s act s' evs) (h : CInv c s) {B : Nat} (hB : MAX_F ≤ B) (hl : ∀ a old, act ≠ .load a old)
    (hb : ∀ a, act ≠ .bump a) :
    (∀ a t, (s'.ctl a).bumps t = true → (s.ctl a).bumps t = true) ∧
      ((∀ t r, s'.shard.entries.item t = some (.resident r) → s.shard.entries.item t = some (.resident r)) ∨
        (s.readers = [] ∧ (RefLe B s.shard → RefLe B s'.shard))) := by
  have hi := h.shard.toInv0
  have upd : ∀ {a : Nat} {x : Ctl K V}, (∀ t, x.bumps t = false) →
      ∀ b t, ((update s.ctl a x) b).bumps t = true → (s.ctl b).bumps t = true := by
    intro a x hx b t hb
    by_cases hba : b = a
    · subst hba; rw [Function.update_self, hx] at hb; cases hb
    · rwa [Function.update_of_ne hba] at hb
  cases he with
  | load => exact absurd rfl (hl _ _)
  | bump => exact absurd rfl (hb _)
  | hit h he =>
    refine ⟨upd (fun _ => rfl), Or.inl ?_⟩
    cases he; exact fun _ _ h => h
  | miss h hk he =>
    refine ⟨upd (fun _ => rfl), Or.inl ?_⟩
    cases he; exact fun _ _ h => h
  | goOn h hk he =>
    refine ⟨upd (fun _ => rfl), Or.inl ?_⟩
    cases he; exact fun _ _ h => h
  | found h hw hr he => exact ⟨upd (fun _ => rfl), Or.inr ⟨hr, he.refLe hi hB (by intros; simp)⟩⟩
  | created h hw hr he => exact ⟨upd (fun _ => rfl), Or.inr ⟨hr, he.refLe hi hB (by intros; simp)⟩⟩
  | joining h hw hr he => exact ⟨upd (fun _ => rfl), Or.inr ⟨hr, he.refLe hi hB (by intros; simp)⟩⟩
  | store h hw hr hl he => exact ⟨upd (fun _ => rfl), Or.inr ⟨hr, he.refLe hi hB (by intros; simp)⟩⟩
  | giveUp h hp hk hh hl hb he =>
    refine ⟨upd (fun _ => rfl), Or.inl ?_⟩
    cases he with
    | abandoned inv same entries => intro t r ht; simp only at ht; rwa [entries] at ht
  | read hop he => exact ⟨fun _ _ h => h, Or.inl fun _ _ h => h⟩
  | write hop hw hr he => exact ⟨fun _ _ h => h, Or.inr ⟨hr, he.refLe hi hB (by intros; simp)⟩⟩
  | pending => exact ⟨fun _ _ h => h, Or.inl fun _ _ h => h⟩
  | @guard a k p w h => cases w <;> exact ⟨upd (fun _ => rfl), Or.inl fun _ _ h => h⟩
  | _ => exact ⟨upd (fun _ => rfl), Or.inl fun _ _ h => h⟩

/-- What a load of the counter sees. -/
theorem exec_load {a : Nat} (h : CInv c s) (hs : exec c s (.load a) = some (.ok (s', evs))) :
    ∃ k t v r, s.ctl a = .saw k t v ∧ s.shard.entries.item t = some (.resident r) ∧
      s' = s.go a (if r.referenced < MAX_F then .bump k t v else .tally k (some v)) := by
  simp only [exec, load] at hs
  split at hs
  · rename_i k t v hc
    obtain ⟨r, ht, -, -⟩ := h.at hc
    refine ⟨k, t, v, r, hc, ht, ?_⟩
    have hg : ∃ l, s.shard.entries.get t = some (.resident r, l) := by
      rw [Slab.get_eq, ht]; exact ⟨_, rfl⟩
    obtain ⟨l, hg⟩ := hg
    simp only [Sync.step, hg, bind, Except.bind, Option.some.injEq, Except.ok.injEq, Prod.mk.injEq] at hs
    exact hs.1.symm
  · cases hs

theorem Low.step {B n : Nat} (h : Low B s) (hi : CInv c s) (hi' : CInv c s') (hq : c.ptrEq = true) (hB : MAX_F ≤ B)
    (hn : n + 1 ≤ B) (few : s'.readers.length ≤ n) (new : ∀ a m, act ≠ .load a (some m)) (hs : exec c s act = some (.ok (s', evs))) : Low B s' := by
  by_cases hl : ∃ a, act = .load a
  · obtain ⟨a, rfl⟩ := hl
    obtain ⟨k, t, v, r, hc, ht, rfl⟩ := exec_load hi hs
    intro u r' hu
    by_cases hbig : u = t ∧ r.referenced < MAX_F
    · obtain ⟨rfl, hr⟩ := hbig
      have : r' = r := by simpa [State.go] using (ht.symm.trans hu).symm
      subst this
      have := bumpers_le (s.go a (if r'.referenced < MAX_F then .bump k u v else .tally k (some v))) u
      unfold MAX_F at *
      omega
    · refine Nat.le_trans (Nat.add_le_add_left ?_ _) (h u r' hu)
      refine hi.bumpers_mono hi' (fun b hb => ?_)
      by_cases hba : b = a
      · subst hba
        simp only [State.go, Function.update_self] at hb
        split at hb
        · rename_i hr
          simp only [Ctl.bumps, beq_iff_eq] at hb
          exact absurd ⟨hb.symm, hr⟩ hbig
        · simp [Ctl.bumps] at hb
      · simpa only [State.go, Function.update_of_ne hba] using hb
  by_cases hb : ∃ a, act = .bump a
  · obtain ⟨a, rfl⟩ := hb
    have he := hi.eff hq hs
    cases he with
    | @bump _ k t v sh hc he =>
      cases he with
      | bumped r hk wrote plh same =>
        intro u r' hu
        have hmono : ∀ t b, (update s.ctl a (.tally k (some v)) b).bumps t = true → (s.ctl b).bumps t = true := by
          intro t b hb
          by_cases hba : b = a
          · subst hba; simp [Ctl.bumps] at hb
          · simpa only [Function.update_of_ne hba] using hb
        by_cases hut : u = t
        · subst hut
          have h1 := hi.bumpers_lt hi' (t := u) (a := a) (by rw [hc]; simp [Ctl.bumps])
            (by simp [State.go, Ctl.bumps]) (hmono u)
          have h2 := h u r wrote.upd.before
          have h3 : r' = { r with referenced := (r.referenced + 1) % 2 ^ 16 } := by
            have := wrote.upd.after.symm.trans hu
            simpa using this.symm
          subst h3
          have := Nat.mod_le (r.referenced + 1) (2 ^ 16)
          simp only at h1 ⊢
          omega
        · have h1 := hi.bumpers_mono hi' (hmono u)
          have hu' : s.shard.entries.item u = some (.resident r') := by rw [← wrote.upd.other hut]; exact hu
          have h2 := h u r' hu'
          omega
  · obtain ⟨hm, h1⟩ := (hi.eff hq hs).quiet hi hB (fun a old e => by
      cases old with
      | none => exact hl ⟨a, e⟩
      | some m => exact new a m e) (fun a e => hb ⟨a, e⟩)
    intro t r ht
    have hb' := hi.bumpers_mono hi' (fun a => hm a t)
    rcases h1 with h1 | ⟨hr, h1⟩
    · have := h t r (h1 t r ht)
      omega
    · have h0 : bumpers s t = 0 := by simp [bumpers, hr]
      have := h1 (fun t r ht => Nat.le_trans (Nat.le_add_right _ _) (h t r ht)) t r ht
      omega

theorem _root_.QuickCache.Spec.Crowd.run {n : Nat} {s0 : State K V} {tr : List (Ev K V)} (hr : Crowd n c s0 tr s) :
    Run c s0 tr s := by
  induction hr with
  | start => exact .start
  | layout m p hr hm hp ih => exact .layout m p ih hm hp
  | act hr hs few new ih => exact .act ih hs

theorem _root_.QuickCache.Spec.Crowd.low {n target cap gcap B : Nat} {tr : List (Ev K V)}
    (hr : Crowd n c (State.new (Shard.new target cap gcap)) tr s) (hq : c.ptrEq = true) (hB : MAX_F ≤ B) (hn : n + 1 ≤ B) :
    Low B s := by
  induction hr with
  | start => intro t r ht; simp [State.new, Shard.new, Slab.new, Slab.item] at ht
  | layout m p hr hm hp ih => exact ih
  | act hr hs few new ih =>
    have hre := hr.run.reach hq (.new ..)
    exact ih.step hre.inv (hre.step (hre.inv.eff hq hs)).inv hq hB hn few new hs

end QuickCache.Conc
