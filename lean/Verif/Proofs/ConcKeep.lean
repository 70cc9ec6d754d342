import Verif.Proofs.ConcEff

/-!
# Every action keeps the invariant of the protocol
-/

namespace QuickCache.Conc
variable {K V RS : Type}
open Shard Unsync Spec
open Function (update)

section
variable [DecidableEq K] {c : Cfg K V RS} {s s' : State K V}

theorem CInv.new {sh : Shard K V} (h : Inv c sh) (hp : ∀ k p, ¬ PSlot sh k p) : CInv c (State.new sh) where
  shard := h
  fresh := fun _ _ => rfl
  lock := ⟨by simp [State.new, Ctl.writes], by simp [State.new, Ctl.reads], List.nodup_nil, fun _ _ => rfl⟩
  ag := fun _ => trivial
  kind := by simp [State.new, Ctl.joins]
  thr := by simp [State.new, Ctl.calling]
  pl := ⟨by simp [State.new], by simp [State.new], by simp [State.new], by simp [State.new], by simp [State.new],
    fun k p hs => absurd hs (hp k p)⟩

omit [DecidableEq K] in
theorem comp_update {α β : Type} (f : α → β) (g : Nat → α) (a : Nat) (x : α) :
    (fun b => f (update g a x b)) = update (fun b => f (g b)) a (f x) := by
  funext b
  by_cases hb : b = a
  · subst hb; simp
  · simp [hb]

omit [DecidableEq K] in
theorem resp_update {a : Nat} {x : Ctl K V} {f : Bool} (hc : s'.ctl = update s.ctl a x) (hf : s'.flag = update s.flag a f) :
    resp s' = update (resp s) a (respOf x f) ∧ wait s' = update (wait s) a (waitOf x f) := by
  constructor <;> funext b <;> simp only [resp, wait, hc, hf] <;> by_cases hb : b = a
  · subst hb; simp
  · simp [hb, resp]
  · subst hb; simp
  · simp [hb, wait]

/-- An agent moves. -/
theorem CInv.move (h : CInv c s) {a : Nat} {x : Ctl K V} {f : Bool}
    (hctl : s'.ctl = update s.ctl a x) (hflag : s'.flag = update s.flag a f) (hnext : s'.next = s.next)
    (hkind : s'.kind = s.kind) (hold : s.ctl a ≠ .idle) (hcall : x.calling = true → (s.ctl a).calling = true)
    (hj : x.joins = true → s.kind a ≠ .get) (hshard : Inv c s'.shard)
    (hlock : LInv s'.writer s'.readers (update (fun b => (s.ctl b).writes) a x.writes)
      (update (fun b => (s.ctl b).reads) a x.reads))
    (hag : AOK c s'.shard s'.plh x) (hother : ∀ b, b ≠ a → AOK c s'.shard s'.plh (s.ctl b))
    (hpl : PInv c s'.shard s'.plh (update (resp s) a (respOf x f)) (update (wait s) a (waitOf x f))) : CInv c s' where
  shard := hshard
  fresh := by
    intro b hb
    rw [hnext] at hb
    have hba : b ≠ a := by rintro rfl; exact hold (h.fresh b hb)
    rw [hctl, Function.update_of_ne hba]
    exact h.fresh b hb
  lock := by
    rw [hctl, comp_update (fun x : Ctl K V => x.writes), comp_update (fun x : Ctl K V => x.reads)]
    exact hlock
  ag := by
    intro b
    rw [hctl]
    by_cases hb : b = a
    · subst hb; rw [Function.update_self]; exact hag
    · rw [Function.update_of_ne hb]; exact hother b hb
  kind := by
    intro b hb
    rw [hkind]
    rw [hctl] at hb
    by_cases hba : b = a
    · subst hba; rw [Function.update_self] at hb; exact hj hb
    · rw [Function.update_of_ne hba] at hb; exact h.kind b hb
  thr := by
    have hc : ∀ b, (s'.ctl b).calling = true → (s.ctl b).calling = true := by
      intro b hb
      rw [hctl] at hb
      by_cases hba : b = a
      · subst hba; rw [Function.update_self] at hb; exact hcall hb
      · rw [Function.update_of_ne hba] at hb; exact hb
    intro b d tid x y hx hy hb hd
    rw [hkind] at hx hy
    exact h.thr b d tid x y hx hy (hc b hb) (hc d hd)
  pl := by
    obtain ⟨h1, h2⟩ := resp_update hctl hflag
    rw [h1, h2]; exact hpl

/-- Nobody else holds the lock in a write section. -/
theorem CInv.alone (h : CInv c s) {a : Nat} (hu : (s.writer = none ∧ s.readers = []) ∨ (s.ctl a).writes = true) {b : Nat}
    (hb : b ≠ a) : (s.ctl b).writes = false ∧ (s.ctl b).reads = false := by
  have key : (s.writer ≠ some b) ∧ b ∉ s.readers := by
    rcases hu with ⟨h1, h2⟩ | h1
    · rw [h1, h2]; simp
    · have hw := (h.lock.wr a).mpr h1
      have hr := h.lock.excl a hw
      rw [hw, hr]
      simp [Ne.symm hb]
  constructor
  · have := (h.lock.wr b).not.mp key.1
    simpa using this
  · have := (h.lock.rd b).not.mp key.2
    simpa using this

theorem CInv.resp_at (h : CInv c s) {b : Nat} {q : Plh} (hb : resp s b = some q) : ∃ ps, s.plh q.id = some ps := by
  have ha := h.ag b
  unfold resp respOf at hb
  split at hb <;> rename_i hc <;> try (rw [hc] at ha)
  all_goals first
    | (cases hb; obtain ⟨ps, h1, -⟩ := ha; exact ⟨ps, h1⟩)
    | (split at hb <;> cases hb; obtain ⟨ps, h1, -⟩ := ha; exact ⟨ps, h1⟩)
    | cases hb

theorem CInv.wait_at (h : CInv c s) {b : Nat} {q : Plh} (hb : wait s b = some q) : ∃ ps, s.plh q.id = some ps := by
  have ha := h.ag b
  unfold wait waitOf at hb
  split at hb <;> rename_i hc <;> try (rw [hc] at ha)
  all_goals first
    | (split at hb <;> cases hb; obtain ⟨ps, h1, -⟩ := ha; exact ⟨ps, h1⟩)
    | cases hb

omit [DecidableEq K] in
theorem flag_self (a : Nat) : s.flag = update s.flag a (s.flag a) := (Function.update_eq_self a s.flag).symm

/-- The lock is as before when an agent stays in the same mode. -/
theorem CInv.lock_same (h : CInv c s) {a : Nat} {x : Ctl K V} (hw : (s.ctl a).writes = x.writes)
    (hr : (s.ctl a).reads = x.reads) : LInv s.writer s.readers (update (fun b => (s.ctl b).writes) a x.writes)
      (update (fun b => (s.ctl b).reads) a x.reads) := by
  rw [← hw, ← hr]
  have := h.lock.same (a := a)
  exact this

omit [DecidableEq K] in
theorem resp_at' {a : Nat} {x : Ctl K V} (h : s.ctl a = x) : resp s a = respOf x (s.flag a) := by unfold resp; rw [h]
omit [DecidableEq K] in
theorem wait_at' {a : Nat} {x : Ctl K V} (h : s.ctl a = x) : wait s a = waitOf x (s.flag a) := by unfold wait; rw [h]

/-- A move that changes nothing but the agent's position. -/
theorem CInv.pass (h : CInv c s) {a : Nat} {x y : Ctl K V} (hc : s.ctl a = y) (hold : y ≠ .idle)
    (hcall : x.calling = true → y.calling = true) (hj : x.joins = true → s.kind a ≠ .get)
    (hw : y.writes = x.writes) (hr : y.reads = x.reads) (hag : AOK c s.shard s.plh x)
    (hresp : respOf y (s.flag a) = respOf x (s.flag a)) (hwait : waitOf y (s.flag a) = waitOf x (s.flag a)) :
    CInv c (s.go a x) := by
  subst hc
  refine h.move (a := a) (x := x) (f := s.flag a) rfl (flag_self a) rfl rfl hold hcall hj h.shard
    (h.lock_same hw hr) hag (fun b _ => h.ag b) ?_
  exact h.pl.same (by rw [resp_at' rfl]; exact hresp) (by rw [wait_at' rfl]; exact hwait)

/-- Taking the read lock. -/
theorem CInv.passRead (h : CInv c s) {a : Nat} {x y : Ctl K V} (hc : s.ctl a = y) (hold : y ≠ .idle)
    (hcall : x.calling = true → y.calling = true) (hj : x.joins = true → s.kind a ≠ .get)
    (hw : y.writes = false) (hr : y.reads = false) (hw' : x.writes = false) (hr' : x.reads = true) (hfree : s.writer = none)
    (hag : AOK c s.shard s.plh x) (hctl : s'.ctl = update s.ctl a x) (hflag : s'.flag = s.flag) (hnext : s'.next = s.next)
    (hkind : s'.kind = s.kind) (hshard : s'.shard = s.shard) (hplh : s'.plh = s.plh) (hwr : s'.writer = s.writer)
    (hrd : s'.readers = a :: s.readers)
    (hresp : respOf y (s.flag a) = respOf x (s.flag a)) (hwait : waitOf y (s.flag a) = waitOf x (s.flag a)) :
    CInv c s' := by
  subst hc
  refine h.move (a := a) (x := x) (f := s.flag a) hctl (by rw [hflag]; exact flag_self a) hnext hkind hold hcall hj
    (hshard ▸ h.shard) ?_ (by rw [hshard, hplh]; exact hag) (fun b _ => by rw [hshard, hplh]; exact h.ag b) ?_
  · rw [hw', hr', hwr, hrd]
    exact h.lock.takeRead hfree hr hw
  · rw [hshard, hplh]
    exact h.pl.same (by rw [resp_at' rfl]; exact hresp) (by rw [wait_at' rfl]; exact hwait)

theorem CInv.kindOf (h : CInv c s) {a : Nat} {x : Ctl K V} (hc : s.ctl a = x) (hj : x.joins = true) : s.kind a ≠ .get :=
  h.kind a (by rw [hc]; exact hj)

/-- Section of a read lock holder, or without the lock. -/
theorem CInv.readSec (h : CInv c s) {a : Nat} {x y : Ctl K V} (hc : s.ctl a = y) (hold : y ≠ .idle)
    (hcall : x.calling = true → y.calling = true) (hj : x.joins = true → s.kind a ≠ .get)
    {sec : Section K V} {z : Shard K V × SOut K V × Req K V RS} (he : SecEff c s.shard sec z) (hr : sec.reads)
    (hctl : s'.ctl = update s.ctl a x) (hflag : s'.flag = s.flag) (hnext : s'.next = s.next)
    (hkind : s'.kind = s.kind) (hshard : s'.shard = z.1) (hplh : s'.plh = s.plh)
    (hlock : LInv s'.writer s'.readers (update (fun b => (s.ctl b).writes) a x.writes)
      (update (fun b => (s.ctl b).reads) a x.reads))
    (hag : ReadEff c s.shard z.1 → AOK c z.1 s.plh x)
    (hresp : respOf y (s.flag a) = respOf x (s.flag a)) (hwait : waitOf y (s.flag a) = waitOf x (s.flag a)) :
    CInv c s' := by
  subst hc
  have hre := he.read h.shard hr
  have hk := (he.keeps h.shard).1
  refine h.move (a := a) (x := x) (f := s.flag a) hctl (by rw [hflag]; exact flag_self a) hnext hkind hold hcall hj
    (by rw [hshard]; exact hk) hlock (by rw [hshard, hplh]; exact hag hre)
    (fun b _ => by rw [hshard, hplh]; exact AOK.read hre (h.ag b)) ?_
  rw [hshard, hplh]
  exact (h.pl.read hre.plh hre.np).same (by rw [resp_at' rfl]; exact hresp) (by rw [wait_at' rfl]; exact hwait)

/-- Every outcome satisfies the invariant again. -/
theorem Eff.keeps {act : Act K V} {evs : List (Ev K V)} (he : Eff c s act s' evs) (h : CInv c s) : CInv c s' := by
  cases he with
  | begin kind k hk =>
    have hidle := h.fresh s.next (Nat.le_refl _)
    have hres : ∀ b, resp { s with next := s.next + 1, kind := update s.kind s.next kind,
                                   ctl := update s.ctl s.next (.start k), flag := update s.flag s.next false } b = resp s b := by
      intro b
      unfold resp
      by_cases hb : b = s.next
      · subst hb; simp only [Function.update_self, hidle]; rfl
      · simp only [Function.update_of_ne hb]
    have hwai : ∀ b, wait { s with next := s.next + 1, kind := update s.kind s.next kind,
                                   ctl := update s.ctl s.next (.start k), flag := update s.flag s.next false } b = wait s b := by
      intro b
      unfold wait
      by_cases hb : b = s.next
      · subst hb; simp only [Function.update_self, hidle]; rfl
      · simp only [Function.update_of_ne hb]
    refine ⟨h.shard, ?_, ?_, ?_, ?_, ?_, ?_⟩
    · intro b hb
      have hb' : s.next + 1 ≤ b := hb
      show update s.ctl s.next _ b = _
      rw [Function.update_of_ne (by omega)]
      exact h.fresh b (by omega)
    · show LInv s.writer s.readers (fun b => (update s.ctl s.next _ b).writes) (fun b => (update s.ctl s.next _ b).reads)
      rw [comp_update (fun x : Ctl K V => x.writes), comp_update (fun x : Ctl K V => x.reads)]
      exact h.lock.free (by simp [hidle, Ctl.writes]) (by simp [hidle, Ctl.reads])
    · intro b
      show AOK c s.shard s.plh (update s.ctl s.next _ b)
      by_cases hb : b = s.next
      · subst hb; rw [Function.update_self]; trivial
      · rw [Function.update_of_ne hb]; exact h.ag b
    · intro b hb
      change (update s.ctl s.next _ b).joins = true at hb
      show update s.kind s.next kind b ≠ _
      by_cases hbn : b = s.next
      · subst hbn; rw [Function.update_self] at hb; cases hb
      · rw [Function.update_of_ne hbn] at hb ⊢; exact h.kind b hb
    · intro b d tid x y hb hd hcb hcd
      change update s.kind s.next kind b = _ at hb
      change update s.kind s.next kind d = _ at hd
      change (update s.ctl s.next _ b).calling = true at hcb
      change (update s.ctl s.next _ d).calling = true at hcd
      by_cases hbn : b = s.next <;> by_cases hdn : d = s.next
      · rw [hbn, hdn]
      · subst hbn
        rw [Function.update_self] at hb
        rw [Function.update_of_ne hdn] at hd hcd
        rw [hk tid x hb d y hd] at hcd; cases hcd
      · subst hdn
        rw [Function.update_self] at hd
        rw [Function.update_of_ne hbn] at hb hcb
        rw [hk tid y hd b x hb] at hcb; cases hcb
      · rw [Function.update_of_ne hbn] at hb hcb
        rw [Function.update_of_ne hdn] at hd hcd
        exact h.thr b d tid x y hb hd hcb hcd
    · have e1 := funext hres
      have e2 := funext hwai
      rw [e1, e2]
      exact h.pl
  | enter w hc hw =>
    exact h.passRead hc (by simp) (fun _ => rfl) (by simp [Ctl.joins]) rfl rfl rfl rfl hw (x := .seek _) trivial rfl rfl rfl rfl rfl rfl
      rfl rfl rfl rfl
  | located hc t r ht hk =>
    exact h.pass hc (by simp) (fun _ => rfl) (by simp [Ctl.joins]) rfl rfl ⟨r, ht, hk, rfl⟩ rfl rfl
  | absent hc hno => exact h.pass hc (by simp) (fun _ => rfl) (by simp [Ctl.joins]) rfl rfl hno rfl rfl
  | load hc n _ =>
    have hA := h.at hc
    obtain ⟨r, h1, h2, h3⟩ := hA
    split
    · exact h.pass hc (by simp) (fun _ => rfl) (by simp [Ctl.joins]) rfl rfl ⟨r, h1, h2, h3⟩ rfl rfl
    · exact h.pass hc (by simp) (fun _ => rfl) (by simp [Ctl.joins]) rfl rfl
        (by rw [← h3]; exact contents_at h.shard.toInv0 h1 h2) rfl rfl
  | bump hc he =>
    have hA := h.at hc
    obtain ⟨r, h1, h2, h3⟩ := hA
    refine h.readSec hc (by simp) (fun _ => rfl) (by simp [Ctl.joins]) he trivial rfl rfl rfl rfl rfl rfl
      (h.lock_same (by rw [hc]; rfl) (by rw [hc]; rfl)) (fun hre => ?_) rfl rfl
    show Shard.contents _ _ = _
    rw [hre.contents, ← h3]
    exact contents_at h.shard.toInv0 h1 h2
  | hit hc he =>
    refine h.readSec hc (by simp) (fun h => by cases h) (by simp [Ctl.joins]) he trivial rfl rfl rfl rfl rfl rfl
      (h.lock.dropRead (by rw [hc]; rfl)) (fun _ => trivial) rfl rfl
  | miss hc hk he =>
    refine h.readSec hc (by simp) (fun h => by cases h) (by simp [Ctl.joins]) he trivial rfl rfl rfl rfl rfl rfl
      (h.lock.dropRead (by rw [hc]; rfl)) (fun _ => trivial) rfl rfl
  | goOn hc hk he =>
    refine h.readSec hc (by simp) (fun _ => rfl) (fun _ => hk) he trivial rfl rfl rfl rfl rfl rfl
      (h.lock.dropRead (by rw [hc]; rfl)) (fun _ => trivial) rfl rfl
  | found hc hw hr he =>
    obtain ⟨hI, -⟩ := he.keeps h.shard
    cases he with
    | found t r hk wrote hits misses plh np =>
      refine h.move (a := _) (x := .idle) (f := _) rfl (flag_self _) rfl rfl (by rw [hc]; simp) (by simp [Ctl.calling])
        (by simp [Ctl.joins]) hI (h.lock_same (by rw [hc]; rfl) (by rw [hc]; rfl)) trivial
        (fun b hb => AOK.write (h.ag b) (h.alone (Or.inl ⟨hw, hr⟩) hb).1 (h.alone (Or.inl ⟨hw, hr⟩) hb).2) ?_
      exact (h.pl.read plh np).same (by rw [resp_at' hc]; rfl) (by rw [wait_at' hc]; rfl)
  | created hc hw hr he =>
    obtain ⟨hI, -⟩ := he.keeps h.shard
    cases he with
    | created hp hno plh id np =>
      rename_i a k p sh
      have hn : s.plh p.id = none := by
        cases hx : s.plh p.id with
        | none => rfl
        | some ps => have := (h.pl.id _ _ hx).1; omega
      refine h.move (a := a) (x := .starting k p true) (f := _) rfl (flag_self _) rfl rfl (by rw [hc]; simp)
        (fun _ => by rw [hc]; rfl) (fun _ => h.kindOf hc rfl) hI (h.lock.takeWrite hw hr)
        ⟨_, Function.update_self .., rfl, rfl, rfl⟩
        (fun b hb => AOK.other (AOK.write (h.ag b) (h.alone (Or.inl ⟨hw, hr⟩) hb).1 (h.alone (Or.inl ⟨hw, hr⟩) hb).2) hn) ?_
      exact h.pl.created id np plh (fun b q => h.resp_at) (fun b q => h.wait_at) (by rw [resp_at' hc]; rfl)
        (by rw [wait_at' hc]; rfl)
  | joining hc hw hr he =>
    obtain ⟨hI, -⟩ := he.keeps h.shard
    cases he with
    | joined hp hl =>
      rename_i a k p
      have plh : PEff c s.shard { s.shard with hits := s.shard.hits + 1 } (PLive c s.shard) (fun _ => False) :=
        ((SecEff.counted (c := c) (s := s.shard) true).read h.shard trivial).plh
      obtain ⟨ps, g1, g2, g3, g4⟩ := h.pl.slot k p hl.1
      refine h.move (a := a) (x := .joining k p) (f := _) rfl (flag_self _) rfl rfl (by rw [hc]; simp)
        (fun _ => by rw [hc]; rfl) (fun _ => h.kindOf hc rfl) hI (h.lock.takeWrite hw hr)
        ⟨⟨ps, g1, g2, g3, g4.mp hl⟩, (plh.live k p).mpr hl⟩
        (fun b hb => AOK.write (h.ag b) (h.alone (Or.inl ⟨hw, hr⟩) hb).1 (h.alone (Or.inl ⟨hw, hr⟩) hb).2) ?_
      exact (h.pl.read plh rfl).same (by rw [resp_at' hc]; rfl) (by rw [wait_at' hc]; rfl)
  | enlist hc hp hk hh hl =>
    rename_i a k p ps
    refine h.move (a := a) (x := .waiting k p) (f := false) rfl rfl rfl rfl (by rw [hc]; simp)
      (fun _ => by rw [hc]; rfl) (fun _ => h.kindOf hc rfl) h.shard (h.lock.dropWrite (by rw [hc]; rfl))
      ((At.waiters (P := (· ≠ .terminated)) hp _).mpr ⟨ps, hp, hk, hh, by rw [hl]; simp⟩) (fun b _ => AOK.waiters hp _ (h.ag b)) ?_
    have := h.pl.enlist (a := a) hp hl (by rw [wait_at' hc]; rfl) (by rw [resp_at' hc]; rfl)
    rw [hh] at this
    subst hh
    exact this
  | late hc hp hk hh hl =>
    rename_i a k p ps v
    refine h.move (a := a) (x := .idle) (f := _) rfl (flag_self _) rfl rfl (by rw [hc]; simp)
      (fun h => by cases h) (fun h => by cases h) h.shard (h.lock.dropWrite (by rw [hc]; rfl)) trivial (fun b _ => h.ag b) ?_
    exact h.pl.same (by rw [resp_at' hc]; rfl) (by rw [wait_at' hc]; rfl)
  | guard hc =>
    rename_i a k p w
    have hA := h.at hc
    cases w with
    | true =>
      refine h.move (a := a) (x := .guard k p) (f := _) rfl (flag_self _) rfl rfl (by rw [hc]; simp)
        (fun h => by cases h) (fun _ => h.kindOf hc rfl) h.shard (h.lock.dropWrite (by rw [hc]; rfl)) hA (fun b _ => h.ag b) ?_
      exact h.pl.same (by rw [resp_at' hc]; rfl) (by rw [wait_at' hc]; rfl)
    | false =>
      refine h.move (a := a) (x := .guard k p) (f := _) rfl (flag_self _) rfl rfl (by rw [hc]; simp)
        (fun h => by cases h) (fun _ => h.kindOf hc rfl) h.shard (h.lock.dropRead (by rw [hc]; rfl)) hA (fun b _ => h.ag b) ?_
      exact h.pl.same (by rw [resp_at' hc]; rfl) (by rw [wait_at' hc]; rfl)
  | wake hc hk hf =>
    exact h.pass hc (by simp) (fun _ => rfl) (fun _ => h.kindOf hc rfl) rfl rfl (by have hA := h.at hc; exact hA) (by rw [hf]; rfl) (by rw [hf]; rfl)
  | claim w hc hk hf =>
    rename_i a k p
    refine h.move (a := a) (x := .claimed k p) (f := false) rfl rfl rfl rfl (by rw [hc]; simp)
      (fun _ => by rw [hc]; rfl) (fun _ => h.kindOf hc rfl) h.shard (h.lock_same (by rw [hc]; rfl) (by rw [hc]; rfl))
      (by have hA := h.at hc; exact hA) (fun b _ => h.ag b) ?_
    exact h.pl.same (by rw [resp_at' hc, hf]; rfl) (by rw [wait_at' hc, hf]; rfl)
  | pending w hc hk hf =>
    exact ⟨h.shard, h.fresh, h.lock, h.ag, h.kind, h.thr, h.pl⟩
  | timely hc hk hf =>
    exact h.pass hc (by simp) (fun _ => rfl) (fun _ => h.kindOf hc rfl) rfl rfl (by have hA := h.at hc; exact hA) (by rw [hf]; rfl) (by rw [hf]; rfl)
  | timeout hc hk hf hp hh hws =>
    rename_i a k p tid ps ws
    refine h.move (a := a) (x := .idle) (f := _) rfl (flag_self _) rfl rfl (by rw [hc]; simp)
      (fun h => by cases h) (fun h => by cases h) h.shard (h.lock_same (by rw [hc]; rfl) (by rw [hc]; rfl)) trivial
      (fun b _ => AOK.waiters hp _ (h.ag b)) ?_
    exact h.pl.leave hp hws (by rw [resp_at' hc, hf]; rfl)
  | relock hc hw =>
    exact h.passRead hc (by simp) (fun _ => rfl) (fun _ => h.kindOf hc rfl) rfl rfl rfl rfl hw (x := .rejoining _ _) (by have hA := h.at hc; exact hA)
      rfl rfl rfl rfl rfl rfl rfl rfl rfl rfl
  | retry hc hp hk hh hl =>
    exact h.pass hc (by simp) (fun _ => rfl) (fun _ => h.kindOf hc rfl) rfl rfl ⟨_, hp, hk, hh, hl⟩ rfl rfl
  | received hc hp hk hh hl =>
    rename_i a k p ps v
    refine h.move (a := a) (x := .idle) (f := _) rfl (flag_self _) rfl rfl (by rw [hc]; simp)
      (fun h => by cases h) (fun h => by cases h) h.shard (h.lock.dropRead (by rw [hc]; rfl)) trivial (fun b _ => h.ag b) ?_
    exact h.pl.done hp (by rw [hl]; simp) (by rw [resp_at' hc, hh]; rfl) (by rw [wait_at' hc]; rfl)
  | publish v hc hp hk hh hl =>
    rename_i a k p ps
    have hra : resp s a = some ps.handle := by rw [resp_at' hc, hh]; rfl
    have honly : ∀ b, resp s b = some p → b = a := by
      obtain ⟨z, -, h2⟩ := h.pl.one _ ps hp hl
      intro b hb
      rw [← hh] at hb
      rw [h2 b hb, h2 a hra]
    have haw : a ∉ ps.waiters := by
      intro hm
      obtain ⟨⟨k', hx⟩, -⟩ := h.waiter hp hm
      rw [hc] at hx; cases hx
    refine ⟨h.shard, ?_, ?_, ?_, ?_, ?_, ?_⟩
    · intro b hb
      have hba : b ≠ a := by
        rintro rfl
        rw [h.fresh b hb] at hc; cases hc
      show update s.ctl a _ b = _
      rw [Function.update_of_ne hba]
      exact h.fresh b hb
    · show LInv s.writer s.readers (fun b => (update s.ctl a _ b).writes) (fun b => (update s.ctl a _ b).reads)
      rw [comp_update (fun x : Ctl K V => x.writes), comp_update (fun x : Ctl K V => x.reads)]
      exact h.lock_same (by rw [hc]; rfl) (by rw [hc]; rfl)
    · intro b
      show AOK c s.shard (update s.plh p.id (some { ps with waiters := [], loading := .inserted v })) (update s.ctl a _ b)
      by_cases hba : b = a
      · subst hba
        rw [Function.update_self]
        exact ⟨_, Function.update_self .., hk, hh, rfl⟩
      · rw [Function.update_of_ne hba]
        have ha := h.ag b
        have hrb : resp s b ≠ some p := fun hx => hba (honly b hx)
        have hoth : ∀ {k' : K} {q : Plh} {P : Loading V → Prop}, At s.plh k' q P → q ≠ p →
            At (update s.plh p.id (some { ps with waiters := [], loading := .inserted v })) k' q P := by
          intro k' q P hA hne
          refine (At.other ?_).mpr hA
          intro hid
          obtain ⟨qs, g1, -, g3, -⟩ := hA
          rw [hid, hp] at g1
          cases g1
          exact hne (by rw [← g3, hh])
        have hlive : ∀ {k' : K} {q : Plh}, At s.plh k' q (· ≠ .terminated) →
            At (update s.plh p.id (some { ps with waiters := [], loading := .inserted v })) k' q (· ≠ .terminated) := by
          intro k' q hA
          by_cases hq : q = p
          · subst hq
            obtain ⟨qs, g1, g2, g3, -⟩ := hA
            rw [hp] at g1; cases g1
            exact ⟨_, Function.update_self .., g2, g3, by simp⟩
          · exact hoth hA hq
        cases hcb : s.ctl b <;> rw [hcb] at ha <;> simp only [resp, hcb, respOf] at hrb <;> simp only [AOK] at ha ⊢
        case saw => exact ha
        case bump => exact ha
        case tally => exact ha
        case joining => exact ⟨hlive ha.1, ha.2⟩
        case waiting => exact hlive ha
        case claimed => exact hlive ha
        case rejoining => exact hlive ha
        case inserting k' q v r =>
          refine hoth ha ?_
          rintro rfl
          obtain ⟨qs, g1, -, g3, g4⟩ := ha
          rw [hp] at g1
          cases g1
          rw [hl] at g4; cases g4
        all_goals exact hoth ha (by rintro rfl; exact hrb rfl)
    · intro b hb
      change (update s.ctl a _ b).joins = true at hb
      by_cases hba : b = a
      · subst hba; exact h.kindOf hc rfl
      · rw [Function.update_of_ne hba] at hb; exact h.kind b hb
    · have hcl : ∀ b, (update s.ctl a (.inserting k p v (!ps.waiters.isEmpty)) b).calling = true → (s.ctl b).calling = true := by
        intro b hb
        by_cases hba : b = a
        · subst hba; rw [Function.update_self] at hb; cases hb
        · rw [Function.update_of_ne hba] at hb; exact hb
      intro b d tid x y hb hd hcb hcd
      exact h.thr b d tid x y hb hd (hcl b hcb) (hcl d hcd)
    · refine h.pl.publish hp hra hl ?_ ?_ ?_ ?_ ?_ ?_ ?_ (by rw [wait_at' hc]; rfl)
      · simp [resp, State.go, respOf]
      · simp [wait, State.go, waitOf]
      · intro x hx
        obtain ⟨⟨k', hxc⟩, hxf⟩ := h.waiter hp hx
        have hxa : x ≠ a := by rintro rfl; exact haw hx
        simp [resp, State.go, State.setPlh, Function.update_of_ne hxa, hxc, respOf, hx]
      · intro x hx
        obtain ⟨⟨k', hxc⟩, hxf⟩ := h.waiter hp hx
        have hxa : x ≠ a := by rintro rfl; exact haw hx
        simp [wait, State.go, State.setPlh, Function.update_of_ne hxa, hxc, waitOf, hx]
      · intro x hx hxa
        simp [resp, State.go, State.setPlh, Function.update_of_ne hxa, hx]
      · intro x hx hxa
        simp [wait, State.go, State.setPlh, Function.update_of_ne hxa, hx]
      · intro x hx
        obtain ⟨⟨k', hxc⟩, hxf⟩ := h.waiter hp hx
        rw [resp_at' hxc, hxf]; rfl
  | superseded hc hw hr hg =>
    exact h.pass hc (by simp) (fun h => by cases h) (fun h => by cases h) rfl rfl trivial rfl rfl
  | store hc hw hr hl he =>
    obtain ⟨hI, -⟩ := he.keeps h.shard
    rename_i a k p v referenced sh q
    have hnp : PInv c sh s.plh (resp s) (wait s) := by
      cases he with
      | filled _ hst plh np => exact h.pl.shrink (fun _ _ hk => hk.1) plh np
    refine h.move (a := _) (x := .idle) (f := _) rfl (flag_self _) rfl rfl (by rw [hc]; simp) (by simp [Ctl.calling])
      (by simp [Ctl.joins]) hI (h.lock_same (by rw [hc]; rfl) (by rw [hc]; rfl)) trivial
      (fun b hb => AOK.write (h.ag b) (h.alone (Or.inl ⟨hw, hr⟩) hb).1 (h.alone (Or.inl ⟨hw, hr⟩) hb).2) ?_
    exact hnp.same (by rw [resp_at' hc]; rfl) (by rw [wait_at' hc]; rfl)
  | drop hc =>
    exact h.pass hc (by simp) (fun h => by cases h) (fun _ => h.kindOf hc rfl) rfl rfl (by have hA := h.at hc; exact hA) rfl rfl
  | lockDrop hc hw hr =>
    rename_i a k p
    refine h.move (a := a) (x := .dropping k p) (f := _) rfl (flag_self _) rfl rfl (by rw [hc]; simp)
      (fun h => by cases h) (fun _ => h.kindOf hc rfl) h.shard (h.lock.takeWrite hw hr) (by have hA := h.at hc; exact hA) (fun b _ => h.ag b) ?_
    exact h.pl.same (by rw [resp_at' hc]; rfl) (by rw [wait_at' hc]; rfl)
  | handOver hc hp hk hh hl hb =>
    rename_i a b k p ps
    have hra : resp s a = some ps.handle := by rw [resp_at' hc, hh]; rfl
    have hbw : b ∈ ps.waiters := List.mem_of_getLast? hb
    obtain ⟨⟨k', hbc⟩, hbf⟩ := h.waiter hp hbw
    have hab : a ≠ b := by rintro rfl; rw [hc] at hbc; cases hbc
    have hws : ps.waiters.Perm (b :: ps.waiters.dropLast) := by
      obtain ⟨l, hl'⟩ := List.getLast?_eq_some_iff.mp hb
      rw [hl', List.dropLast_concat]
      exact List.perm_append_singleton b l
    have hcl : ∀ x, (update s.ctl a .idle x).calling = true → (s.ctl x).calling = true := by
      intro x hx
      by_cases hxa : x = a
      · subst hxa; rw [Function.update_self] at hx; cases hx
      · rw [Function.update_of_ne hxa] at hx; exact hx
    refine ⟨h.shard, ?_, ?_, ?_, ?_, ?_, ?_⟩
    · intro x hx
      have hxa : x ≠ a := by
        rintro rfl
        rw [h.fresh x hx] at hc; cases hc
      show update s.ctl a _ x = _
      rw [Function.update_of_ne hxa]
      exact h.fresh x hx
    · show LInv none s.readers (fun b => (update s.ctl a _ b).writes) (fun b => (update s.ctl a _ b).reads)
      rw [comp_update (fun x : Ctl K V => x.writes), comp_update (fun x : Ctl K V => x.reads)]
      exact h.lock.dropWrite (by rw [hc]; rfl)
    · intro x
      show AOK c s.shard (update s.plh p.id (some { ps with waiters := ps.waiters.dropLast })) (update s.ctl a _ x)
      refine AOK.waiters hp _ ?_
      by_cases hxa : x = a
      · subst hxa; rw [Function.update_self]; trivial
      · rw [Function.update_of_ne hxa]; exact h.ag x
    · intro x hx
      change (update s.ctl a _ x).joins = true at hx
      by_cases hxa : x = a
      · subst hxa; exact h.kindOf hc rfl
      · rw [Function.update_of_ne hxa] at hx; exact h.kind x hx
    · intro x d tid y z hx hd hcx hcd
      exact h.thr x d tid y z hx hd (hcl x hcx) (hcl d hcd)
    · have h1 := h.pl.hand hp hws hra hab hl (by rw [wait_at' hc]; rfl) (by rw [resp_at' hbc, hbf]; rfl)
      have e1 : resp (((((s.setPlh p { ps with waiters := ps.waiters.dropLast }).notify b).go a .idle).unlockWrite)) =
          update (update (resp s) a none) b (some ps.handle) := by
        funext x
        by_cases hxb : x = b
        · subst hxb
          simp [resp, State.go, State.setPlh, State.notify, State.unlockWrite, Function.update_of_ne (Ne.symm hab), hbc, respOf]
        · by_cases hxa : x = a
          · subst hxa
            simp [resp, State.go, State.setPlh, State.notify, State.unlockWrite, Function.update_of_ne hxb, respOf]
          · simp [resp, State.go, State.setPlh, State.notify, State.unlockWrite, Function.update_of_ne hxb,
              Function.update_of_ne hxa]
      have e2 : wait (((((s.setPlh p { ps with waiters := ps.waiters.dropLast }).notify b).go a .idle).unlockWrite)) =
          update (update (wait s) a none) b none := by
        funext x
        by_cases hxb : x = b
        · subst hxb
          simp [wait, State.go, State.setPlh, State.notify, State.unlockWrite, Function.update_of_ne (Ne.symm hab), hbc, waitOf]
        · by_cases hxa : x = a
          · subst hxa
            simp [wait, State.go, State.setPlh, State.notify, State.unlockWrite, Function.update_of_ne hxb, waitOf]
          · simp [wait, State.go, State.setPlh, State.notify, State.unlockWrite, Function.update_of_ne hxb,
              Function.update_of_ne hxa]
      rw [e1, e2]
      exact h1
  | giveUp hc hp hk hh hl hb he =>
    obtain ⟨hI, -⟩ := he.keeps h.shard
    rename_i a k p ps sh
    have hra : resp s a = some ps.handle := by rw [resp_at' hc, hh]; rfl
    have honly : ∀ b, resp s b = some p → b = a := by
      obtain ⟨z, -, h2⟩ := h.pl.one _ ps hp hl
      intro b hb
      rw [← hh] at hb
      rw [h2 b hb, h2 a hra]
    have hwr : (s.ctl a).writes = true := by rw [hc]; rfl
    cases he with
    | abandoned inv same entries wgt num ghosts plh =>
      refine h.move (a := a) (x := .idle) (f := _) rfl (flag_self _) rfl rfl (by rw [hc]; simp)
        (fun h => by cases h) (fun h => by cases h) hI (h.lock.dropWrite hwr) trivial ?_ ?_
      · intro b hba
        obtain ⟨w1, w2⟩ := h.alone (Or.inr hwr) hba
        refine AOK.write (sh := s.shard) ?_ w1 w2
        have hoth : ∀ {k' : K} {q : Plh} {P : Loading V → Prop}, At s.plh k' q P → q ≠ p →
            At (update s.plh p.id (some { ps with loading := .terminated })) k' q P := by
          intro k' q P hA hne
          refine (At.other ?_).mpr hA
          intro hid
          obtain ⟨qs, g1, -, g3, -⟩ := hA
          rw [hid, hp] at g1
          cases g1
          exact hne (by rw [← g3, hh])
        have ha := h.ag b
        have hrb : resp s b ≠ some p := fun hx => hba (honly b hx)
        have hwb : wait s b ≠ some p := by
          intro hx
          rw [← hh] at hx
          have := (h.pl.mem _ ps hp b).mpr hx
          rw [hb] at this; cases this
        show AOK c s.shard (update s.plh p.id (some { ps with loading := .terminated })) (s.ctl b)
        cases hcb : s.ctl b <;> rw [hcb] at ha w1 w2 <;> simp only [resp, wait, hcb, respOf, waitOf] at hrb hwb <;>
          simp only [AOK] at ha ⊢
        case saw => exact ha
        case bump => exact ha
        case tally => exact ha
        case joining => cases w1
        case waiting =>
          refine hoth ha ?_
          rintro rfl
          cases hf : s.flag b <;> simp [hf] at hrb hwb
        case inserting k' q v r =>
          refine hoth ha ?_
          rintro rfl
          obtain ⟨qs, g1, -, g3, g4⟩ := ha
          rw [hp] at g1
          cases g1
          rw [hl] at g4; cases g4
        all_goals exact hoth ha (by rintro rfl; exact hrb rfl)
      · refine h.pl.terminate hp hh hra hb (by rw [wait_at' hc]; rfl) plh same.nextPlh ?_
        intro k' p' hs
        unfold PSlot at hs ⊢
        rw [entries] at hs; exact hs
  | unpolled hc hk =>
    exact h.pass hc (by simp) (fun h => by cases h) (fun h => by cases h) rfl rfl trivial rfl rfl
  | cancelOwner hc hk hf hp hh hl =>
    obtain ⟨ps, h1, h2, h3, h4⟩ := h.at hc
    rw [hp] at h1; cases h1
    exact h.pass hc (by simp) (fun h => by cases h) (fun _ => h.kindOf hc rfl) rfl rfl ⟨_, hp, h2, hh, hl⟩
      (by rw [hf]; rfl) (by rw [hf]; rfl)
  | cancelDone hc hk hf hp hh hl =>
    rename_i a k p ps
    refine h.move (a := a) (x := .idle) (f := _) rfl (flag_self _) rfl rfl (by rw [hc]; simp)
      (fun h => by cases h) (fun h => by cases h) h.shard (h.lock_same (by rw [hc]; rfl) (by rw [hc]; rfl)) trivial
      (fun b _ => h.ag b) ?_
    exact h.pl.done hp hl (by rw [resp_at' hc, hh, hf]; rfl) (by rw [wait_at' hc, hf]; rfl)
  | cancel hc hk hf hp hh hws =>
    rename_i a k p ps ws
    refine h.move (a := a) (x := .idle) (f := _) rfl (flag_self _) rfl rfl (by rw [hc]; simp)
      (fun h => by cases h) (fun h => by cases h) h.shard (h.lock_same (by rw [hc]; rfl) (by rw [hc]; rfl)) trivial
      (fun b _ => AOK.waiters hp _ (h.ag b)) ?_
    exact h.pl.leave hp hws (by rw [resp_at' hc, hf]; rfl)
  | abandon hc =>
    exact h.pass hc (by simp) (fun h => by cases h) (fun _ => h.kindOf hc rfl) rfl rfl (by have hA := h.at hc; exact hA) rfl rfl
  | read hop he => exact h
  | write hop hw hr he =>
    obtain ⟨hI, -⟩ := he.keeps h.shard
    refine ⟨hI, h.fresh, h.lock, fun b => ?_, h.kind, h.thr, ?_⟩
    · have hwb : (s.ctl b).writes = false := by
        have := (h.lock.wr b).not.mp (by rw [hw]; simp)
        simpa using this
      have hrb : (s.ctl b).reads = false := by
        have := (h.lock.rd b).not.mp (by rw [hr]; simp)
        simpa using this
      exact AOK.write (h.ag b) hwb hrb
    · cases he with
      | call _ hst plh np => exact h.pl.shrink (fun _ _ hk => hk.1) plh np

end
end QuickCache.Conc
