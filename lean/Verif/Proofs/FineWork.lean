import Verif.Proofs.FineFacts

/-!
# Parking: the callers do not run for ever
-/

set_option linter.unusedSimpArgs false

namespace QuickCache.Fine
variable {K V RS : Type}
open Conc (Act Ctl Kind Outcome Ev PState exec CReach CInv Eff)
open Function (update)
open Spec Classical

/-- The notifier of `a` has set its flag or will do so, and has not yet unparked or woken it. -/
def Pends (f : State K V) (a : Nat) : Prop := ∃ i h, f.hold i = some h ∧ (.unpark a ∈ h.todo ∨ .wake a ∈ h.todo)

/-- The token of the thread of `a` makes park return once more. -/
def tok (f : State K V) (a : Nat) : Nat :=
  match f.base.kind a with
  | .thread t _ => if f.token t then 3 else 0
  | _ => 0

/-- The actions up to the next park. -/
def pcw : Pc → Nat
  | .about => 1
  | .parked => 0
  | .awake => 2
  | .late => 1

/-- The actions of its notifier for `a`, and what they cause. -/
noncomputable def pend (f : State K V) (a : Nat) : Nat := if f.flag a = false then 5 else if Pends f a then 4 else 0

/-- What `a` can do while waiting. -/
noncomputable def wrest (f : State K V) (a : Nat) : Nat :=
  match f.early a with
  | some _ => if a ∈ f.readers then 6 else 7
  | none => 8 + pcw (f.pc a) + tok f a

/-- What `a` can do and cause while waiting. -/
noncomputable def wweight (f : State K V) (a : Nat) : Nat := pend f a + wrest f a

/-- The number of actions an agent can still take and cause. -/
noncomputable def weight (f : State K V) (a : Nat) : Nat :=
  match f.base.ctl a with
  | .idle => 0
  | .start _ => 24
  | .seek _ => 23
  | .saw _ _ _ => 22
  | .bump _ _ _ => 21
  | .tally _ _ => 20
  | .created _ => 19
  | .joining _ _ => 18
  | .waiting _ _ => wweight f a
  | .claimed _ _ => 7
  | .rejoining _ _ => 6
  | .starting _ _ _ => 5
  | .abandoning _ _ => 4
  | .guard _ _ => if f.busy a then 2 else 4
  | .leaving _ _ => 3
  | .dropping _ _ => if f.busy a then 1 else 2
  | .inserting _ _ _ _ => 1

/-- The sum over the agents so far. -/
noncomputable def total (f : State K V) : Nat := ((List.range f.base.next).map (weight f)).sum

theorem sum_le {g g' : Nat → Nat} {n : Nat} (h : ∀ b, g' b ≤ g b) : ((List.range n).map g').sum ≤ ((List.range n).map g).sum := by
  induction n with
  | zero => simp
  | succ n ih =>
    rw [List.range_succ, List.map_append, List.map_append, List.sum_append, List.sum_append]
    simp only [List.map_cons, List.map_nil, List.sum_cons, List.sum_nil, Nat.add_zero]
    have := h n
    omega

theorem sum_at {g g' : Nat → Nat} {n a x y : Nat} (ha : a < n) (h : ∀ b, b ≠ a → g' b ≤ g b) (h' : g' a + x ≤ g a + y) :
    ((List.range n).map g').sum + x ≤ ((List.range n).map g).sum + y := by
  induction n with
  | zero => omega
  | succ n ih =>
    rw [List.range_succ, List.map_append, List.map_append, List.sum_append, List.sum_append]
    simp only [List.map_cons, List.map_nil, List.sum_cons, List.sum_nil, Nat.add_zero]
    by_cases han : a = n
    · subst han
      have : ((List.range a).map g').sum ≤ ((List.range a).map g).sum := by
        have hc : (List.range a).map g' = (List.range a).map (fun b => if b < a then g' b else 0) := by
          apply List.map_congr_left
          intro b hb
          rw [if_pos (List.mem_range.mp hb)]
        rw [hc]
        refine sum_le (fun b => ?_)
        split
        · exact h b (by omega)
        · omega
      omega
    · have := ih (by omega)
      have := h n (Ne.symm han)
      omega

theorem pend_le (f : State K V) (a : Nat) : pend f a ≤ 5 := by unfold pend; split <;> [skip; split] <;> omega
theorem tok_le (f : State K V) (a : Nat) : tok f a ≤ 3 := by
  unfold tok
  split
  · split <;> omega
  · omega
theorem pcw_le (p : Pc) : pcw p ≤ 2 := by cases p <;> simp [pcw]

theorem wrest_le (f : State K V) (a : Nat) : wrest f a ≤ 13 ∧ 6 ≤ wrest f a := by
  have h2 := tok_le f a
  have h3 := pcw_le (f.pc a)
  unfold wrest
  cases f.early a with
  | some w => simp only; split <;> omega
  | none => simp only; omega

theorem wweight_le (f : State K V) (a : Nat) : wweight f a ≤ 18 := by
  have h1 := pend_le f a
  have h2 := wrest_le f a
  unfold wweight; omega

theorem le_wweight (f : State K V) (a : Nat) : 6 ≤ wweight f a := by
  have h2 := wrest_le f a
  unfold wweight; omega

theorem weight_le (f : State K V) (a : Nat) : weight f a ≤ 24 := by
  have := wweight_le f a
  unfold weight
  split <;> try omega
  · split <;> omega
  · split <;> omega

theorem total_le (f : State K V) : total f ≤ 24 * f.base.next := by
  unfold total
  generalize f.base.next = n
  induction n with
  | zero => simp
  | succ n ih =>
    rw [List.range_succ, List.map_append, List.sum_append]
    simp only [List.map_cons, List.map_nil, List.sum_cons, List.sum_nil, Nat.add_zero]
    have := weight_le f n
    omega

/-- The weight of agents that do not wait. -/
def frank : Ctl K V → Nat
  | .idle => 0
  | .start _ => 24
  | .seek _ => 23
  | .saw _ _ _ => 22
  | .bump _ _ _ => 21
  | .tally _ _ => 20
  | .created _ => 19
  | .joining _ _ => 18
  | .waiting _ _ => 0
  | .claimed _ _ => 7
  | .rejoining _ _ => 6
  | .starting _ _ _ => 5
  | .abandoning _ _ => 4
  | .guard _ _ => 4
  | .leaving _ _ => 3
  | .dropping _ _ => 2
  | .inserting _ _ _ _ => 1

theorem weight_lt {f : State K V} {a : Nat} {x : Ctl K V} (hx : f.base.ctl a = x) (hn : ∀ k p, x ≠ .waiting k p) :
    weight f a ≤ frank x := by
  unfold weight
  rw [hx]
  cases x <;> simp only [frank] <;> try omega
  · exact absurd rfl (hn _ _)
  · split <;> omega
  · split <;> omega

/-- An agent that stays where it is. -/
theorem weight_other {f f' : State K V} {b : Nat} (hc : f'.base.ctl b = f.base.ctl b) (hb : f'.busy b = f.busy b)
    (hw : ∀ k p, f.base.ctl b = .waiting k p → wweight f' b ≤ wweight f b) : weight f' b ≤ weight f b := by
  unfold weight
  rw [hc, hb]
  split <;> try omega
  rename_i k p hx
  exact hw k p hx

theorem busy_eq {f f' : State K V} {b : Nat} (hc : f'.base.ctl b = f.base.ctl b) (hh : f'.hold = f.hold) : f'.busy b = f.busy b := by
  unfold State.busy
  rw [hc, hh]

theorem Pends_eq {f f' : State K V} {b : Nat} (hh : f'.hold = f.hold) : Pends f' b ↔ Pends f b := by
  unfold Pends
  rw [hh]

theorem pend_eq {f f' : State K V} {b : Nat} (hf : f'.flag b = f.flag b) (hh : f'.hold = f.hold) : pend f' b = pend f b := by
  unfold pend
  simp only [hf, Pends_eq hh]

section
variable [DecidableEq K] {c : Cfg K V RS} {target cap gcap : Nat} {f f' : State K V} {ev tr : List (Ev K V)}

/-- What an action does to the sum. -/
structure Less (f f' : State K V) (x y : Nat) : Prop where
  next : f'.base.next = f.base.next
  total : total f' + x ≤ total f + y

omit [DecidableEq K] in
theorem Less.of {a x y : Nat} (hn : f'.base.next = f.base.next) (ha : a < f.base.next) (ho : ∀ b, b ≠ a → weight f' b ≤ weight f b)
    (hw : weight f' a + x ≤ weight f a + y) : Less f f' x y := by
  refine ⟨hn, ?_⟩
  unfold Fine.total
  rw [hn]
  exact sum_at ha ho hw

omit [DecidableEq K] in
theorem Less.same {x y : Nat} (hn : f'.base.next = f.base.next) (ho : ∀ b, weight f' b ≤ weight f b) (hxy : x ≤ y) :
    Less f f' x y := by
  refine ⟨hn, ?_⟩
  unfold Fine.total
  rw [hn]
  have := sum_le (n := f.base.next) ho
  omega

theorem base_next {x : Act K V} {s s' : Conc.State K V} (he : Eff c s x s' ev) (hb : ∀ kind k, x ≠ .begin kind k) :
    s'.next = s.next := by
  cases he
  case begin kind k hk => exact absurd rfl (hb kind k)
  case guard a k q w hc => cases w <;> rfl
  all_goals rfl

omit [DecidableEq K] in
/-- The others do not notice an action that notifies nobody. -/
theorem base_other {x : Act K V} {s' : Conc.State K V} {pc' : Nat → Pc} (hF : Conc.Frame f.base x s')
    (hquiet : Conc.Quiet f.base x) {b : Nat} (hb : Conc.who f.base x ≠ some b) (hpc : pc' b = f.pc b) :
    weight { f with base := s', pc := pc' } b ≤ weight f b := by
  have hc := hF.ctl b hb
  refine weight_other hc (busy_eq hc rfl) (fun k p hw => Nat.le_of_eq ?_)
  have hs : s'.ctl b = .waiting k p := hc.trans hw
  have hfl : s'.flag b = f.base.flag b := by
    rcases hF.waits b k p hs with ⟨-, h2⟩ | ⟨rfl, -, -⟩
    · exact h2 hquiet
    · exact absurd rfl hb
  have hk := hF.kind b (by rw [hw]; simp)
  have hpend : pend { f with base := s', pc := pc' } b = pend f b := pend_eq (by simp [State.flag, hfl]) rfl
  unfold wweight
  rw [hpend]
  have : tok { f with base := s', pc := pc' } b = tok f b := by
    unfold tok
    simp only [hk]
  unfold wrest
  simp only [this, hpc]

theorem FInv.work_plain (h : FInv c target cap gcap f) (hq : c.ptrEq = true) {x : Act K V} (hb : ∀ kind k, x ≠ .begin kind k)
    (hs : Fine.plain c f x = some (.ok (f', ev))) :
    ((∃ op, x = .call op) → Less f f' 0 0) ∧ ((∀ op, x ≠ .call op) → Less f f' 1 0) := by
  unfold Fine.plain at hs
  split at hs
  case isFalse => cases hs
  rename_i ha
  obtain ⟨s', hp, rfl⟩ := lift_ok hs
  have he := h.reach.inv.eff hq (perform_one hp)
  have hF := he.frame h.reach.inv
  have hnext := base_next he hb
  have hquiet : Conc.Quiet f.base x := by
    cases x <;> simp only [Conc.Quiet] <;> simp only [allowed, Bool.false_eq_true] at ha
    intro p ps hpl hps
    simp only [hpl, hps, Option.all_some, Bool.and_eq_true, List.isEmpty_iff] at ha
    exact ha.2
  constructor
  · rintro ⟨op, rfl⟩
    exact .same hnext (fun b => base_other hF hquiet (by simp [Conc.who]) rfl) (Nat.le_refl _)
  · intro hop
    have fin : ∀ {x : Act K V} {s' : Conc.State K V} {a : Nat} {y z : Ctl K V}, f.base.ctl a = y → y ≠ .idle →
        Conc.who f.base x = some a → s'.ctl a = z → (∀ k p, z ≠ .waiting k p) → frank z + 1 ≤ weight f a →
        ∃ a, Conc.who f.base x = some a ∧ a < f.base.next ∧
          weight { f with base := s', pc := parksAt f.pc x } a + 1 ≤ weight f a := by
      intro x s' a y z hc hn hw hz hnz hle
      refine ⟨a, hw, h.reach.inv.lt_next hc hn, Nat.le_trans (Nat.add_le_add_right ?_ 1) hle⟩
      exact weight_lt (f := { f with base := s', pc := parksAt f.pc x }) hz hnz
    suffices hsuf : ∃ a, Conc.who f.base x = some a ∧ a < f.base.next ∧
        weight { f with base := s', pc := parksAt f.pc x } a + 1 ≤ weight f a by
      obtain ⟨a, hwho, hlt, hle⟩ := hsuf
      refine Less.of hnext hlt (fun b hba => base_other hF hquiet (by rw [hwho]; simp [Ne.symm hba]) ?_) hle
      cases x <;> try rfl
      simp only [Conc.who, Option.some.injEq] at hwho
      subst hwho
      exact Function.update_of_ne hba _ _
    clear hs hp hF hquiet hnext
    cases he
    case begin kind k hk => exact absurd rfl (hb kind k)
    case read op out hop' he' => exact absurd rfl (hop op)
    case write op sh out q hop' hw hr he' => exact absurd rfl (hop op)
    case wake => simp [allowed] at ha
    case claim => simp [allowed] at ha
    case pending => simp [allowed] at ha
    case timely => simp [allowed] at ha
    case timeout => simp [allowed] at ha
    case publish => simp [allowed] at ha
    case enlist a k p ps hc hp hk hh hl =>
      refine ⟨a, rfl, h.reach.inv.lt_next hc (by simp), ?_⟩
      have he0 : f.early a = none := by
        by_contra hne
        obtain ⟨k', p', -, -, -, g, -⟩ := h.marked (h.early a hne)
        rw [hc] at g; cases g
      have : weight f a = 18 := by unfold weight; rw [hc]
      rw [this]
      unfold weight
      simp only [Conc.State.go, Conc.State.setPlh, Conc.State.unlockWrite, Function.update_self]
      unfold wweight wrest
      simp only [he0, parksAt, Function.update_self, pcw]
      refine Nat.le_trans (Nat.add_le_add_right (Nat.add_le_add (pend_le _ _) (Nat.add_le_add_left (tok_le _ _) _)) 1) (by omega)
    case guard a k p w hc =>
      refine fin hc (by simp) rfl (z := .guard k p) ?_ (by simp) (by simp [weight, frank, hc])
      cases w <;> simp [Conc.State.go, Conc.State.unlockWrite, Conc.State.unlockRead]
    case load a k t v hc n old =>
      refine fin hc (by simp) rfl (z := if old.getD n < MAX_F then .bump k t v else .tally k (some v)) ?_ ?_ ?_
      · simp [Conc.State.go]
      · intro k p; split <;> simp
      · split <;> simp [weight, frank, hc]
    case drop a k p hc =>
      have hbz : f.busy a = false := by simpa [allowed] using ha
      exact fin hc (by simp) rfl (Function.update_self _ _ _) (by simp) (by simp [weight, frank, hc, hbz])
    case handOver a b k p ps hc hp hk hh hl hb =>
      refine fin hc (by simp) rfl (Function.update_self _ _ _) (by simp) ?_
      simp only [weight, frank, hc]
      split <;> omega
    case giveUp a k p ps sh hc hp hk hh hl hb hs =>
      refine fin hc (by simp) rfl (Function.update_self _ _ _) (by simp) ?_
      simp only [weight, frank, hc]
      split <;> omega
    case cancelOwner a k p ps hc hk hf hp hh hl =>
      refine fin hc (by simp) rfl (Function.update_self _ _ _) (by simp) ?_
      have := le_wweight f a
      simp only [weight, frank, hc]; omega
    case cancelDone a k p ps hc hk hf hp hh hl =>
      refine fin hc (by simp) rfl (Function.update_self _ _ _) (by simp) ?_
      have := le_wweight f a
      simp only [weight, frank, hc]; omega
    case cancel a k p ps ws hc hk hf hp hh hws =>
      refine fin hc (by simp) rfl (Function.update_self _ _ _) (by simp) ?_
      have := le_wweight f a
      simp only [weight, frank, hc]; omega
    all_goals exact fin ‹_› (by simp) rfl (Function.update_self _ _ _) (by simp) (by simp [weight, frank, *])

/-! ### Waiting threads -/

theorem FInv.move_other (h : FInv c target cap gcap f) {a t b : Nat} {m : Bool} {pc : Pc} {token fresh : Nat → Bool}
    (hw : waits f a = some (t, m)) (ht : ∀ t', t' ≠ t → token t' = f.token t') (hb : b ≠ a) :
    weight { f with pc := update f.pc a pc, token := token, fresh := fresh } b ≤ weight f b := by
  refine weight_other rfl (busy_eq rfl rfl) (fun k p hc => Nat.le_of_eq ?_)
  have hpend : pend { f with pc := update f.pc a pc, token := token, fresh := fresh } b = pend f b := pend_eq rfl rfl
  have htok : tok { f with pc := update f.pc a pc, token := token, fresh := fresh } b = tok f b := by
    unfold tok
    simp only
    split
    · rename_i t' m' hk
      have : t' ≠ t := by
        rintro rfl
        obtain ⟨h1, h2, -⟩ := waits_some hw
        exact hb (h.thread ⟨k, p, hc⟩ h1 hk h2)
      simp only [ht t' this]
    · rfl
  unfold wweight wrest
  simp only [hpend, htok, Function.update_of_ne hb]

omit [DecidableEq K] in
theorem weight_waits {a t : Nat} {m : Bool} (hw : waits f a = some (t, m)) :
    weight f a = pend f a + (8 + pcw (f.pc a) + if f.token t then 3 else 0) := by
  obtain ⟨⟨k, p, h1⟩, h2, h3⟩ := waits_some hw
  unfold weight
  rw [h1]
  simp only [wweight, wrest, h3, tok, h2]

theorem FInv.move_work (h : FInv c target cap gcap f) {a t x y : Nat} {m : Bool} {pc : Pc} {token fresh : Nat → Bool}
    (hw : waits f a = some (t, m)) (ht : ∀ t', t' ≠ t → token t' = f.token t')
    (hle : pcw pc + (if token t then 3 else 0) + x ≤ pcw (f.pc a) + (if f.token t then 3 else 0) + y) :
    Less f { f with pc := update f.pc a pc, token := token, fresh := fresh } x y := by
  obtain ⟨⟨k, p, h1⟩, h2, h3⟩ := waits_some hw
  refine Less.of rfl (h.reach.inv.lt_next h1 (by simp)) (fun b hb => h.move_other hw ht hb) ?_
  have hpend : pend { f with pc := update f.pc a pc, token := token, fresh := fresh } a = pend f a := pend_eq rfl rfl
  have hw' : waits { f with pc := update f.pc a pc, token := token, fresh := fresh } a = some (t, m) := hw
  rw [weight_waits hw, weight_waits hw', hpend]
  simp only [Function.update_self]
  omega

/-- A token nobody waits with. -/
theorem FInv.token_work (_h : FInv c target cap gcap f) {t x y : Nat} {token : Nat → Bool}
    (hw : ∀ a m, waits f a ≠ some (t, m)) (ht : ∀ t', t' ≠ t → token t' = f.token t') (hxy : x ≤ y) :
    Less f { f with token := token } x y := by
  refine .same rfl (fun b => weight_other rfl (busy_eq rfl rfl) (fun k p hc => Nat.le_of_eq ?_)) hxy
  have hpend : pend { f with token := token } b = pend f b := pend_eq rfl rfl
  unfold wweight wrest
  simp only [hpend]
  cases hea : f.early b with
  | some w => rfl
  | none =>
    simp only
    have : tok { f with token := token } b = tok f b := by
      unfold tok
      simp only
      split
      · rename_i t' m hk
        have : t' ≠ t := by
          rintro rfl
          exact hw b m (by simp [waits, hc, hk, hea])
        simp only [ht t' this]
      · rfl
    rw [this]

/-- A waiting agent goes on in `base`. -/
theorem FInv.own_work (h : FInv c target cap gcap f) {x : Act K V} {s' : Conc.State K V} (he : Eff c f.base x s' ev) {a : Nat}
    {k : K} {p : Plh} (hw : Conc.who f.base x = some a) (hc : f.base.ctl a = .waiting k p) (hea : f.early a = none)
    (hquiet : Conc.Quiet f.base x) (hb : ∀ kind k, x ≠ .begin kind k)
    (hz : s'.ctl a = .idle ∨ ∃ k p, s'.ctl a = .claimed k p) : Less f { f with base := s' } 1 0 := by
  have hF := he.frame h.reach.inv
  refine Less.of (base_next he hb) (h.reach.inv.lt_next hc (by simp))
    (fun b hba => base_other (pc' := f.pc) hF hquiet (by rw [hw]; simp [Ne.symm hba]) rfl) ?_
  have h1 : 8 ≤ weight f a := by
    unfold weight
    rw [hc]
    simp only [wweight, wrest, hea]
    omega
  have h2 : weight { f with base := s' } a ≤ 7 := by
    rcases hz with hz | ⟨k, p, hz⟩
    · have := weight_lt (f := { f with base := s' }) hz (by simp)
      simp only [frank] at this
      omega
    · exact weight_lt (f := { f with base := s' }) hz (by simp)
  omega

omit [DecidableEq K] in
/-- A caller noticed its notification early. -/
theorem early_work {a w : Nat} {k : K} {p : Plh} (hc : f.base.ctl a = .waiting k p) (hea : f.early a = none)
    (hlt : a < f.base.next) : Less f { f with early := update f.early a (some w) } 1 0 := by
  refine Less.of rfl hlt (fun b hb => weight_other rfl (busy_eq rfl rfl) (fun k p _ => Nat.le_of_eq ?_)) ?_
  · have hpend : pend { f with early := update f.early a (some w) } b = pend f b := pend_eq rfl rfl
    unfold wweight wrest
    simp only [hpend, Function.update_of_ne hb]
    rfl
  · have hpend : pend { f with early := update f.early a (some w) } a = pend f a := pend_eq rfl rfl
    unfold weight
    simp only [hc]
    unfold wweight wrest
    simp only [hpend, Function.update_self, hea]
    split <;> omega

theorem FInv.notice_work (h : FInv c target cap gcap f) (hq : c.ptrEq = true) {a w : Nat} {k : K} {p : Plh} {x : Act K V}
    (hw : Conc.who f.base x = some a) (hc : f.base.ctl a = .waiting k p) (hea : f.early a = none)
    (hx : x = .wake a ∨ x = .poll a w) (hs : Fine.notice c f a w x = some (.ok (f', ev))) : Less f f' 1 0 := by
  unfold Fine.notice at hs
  split at hs
  · rename_i hfl
    obtain ⟨s', hp, rfl⟩ := lift_ok hs
    have he := h.reach.inv.eff hq (perform_one hp)
    refine h.own_work he hw hc hea ?_ ?_ ?_
    · rcases hx with rfl | rfl <;> simp [Conc.Quiet]
    · rcases hx with rfl | rfl <;> simp
    · right
      clear hs hp hw
      rcases hx with rfl | rfl
      · cases he
        exact ⟨_, _, Function.update_self _ _ _⟩
      · cases he
        · exact ⟨_, _, Function.update_self _ _ _⟩
        · rename_i hf; rw [hf] at hfl; cases hfl
  · cases hs
    exact early_work hc hea (h.reach.inv.lt_next hc (by simp))

theorem FInv.relock_work (h : FInv c target cap gcap f) {a : Nat} (hs : Fine.relock f a = some (.ok (f', ev))) :
    Less f f' 1 0 := by
  unfold Fine.relock at hs
  split at hs
  case isFalse => cases hs
  rename_i hb
  simp only [Bool.and_eq_true, Option.isSome_iff_ne_none, Option.isNone_iff_eq_none, Bool.not_eq_eq_eq_not, Bool.not_true,
    List.contains_eq_mem, decide_eq_false_iff_not] at hb
  cases hs
  obtain ⟨k, p, -, -, -, hc, -⟩ := h.marked (h.early a hb.1.1)
  refine Less.of rfl (h.reach.inv.lt_next hc (by simp))
    (fun b hba => weight_other rfl (busy_eq rfl rfl) (fun k p _ => Nat.le_of_eq ?_)) ?_
  · have hpend : pend { f with readers := a :: f.readers } b = pend f b := pend_eq rfl rfl
    unfold wweight wrest
    simp only [hpend, List.mem_cons, hba, false_or]
    rfl
  · have hpend : pend { f with readers := a :: f.readers } a = pend f a := pend_eq rfl rfl
    obtain ⟨w, hw⟩ := Option.ne_none_iff_exists'.mp hb.1.1
    unfold weight
    simp only [hc]
    unfold wweight wrest
    simp [hpend, hw, hb.1.2]

/-! ### Notifiers -/

omit [DecidableEq K] in
theorem hold_ctl {i a : Nat} {v : Option V} {todo : List Note} {ps : PState K V} (hk : HoldOK f.base i ⟨a, v, todo⟩ ps) :
    ∃ k, (v ≠ none ∧ f.base.ctl a = .guard k ps.handle) ∨ (v = none ∧ f.base.ctl a = .dropping k ps.handle) := by
  obtain ⟨k, hc⟩ := hk.ctl
  have hc : f.base.ctl a = _ := hc
  refine ⟨k, ?_⟩
  cases v with
  | some v => exact Or.inl ⟨by simp, hc⟩
  | none => exact Or.inr ⟨rfl, hc⟩

omit [DecidableEq K] in
theorem hold_busy {i a : Nat} {v : Option V} {todo : List Note} {ps : PState K V} (hi : f.hold i = some ⟨a, v, todo⟩)
    (hk : HoldOK f.base i ⟨a, v, todo⟩ ps) (hid : ps.handle.id = i) : f.busy a = true := by
  have hp : (f.base.ctl a).plh = some ps.handle := by
    obtain ⟨k, ⟨-, hc⟩ | ⟨-, hc⟩⟩ := hold_ctl hk <;> rw [hc] <;> rfl
  unfold State.busy
  rw [hp]
  simp [hid, hi]

omit [DecidableEq K] in
/-- Who has the steps of its notification ahead. -/
theorem hold_calls {s : Conc.State K V} {i b : Nat} {hd : Hold V} {ps : PState K V} (hk : HoldOK s i hd ps)
    (hm : .unpark b ∈ hd.todo ∨ .wake b ∈ hd.todo) : b ∈ called hd.value ps.waiters := by
  have key : ∀ {x : Note}, x ∈ hd.todo → (x = .unpark b ∨ x = .wake b) → b ∈ called hd.value ps.waiters := by
    intro x hx he
    obtain ⟨b', hb', h1 | h1⟩ := mem_notes (hk.todo.subset hx)
    · subst h1; rcases he with he | he <;> cases he
    · subst h1
      unfold second at he
      split at he <;> rcases he with he | he <;> cases he <;> exact hb'
  rcases hm with hm | hm
  · exact key hm (Or.inl rfl)
  · exact key hm (Or.inr rfl)

/-- Two notifiers do not call the same caller. -/
theorem FInv.same_hold (h : FInv c target cap gcap f) {i j b : Nat} {hd hd' : Hold V} {ps ps' : PState K V}
    (hi : HoldOK f.base i hd ps) (hj : HoldOK f.base j hd' ps') (hb : b ∈ called hd.value ps.waiters)
    (hb' : b ∈ called hd'.value ps'.waiters) : i = j := by
  obtain ⟨⟨k, hc⟩, -⟩ := hi.waits h.reach.inv hb
  obtain ⟨⟨k', hc'⟩, -⟩ := hj.waits h.reach.inv hb'
  rw [hc] at hc'
  have : ps.handle = ps'.handle := by injection hc'
  rw [← (h.reach.inv.pl.id _ _ hi.plh).2, ← (h.reach.inv.pl.id _ _ hj.plh).2, this]

theorem FInv.take_work (h : FInv c target cap gcap f) {i a : Nat} {v : Option V} {todo : List Note} {ps : PState K V}
    (hn : f.hold i = none) (hk : HoldOK f.base i ⟨a, v, todo⟩ ps)
    (ht : todo = (called v ps.waiters).flatMap (notes f.base.kind)) :
    Less f { f with hold := update f.hold i (some ⟨a, v, todo⟩) } 1 0 := by
  obtain ⟨k0, hca⟩ := hold_ctl hk
  have hid := (h.reach.inv.pl.id _ _ hk.plh).2
  have h' : FInv c target cap gcap { f with hold := update f.hold i (some ⟨a, v, todo⟩) } := h.take hn hk ht
  have hane : f.base.ctl a ≠ .idle := by rcases hca with ⟨-, hca⟩ | ⟨-, hca⟩ <;> rw [hca] <;> simp
  refine Less.of rfl (h.reach.inv.lt_next rfl hane) (fun b hba => weight_other rfl ?_ (fun k p hc => Nat.le_of_eq ?_)) ?_
  · unfold State.busy
    simp only
    split
    · rename_i p hp
      by_cases hpi : p.id = i
      · rw [hpi, hn, Function.update_self]
        simp [Ne.symm hba]
      · rw [Function.update_of_ne hpi]
    · rfl
  · have hpend : pend { f with hold := update f.hold i (some ⟨a, v, todo⟩) } b = pend f b := by
      unfold pend
      have hfl : State.flag { f with hold := update f.hold i (some ⟨a, v, todo⟩) } b = f.flag b := rfl
      rw [hfl]
      by_cases hff : f.flag b = false
      · rw [if_pos hff, if_pos hff]
      · rw [if_neg hff, if_neg hff]
        congr 1
        simp only [eq_iff_iff]
        constructor
        · intro hP
          have hP' := hP
          obtain ⟨j, hd, hj, hm⟩ := hP
          by_cases hji : j = i
          · exfalso
            subst hji
            simp only [Function.update_self] at hj
            cases hj
            have hbm : b ∈ called v ps.waiters := hold_calls hk hm
            have hbf := (hk.waits h.reach.inv hbm).2
            have hr : f.raised b = true := by simpa [State.flag, hbf] using hff
            obtain ⟨k2, p2, i2, hd2, ps2, g1, -, g3, g4, g5, g6, g7, -⟩ := h.marked hr
            have := h.same_hold hk g5 hbm g7
            subst this
            rw [hn] at g4; cases g4
          · simp only [Function.update_of_ne hji] at hj
            exact ⟨j, hd, hj, hm⟩
        · rintro ⟨j, hd, hj, hm⟩
          have hji : j ≠ i := by rintro rfl; rw [hn] at hj; cases hj
          exact ⟨j, hd, by simp only [Function.update_of_ne hji]; exact hj, hm⟩
    unfold wweight wrest
    simp only [hpend]
    rfl
  · have hb0 : f.busy a = false := by
      unfold State.busy
      rcases hca with ⟨-, hca⟩ | ⟨-, hca⟩ <;> rw [hca] <;> simp [Conc.Ctl.plh, hid, hn]
    have hb1 : State.busy { f with hold := update f.hold i (some ⟨a, v, todo⟩) } a = true :=
      hold_busy (f := { f with hold := update f.hold i (some ⟨a, v, todo⟩) }) (Function.update_self _ _ _) hk hid
    unfold weight
    rw [hb0, hb1]
    rcases hca with ⟨-, hca⟩ | ⟨-, hca⟩ <;> simp [hca]

theorem FInv.lock_work (h : FInv c target cap gcap f) {a : Nat} {v : Option V} (hs : Fine.lock f a v = some (.ok (f', ev))) :
    Less f f' 1 0 := by
  unfold Fine.lock at hs
  split at hs
  · rename_i k p v hc
    simp only at hs
    split at hs
    · rename_i ps hn hp
      cases hs
      have hA : Conc.AOK c f.base.shard f.base.plh (.guard k p) := h.reach.inv.at hc
      obtain ⟨ps', hp', -, hh, -⟩ := hA
      rw [hp] at hp'
      obtain rfl := Option.some.inj hp'
      exact h.take_work (ps := ps) hn ⟨hp, ⟨k, by rw [hh]; exact hc⟩, by simp, List.suffix_refl _⟩ rfl
    · cases hs
  · rename_i k p hc
    simp only at hs
    split at hs
    · cases hs
    · rename_i hne
      split at hs
      · rename_i ps hn hp
        cases hs
        have hA : Conc.AOK c f.base.shard f.base.plh (.dropping k p) := h.reach.inv.at hc
        obtain ⟨ps', hp', -, hh, -⟩ := hA
        rw [hp] at hp'
        obtain rfl := Option.some.inj hp'
        refine h.take_work (ps := ps) hn ⟨hp, ⟨k, by rw [hh]; exact hc⟩, fun _ => ?_, List.suffix_refl _⟩ rfl
        simpa [hp] using hne
      · cases hs
  · cases hs

omit [DecidableEq K] in
theorem note_pends {i a b : Nat} {v : Option V} {x : Note} {rest : List Note} (hi : f.hold i = some ⟨a, v, x :: rest⟩)
    (hh : f'.hold = update f.hold i (some ⟨a, v, rest⟩)) (h1 : x ≠ .unpark b) (h2 : x ≠ .wake b) : Pends f' b ↔ Pends f b := by
  unfold Pends
  rw [hh]
  constructor
  · rintro ⟨j, hd, hj, hm⟩
    by_cases hji : j = i
    · subst hji
      simp only [Function.update_self] at hj
      cases hj
      exact ⟨j, _, hi, hm.imp (List.mem_cons_of_mem _) (List.mem_cons_of_mem _)⟩
    · simp only [Function.update_of_ne hji] at hj
      exact ⟨j, hd, hj, hm⟩
  · rintro ⟨j, hd, hj, hm⟩
    by_cases hji : j = i
    · subst hji
      rw [hi] at hj
      cases hj
      refine ⟨j, ⟨a, v, rest⟩, by simp, hm.imp (fun hm => ?_) (fun hm => ?_)⟩
      · rcases List.mem_cons.mp hm with rfl | hm
        · exact absurd rfl h1
        · exact hm
      · rcases List.mem_cons.mp hm with rfl | hm
        · exact absurd rfl h2
        · exact hm
    · exact ⟨j, hd, by rw [Function.update_of_ne hji]; exact hj, hm⟩

omit [DecidableEq K] in
theorem note_busy {i a b : Nat} {v : Option V} {todo rest : List Note} (hi : f.hold i = some ⟨a, v, todo⟩)
    (hh : f'.hold = update f.hold i (some ⟨a, v, rest⟩)) (hb : f'.base = f.base) : f'.busy b = f.busy b := by
  unfold State.busy
  rw [hb, hh]
  split
  · rename_i p hp
    by_cases hpi : p.id = i
    · rw [hpi, hi, Function.update_self]; rfl
    · rw [Function.update_of_ne hpi]
  · rfl

/-- The step after the flag. -/
theorem FInv.after (h : FInv c target cap gcap f) {i a b : Nat} {v : Option V} {x : Note} {rest : List Note}
    (hi : f.hold i = some ⟨a, v, x :: rest⟩) (hx : x = .unpark b ∨ x = .wake b)
    (hh : f'.hold = update f.hold i (some ⟨a, v, rest⟩)) (hb : f'.base = f.base) (hr : f'.raised = f.raised) :
    b < f.base.next ∧ (∃ k p, f.base.ctl b = .waiting k p) ∧ pend f b = 4 ∧ pend f' b = 0 := by
  obtain ⟨ps, hk⟩ := h.hold i _ hi
  have hnd := h.reach.inv.pl.nodup _ _ hk.plh
  have htodo : x :: rest <:+ (called v ps.waiters).flatMap (notes f.base.kind) := hk.todo
  have hnod : (x :: rest).Nodup := (notes_nodup (called_nodup hnd)).sublist htodo.sublist
  have hbx : b ∈ called v ps.waiters ∧ x = second f.base.kind b := by
    obtain ⟨b', hb', h1 | h1⟩ := mem_notes (htodo.subset List.mem_cons_self)
    · rcases hx with rfl | rfl <;> cases h1
    · have : b' = b := by
        unfold second at h1
        split at h1 <;> rcases hx with rfl | rfl <;> cases h1 <;> rfl
      subst this
      exact ⟨hb', h1⟩
  obtain ⟨hbm, hsec⟩ := hbx
  obtain ⟨⟨k, hc⟩, hbf⟩ := hk.waits h.reach.inv hbm
  have hnf : Note.flag b ∉ x :: rest := by
    intro hm
    rcases List.mem_cons.mp hm with hm | hm
    · rcases hx with rfl | rfl <;> cases hm
    · obtain ⟨l1, l2, rfl⟩ := List.append_of_mem hm
      have h1 : Note.flag b :: l2 <:+ (called v ps.waiters).flatMap (notes f.base.kind) := by
        refine List.IsSuffix.trans ⟨x :: l1, by simp⟩ htodo
      have h2 := suffix_second h1
      rw [← hsec] at h2
      exact (List.nodup_cons.mp hnod).1 (List.mem_append_right _ (List.mem_cons_of_mem _ h2))
  have hra : f.raised b = true := (h.raised b).mpr ⟨i, _, ps, hi, hk.plh, hbm, hnf⟩
  have hP : Pends f b := ⟨i, _, hi, by rcases hx with rfl | rfl <;> simp⟩
  have hP' : ¬ Pends f' b := by
    rintro ⟨j, hd, hj, hm⟩
    rw [hh] at hj
    by_cases hji : j = i
    · subst hji
      simp only [Function.update_self] at hj
      cases hj
      have key : second f.base.kind b ∈ rest := by
        have key : ∀ {y : Note}, y ∈ rest → (y = .unpark b ∨ y = .wake b) → second f.base.kind b ∈ rest := by
          intro y hy he
          obtain ⟨b', hb', h1 | h1⟩ := mem_notes (htodo.subset (List.mem_cons_of_mem _ hy))
          · subst h1; rcases he with he | he <;> cases he
          · have : b' = b := by
              unfold second at h1
              split at h1 <;> rcases he with rfl | rfl <;> cases h1 <;> rfl
            subst this
            rw [← h1]; exact hy
        rcases hm with hm | hm
        · exact key hm (Or.inl rfl)
        · exact key hm (Or.inr rfl)
      rw [← hsec] at key
      exact (List.nodup_cons.mp hnod).1 key
    · simp only [Function.update_of_ne hji] at hj
      obtain ⟨ps', hk'⟩ := h.hold j _ hj
      have hbm' := hold_calls hk' hm
      exact hji (h.same_hold hk' hk hbm' hbm)
  refine ⟨h.reach.inv.lt_next hc (by simp), ⟨k, _, hc⟩, ?_, ?_⟩
  · unfold pend
    rw [if_neg (by simp [State.flag, hra]), if_pos hP]
  · unfold pend
    rw [if_neg (by simp [State.flag, hb, hr, hra]), if_neg hP']

/-- The state after a step of a notifier. -/
abbrev noted (f : State K V) (i : Nat) (h : Hold V) (raised token mailed : Nat → Bool) : State K V :=
  { f with hold := update f.hold i (some h), raised := raised, token := token, mailed := mailed }

theorem FInv.note_work (h : FInv c target cap gcap f) {i : Nat} (hs : Fine.note f i = some (.ok (f', ev))) :
    Less f f' 1 0 := by
  unfold Fine.note at hs
  split at hs
  case h_2 => cases hs
  rename_i a v x rest hi
  obtain ⟨ps, hk⟩ := h.hold i _ hi
  have hnd := h.reach.inv.pl.nodup _ _ hk.plh
  have htodo : x :: rest <:+ (called v ps.waiters).flatMap (notes f.base.kind) := hk.todo
  simp only at hs
  split at hs
  · -- the flag
    rename_i b
    cases hs
    have hbm : b ∈ called v ps.waiters := flag_mem.mp (htodo.subset List.mem_cons_self)
    obtain ⟨⟨k, hc⟩, hbf⟩ := hk.waits h.reach.inv hbm
    have hnr : f.raised b = false := by
      by_contra hr
      obtain ⟨k2, p2, i2, hd2, ps2, g1, -, g3, g4, g5, g6, g7, g8⟩ := h.marked (b := b) (by simpa using hr)
      have := h.same_hold g5 hk g7 hbm
      subst this
      rw [hi] at g4
      cases g4
      exact g8 List.mem_cons_self
    have hne : f.early b = none := by
      by_contra hne
      have := h.early b hne
      rw [hnr] at this; cases this
    refine Less.of (a := b) rfl (h.reach.inv.lt_next hc (by simp))
      (fun b' hb => weight_other rfl (note_busy hi rfl rfl) (fun k p _ => Nat.le_of_eq ?_)) ?_
    · show wweight (noted f i ⟨a, v, rest⟩ (update f.raised b true) f.token f.mailed) b' = _
      generalize hg : (noted f i ⟨a, v, rest⟩ (update f.raised b true) f.token f.mailed) = g
      have hP := note_pends (f' := g) (b := b') hi (by rw [← hg]) (by simp) (by simp)
      have hfl : g.flag b' = f.flag b' := by rw [← hg]; simp [State.flag, Function.update_of_ne hb]
      have hpend : pend g b' = pend f b' := by
        unfold pend
        rw [hfl]
        simp only [hP]
      unfold wweight
      rw [hpend, ← hg]
      rfl
    · have h1 : pend f b = 5 := by
        unfold pend
        rw [if_pos (by simp [State.flag, hbf, hnr])]
      show weight (noted f i ⟨a, v, rest⟩ (update f.raised b true) f.token f.mailed) b + 1 ≤ weight f b + 0
      generalize hg : (noted f i ⟨a, v, rest⟩ (update f.raised b true) f.token f.mailed) = g
      have h2 : pend g b ≤ 4 := by
        unfold pend
        rw [if_neg (by rw [← hg]; simp [State.flag])]
        split <;> omega
      have hgc : g.base.ctl b = .waiting k ps.handle := by rw [← hg]; exact hc
      unfold weight
      simp only [hc, hgc]
      unfold wweight
      have h3 : wrest g b = wrest f b := by rw [← hg]; rfl
      omega
  · -- unparking
    rename_i b
    split at hs
    case h_2 => cases hs
    rename_i t' m' hkind
    cases hs
    obtain ⟨hlt, ⟨k, p, hc⟩, h4, h0⟩ := h.after (f' := (noted f i ⟨a, v, rest⟩ f.raised (update f.token t' true) (update f.mailed b true)))
      hi (Or.inl rfl) rfl rfl rfl
    refine Less.of (a := b) rfl hlt (fun b' hb => weight_other rfl (note_busy hi rfl rfl) (fun k' p' hc' => Nat.le_of_eq ?_)) ?_
    · have ht' : tok (noted f i ⟨a, v, rest⟩ f.raised (update f.token t' true) (update f.mailed b true)) b' = tok f b' := by
        unfold tok
        simp only
        split
        · rename_i t m hkb
          have : t ≠ t' := by
            rintro rfl
            exact hb (h.thread ⟨k', p', hc'⟩ ⟨k, p, hc⟩ hkb hkind)
          simp only [Function.update_of_ne this]
        · rfl
      have hP := note_pends (f' := (noted f i ⟨a, v, rest⟩ f.raised (update f.token t' true) (update f.mailed b true))) (b := b') hi rfl
          (by simpa using Ne.symm hb) (by simp)
      unfold wweight wrest pend
      simp only [hP, ht']
      rfl
    · show weight (noted f i ⟨a, v, rest⟩ f.raised (update f.token t' true) (update f.mailed b true)) b + 1 ≤ weight f b + 0
      generalize hg : (noted f i ⟨a, v, rest⟩ f.raised (update f.token t' true) (update f.mailed b true)) = g at h0 ⊢
      have hgc : g.base.ctl b = .waiting k p := by rw [← hg]; exact hc
      have h3 : wrest g b ≤ wrest f b + 3 := by
        have := tok_le g b
        unfold wrest
        have e1 : g.early = f.early := by rw [← hg]
        have e2 : g.readers = f.readers := by rw [← hg]
        have e3 : g.pc = f.pc := by rw [← hg]
        rw [e1, e2, e3]
        cases f.early b with
        | none => simp only; omega
        | some w => simp only; omega
      unfold weight
      simp only [hc, hgc]
      unfold wweight
      omega
  · -- waking
    rename_i b
    cases hs
    obtain ⟨hlt, ⟨k, p, hc⟩, h4, h0⟩ := h.after (f' := (noted f i ⟨a, v, rest⟩ f.raised f.token f.mailed))
      hi (Or.inr rfl) rfl rfl rfl
    refine Less.of (a := b) rfl hlt (fun b' hb => weight_other rfl (note_busy hi rfl rfl) (fun k' p' hc' => Nat.le_of_eq ?_)) ?_
    · have hP := note_pends (f' := (noted f i ⟨a, v, rest⟩ f.raised f.token f.mailed)) (b := b') hi rfl
          (by simp) (by simpa using Ne.symm hb)
      unfold wweight pend
      simp only [hP]
      rfl
    · unfold weight
      simp only [hc]
      unfold wweight
      rw [h0, h4]
      show 0 + wrest f b + 1 ≤ 4 + wrest f b + 0
      omega

theorem FInv.unlock_work (h : FInv c target cap gcap f) (hq : c.ptrEq = true) {i : Nat}
    (hs : Fine.unlock c f i = some (.ok (f', ev))) : Less f f' 1 0 := by
  have : ∃ a v, f.hold i = some ⟨a, v, []⟩ := by
    unfold Fine.unlock at hs
    split at hs
    · rename_i a v ps h1 h2; exact ⟨a, v, h1⟩
    · cases hs
  obtain ⟨a, v, hi⟩ := this
  obtain ⟨ps, hk⟩ := h.hold i _ hi
  obtain ⟨s', ev', hun, hE⟩ := h.ended hq hi hk
  rw [hs] at hun
  cases hun
  clear hs
  have hid := (h.reach.inv.pl.id _ _ hk.plh).2
  obtain ⟨k0, hca⟩ := hold_ctl hk
  have hane : f.base.ctl a ≠ .idle := by rcases hca with ⟨-, hca⟩ | ⟨-, hca⟩ <;> rw [hca] <;> simp
  have hbusy : ∀ b, b ≠ a → s'.ctl b = f.base.ctl b → (Fine.ended f i (called v ps.waiters) s').busy b = f.busy b := by
    intro b hb hc
    unfold State.busy Fine.ended
    simp only [hc]
    split
    · rename_i p hp
      by_cases hpi : p.id = i
      · rw [hpi, hi, Function.update_self]
        simp [Ne.symm hb]
      · rw [Function.update_of_ne hpi]
    · rfl
  have hP : ∀ b, Pends (Fine.ended f i (called v ps.waiters) s') b ↔ Pends f b := by
    intro b
    unfold Pends Fine.ended
    constructor
    · rintro ⟨j, hd, hj, hm⟩
      by_cases hji : j = i
      · subst hji; simp at hj
      · simp only [Function.update_of_ne hji] at hj
        exact ⟨j, hd, hj, hm⟩
    · rintro ⟨j, hd, hj, hm⟩
      by_cases hji : j = i
      · subst hji
        rw [hi] at hj
        cases hj
        simp at hm
      · exact ⟨j, hd, by simp only [Function.update_of_ne hji]; exact hj, hm⟩
  have htok : ∀ b, tok (Fine.ended f i (called v ps.waiters) s') b = tok f b := by
    intro b
    unfold tok Fine.ended
    simp only [hE.kind]
  refine Less.of hE.next (h.reach.inv.lt_next rfl hane) (fun b hba => ?_) ?_
  · by_cases hb : b ∈ called v ps.waiters
    · obtain ⟨⟨k, hc⟩, hbf⟩ := hE.wait b hb
      by_cases hea : f.early b = none
      · have hc' := hE.other b hba (Or.inr hea)
        refine weight_other hc' (hbusy b hba hc') (fun k p _ => ?_)
        have hnP : ¬ Pends f b := by
          rintro ⟨j, hd, hj, hm⟩
          obtain ⟨ps', hk'⟩ := h.hold j hd hj
          have := h.same_hold hk' hk (hold_calls hk' hm) hb
          subst this
          rw [hi] at hj
          cases hj
          simp at hm
        have h0 : pend (Fine.ended f i (called v ps.waiters) s') b = 0 := by
          unfold pend
          rw [if_neg (by simp [State.flag, Fine.ended, hE.flagged b hb hea]), if_neg (fun hp => hnP ((hP b).mp hp))]
        unfold wweight
        rw [h0]
        have : wrest (Fine.ended f i (called v ps.waiters) s') b = wrest f b := by
          unfold wrest
          rw [htok]
          simp [Fine.ended, hb, hea]
        omega
      · obtain ⟨k', p', hc'⟩ := hE.early b hb hea
        have h1 : weight (Fine.ended f i (called v ps.waiters) s') b ≤ if b ∈ f.readers then 6 else 7 := by
          by_cases hr : b ∈ f.readers
          · rw [if_pos hr] at hc' ⊢
            exact weight_lt (f := Fine.ended f i (called v ps.waiters) s') hc' (by simp)
          · rw [if_neg hr] at hc' ⊢
            exact weight_lt (f := Fine.ended f i (called v ps.waiters) s') hc' (by simp)
        refine Nat.le_trans h1 ?_
        obtain ⟨w, hw⟩ := Option.ne_none_iff_exists'.mp hea
        unfold weight
        rw [hc]
        simp only
        unfold wweight wrest
        rw [hw]
        simp only
        omega
    · have hc' := hE.other b hba (Or.inl hb)
      refine weight_other hc' (hbusy b hba hc') (fun k p _ => Nat.le_of_eq ?_)
      have hfl : (Fine.ended f i (called v ps.waiters) s').flag b = f.flag b := by
        simp [State.flag, Fine.ended, hE.flag b hba hb, hb]
      have hpend : pend (Fine.ended f i (called v ps.waiters) s') b = pend f b := by
        unfold pend
        rw [hfl]
        simp only [hP]
      unfold wweight
      rw [hpend]
      congr 1
      unfold wrest
      rw [htok]
      simp [Fine.ended, hb]
  · have hb0 : f.busy a = true := hold_busy hi hk hid
    have h1 : 1 ≤ weight f a ∧ (v ≠ none → weight f a = 2) := by
      unfold weight
      rw [hb0]
      rcases hca with ⟨-, hca⟩ | ⟨hv, hca⟩ <;> simp only [hca]
      · simp
      · simp [hv]
    rcases hE.own with hz | ⟨hv, k, p, w, r, hz⟩
    · have := weight_lt (f := Fine.ended f i (called v ps.waiters) s') hz (by simp)
      simp only [frank] at this
      omega
    · have := weight_lt (f := Fine.ended f i (called v ps.waiters) s') hz (by simp)
      simp only [frank] at this
      have := h1.2 hv
      omega

/-! ### All actions -/

theorem FInv.work (h : FInv c target cap gcap f) (hq : c.ptrEq = true) {act : FAct K V} (hb : ∀ kind k, act ≠ .act (.begin kind k))
    (hs : Fine.step c f act = some (.ok (f', ev))) :
    (FineExtra f act → Less f f' 0 0) ∧ (Disturbs act → Less f f' 0 3) ∧
      (¬ FineExtra f act → ¬ Disturbs act → Less f f' 1 0) := by
  have plain' : Less f f' 1 0 → ¬ FineExtra f act → ¬ Disturbs act → (FineExtra f act → Less f f' 0 0) ∧
      (Disturbs act → Less f f' 0 3) ∧ (¬ FineExtra f act → ¬ Disturbs act → Less f f' 1 0) :=
    fun h1 h2 h3 => ⟨fun h => absurd h h2, fun h => absurd h h3, fun _ _ => h1⟩
  cases act with
  | act x =>
    have hs : Fine.plain c f x = _ := hs
    have hw := h.work_plain hq (fun kind k hx => hb kind k (by rw [hx])) hs
    refine ⟨fun hx => hw.1 ?_, fun hd => hd.elim, fun hx _ => hw.2 ?_⟩
    · cases x <;> simp only [FineExtra] at hx
      exact ⟨_, rfl⟩
    · rintro op rfl
      exact hx trivial
  | park a =>
    have hs : Fine.park f a = _ := hs
    refine plain' ?_ (fun h => h) (fun h => h)
    unfold Fine.park at hs
    split at hs
    case h_2 => cases hs
    rename_i t m hw hpc
    cases hs
    split
    · rename_i ht
      refine h.move_work hw (fun t' h' => Function.update_of_ne h' _ _) ?_
      simp [pcw, hpc, ht]
    · refine h.move_work (token := f.token) (fresh := f.fresh) hw (fun _ _ => rfl) ?_
      simp only [pcw, hpc]; omega
  | unparked a =>
    have hs : Fine.unparked f a = _ := hs
    refine plain' ?_ (fun h => h) (fun h => h)
    unfold Fine.unparked at hs
    split at hs
    case h_2 => cases hs
    rename_i t m hw hpc
    split at hs
    case isFalse => cases hs
    rename_i ht
    cases hs
    refine h.move_work hw (fun t' h' => Function.update_of_ne h' _ _) ?_
    simp [pcw, hpc, ht]
  | spurious a =>
    have hs : Fine.spurious f a = _ := hs
    refine ⟨fun h => h.elim, fun _ => ?_, fun _ hd => absurd trivial hd⟩
    unfold Fine.spurious at hs
    split at hs
    case h_2 => cases hs
    rename_i y hw hpc
    obtain ⟨t, m⟩ := y
    cases hs
    refine h.move_work (token := f.token) (fresh := f.fresh) hw (fun _ _ => rfl) ?_
    simp only [pcw, hpc]; omega
  | look a over =>
    have hs : Fine.look c f a over = _ := hs
    refine plain' ?_ (fun h => h) (fun h => h)
    unfold Fine.look at hs
    split at hs
    case h_2 => cases hs
    rename_i t m hw hpc
    split at hs
    · obtain ⟨⟨k, p, h1⟩, h2, h3⟩ := waits_some hw
      exact h.notice_work hq rfl h1 h3 (Or.inl rfl) hs
    · cases hs
      refine h.move_work (token := f.token) (fresh := f.fresh) hw (fun _ _ => rfl) ?_
      have : pcw (if m && over then .late else .about) = 1 := by split <;> rfl
      rw [this]
      simp only [pcw, hpc]; omega
  | miss a over =>
    have hs : Fine.miss f a over = _ := hs
    refine plain' ?_ (fun h => h) (fun h => h)
    unfold Fine.miss at hs
    split at hs
    case h_2 => cases hs
    rename_i t m hw hpc
    split at hs
    · cases hs
      refine h.move_work (token := f.token) (fresh := f.fresh) hw (fun _ _ => rfl) ?_
      have : pcw (if m && over then .late else .about) = 1 := by split <;> rfl
      rw [this]
      simp only [pcw, hpc]; omega
    · cases hs
  | expire a =>
    have hs : Fine.expire c f a = _ := hs
    refine plain' ?_ (fun h => h) (fun h => h)
    unfold Fine.expire at hs
    split at hs
    case h_2 => cases hs
    rename_i y hw hpc
    obtain ⟨t, m⟩ := y
    split at hs
    case isFalse => cases hs
    obtain ⟨⟨k, p, h1⟩, h2, h3⟩ := waits_some hw
    obtain ⟨s', hp, rfl⟩ := lift_ok hs
    have he := h.reach.inv.eff hq (perform_one hp)
    refine h.own_work he rfl h1 h3 trivial (by simp) ?_
    clear hs hp hb
    cases he
    · exact Or.inr ⟨_, _, Function.update_self _ _ _⟩
    · exact Or.inl (Function.update_self _ _ _)
  | poll a w =>
    have hs : Fine.poll c f a w = _ := hs
    unfold Fine.poll at hs
    split at hs
    case h_2 => cases hs
    rename_i k p hc hkind hea
    split at hs
    · cases hs
    split at hs
    · rename_i hfl
      refine plain' ?_ (fun h => ?_) (fun h => h)
      · exact h.notice_work hq rfl hc hea (Or.inr rfl) hs
      · have h : f.flag a = false := h
        rw [hfl] at h; cases h
    · rename_i hfl
      refine ⟨fun _ => ?_, fun h => h.elim, fun hx => absurd (show f.flag a = false by simpa using hfl) hx⟩
      obtain ⟨s', hp, rfl⟩ := lift_ok hs
      have he := h.reach.inv.eff hq (perform_one hp)
      clear hs hp hb plain'
      cases he
      · rename_i hf; simp [State.flag, hf] at hfl
      · exact .same rfl (fun b => Nat.le_refl _) (Nat.le_refl _)
  | relock a => exact plain' (h.relock_work hs) (fun h => h) (fun h => h)
  | lock a v => exact plain' (h.lock_work hs) (fun h => h) (fun h => h)
  | note i => exact plain' (h.note_work hs) (fun h => h) (fun h => h)
  | unlock i => exact plain' (h.unlock_work hq hs) (fun h => h) (fun h => h)
  | stray t =>
    refine ⟨fun h => h.elim, fun _ => ?_, fun _ hd => absurd trivial hd⟩
    cases hs
    by_cases hw : ∃ a m, waits f a = some (t, m)
    · obtain ⟨a, m, hw⟩ := hw
      have := h.move_work (pc := f.pc a) (token := update f.token t true) (fresh := f.fresh) (x := 0) (y := 3) hw
        (fun t' h' => Function.update_of_ne h' _ _) (by split <;> split <;> omega)
      rwa [Function.update_eq_self] at this
    · exact h.token_work (fun a m hw' => absurd ⟨a, m, hw'⟩ hw) (fun t' h' => Function.update_of_ne h' _ _) (by omega)
  | steal t =>
    refine ⟨fun h => h.elim, fun _ => ?_, fun _ hd => absurd trivial hd⟩
    have hs : Fine.steal f t = _ := hs
    unfold Fine.steal at hs
    split at hs
    · cases hs
    · cases hs
      by_cases hw : ∃ a m, waits f a = some (t, m)
      · obtain ⟨a, m, hw⟩ := hw
        have := h.move_work (pc := f.pc a) (token := update f.token t false) (fresh := f.fresh) (x := 0) (y := 3) hw
          (fun t' h' => Function.update_of_ne h' _ _) (by split <;> split <;> omega)
        rwa [Function.update_eq_self] at this
      · exact h.token_work (fun a m hw' => absurd ⟨a, m, hw'⟩ hw) (fun t' h' => Function.update_of_ne h' _ _) (by omega)

theorem FInv.steps (hq : c.ptrEq = true) {n d : Nat} (h : FInv c target cap gcap f) (hs : FineSteps c f n d f') :
    FInv c target cap gcap f' ∧ f'.base.next = f.base.next ∧ n + total f' ≤ total f + 3 * d := by
  induction hs with
  | start => exact ⟨h, rfl, by omega⟩
  | layout m p hs hm hp ih =>
    obtain ⟨h1, h2, h3⟩ := ih
    exact ⟨h1.layout hm hp, h2, h3⟩
  | extra hs hx hst ih =>
    obtain ⟨h1, h2, h3⟩ := ih
    have := (h1.work hq (by rintro kind k rfl; exact hx) hst).1 hx
    have h4 := this.next
    have h5 := this.total
    exact ⟨h1.step hq hst, h4.trans h2, by omega⟩
  | disturb hs hx hst ih =>
    obtain ⟨h1, h2, h3⟩ := ih
    have := (h1.work hq (by rintro kind k rfl; exact hx) hst).2.1 hx
    have h4 := this.next
    have h5 := this.total
    exact ⟨h1.step hq hst, h4.trans h2, by omega⟩
  | act hs hx hd hb hst ih =>
    obtain ⟨h1, h2, h3⟩ := ih
    have := (h1.work hq hb hst).2.2 hx hd
    have h4 := this.next
    have h5 := this.total
    exact ⟨h1.step hq hst, h4.trans h2, by omega⟩

end
end QuickCache.Fine
