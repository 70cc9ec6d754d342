import Verif.Proofs.SecKeep

/-!
# The invariant of the concurrent protocol
-/

namespace QuickCache.Conc
variable {K V RS : Type}
open Shard Unsync Spec
open Function (update)

/-! ### What an agent's position says -/

/-- The pending load an agent at `x` is responsible for (or, if a value has been published, about to receive from). -/
def respOf (x : Ctl K V) (flag : Bool) : Option Plh :=
  match x with
  | .starting _ p _ | .guard _ p | .leaving _ p | .dropping _ p | .abandoning _ p | .claimed _ p | .rejoining _ p => some p
  | .waiting _ p => if flag then some p else none
  | _ => none

/-- The pending load an agent at `x` is waiting for. -/
def waitOf (x : Ctl K V) (flag : Bool) : Option Plh :=
  match x with
  | .waiting _ p => if flag then none else some p
  | _ => none

/-- Holding the write lock of the shard. -/
def _root_.QuickCache.Conc.Ctl.writes : Ctl K V → Bool
  | .joining _ _ | .starting _ _ true | .dropping _ _ => true
  | _ => false

/-- Holding the read lock of the shard. -/
def _root_.QuickCache.Conc.Ctl.reads : Ctl K V → Bool
  | .seek _ | .saw _ _ _ | .bump _ _ _ | .tally _ _ | .rejoining _ _ | .starting _ _ false => true
  | _ => false

/-- Past `get`: only for agents that are not just `get`. -/
def _root_.QuickCache.Conc.Ctl.joins : Ctl K V → Bool
  | .idle | .start _ | .seek _ | .saw _ _ _ | .bump _ _ _ | .tally _ _ => false
  | _ => true

def resp (s : State K V) (a : Nat) : Option Plh := respOf (s.ctl a) (s.flag a)
def wait (s : State K V) (a : Nat) : Option Plh := waitOf (s.ctl a) (s.flag a)

/-- The placeholder `p` exists, is for key `k`, and its loading state satisfies `P`. -/
def At (plh : Nat → Option (PState K V)) (k : K) (p : Plh) (P : Loading V → Prop) : Prop :=
  ∃ ps, plh p.id = some ps ∧ ps.key = k ∧ ps.handle = p ∧ P ps.loading

/-- What holds for an agent at `x`. -/
def AOK [DecidableEq K] (c : Cfg K V RS) (sh : Shard K V) (plh : Nat → Option (PState K V)) : Ctl K V → Prop
  | .saw k t v | .bump k t v => ∃ r, sh.entries.item t = some (.resident r) ∧ r.key = k ∧ r.value = v
  | .tally k r => sh.contents k = r
  | .joining k p => At plh k p (· ≠ .terminated) ∧ PLive c sh k p
  | .starting k p _ | .guard k p | .leaving k p | .dropping k p | .abandoning k p => At plh k p (· = .loading)
  | .waiting k p | .claimed k p | .rejoining k p => At plh k p (· ≠ .terminated)
  | .inserting k p v _ => At plh k p (· = .inserted v)
  | _ => True

/-- The shard lock agrees with the agents' positions. -/
structure LInv (w : Option Nat) (rs : List Nat) (W R : Nat → Bool) : Prop where
  wr : ∀ a, w = some a ↔ W a = true
  rd : ∀ a, a ∈ rs ↔ R a = true
  nodup : rs.Nodup
  excl : ∀ a, w = some a → rs = []

/-- The placeholders agree with the agents' positions and with the shard. -/
structure PInv (c : Cfg K V RS) (sh : Shard K V) (plh : Nat → Option (PState K V)) (resp wait : Nat → Option Plh) : Prop where
  id : ∀ i ps, plh i = some ps → i < sh.nextPlh ∧ ps.handle.id = i
  nodup : ∀ i ps, plh i = some ps → ps.waiters.Nodup
  mem : ∀ i ps, plh i = some ps → ∀ a, a ∈ ps.waiters ↔ wait a = some ps.handle
  idle : ∀ i ps, plh i = some ps → ps.waiters ≠ [] → ps.loading = .loading
  one : ∀ i ps, plh i = some ps → ps.loading = .loading →
    ∃ a, resp a = some ps.handle ∧ ∀ b, resp b = some ps.handle → b = a
  slot : ∀ k p, PSlot sh k p → At plh k p (fun l => PLive c sh k p ↔ l ≠ .terminated)

/-- The invariant. -/
structure CInv [DecidableEq K] (c : Cfg K V RS) (s : State K V) : Prop where
  shard : Inv c s.shard
  fresh : ∀ a, s.next ≤ a → s.ctl a = .idle
  lock : LInv s.writer s.readers (fun a => (s.ctl a).writes) (fun a => (s.ctl a).reads)
  ag : ∀ a, AOK c s.shard s.plh (s.ctl a)
  kind : ∀ a, (s.ctl a).joins = true → s.kind a ≠ .get
  thr : ∀ a b tid x y, s.kind a = .thread tid x → s.kind b = .thread tid y → (s.ctl a).calling = true →
    (s.ctl b).calling = true → a = b
  pl : PInv c s.shard s.plh (resp s) (wait s)

/-! ### The lock -/

namespace LInv
variable {w : Option Nat} {rs : List Nat} {W R : Nat → Bool} {a : Nat}

theorem same (h : LInv w rs W R) : LInv w rs (update W a (W a)) (update R a (R a)) := by
  rw [Function.update_eq_self, Function.update_eq_self]; exact h

theorem takeRead (h : LInv w rs W R) (hw : w = none) (hr : R a = false) (hw' : W a = false) :
    LInv w (a :: rs) (update W a false) (update R a true) := by
  subst hw
  have hW : update W a false = W := by rw [← hw', Function.update_eq_self]
  rw [hW]
  refine ⟨h.wr, fun b => ?_, ?_, by simp⟩
  · by_cases hb : b = a
    · subst hb; simp
    · simp [hb, h.rd b]
  · rw [List.nodup_cons]
    refine ⟨fun hm => ?_, h.nodup⟩
    rw [(h.rd a).mp hm] at hr; cases hr

theorem dropRead (h : LInv w rs W R) (hw' : W a = false) : LInv w (rs.erase a) (update W a false) (update R a false) := by
  have hW : update W a false = W := by rw [← hw', Function.update_eq_self]
  rw [hW]
  refine ⟨h.wr, fun b => ?_, h.nodup.erase a, fun b hb => by rw [h.excl b hb]; rfl⟩
  by_cases hb : b = a
  · subst hb; simp [h.nodup.not_mem_erase]
  · simp [hb, List.mem_erase_of_ne hb, h.rd b]

theorem takeWrite (h : LInv w rs W R) (hw : w = none) (hr : rs = []) : LInv (some a) rs (update W a true) (update R a false) := by
  subst hw hr
  refine ⟨fun b => ?_, fun b => ?_, List.nodup_nil, fun _ _ => rfl⟩
  · by_cases hb : b = a
    · subst hb; simp
    · simp only [hb, ne_eq, not_false_eq_true, Function.update_of_ne]
      rw [← h.wr b]
      simp [Ne.symm hb]
  · by_cases hb : b = a
    · subst hb; simp
    · simp [hb, ← h.rd b]

theorem dropWrite (h : LInv w rs W R) (ha : W a = true) : LInv none rs (update W a false) (update R a false) := by
  have hw := (h.wr a).mpr ha
  have hr := h.excl a hw
  subst hw hr
  refine ⟨fun b => ?_, fun b => ?_, List.nodup_nil, fun _ _ => rfl⟩
  · by_cases hb : b = a
    · subst hb; simp
    · have := h.wr b
      simp only [hb, ne_eq, not_false_eq_true, Function.update_of_ne]
      constructor
      · intro h; cases h
      · intro h'; rw [← this] at h'; cases h'; exact absurd rfl hb
  · by_cases hb : b = a
    · subst hb; simp
    · simp [hb, ← h.rd b]

/-- Without the lock, before and after. -/
theorem free (h : LInv w rs W R) (hW : W a = false) (hR : R a = false) : LInv w rs (update W a false) (update R a false) := by
  have h1 : update W a false = W := by rw [← hW, Function.update_eq_self]
  have h2 : update R a false = R := by rw [← hR, Function.update_eq_self]
  rw [h1, h2]; exact h

end LInv

/-! ### The placeholders -/

section
variable {c : Cfg K V RS} {sh sh' : Shard K V} {plh : Nat → Option (PState K V)} {resp wait : Nat → Option Plh}

/-- A change of the shard under which the live placeholders are the given ones. -/
theorem PInv.read (h : PInv c sh plh resp wait) (hp : PEff c sh sh' (PLive c sh) (fun _ => False))
    (hn : sh'.nextPlh = sh.nextPlh) : PInv c sh' plh resp wait where
  id := by rw [hn]; exact h.id
  nodup := h.nodup
  mem := h.mem
  idle := h.idle
  one := h.one
  slot := by
    intro k p hs
    rcases hp.orphan k p hs with h1 | ⟨h1, h2⟩ | h1
    · obtain ⟨ps, g1, g2, g3, g4⟩ := h.slot k p h1.1
      exact ⟨ps, g1, g2, g3, by rw [hp.live]; exact g4⟩
    · obtain ⟨ps, g1, g2, g3, g4⟩ := h.slot k p h1
      exact ⟨ps, g1, g2, g3, by rw [hp.live]; exact g4⟩
    · exact h1.elim

/-- A change of the shard that only takes live placeholders away. -/
theorem PInv.shrink (h : PInv c sh plh resp wait) {keep : K → Plh → Prop} (hsub : ∀ k p, keep k p → PLive c sh k p)
    (hp : PEff c sh sh' keep (fun _ => False)) (hn : sh'.nextPlh = sh.nextPlh) : PInv c sh' plh resp wait where
  id := by rw [hn]; exact h.id
  nodup := h.nodup
  mem := h.mem
  idle := h.idle
  one := h.one
  slot := by
    intro k p hs
    rcases hp.orphan k p hs with h1 | ⟨h1, h2⟩ | h1
    · have hl := hsub k p h1
      obtain ⟨ps, g1, g2, g3, g4⟩ := h.slot k p hl.1
      exact ⟨ps, g1, g2, g3, by rw [hp.live]; exact ⟨fun _ => g4.mp hl, fun _ => h1⟩⟩
    · obtain ⟨ps, g1, g2, g3, g4⟩ := h.slot k p h1
      refine ⟨ps, g1, g2, g3, ?_⟩
      rw [hp.live]
      exact ⟨fun hk => g4.mp (hsub k p hk), fun hk => absurd (g4.mpr hk) h2⟩
    · exact h1.elim

theorem At.mono {k : K} {p : Plh} {P Q : Loading V → Prop} (h : At plh k p P) (hPQ : ∀ l, P l → Q l) : At plh k p Q := by
  obtain ⟨ps, h1, h2, h3, h4⟩ := h
  exact ⟨ps, h1, h2, h3, hPQ _ h4⟩

/-- A change of the waiters of a placeholder. -/
theorem At.waiters {i : Nat} {ps : PState K V} (hi : plh i = some ps) (ws : List Nat) {k : K} {p : Plh} {P : Loading V → Prop} :
    At (update plh i (some { ps with waiters := ws })) k p P ↔ At plh k p P := by
  unfold At
  by_cases hp : p.id = i
  · subst hp
    simp only [Function.update_self, Option.some.injEq, exists_eq_left', hi]
  · simp only [Function.update_of_ne hp]

/-- A change of another placeholder. -/
theorem At.other {i : Nat} {x : Option (PState K V)} {k : K} {p : Plh} {P : Loading V → Prop} (hp : p.id ≠ i) :
    At (update plh i x) k p P ↔ At plh k p P := by
  unfold At
  simp only [Function.update_of_ne hp]

/-- Another agent's facts survive a change of the waiters of a placeholder. -/
theorem AOK.waiters [DecidableEq K] {i : Nat} {ps : PState K V} (hi : plh i = some ps) (ws : List Nat) {x : Ctl K V}
    (h : AOK c sh plh x) : AOK c sh (update plh i (some { ps with waiters := ws })) x := by
  cases x <;> simp only [AOK, At.waiters hi] at h ⊢ <;> exact h

/-- Another agent's facts survive a section under the read lock. -/
theorem AOK.read [DecidableEq K] (hr : ReadEff c sh sh') {x : Ctl K V} (h : AOK c sh plh x) : AOK c sh' plh x := by
  cases x with
  | saw k t v =>
    obtain ⟨r, h1, h2, h3⟩ := h
    obtain ⟨n, hn⟩ := hr.res t r h1
    exact ⟨_, hn, h2, h3⟩
  | bump k t v =>
    obtain ⟨r, h1, h2, h3⟩ := h
    obtain ⟨n, hn⟩ := hr.res t r h1
    exact ⟨_, hn, h2, h3⟩
  | tally k r => simp only [AOK] at h ⊢; rw [hr.contents]; exact h
  | joining k p => exact ⟨h.1, (hr.plh.live k p).mpr h.2⟩
  | _ => exact h

/-- The facts of an agent that does not hold the lock survive any section. -/
theorem AOK.write [DecidableEq K] {x : Ctl K V} (h : AOK c sh plh x) (hw : x.writes = false) (hr : x.reads = false) :
    AOK c sh' plh x := by
  cases x <;> first | exact h | (cases hr; done) | (cases hw)

/-- Of another placeholder, or of this one if it is not involved. -/
theorem AOK.other [DecidableEq K] {i : Nat} {y : Option (PState K V)} {x : Ctl K V} (h : AOK c sh plh x)
    (hn : plh i = none) : AOK c sh (update plh i y) x := by
  have key : ∀ {k : K} {p : Plh} {P : Loading V → Prop}, At plh k p P → At (update plh i y) k p P := by
    intro k p P hA
    refine (At.other ?_).mpr hA
    rintro rfl
    obtain ⟨ps, h1, -⟩ := hA
    rw [hn] at h1; cases h1
  cases x <;> simp only [AOK] at h ⊢ <;> first | exact key h | exact ⟨key h.1, h.2⟩ | exact h

theorem perm_mem_update {ps : PState K V} {wait : Nat → Option Plh} {a : Nat} {ws : List Nat}
    (hm : ∀ b, b ∈ ps.waiters ↔ wait b = some ps.handle) (hn : ps.waiters.Nodup) (hp : ps.waiters.Perm (a :: ws)) (b : Nat) :
    b ∈ ws ↔ update wait a none b = some ps.handle := by
  have hn' := hp.nodup_iff.mp hn
  rw [List.nodup_cons] at hn'
  by_cases hb : b = a
  · subst hb; simp [hn'.1]
  · rw [Function.update_of_ne hb, ← hm b, hp.mem_iff]
    simp [hb]

/-- A waiter leaves the list. -/
theorem PInv.leave (h : PInv c sh plh resp wait) {i a : Nat} {ps : PState K V} {ws : List Nat} (hi : plh i = some ps)
    (hp : ps.waiters.Perm (a :: ws)) (hr : resp a = none) :
    PInv c sh (update plh i (some { ps with waiters := ws })) (update resp a none) (update wait a none) := by
  have hR : update resp a none = resp := by rw [← hr, Function.update_eq_self]
  have hids := h.id i ps hi
  have hwa : wait a = some ps.handle := (h.mem i ps hi a).mp (hp.mem_iff.mpr (by simp))
  rw [hR]
  have hn := h.nodup i ps hi
  constructor
  · intro j qs hj
    by_cases hji : j = i
    · subst hji; simp only [Function.update_self, Option.some.injEq] at hj; subst hj; exact hids
    · rw [Function.update_of_ne hji] at hj; exact h.id j qs hj
  · intro j qs hj
    by_cases hji : j = i
    · subst hji; simp only [Function.update_self, Option.some.injEq] at hj; subst hj
      have := hp.nodup_iff.mp hn
      rw [List.nodup_cons] at this
      exact this.2
    · rw [Function.update_of_ne hji] at hj; exact h.nodup j qs hj
  · intro j qs hj b
    by_cases hji : j = i
    · subst hji; simp only [Function.update_self, Option.some.injEq] at hj; subst hj
      exact perm_mem_update (h.mem j ps hi) hn hp b
    · rw [Function.update_of_ne hji] at hj
      rw [h.mem j qs hj]
      by_cases hb : b = a
      · subst hb
        simp only [Function.update_self, reduceCtorEq, iff_false, hwa, Option.some.injEq]
        intro he
        have h1 := (h.id j qs hj).2
        rw [← he, hids.2] at h1
        exact hji h1.symm
      · rw [Function.update_of_ne hb]
  · intro j qs hj hne
    by_cases hji : j = i
    · subst hji; simp only [Function.update_self, Option.some.injEq] at hj; subst hj
      exact h.idle j ps hi (by intro h0; rw [h0] at hp; exact absurd hp.symm (by simp))
    · rw [Function.update_of_ne hji] at hj; exact h.idle j qs hj hne
  · intro j qs hj hl
    by_cases hji : j = i
    · subst hji; simp only [Function.update_self, Option.some.injEq] at hj; subst hj
      exact h.one j ps hi hl
    · rw [Function.update_of_ne hji] at hj; exact h.one j qs hj hl
  · intro k p hs
    exact (At.waiters hi ws).mpr (h.slot k p hs)

/-- A new waiter. -/
theorem PInv.enlist (h : PInv c sh plh resp wait) {i a : Nat} {ps : PState K V} (hi : plh i = some ps)
    (hl : ps.loading = .loading) (hw : wait a = none) (hr : resp a = none) :
    PInv c sh (update plh i (some { ps with waiters := ps.waiters ++ [a] })) (update resp a none)
      (update wait a (some ps.handle)) := by
  have hR : update resp a none = resp := by rw [← hr, Function.update_eq_self]
  have hids := h.id i ps hi
  rw [hR]
  have hn := h.nodup i ps hi
  have hna : a ∉ ps.waiters := by rw [h.mem i ps hi, hw]; simp
  constructor
  · intro j qs hj
    by_cases hji : j = i
    · subst hji; simp only [Function.update_self, Option.some.injEq] at hj; subst hj; exact hids
    · rw [Function.update_of_ne hji] at hj; exact h.id j qs hj
  · intro j qs hj
    by_cases hji : j = i
    · subst hji; simp only [Function.update_self, Option.some.injEq] at hj; subst hj
      rw [List.nodup_append]
      refine ⟨hn, by simp, ?_⟩
      intro x hx y hy he
      simp only [List.mem_singleton] at hy
      subst hy he
      exact hna hx
    · rw [Function.update_of_ne hji] at hj; exact h.nodup j qs hj
  · intro j qs hj b
    by_cases hji : j = i
    · subst hji; simp only [Function.update_self, Option.some.injEq] at hj; subst hj
      by_cases hb : b = a
      · subst hb; simp
      · simp only [List.mem_append, List.mem_singleton, hb, or_false, Function.update_of_ne hb]
        exact h.mem j ps hi b
    · rw [Function.update_of_ne hji] at hj
      rw [h.mem j qs hj]
      by_cases hb : b = a
      · subst hb
        simp only [hw, Function.update_self, reduceCtorEq, Option.some.injEq, false_iff]
        intro he
        have h1 := (h.id j qs hj).2
        rw [← he, hids.2] at h1
        exact hji h1.symm
      · rw [Function.update_of_ne hb]
  · intro j qs hj hne
    by_cases hji : j = i
    · subst hji; simp only [Function.update_self, Option.some.injEq] at hj; subst hj
      exact hl
    · rw [Function.update_of_ne hji] at hj; exact h.idle j qs hj hne
  · intro j qs hj hl
    by_cases hji : j = i
    · subst hji; simp only [Function.update_self, Option.some.injEq] at hj; subst hj
      exact h.one j ps hi hl
    · rw [Function.update_of_ne hji] at hj; exact h.one j qs hj hl
  · intro k p hs
    exact (At.waiters hi _).mpr (h.slot k p hs)

/-- An agent turns away from a load that is no longer pending. -/
theorem PInv.done (h : PInv c sh plh resp wait) {i a : Nat} {ps : PState K V} (hi : plh i = some ps)
    (hl : ps.loading ≠ .loading) (hr : resp a = some ps.handle) (hw : wait a = none) :
    PInv c sh plh (update resp a none) (update wait a none) := by
  have hW : update wait a none = wait := by rw [← hw, Function.update_eq_self]
  rw [hW]
  refine ⟨h.id, h.nodup, h.mem, h.idle, ?_, h.slot⟩
  intro j qs hj hjl
  obtain ⟨b, h1, h2⟩ := h.one j qs hj hjl
  have hab : b ≠ a := by
    rintro rfl
    rw [hr] at h1
    simp only [Option.some.injEq] at h1
    have e1 := (h.id i ps hi).2
    have e2 := (h.id j qs hj).2
    rw [h1, e2] at e1
    subst e1
    rw [hi] at hj; cases hj
    exact hl hjl
  refine ⟨b, by rw [Function.update_of_ne hab]; exact h1, fun b' hb' => ?_⟩
  by_cases hba : b' = a
  · subst hba; simp at hb'
  · rw [Function.update_of_ne hba] at hb'; exact h2 b' hb'

theorem PInv.same (h : PInv c sh plh resp wait) {a : Nat} {x y : Option Plh} (hx : resp a = x) (hy : wait a = y) :
    PInv c sh plh (update resp a x) (update wait a y) := by
  subst hx hy
  rw [Function.update_eq_self, Function.update_eq_self]; exact h

/-- A new placeholder. -/
theorem PInv.created (h : PInv c sh plh resp wait) {k : K} {p : Plh} {a : Nat} (hid : p.id = sh.nextPlh)
    (hn : sh'.nextPlh = sh.nextPlh + 1)
    (hp : PEff c sh sh' (fun k' p' => PLive c sh k' p' ∨ (k' = k ∧ p' = p)) (fun _ => False))
    (hr : ∀ b q, resp b = some q → ∃ ps, plh q.id = some ps) (hw : ∀ b q, wait b = some q → ∃ ps, plh q.id = some ps)
    (ha : resp a = none) (hwa : wait a = none) :
    PInv c sh' (update plh p.id (some ⟨k, p, [], .loading⟩)) (update resp a (some p)) (update wait a none) := by
  have hW : update wait a none = wait := by rw [← hwa, Function.update_eq_self]
  have hno : plh p.id = none := by
    cases hx : plh p.id with
    | none => rfl
    | some ps => have := (h.id _ _ hx).1; omega
  rw [hW]
  constructor
  · intro j qs hj
    by_cases hji : j = p.id
    · subst hji; simp only [Function.update_self, Option.some.injEq] at hj; subst hj
      exact ⟨by omega, rfl⟩
    · rw [Function.update_of_ne hji] at hj
      have := h.id j qs hj
      exact ⟨by omega, this.2⟩
  · intro j qs hj
    by_cases hji : j = p.id
    · subst hji; simp only [Function.update_self, Option.some.injEq] at hj; subst hj
      exact List.nodup_nil
    · rw [Function.update_of_ne hji] at hj; exact h.nodup j qs hj
  · intro j qs hj b
    by_cases hji : j = p.id
    · subst hji; simp only [Function.update_self, Option.some.injEq] at hj; subst hj
      simp only [List.not_mem_nil, false_iff]
      intro hb
      obtain ⟨ps, h1⟩ := hw b _ hb
      rw [hno] at h1; cases h1
    · rw [Function.update_of_ne hji] at hj; exact h.mem j qs hj b
  · intro j qs hj hne
    by_cases hji : j = p.id
    · subst hji; simp only [Function.update_self, Option.some.injEq] at hj; subst hj
      rfl
    · rw [Function.update_of_ne hji] at hj; exact h.idle j qs hj hne
  · intro j qs hj hl
    by_cases hji : j = p.id
    · subst hji; simp only [Function.update_self, Option.some.injEq] at hj; subst hj
      refine ⟨a, by simp, fun b hb => ?_⟩
      by_cases hba : b = a
      · exact hba
      · rw [Function.update_of_ne hba] at hb
        obtain ⟨ps, h1⟩ := hr b _ hb
        rw [hno] at h1; cases h1
    · rw [Function.update_of_ne hji] at hj
      obtain ⟨b, h1, h2⟩ := h.one j qs hj hl
      have hba : b ≠ a := by rintro rfl; rw [ha] at h1; cases h1
      refine ⟨b, by rw [Function.update_of_ne hba]; exact h1, fun b' hb' => ?_⟩
      by_cases hb'a : b' = a
      · subst hb'a
        simp only [Function.update_self, Option.some.injEq] at hb'
        have := (h.id j qs hj).2
        rw [← hb'] at this
        exact absurd this.symm hji
      · rw [Function.update_of_ne hb'a] at hb'; exact h2 b' hb'
  · intro k' p' hs
    rcases hp.orphan k' p' hs with (h1 | ⟨rfl, rfl⟩) | ⟨h1, h2⟩ | h1
    · obtain ⟨ps, g1, g2, g3, g4⟩ := h.slot k' p' h1.1
      refine ⟨ps, ?_, g2, g3, ?_⟩
      · rw [Function.update_of_ne]
        · exact g1
        · intro he; rw [he, hno] at g1; cases g1
      · rw [hp.live]
        exact ⟨fun _ => g4.mp h1, fun _ => Or.inl h1⟩
    · refine ⟨_, Function.update_self .., rfl, rfl, ?_⟩
      rw [hp.live]
      simp
    · obtain ⟨ps, g1, g2, g3, g4⟩ := h.slot k' p' h1
      have hne : p'.id ≠ p.id := by intro he; rw [he, hno] at g1; cases g1
      refine ⟨ps, ?_, g2, g3, ?_⟩
      · rw [Function.update_of_ne hne]; exact g1
      · rw [hp.live]
        constructor
        · rintro (hl | ⟨rfl, rfl⟩)
          · exact g4.mp hl
          · exact absurd rfl hne
        · exact fun hl => Or.inl (g4.mpr hl)
    · exact h1.elim

/-- A guard is handed over to a waiter. -/
theorem PInv.hand (h : PInv c sh plh resp wait) {i a b : Nat} {ps : PState K V} {ws : List Nat} (hi : plh i = some ps)
    (hp : ps.waiters.Perm (b :: ws)) (hr : resp a = some ps.handle) (hab : a ≠ b) (hl : ps.loading = .loading)
    (hwa : wait a = none) (hrb : resp b = none) :
    PInv c sh (update plh i (some { ps with waiters := ws })) (update (update resp a none) b (some ps.handle))
      (update (update wait a none) b none) := by
  have hW : update wait a none = wait := by rw [← hwa, Function.update_eq_self]
  rw [hW]
  have hids := h.id i ps hi
  have hn := h.nodup i ps hi
  have hwb : wait b = some ps.handle := (h.mem i ps hi b).mp (hp.mem_iff.mpr (by simp))
  constructor
  · intro j qs hj
    by_cases hji : j = i
    · subst hji; simp only [Function.update_self, Option.some.injEq] at hj; subst hj; exact hids
    · rw [Function.update_of_ne hji] at hj; exact h.id j qs hj
  · intro j qs hj
    by_cases hji : j = i
    · subst hji; simp only [Function.update_self, Option.some.injEq] at hj; subst hj
      have := hp.nodup_iff.mp hn
      rw [List.nodup_cons] at this
      exact this.2
    · rw [Function.update_of_ne hji] at hj; exact h.nodup j qs hj
  · intro j qs hj x
    by_cases hji : j = i
    · subst hji; simp only [Function.update_self, Option.some.injEq] at hj; subst hj
      exact perm_mem_update (h.mem j ps hi) hn hp x
    · rw [Function.update_of_ne hji] at hj
      rw [h.mem j qs hj]
      by_cases hb : x = b
      · subst hb
        simp only [Function.update_self, reduceCtorEq, iff_false, hwb, Option.some.injEq]
        intro he
        have h1 := (h.id j qs hj).2
        rw [← he, hids.2] at h1
        exact hji h1.symm
      · rw [Function.update_of_ne hb]
  · intro j qs hj hne
    by_cases hji : j = i
    · subst hji; simp only [Function.update_self, Option.some.injEq] at hj; subst hj
      exact hl
    · rw [Function.update_of_ne hji] at hj; exact h.idle j qs hj hne
  · intro j qs hj hjl
    by_cases hji : j = i
    · subst hji; simp only [Function.update_self, Option.some.injEq] at hj; subst hj
      refine ⟨b, by simp, fun x hx => ?_⟩
      by_cases hxb : x = b
      · exact hxb
      · rw [Function.update_of_ne hxb] at hx
        by_cases hxa : x = a
        · subst hxa; simp at hx
        · rw [Function.update_of_ne hxa] at hx
          obtain ⟨z, h1, h2⟩ := h.one j ps hi hl
          exact absurd ((h2 x hx).trans (h2 a hr).symm) hxa
    · rw [Function.update_of_ne hji] at hj
      obtain ⟨z, h1, h2⟩ := h.one j qs hj hjl
      have hne : qs.handle ≠ ps.handle := by
        intro he
        have e1 := (h.id j qs hj).2
        rw [he, hids.2] at e1
        exact hji e1.symm
      have hza : z ≠ a := by rintro rfl; rw [hr] at h1; exact hne (Option.some.inj h1).symm
      by_cases hzb : z = b
      · subst hzb
        rw [hrb] at h1; cases h1
      · refine ⟨z, by rw [Function.update_of_ne hzb, Function.update_of_ne hza]; exact h1, fun x hx => ?_⟩
        by_cases hxb : x = b
        · subst hxb
          simp only [Function.update_self, Option.some.injEq] at hx
          exact absurd hx.symm hne
        · rw [Function.update_of_ne hxb] at hx
          by_cases hxa : x = a
          · subst hxa; simp at hx
          · rw [Function.update_of_ne hxa] at hx; exact h2 x hx
  · intro k p hs
    exact (At.waiters hi ws).mpr (h.slot k p hs)

/-- The value is published: the waiters are notified. -/
theorem PInv.publish (h : PInv c sh plh resp wait) {i a : Nat} {ps : PState K V} {v : V} {resp' wait' : Nat → Option Plh}
    (hi : plh i = some ps) (hr : resp a = some ps.handle) (hl : ps.loading = .loading)
    (hra : resp' a = none) (hwa : wait' a = none)
    (hrw : ∀ x, x ∈ ps.waiters → resp' x = some ps.handle) (hww : ∀ x, x ∈ ps.waiters → wait' x = none)
    (hro : ∀ x, x ∉ ps.waiters → x ≠ a → resp' x = resp x) (hwo : ∀ x, x ∉ ps.waiters → x ≠ a → wait' x = wait x)
    (hwr : ∀ x, x ∈ ps.waiters → resp x = none) (hwa0 : wait a = none) :
    PInv c sh (update plh i (some { ps with waiters := [], loading := .inserted v })) resp' wait' := by
  have hids := h.id i ps hi
  have hother : ∀ j qs, plh j = some qs → j ≠ i → qs.handle ≠ ps.handle := by
    intro j qs hj hji he
    have e1 := (h.id j qs hj).2
    rw [he, hids.2] at e1
    exact hji e1.symm
  constructor
  · intro j qs hj
    by_cases hji : j = i
    · subst hji; simp only [Function.update_self, Option.some.injEq] at hj; subst hj; exact hids
    · rw [Function.update_of_ne hji] at hj; exact h.id j qs hj
  · intro j qs hj
    by_cases hji : j = i
    · subst hji; simp only [Function.update_self, Option.some.injEq] at hj; subst hj
      exact List.nodup_nil
    · rw [Function.update_of_ne hji] at hj; exact h.nodup j qs hj
  · intro j qs hj x
    by_cases hji : j = i
    · subst hji; simp only [Function.update_self, Option.some.injEq] at hj; subst hj
      simp only [List.not_mem_nil, false_iff]
      intro hx
      by_cases hxw : x ∈ ps.waiters
      · rw [hww x hxw] at hx; cases hx
      · by_cases hxa : x = a
        · subst hxa; rw [hwa] at hx; cases hx
        · rw [hwo x hxw hxa] at hx
          exact hxw ((h.mem j ps hi x).mpr hx)
    · rw [Function.update_of_ne hji] at hj
      rw [h.mem j qs hj]
      by_cases hxw : x ∈ ps.waiters
      · rw [hww x hxw, (h.mem i ps hi x).mp hxw]
        simp only [Option.some.injEq, reduceCtorEq, iff_false]
        exact (hother j qs hj hji).symm
      · by_cases hxa : x = a
        · subst hxa; rw [hwa, hwa0]
        · rw [hwo x hxw hxa]
  · intro j qs hj hne
    by_cases hji : j = i
    · subst hji; simp only [Function.update_self, Option.some.injEq] at hj; subst hj
      exact absurd rfl hne
    · rw [Function.update_of_ne hji] at hj; exact h.idle j qs hj hne
  · intro j qs hj hjl
    by_cases hji : j = i
    · subst hji; simp only [Function.update_self, Option.some.injEq] at hj; subst hj
      cases hjl
    · rw [Function.update_of_ne hji] at hj
      obtain ⟨z, h1, h2⟩ := h.one j qs hj hjl
      have hne := hother j qs hj hji
      have hza : z ≠ a := by rintro rfl; rw [hr] at h1; exact hne (Option.some.inj h1).symm
      have hzw : z ∉ ps.waiters := by intro hz; rw [hwr z hz] at h1; cases h1
      refine ⟨z, by rw [hro z hzw hza]; exact h1, fun x hx => ?_⟩
      by_cases hxw : x ∈ ps.waiters
      · rw [hrw x hxw] at hx
        exact absurd (Option.some.inj hx).symm hne
      · by_cases hxa : x = a
        · subst hxa; rw [hra] at hx; cases hx
        · rw [hro x hxw hxa] at hx; exact h2 x hx
  · intro k p hs
    obtain ⟨qs, g1, g2, g3, g4⟩ := h.slot k p hs
    by_cases hp : p.id = i
    · subst hp
      rw [hi] at g1; cases g1
      refine ⟨_, Function.update_self .., g2, g3, ?_⟩
      rw [g4, hl]; simp
    · exact ⟨qs, by rw [Function.update_of_ne hp]; exact g1, g2, g3, g4⟩

/-- The pending load is given up. -/
theorem PInv.terminate (h : PInv c sh plh resp wait) {p : Plh} {a : Nat} {ps : PState K V} (hi : plh p.id = some ps)
    (hh : ps.handle = p) (hr : resp a = some ps.handle) (hw : ps.waiters = []) (hwa : wait a = none)
    (hp : PEff c sh sh' (fun k' p' => PLive c sh k' p' ∧ p' ≠ p) (fun p' => p' = p)) (hn : sh'.nextPlh = sh.nextPlh)
    (hslot : ∀ k' p', PSlot sh' k' p' → PSlot sh k' p') :
    PInv c sh' (update plh p.id (some { ps with loading := .terminated })) (update resp a none) (update wait a none) := by
  have hW : update wait a none = wait := by rw [← hwa, Function.update_eq_self]
  have hids := h.id p.id ps hi
  rw [hW]
  constructor
  · intro j qs hj
    rw [hn]
    by_cases hji : j = p.id
    · subst hji; simp only [Function.update_self, Option.some.injEq] at hj; subst hj; exact hids
    · rw [Function.update_of_ne hji] at hj; exact h.id j qs hj
  · intro j qs hj
    by_cases hji : j = p.id
    · subst hji; simp only [Function.update_self, Option.some.injEq] at hj; subst hj
      exact h.nodup _ ps hi
    · rw [Function.update_of_ne hji] at hj; exact h.nodup j qs hj
  · intro j qs hj x
    by_cases hji : j = p.id
    · subst hji; simp only [Function.update_self, Option.some.injEq] at hj; subst hj
      exact h.mem _ ps hi x
    · rw [Function.update_of_ne hji] at hj; exact h.mem j qs hj x
  · intro j qs hj hne
    by_cases hji : j = p.id
    · subst hji; simp only [Function.update_self, Option.some.injEq] at hj; subst hj
      exact absurd hw hne
    · rw [Function.update_of_ne hji] at hj; exact h.idle j qs hj hne
  · intro j qs hj hjl
    by_cases hji : j = p.id
    · subst hji; simp only [Function.update_self, Option.some.injEq] at hj; subst hj
      cases hjl
    · rw [Function.update_of_ne hji] at hj
      obtain ⟨z, h1, h2⟩ := h.one j qs hj hjl
      have hne : qs.handle ≠ ps.handle := by
        intro he
        have e1 := (h.id j qs hj).2
        rw [he, hids.2] at e1
        exact hji e1.symm
      have hza : z ≠ a := by rintro rfl; rw [hr] at h1; exact hne (Option.some.inj h1).symm
      refine ⟨z, by rw [Function.update_of_ne hza]; exact h1, fun x hx => ?_⟩
      by_cases hxa : x = a
      · subst hxa; simp at hx
      · rw [Function.update_of_ne hxa] at hx; exact h2 x hx
  · intro k' p' hs
    obtain ⟨qs, g1, g2, g3, g4⟩ := h.slot k' p' (hslot k' p' hs)
    by_cases hid : p'.id = p.id
    · rw [hid, hi] at g1
      cases g1
      refine ⟨{ ps with loading := .terminated }, by rw [hid, Function.update_self], g2, g3, ?_⟩
      rw [hp.live, ← g3, hh]
      simp
    · refine ⟨qs, by rw [Function.update_of_ne hid]; exact g1, g2, g3, ?_⟩
      rw [hp.live]
      exact ⟨fun h => g4.mp h.1, fun h => ⟨g4.mpr h, fun he => hid (by rw [he])⟩⟩

end
end QuickCache.Conc
