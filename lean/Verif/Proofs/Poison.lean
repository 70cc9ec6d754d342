import Verif.Spec.Poison
import Verif.Proofs.ConcUnwind

/-!
# Proofs about the cache with the locks of `std`
-/

namespace QuickCache
variable {K V RS : Type} [DecidableEq K] {c : Cfg K V RS}
namespace Std
open Conc (Ctl PState Ev Act Where Stop LInv)
open Function (update)

omit [DecidableEq K]

/-! ### What always holds -/

/-- Notified, and the notification consumed. -/
def back : Ctl K V → Bool
  | .claimed _ _ | .rejoining _ _ | .starting _ _ false => true
  | _ => false

/-- What holds in every state, whatever is poisoned. -/
structure BInv (s : Conc.State K V) : Prop where
  fresh : ∀ a, s.next ≤ a → s.ctl a = .idle
  lock : LInv s.writer s.readers (fun a => (s.ctl a).writes) (fun a => (s.ctl a).reads)
  mem : ∀ i ps, s.plh i = some ps → ∀ a ∈ ps.waiters, a < s.next ∧ s.flag a = false ∧
    (s.ctl a = .idle ∨ ∃ k p, s.ctl a = .waiting k p)
  nodup : ∀ i ps, s.plh i = some ps → ps.waiters.Nodup
  uniq : ∀ i j ps qs a, s.plh i = some ps → s.plh j = some qs → a ∈ ps.waiters → a ∈ qs.waiters → i = j
  reset : ∀ a, s.kind a = .task → back (s.ctl a) = true → s.flag a = false

/-- The other agents stay where they are. -/
structure Moved (s s' : Conc.State K V) (o : Option Nat) : Prop where
  next : s.next ≤ s'.next
  ctl : ∀ b, o ≠ some b → b < s.next → s'.ctl b = s.ctl b
  kind : ∀ b, b < s.next → s'.kind b = s.kind b
  flag : ∀ b, o ≠ some b → b < s.next → s'.flag b = true →
    s.flag b = true ∨ ∃ i ps, s.plh i = some ps ∧ b ∈ ps.waiters
  list : ∀ i ps, s'.plh i = some ps → ∀ b ∈ ps.waiters, o = some b ∨ ∃ qs, s.plh i = some qs ∧ b ∈ qs.waiters

/-- Agent `a` goes on to `x`; the agents in `N` are notified and leave the lists of waiters. -/
structure Shift (s s' : Conc.State K V) (a : Nat) (x : Ctl K V) (N : List Nat) : Prop where
  next : s'.next = s.next
  kind : s'.kind = s.kind
  ctl : s'.ctl = update s.ctl a x
  plh : ∀ i ps', s'.plh i = some ps' → ps'.waiters.Nodup ∧
    ∀ b ∈ ps'.waiters, b ∉ N ∧ ∃ ps, s.plh i = some ps ∧ b ∈ ps.waiters
  flag : ∀ b, b ≠ a → s'.flag b = true → s.flag b = true ∨ b ∈ N
  not : ∀ b ∈ N, ∃ i ps, s.plh i = some ps ∧ b ∈ ps.waiters

variable {s s' : Conc.State K V} {a : Nat} {x : Ctl K V} {N : List Nat}

theorem BInv.lt (h : BInv s) (ha : s.ctl a ≠ .idle) : a < s.next := by
  rcases Nat.lt_or_ge a s.next with h1 | h1
  · exact h1
  · exact absurd (h.fresh a h1) ha

theorem Shift.moved (m : Shift s s' a x N) : Moved s s' (some a) where
  next := by rw [m.next]
  ctl := fun b hb _ => by rw [m.ctl, Function.update_of_ne (fun e => hb (by rw [e]))]
  kind := fun b _ => by rw [m.kind]
  flag := fun b hb _ hf => (m.flag b (fun e => hb (by rw [e])) hf).imp_right (m.not b)
  list := fun i ps h b hb => Or.inr ((m.plh i ps h).2 b hb).2

theorem update_writes : (fun b => (update s.ctl a x b).writes) = update (fun b => (s.ctl b).writes) a x.writes := by
  funext b
  by_cases hb : b = a
  · subst hb; simp
  · simp [hb]

theorem update_reads : (fun b => (update s.ctl a x b).reads) = update (fun b => (s.ctl b).reads) a x.reads := by
  funext b
  by_cases hb : b = a
  · subst hb; simp
  · simp [hb]

/-- The invariant after a move. -/
theorem BInv.shift (h : BInv s) (ha : s.ctl a ≠ .idle) (m : Shift s s' a x N)
    (lock : LInv s'.writer s'.readers (update (fun b => (s.ctl b).writes) a x.writes)
      (update (fun b => (s.ctl b).reads) a x.reads))
    (self : (∀ i ps, s.plh i = some ps → a ∉ ps.waiters) ∨
      ((x = .idle ∨ ∃ k p, x = .waiting k p) ∧ s'.flag a = s.flag a))
    (bk : s.kind a = .task → back x = true → s'.flag a = false) : BInv s' := by
  have hlt := h.lt ha
  refine ⟨fun b hb => ?_, ?_, fun i ps hp b hb => ?_, fun i ps hp => (m.plh i ps hp).1, fun i j ps qs b hp hq hb hb' => ?_,
    fun b hk hbk => ?_⟩
  · rw [m.next] at hb
    rw [m.ctl, Function.update_of_ne (by omega)]
    exact h.fresh b hb
  · rw [m.ctl, update_writes, update_reads]; exact lock
  · obtain ⟨h1, qs, h2, h3⟩ := (m.plh i ps hp).2 b hb
    obtain ⟨g1, g2, g3⟩ := h.mem i qs h2 b h3
    rw [m.next]
    refine ⟨g1, ?_⟩
    by_cases hba : b = a
    · subst hba
      rcases self with hs | ⟨hs, hf⟩
      · exact absurd h3 (hs i qs h2)
      · exact ⟨by rw [hf]; exact g2, by rw [m.ctl, Function.update_self]; exact hs⟩
    · rw [m.ctl, Function.update_of_ne hba]
      refine ⟨?_, g3⟩
      cases hf : s'.flag b with
      | false => rfl
      | true =>
        rcases m.flag b hba hf with h4 | h4
        · rw [g2] at h4; cases h4
        · exact absurd h4 h1
  · obtain ⟨-, ps1, h2, h3⟩ := (m.plh i ps hp).2 b hb
    obtain ⟨-, qs1, h4, h5⟩ := (m.plh j qs hq).2 b hb'
    exact h.uniq i j ps1 qs1 b h2 h4 h3 h5
  · rw [m.kind] at hk
    by_cases hba : b = a
    · subst hba
      rw [m.ctl, Function.update_self] at hbk
      exact bk hk hbk
    · rw [m.ctl, Function.update_of_ne hba] at hbk
      cases hf : s'.flag b with
      | false => rfl
      | true =>
        rcases m.flag b hba hf with h4 | h4
        · rw [h.reset b hk hbk] at h4; cases h4
        · obtain ⟨i, ps, h5, h6⟩ := m.not b h4
          rcases (h.mem i ps h5 b h6).2.2 with h7 | ⟨k, p, h7⟩ <;> rw [h7] at hbk <;> cases hbk

/-- An agent that is not waiting is in no list of waiters. -/
theorem BInv.absent (h : BInv s) (ha : s.ctl a ≠ .idle) (hw : ∀ k p, s.ctl a ≠ .waiting k p) :
    ∀ i ps, s.plh i = some ps → a ∉ ps.waiters := by
  intro i ps hp hm
  rcases (h.mem i ps hp a hm).2.2 with h1 | ⟨k, p, h1⟩
  · exact ha h1
  · exact hw k p h1

/-- … nor one that has been notified. -/
theorem BInv.absent' (h : BInv s) (hf : s.flag a = true) : ∀ i ps, s.plh i = some ps → a ∉ ps.waiters := by
  intro i ps hp hm
  rw [(h.mem i ps hp a hm).2.1] at hf
  cases hf

/-- Nobody is notified, the lists stay. -/
theorem Shift.plain (h : BInv s) (next : s'.next = s.next) (kind : s'.kind = s.kind) (ctl : s'.ctl = update s.ctl a x)
    (plh : s'.plh = s.plh) (flag : ∀ b, b ≠ a → s'.flag b = true → s.flag b = true) : Shift s s' a x [] where
  next := next
  kind := kind
  ctl := ctl
  plh := fun i ps hp => by
    rw [plh] at hp
    exact ⟨h.nodup i ps hp, fun b hb => ⟨by simp, ps, hp, hb⟩⟩
  flag := fun b hb hf => Or.inl (flag b hb hf)
  not := by simp

/-- Some waiters of one placeholder leave, the ones in `N` being notified. -/
theorem Shift.cut (h : BInv s) {p : Plh} {ps ps' : PState K V} (hp : s.plh p.id = some ps) (next : s'.next = s.next)
    (kind : s'.kind = s.kind) (ctl : s'.ctl = update s.ctl a x) (plh : s'.plh = update s.plh p.id (some ps'))
    (nodup : ps'.waiters.Nodup) (sub : ∀ b ∈ ps'.waiters, b ∈ ps.waiters ∧ b ∉ N) (hN : ∀ b ∈ N, b ∈ ps.waiters)
    (flag : ∀ b, b ≠ a → s'.flag b = true → s.flag b = true ∨ b ∈ N) : Shift s s' a x N where
  next := next
  kind := kind
  ctl := ctl
  plh := fun i qs hq => by
    rw [plh] at hq
    by_cases hi : i = p.id
    · subst hi
      rw [Function.update_self] at hq
      cases hq
      exact ⟨nodup, fun b hb => ⟨(sub b hb).2, ps, hp, (sub b hb).1⟩⟩
    · rw [Function.update_of_ne hi] at hq
      refine ⟨h.nodup i qs hq, fun b hb => ⟨fun hn => hi ?_, qs, hq, hb⟩⟩
      exact h.uniq i p.id qs ps b hq hp hb (hN b hn)
  flag := flag
  not := fun b hb => ⟨p.id, ps, hp, hN b hb⟩

theorem foldl_notify {l : List Nat} : ∀ {s : Conc.State K V}, l.foldl Conc.State.notify s =
    { s with flag := (l.foldl Conc.State.notify s).flag } := by
  induction l with
  | nil => intro s; rfl
  | cons b l ih => intro s; rw [List.foldl_cons, ih]; rfl

theorem foldl_flag {l : List Nat} {b : Nat} : ∀ {s : Conc.State K V}, (l.foldl Conc.State.notify s).flag b = true →
    s.flag b = true ∨ b ∈ l := by
  induction l with
  | nil => intro s h; exact Or.inl h
  | cons d l ih =>
    intro s h
    rw [List.foldl_cons] at h
    rcases ih h with h1 | h1
    · simp only [Conc.State.notify] at h1
      by_cases hd : b = d
      · exact Or.inr (by simp [hd])
      · rw [Function.update_of_ne hd] at h1; exact Or.inl h1
    · exact Or.inr (by simp [h1])

/-- The waiters of `p` are dropped, some of them notified; agent `a` drops its guard. -/
theorem Shift.cutAll (h : BInv s) {k : K} {p : Plh} {ps : PState K V} {v : V} (_hc : s.ctl a = .guard k p)
    (hp : s.plh p.id = some ps) (hN : ∀ b ∈ N, b ∈ ps.waiters) :
    Shift s (N.foldl Conc.State.notify ((s.setPlh p { ps with waiters := [], loading := .inserted v }).go a (.leaving k p))) a
      (.leaving k p) N := by
  refine .cut (p := p) (ps := ps) (ps' := { ps with waiters := [], loading := .inserted v }) h hp
    (by rw [foldl_notify]; rfl) (by rw [foldl_notify]; rfl) (by rw [foldl_notify]; rfl) (by rw [foldl_notify]; rfl)
    List.nodup_nil (by simp) hN (fun b _ hf => ?_)
  have := foldl_flag hf
  exact this

theorem swapRemove_sub {l : List Nat} {i : Nat} (hi : i < l.length) :
    (∀ b ∈ Conc.swapRemove l i, b ∈ l) ∧ (l.Nodup → (Conc.swapRemove l i).Nodup) := by
  have := Conc.swapRemove_perm (List.getElem?_eq_getElem hi)
  refine ⟨fun b hb => this.symm.subset (by simp [hb]), fun hn => ?_⟩
  have := this.nodup hn
  exact (List.nodup_cons.mp this).2

/-! ### The actions keep it -/

/-- Only the shard changes. -/
theorem BInv.shard (h : BInv s) (sh : Shard K V) : BInv { s with shard := sh } :=
  ⟨h.fresh, h.lock, h.mem, h.nodup, h.uniq, h.reset⟩

theorem Moved.shard (o : Option Nat) (sh : Shard K V) : Moved s { s with shard := sh } o :=
  ⟨Nat.le_refl _, fun _ _ _ => rfl, fun _ _ => rfl, fun _ _ _ h => Or.inl h, fun _ ps h _ hb => Or.inr ⟨ps, h, hb⟩⟩

/-- The lock as it was. -/
theorem BInv.stay (h : BInv s) (hw : x.writes = (s.ctl a).writes) (hr : x.reads = (s.ctl a).reads) :
    LInv s.writer s.readers (update (fun b => (s.ctl b).writes) a x.writes) (update (fun b => (s.ctl b).reads) a x.reads) := by
  rw [hw, hr]; exact h.lock.same (a := a)

/-- A step that leaves the lists of waiters and the flags alone. -/
theorem BInv.simple (h : BInv s) {y : Ctl K V} (hc : s.ctl a = y) (hy : y ≠ .idle) (next : s'.next = s.next)
    (kind : s'.kind = s.kind) (ctl : s'.ctl = update s.ctl a x) (plh : s'.plh = s.plh) (flag : s'.flag = s.flag)
    (lock : LInv s'.writer s'.readers (update (fun b => (s.ctl b).writes) a x.writes)
      (update (fun b => (s.ctl b).reads) a x.reads))
    (self : (∀ k p, y ≠ .waiting k p) ∨ s.flag a = true ∨ (x = .idle ∨ ∃ k p, x = .waiting k p))
    (bk : s.kind a = .task → back x = true → back y = true) : BInv s' ∧ Moved s s' (some a) := by
  have m : Shift s s' a x [] := .plain h next kind ctl plh (fun b _ hf => by rw [flag] at hf; exact hf)
  refine ⟨h.shift (by rw [hc]; exact hy) m lock ?_ (fun hk hx => ?_), m.moved⟩
  · rcases self with h1 | h1 | h1
    · exact Or.inl (h.absent (by rw [hc]; exact hy) (by rw [hc]; exact h1))
    · exact Or.inl (h.absent' h1)
    · exact Or.inr ⟨h1, by rw [flag]⟩
  · rw [flag]; exact h.reset a hk (by rw [hc]; exact bk hk hx)

theorem unlocked_iff : s.unlocked = true ↔ s.writer = none ∧ s.readers = [] := by
  unfold Conc.State.unlocked
  cases s.writer <;> cases s.readers <;> simp

theorem BInv.exec [DecidableEq K] (h : BInv s) {act : Act K V} {evs : List (Ev K V)}
    (hs : Conc.exec c s act = some (.ok (s', evs))) : BInv s' ∧ Moved s s' (agent act) := by
  cases act with
  | begin kind k =>
    simp only [Conc.exec, Conc.begin] at hs
    obtain ⟨-, hs⟩ := Option.ite_none_right_eq_some.mp hs
    · cases hs
      have hn := h.fresh s.next (Nat.le_refl _)
      have hlt : ∀ i ps, s.plh i = some ps → ∀ b ∈ ps.waiters, b ≠ s.next := fun i ps hp b hb => by
        have := (h.mem i ps hp b hb).1; omega
      refine ⟨⟨fun b hb => ?_, ?_, fun i ps hp b hb => ?_, h.nodup, h.uniq, fun b hk hbk => ?_⟩,
        ⟨Nat.le_succ _, fun b _ hb => ?_, fun b hb => ?_, fun b _ hb hf => Or.inl ?_,
          fun i ps hp b hb => Or.inr ⟨ps, hp, hb⟩⟩⟩
      · simp only at hb ⊢
        rw [Function.update_of_ne (by omega)]
        exact h.fresh b (by omega)
      · simp only [update_writes, update_reads]
        exact h.stay (by rw [hn]; rfl) (by rw [hn]; rfl)
      · obtain ⟨h1, h2, h3⟩ := h.mem i ps hp b hb
        have hne := hlt i ps hp b hb
        simp only [Function.update_of_ne hne]
        exact ⟨by omega, h2, h3⟩
      · by_cases hb : b = s.next
        · subst hb; simp only [Function.update_self] at hbk; cases hbk
        · simp only [Function.update_of_ne hb] at hk hbk ⊢
          exact h.reset b hk hbk
      · simp only [Function.update_of_ne (show b ≠ s.next by omega)]
      · simp only [Function.update_of_ne (show b ≠ s.next by omega)]
      · simp only [Function.update_of_ne (show b ≠ s.next by omega)] at hf
        exact hf
  | enter a w =>
    simp only [Conc.exec, Conc.enter] at hs
    split at hs
    · rename_i k hc
      split at hs
      · rename_i hw
        cases hs
        exact h.simple hc (by simp) rfl rfl rfl rfl rfl
          (h.lock.takeRead (by simpa using hw) (by rw [hc]; rfl) (by rw [hc]; rfl)) (Or.inl (by simp)) (fun _ h => by cases h)
      · cases hs
    · cases hs
  | find a =>
    simp only [Conc.exec, Conc.find] at hs
    split at hs
    · rename_i k hc
      cases hst : Sync.step c s.shard (.find k) with
      | error e => rw [hst] at hs; cases hs
      | ok y =>
        obtain ⟨sh, out, q⟩ := y
        rw [hst] at hs
        simp only [Res.ok_bind, Option.some.injEq, Except.ok.injEq, Prod.mk.injEq] at hs
        obtain ⟨rfl, -⟩ := hs
        split
        · exact h.simple hc (by simp) rfl rfl rfl rfl rfl (h.stay (by rw [hc]; rfl) (by rw [hc]; rfl)) (Or.inl (by simp))
            (fun _ h => by cases h)
        · exact h.simple hc (by simp) rfl rfl rfl rfl rfl (h.stay (by rw [hc]; rfl) (by rw [hc]; rfl)) (Or.inl (by simp))
            (fun _ h => by cases h)
    · cases hs
  | load a old =>
    simp only [Conc.exec, Conc.load] at hs
    split at hs
    · rename_i k t v hc
      cases hst : Sync.step c s.shard (.load k t) with
      | error e => rw [hst] at hs; cases hs
      | ok y =>
        obtain ⟨sh, out, q⟩ := y
        rw [hst] at hs
        simp only [Res.ok_bind, Option.some.injEq, Except.ok.injEq, Prod.mk.injEq] at hs
        obtain ⟨rfl, -⟩ := hs
        split
        · split
          · exact h.simple hc (by simp) rfl rfl rfl rfl rfl (h.stay (by rw [hc]; rfl) (by rw [hc]; rfl)) (Or.inl (by simp))
              (fun _ h => by cases h)
          · exact h.simple hc (by simp) rfl rfl rfl rfl rfl (h.stay (by rw [hc]; rfl) (by rw [hc]; rfl)) (Or.inl (by simp))
              (fun _ h => by cases h)
        · exact h.simple hc (by simp) rfl rfl rfl rfl rfl (h.stay (by rw [hc]; rfl) (by rw [hc]; rfl)) (Or.inl (by simp))
            (fun _ h => by cases h)
    · cases hs
  | bump a =>
    simp only [Conc.exec, Conc.bump] at hs
    split at hs
    · rename_i k t v hc
      cases hst : Sync.step c s.shard (.bump k t) with
      | error e => rw [hst] at hs; cases hs
      | ok y =>
        obtain ⟨sh, out, q⟩ := y
        rw [hst] at hs
        simp only [Res.ok_bind, Option.some.injEq, Except.ok.injEq, Prod.mk.injEq] at hs
        obtain ⟨rfl, -⟩ := hs
        exact h.simple hc (by simp) rfl rfl rfl rfl rfl (h.stay (by rw [hc]; rfl) (by rw [hc]; rfl)) (Or.inl (by simp))
          (fun _ h => by cases h)
    · cases hs
  | tally a =>
    simp only [Conc.exec, Conc.tally] at hs
    split at hs
    · rename_i k r hc
      cases hst : Sync.step c s.shard (.count r.isSome) with
      | error e => rw [hst] at hs; cases hs
      | ok y =>
        obtain ⟨sh, out, q⟩ := y
        rw [hst] at hs
        simp only [Res.ok_bind, Option.some.injEq, Except.ok.injEq, Prod.mk.injEq] at hs
        obtain ⟨rfl, -⟩ := hs
        split
        · exact h.simple hc (by simp) rfl rfl rfl rfl rfl (h.lock.dropRead (by rw [hc]; rfl)) (Or.inl (by simp))
            (fun _ h => by cases h)
        · exact h.simple hc (by simp) rfl rfl rfl rfl rfl (h.lock.dropRead (by rw [hc]; rfl)) (Or.inl (by simp))
            (fun _ h => by cases h)
    · cases hs
  | upsert a =>
    simp only [Conc.exec, Conc.upsert] at hs
    split at hs
    · rename_i k hc
      split at hs
      · rename_i hw
        obtain ⟨hw, hr⟩ := unlocked_iff.mp hw
        cases hst : Sync.step c s.shard (.upsert k) with
        | error e => rw [hst] at hs; cases hs
        | ok y =>
          obtain ⟨sh, out, q⟩ := y
          rw [hst] at hs
          simp only [Res.ok_bind] at hs
          split at hs
          · cases hs
            exact h.simple hc (by simp) rfl rfl rfl rfl rfl (h.stay (by rw [hc]; rfl) (by rw [hc]; rfl)) (Or.inl (by simp))
              (fun _ h => by cases h)
          · rename_i p
            cases hs
            have m : Shift s { (({ s with shard := sh }.setPlh p ⟨k, p, [], .loading⟩).go a (.starting k p true)) with
                writer := some a } a (.starting k p true) [] :=
              ⟨rfl, rfl, rfl, fun i ps hp => by
                by_cases hi : i = p.id
                · subst hi
                  simp only [Conc.State.go, Conc.State.setPlh, Function.update_self] at hp
                  cases hp
                  exact ⟨List.nodup_nil, by simp⟩
                · simp only [Conc.State.go, Conc.State.setPlh, Function.update_of_ne hi] at hp
                  exact ⟨h.nodup i ps hp, fun b hb => ⟨by simp, ps, hp, hb⟩⟩,
              fun b _ hf => Or.inl hf, by simp⟩
            exact ⟨h.shift (by rw [hc]; simp) m (h.lock.takeWrite hw hr)
              (Or.inl (h.absent (by rw [hc]; simp) (by rw [hc]; simp))) (fun _ h => by cases h), m.moved⟩
          · cases hs
            exact h.simple hc (by simp) rfl rfl rfl rfl rfl (h.lock.takeWrite hw hr) (Or.inl (by simp))
              (fun _ h => by cases h)
          · cases hs
      · cases hs
    · cases hs
  | join a =>
    simp only [Conc.exec, Conc.join] at hs
    split at hs
    · rename_i k p hc
      split at hs
      · cases hs
      · rename_i ps hp
        split at hs
        · cases hs
          have habs := h.absent (a := a) (by rw [hc]; simp) (by rw [hc]; simp)
          have hlt := h.lt (a := a) (by rw [hc]; simp)
          have hl := h.lock.dropWrite (a := a) (by rw [hc]; rfl)
          have hlist : ∀ i qs, update s.plh p.id (some { ps with waiters := ps.waiters ++ [a] }) i = some qs →
              ∀ b ∈ qs.waiters, (b = a ∧ i = p.id) ∨ (b ≠ a ∧ ∃ qs, s.plh i = some qs ∧ b ∈ qs.waiters) := by
            intro i qs hq b hb
            by_cases hi : i = p.id
            · subst hi
              rw [Function.update_self] at hq
              cases hq
              rcases List.mem_append.mp hb with hb | hb
              · exact Or.inr ⟨fun e => habs _ _ hp (e ▸ hb), ps, hp, hb⟩
              · exact Or.inl ⟨by simpa using hb, rfl⟩
            · rw [Function.update_of_ne hi] at hq
              exact Or.inr ⟨fun e => habs _ _ hq (e ▸ hb), qs, hq, hb⟩
          refine ⟨⟨fun b hb => ?_, ?_, fun i qs hq b hb => ?_, fun i qs hq => ?_, fun i j qs rs b hq hr hb hb' => ?_,
            fun b hk hbk => ?_⟩, ⟨Nat.le_refl _, fun b hb _ => ?_, fun b hb => rfl, fun b hb _ hf => Or.inl ?_,
            fun i qs hq b hb => ?_⟩⟩
          · show update s.ctl a _ b = _
            have hb : s.next ≤ b := hb
            rw [Function.update_of_ne (by omega)]
            exact h.fresh b hb
          · show LInv none s.readers (fun b => (update s.ctl a _ b).writes) (fun b => (update s.ctl a _ b).reads)
            rw [update_writes, update_reads]; exact hl
          · show b < s.next ∧ update s.flag a false b = false ∧ (update s.ctl a _ b = .idle ∨ ∃ k p, update s.ctl a _ b = .waiting k p)
            rcases hlist i qs hq b hb with ⟨rfl, -⟩ | ⟨hne, rs, h1, h2⟩
            · rw [Function.update_self, Function.update_self]
              exact ⟨hlt, rfl, Or.inr ⟨k, p, rfl⟩⟩
            · rw [Function.update_of_ne hne, Function.update_of_ne hne]
              exact h.mem i rs h1 b h2
          · have hq : update s.plh p.id (some { ps with waiters := ps.waiters ++ [a] }) i = some qs := hq
            by_cases hi : i = p.id
            · subst hi
              rw [Function.update_self] at hq
              cases hq
              rw [List.nodup_append]
              refine ⟨h.nodup _ _ hp, by simp, fun b hb d hd e => ?_⟩
              have hd : d = a := by simpa using hd
              subst hd e
              exact habs _ _ hp hb
            · rw [Function.update_of_ne hi] at hq
              exact h.nodup _ _ hq
          · rcases hlist i qs hq b hb with ⟨h1, h2⟩ | ⟨h1, rs1, h2, h3⟩ <;>
              rcases hlist j rs hr b hb' with ⟨g1, g2⟩ | ⟨g1, rs2, g2, g3⟩
            · rw [h2, g2]
            · exact absurd h1 g1
            · exact absurd g1 h1
            · exact h.uniq i j rs1 rs2 b h2 g2 h3 g3
          · have hk : s.kind b = .task := hk
            have hbk : back (update s.ctl a (.waiting k p) b) = true := hbk
            show update s.flag a false b = false
            by_cases hb : b = a
            · subst hb; simp
            · rw [Function.update_of_ne hb] at hbk ⊢
              exact h.reset b hk hbk
          · show update s.ctl a _ b = _
            rw [Function.update_of_ne (fun e => hb (by rw [e]; rfl))]
          · have hf : update s.flag a false b = true := hf
            rw [Function.update_of_ne (fun e => hb (by rw [e]; rfl))] at hf
            exact hf
          · rcases hlist i qs hq b hb with ⟨rfl, -⟩ | ⟨-, h1⟩
            · exact Or.inl rfl
            · exact Or.inr h1
        · cases hs
          exact h.simple hc (by simp) rfl rfl rfl rfl rfl (h.lock.dropWrite (by rw [hc]; rfl)) (Or.inl (by simp))
            (fun _ h => by cases h)
        · cases hs
    · cases hs
  | startLoading a =>
    simp only [Conc.exec, Conc.startLoading] at hs
    split at hs
    · rename_i k p w hc
      split at hs
      · cases hs
        cases w with
        | true =>
          exact h.simple hc (by simp) rfl rfl rfl rfl rfl (h.lock.dropWrite (by rw [hc]; rfl)) (Or.inl (by simp))
            (fun _ h => by cases h)
        | false =>
          exact h.simple hc (by simp) rfl rfl rfl rfl rfl (h.lock.dropRead (by rw [hc]; rfl)) (Or.inl (by simp))
            (fun _ h => by cases h)
      · cases hs
    · cases hs
  | wake a =>
    simp only [Conc.exec, Conc.wake] at hs
    split at hs
    · rename_i k p tid b hc hk
      split at hs
      · rename_i hf
        cases hs
        exact h.simple hc (by simp) rfl rfl rfl rfl rfl (h.stay (by rw [hc]; rfl) (by rw [hc]; rfl)) (Or.inr (Or.inl hf))
          (fun h => by rw [hk] at h; cases h)
      · cases hs
    · cases hs
  | poll a w =>
    simp only [Conc.exec, Conc.poll] at hs
    split at hs
    · rename_i k p hc hk
      split at hs
      · rename_i hf
        cases hs
        have m : Shift s { s.go a (.claimed k p) with flag := update s.flag a false } a (.claimed k p) [] :=
          .plain h rfl rfl rfl rfl (fun b hb hf => by
            have hf : update s.flag a false b = true := hf
            rw [Function.update_of_ne hb] at hf
            exact hf)
        exact ⟨h.shift (by rw [hc]; simp) m (h.stay (by rw [hc]; rfl) (by rw [hc]; rfl)) (Or.inl (h.absent' hf))
          (fun _ _ => by show update s.flag a false a = false; simp), m.moved⟩
      · cases hs
        refine ⟨⟨h.fresh, h.lock, h.mem, h.nodup, h.uniq, h.reset⟩, ⟨Nat.le_refl _, fun _ _ _ => rfl, fun _ _ => rfl,
          fun _ _ _ h => Or.inl h, fun _ ps h _ hb => Or.inr ⟨ps, h, hb⟩⟩⟩
    · cases hs
  | timeout a =>
    simp only [Conc.exec, Conc.timeout] at hs
    split at hs
    · rename_i k p tid hc hk
      split at hs
      · cases hs
      · rename_i ps hp
        split at hs
        · rename_i hf
          cases hs
          exact h.simple hc (by simp) rfl rfl rfl rfl rfl (h.stay (by rw [hc]; rfl) (by rw [hc]; rfl)) (Or.inr (Or.inl hf))
            (fun h => by rw [hk] at h; cases h)
        · split at hs
          · cases hs
          · rename_i i hi
            cases hs
            have hi := (List.findIdx?_eq_some_iff_findIdx_eq.mp hi).1
            have hsub := swapRemove_sub hi
            have m : Shift s ((s.setPlh p { ps with waiters := Conc.swapRemove ps.waiters i }).go a .idle) a .idle [] :=
              .cut h hp rfl rfl rfl rfl (hsub.2 (h.nodup _ _ hp)) (fun b hb => ⟨hsub.1 b hb, by simp⟩) (by simp)
                (fun b _ hf => Or.inl hf)
            exact ⟨h.shift (by rw [hc]; simp) m (h.stay (by rw [hc]; rfl) (by rw [hc]; rfl)) (Or.inr ⟨Or.inl rfl, rfl⟩)
              (fun _ h => by cases h), m.moved⟩
    · cases hs
  | relock a =>
    simp only [Conc.exec, Conc.relock] at hs
    split at hs
    · rename_i k p hc
      split at hs
      · rename_i hw
        cases hs
        exact h.simple hc (by simp) rfl rfl rfl rfl rfl
          (h.lock.takeRead (by simpa using hw) (by rw [hc]; rfl) (by rw [hc]; rfl)) (Or.inl (by simp)) (fun _ _ => rfl)
      · cases hs
    · cases hs
  | rejoin a =>
    simp only [Conc.exec, Conc.rejoin] at hs
    split at hs
    · rename_i k p hc
      split at hs
      · cases hs
        exact h.simple hc (by simp) rfl rfl rfl rfl rfl (h.stay (by rw [hc]; rfl) (by rw [hc]; rfl)) (Or.inl (by simp))
          (fun _ _ => rfl)
      · cases hs
        exact h.simple hc (by simp) rfl rfl rfl rfl rfl (h.lock.dropRead (by rw [hc]; rfl)) (Or.inl (by simp))
          (fun _ _ => rfl)
      · cases hs
    · cases hs
  | publish a v =>
    simp only [Conc.exec, Conc.publish] at hs
    split at hs
    · rename_i k p hc
      split at hs
      · cases hs
      · rename_i ps hp
        simp only [Option.some.injEq, Except.ok.injEq, Prod.mk.injEq] at hs
        obtain ⟨rfl, -⟩ := hs
        have m : Shift s (ps.waiters.foldl Conc.State.notify ((s.setPlh p { ps with waiters := [], loading := .inserted v }).go a
            (.inserting k p v (!ps.waiters.isEmpty)))) a (.inserting k p v (!ps.waiters.isEmpty)) ps.waiters := by
          refine .cut (p := p) (ps := ps) (ps' := { ps with waiters := [], loading := .inserted v }) h hp
            (by rw [foldl_notify]; rfl) (by rw [foldl_notify]; rfl) (by rw [foldl_notify]; rfl) (by rw [foldl_notify]; rfl)
            List.nodup_nil (by simp) (fun b hb => hb) (fun b _ hf => ?_)
          have := foldl_flag hf
          exact this
        refine ⟨h.shift (by rw [hc]; simp) m ?_ (Or.inl (h.absent (by rw [hc]; simp) (by rw [hc]; simp)))
          (fun _ h => by cases h), m.moved⟩
        rw [foldl_notify]
        exact h.stay (by rw [hc]; rfl) (by rw [hc]; rfl)
    · cases hs
  | store a =>
    simp only [Conc.exec, Conc.store] at hs
    split at hs
    · rename_i k p v r hc
      split at hs
      · cases hst : Sync.step c s.shard (.fill k p r v) with
        | error e => rw [hst] at hs; cases hs
        | ok y =>
          obtain ⟨sh, out, q⟩ := y
          rw [hst] at hs
          simp only [Res.ok_bind, Option.some.injEq, Except.ok.injEq, Prod.mk.injEq] at hs
          obtain ⟨rfl, -⟩ := hs
          exact h.simple hc (by simp) rfl rfl rfl rfl rfl (h.stay (by rw [hc]; rfl) (by rw [hc]; rfl)) (Or.inl (by simp))
            (fun _ h => by cases h)
      · cases hs
    · cases hs
  | drop a =>
    simp only [Conc.exec, Conc.drop] at hs
    split at hs
    · rename_i k p hc
      cases hs
      exact h.simple hc (by simp) rfl rfl rfl rfl rfl (h.stay (by rw [hc]; rfl) (by rw [hc]; rfl)) (Or.inl (by simp))
        (fun _ h => by cases h)
    · cases hs
  | lockDrop a =>
    simp only [Conc.exec, Conc.lockDrop] at hs
    split at hs
    · rename_i k p hc
      split at hs
      · rename_i hw
        obtain ⟨hw, hr⟩ := unlocked_iff.mp hw
        cases hs
        exact h.simple hc (by simp) rfl rfl rfl rfl rfl (h.lock.takeWrite hw hr) (Or.inl (by simp)) (fun _ h => by cases h)
      · cases hs
    · cases hs
  | finishDrop a =>
    simp only [Conc.exec, Conc.finishDrop] at hs
    split at hs
    · rename_i k p hc
      split at hs
      · cases hs
      · rename_i ps hp
        have hl := h.lock.dropWrite (a := a) (by rw [hc]; rfl)
        have habs := h.absent (a := a) (by rw [hc]; simp) (by rw [hc]; simp)
        split at hs
        · rename_i b hb
          split at hs
          · cases hs
            have hn := h.nodup _ _ hp
            have hsplit : ps.waiters.dropLast ++ [b] = ps.waiters := List.dropLast_append_getLast? b (by simpa using hb)
            have m : Shift s ((((s.setPlh p { ps with waiters := ps.waiters.dropLast }).notify b).go a .idle).unlockWrite) a .idle
                [b] := by
              refine .cut (p := p) (ps := ps) (ps' := { ps with waiters := ps.waiters.dropLast }) h hp rfl rfl rfl rfl
                (hn.sublist (List.dropLast_sublist _)) (fun d hd => ?_) (fun d hd => ?_) (fun d _ hf => ?_)
              · refine ⟨(List.dropLast_sublist _).subset hd, fun e => ?_⟩
                have e : d = b := by simpa using e
                subst e
                rw [← hsplit, List.nodup_append] at hn
                exact hn.2.2 d hd d (by simp) rfl
              · have e : d = b := by simpa using hd
                subst e
                rw [← hsplit]; simp
              · have hf : update s.flag b true d = true := hf
                by_cases e : d = b
                · exact Or.inr (by simp [e])
                · rw [Function.update_of_ne e] at hf; exact Or.inl hf
            exact ⟨h.shift (by rw [hc]; simp) m hl (Or.inl habs) (fun _ h => by cases h), m.moved⟩
          · cases hs
        · cases hst : Sync.step c s.shard (.abandon k p) with
          | error e => rw [hst] at hs; cases hs
          | ok y =>
            obtain ⟨sh, out, q⟩ := y
            rw [hst] at hs
            simp only [Res.ok_bind, Option.some.injEq, Except.ok.injEq, Prod.mk.injEq] at hs
            obtain ⟨rfl, -⟩ := hs
            have m : Shift s { ((s.setPlh p { ps with loading := .terminated }).go a .idle).unlockWrite with shard := sh } a .idle
                [] :=
              .cut (p := p) (ps := ps) (ps' := { ps with loading := .terminated }) h hp rfl rfl rfl rfl
                (show ps.waiters.Nodup from h.nodup _ _ hp) (fun d hd => ⟨hd, by simp⟩) (by simp) (fun d _ hf => Or.inl hf)
            exact ⟨h.shift (by rw [hc]; simp) m hl (Or.inl habs) (fun _ h => by cases h), m.moved⟩
    · cases hs
  | cancel a =>
    simp only [Conc.exec, Conc.cancel] at hs
    split at hs
    · rename_i k hc hk
      cases hs
      exact h.simple hc (by simp) rfl rfl rfl rfl rfl (h.stay (by rw [hc]; rfl) (by rw [hc]; rfl)) (Or.inl (by simp))
        (fun _ h => by cases h)
    · rename_i k p hc hk
      split at hs
      · cases hs
      · rename_i ps hp
        split at hs
        · rename_i hf
          split at hs
          · cases hs
            exact h.simple hc (by simp) rfl rfl rfl rfl rfl (h.stay (by rw [hc]; rfl) (by rw [hc]; rfl)) (Or.inr (Or.inl hf))
              (fun _ h => by cases h)
          · cases hs
            exact h.simple hc (by simp) rfl rfl rfl rfl rfl (h.stay (by rw [hc]; rfl) (by rw [hc]; rfl)) (Or.inr (Or.inl hf))
              (fun _ h => by cases h)
        · split at hs
          · cases hs
          · rename_i i hi
            cases hs
            have hi := (List.findIdx?_eq_some_iff_findIdx_eq.mp hi).1
            have hsub := swapRemove_sub hi
            have m : Shift s ((s.setPlh p { ps with waiters := Conc.swapRemove ps.waiters i }).go a .idle) a .idle [] :=
              .cut h hp rfl rfl rfl rfl (hsub.2 (h.nodup _ _ hp)) (fun b hb => ⟨hsub.1 b hb, by simp⟩) (by simp)
                (fun b _ hf => Or.inl hf)
            exact ⟨h.shift (by rw [hc]; simp) m (h.stay (by rw [hc]; rfl) (by rw [hc]; rfl)) (Or.inr ⟨Or.inl rfl, rfl⟩)
              (fun _ h => by cases h), m.moved⟩
    · cases hs
  | abandon a =>
    simp only [Conc.exec, Conc.abandon] at hs
    split at hs
    · rename_i k p hc
      split at hs
      · cases hs
        exact h.simple hc (by simp) rfl rfl rfl rfl rfl (h.stay (by rw [hc]; rfl) (by rw [hc]; rfl)) (Or.inl (by simp))
          (fun _ h => by cases h)
      · cases hs
    · cases hs
  | call op =>
    simp only [Conc.exec, Conc.call] at hs
    obtain ⟨-, hs⟩ := Option.ite_none_right_eq_some.mp hs
    · cases hst : Sync.step c s.shard (.call op) with
      | error e => rw [hst] at hs; cases hs
      | ok y =>
        obtain ⟨sh, out, q⟩ := y
        rw [hst] at hs
        simp only [Res.ok_bind, Option.some.injEq, Except.ok.injEq, Prod.mk.injEq] at hs
        obtain ⟨rfl, -⟩ := hs
        exact ⟨h.shard sh, .shard _ sh⟩

/-! ### Interruptions keep it -/

theorem ofPoints_mem {f : Shard K V → Conc.State K V} {l : List (Point K V)} {y : Stop K V} (hy : y ∈ Conc.ofPoints f l)
    (hl : y.left = .ok s') : ∃ sh, s' = f sh := by
  unfold Conc.ofPoints at hy
  obtain ⟨q, -, rfl⟩ := List.mem_map.mp hy
  simp only [Except.map] at hl
  split at hl
  · cases hl
  · cases hl; exact ⟨_, rfl⟩

theorem BInv.stop [DecidableEq K] (h : BInv s) {act : Act K V} {y : Stop K V} (hy : y ∈ Conc.stops c s act)
    (hl : y.left = .ok s') : BInv s' ∧ Moved s s' (agent act) := by
  cases act with
  | enter a w =>
    simp only [Conc.stops, Conc.enterStops] at hy
    split at hy
    · rename_i k hc
      simp only [List.mem_singleton] at hy
      subst hy
      cases hl
      exact h.simple hc (by simp) rfl rfl rfl rfl rfl (h.stay (by rw [hc]; rfl) (by rw [hc]; rfl)) (Or.inl (by simp))
        (fun _ h => by cases h)
    · simp at hy
  | find a =>
    simp only [Conc.stops, Conc.findStops] at hy
    split at hy
    · rename_i k hc
      obtain ⟨sh, rfl⟩ := ofPoints_mem hy hl
      exact h.simple hc (by simp) rfl rfl rfl rfl rfl (h.lock.dropRead (by rw [hc]; rfl)) (Or.inl (by simp))
        (fun _ h => by cases h)
    · simp at hy
  | tally a =>
    simp only [Conc.stops, Conc.tallyStops] at hy
    split at hy
    · split at hy
      · rename_i s1 evs he
        simp only [List.mem_singleton] at hy
        subst hy
        cases hl
        exact h.exec (c := c) (act := .tally a) he
      · simp at hy
    · simp at hy
  | upsert a =>
    simp only [Conc.stops, Conc.upsertStops] at hy
    split at hy
    · rename_i k hc
      split at hy
      · rcases List.mem_append.mp hy with hy | hy
        · obtain ⟨sh, rfl⟩ := ofPoints_mem hy hl
          exact h.simple hc (by simp) rfl rfl rfl rfl rfl (h.stay (by rw [hc]; rfl) (by rw [hc]; rfl)) (Or.inl (by simp))
            (fun _ h => by cases h)
        · split at hy
          · simp only [List.mem_singleton] at hy
            subst hy
            cases hl
            exact h.simple hc (by simp) rfl rfl rfl rfl rfl (h.stay (by rw [hc]; rfl) (by rw [hc]; rfl)) (Or.inl (by simp))
              (fun _ h => by cases h)
          · simp at hy
      · simp at hy
    · simp at hy
  | join a =>
    simp only [Conc.stops, Conc.joinStops] at hy
    split at hy
    · rename_i k p hc
      have hg : BInv ((s.go a .idle).unlockWrite) ∧ Moved s ((s.go a .idle).unlockWrite) (some a) :=
        h.simple hc (by simp) rfl rfl rfl rfl rfl (h.lock.dropWrite (by rw [hc]; rfl)) (Or.inl (by simp))
          (fun _ h => by cases h)
      split at hy
      · split at hy
        · split at hy
          · simp only [List.mem_singleton] at hy
            subst hy
            cases hl
            exact hg
          · simp at hy
        · simp only [List.mem_singleton] at hy
          subst hy
          cases hl
          exact hg
        · simp at hy
      · simp at hy
    · simp at hy
  | poll a w =>
    simp only [Conc.stops, Conc.pollStops] at hy
    split at hy
    · split at hy
      · simp at hy
      · simp only [List.mem_singleton] at hy
        subst hy
        cases hl
        exact ⟨h, .shard _ _⟩
    · simp at hy
  | rejoin a =>
    simp only [Conc.stops, Conc.rejoinStops] at hy
    split at hy
    · rename_i k p hc
      split at hy
      · split at hy
        · simp only [List.mem_singleton] at hy
          subst hy
          cases hl
          exact h.simple hc (by simp) rfl rfl rfl rfl rfl (h.lock.dropRead (by rw [hc]; rfl)) (Or.inl (by simp))
            (fun _ h => by cases h)
        · simp only [List.mem_singleton] at hy
          subst hy
          cases hl
          exact h.simple hc (by simp) rfl rfl rfl rfl rfl (h.lock.dropRead (by rw [hc]; rfl)) (Or.inl (by simp))
            (fun _ h => by cases h)
      · simp at hy
    · simp at hy
  | publish a v =>
    simp only [Conc.stops, Conc.publishStops] at hy
    split at hy
    · rename_i k p hc
      split at hy
      · rename_i ps hp
        rcases List.mem_cons.mp hy with hy | hy
        · subst hy
          cases hl
          exact h.simple hc (by simp) rfl rfl rfl rfl rfl (h.stay (by rw [hc]; rfl) (by rw [hc]; rfl)) (Or.inl (by simp))
            (fun _ h => by cases h)
        · obtain ⟨i, -, hy⟩ := List.mem_filterMap.mp hy
          split at hy
          · split at hy
            · simp only [Option.some.injEq] at hy
              subst hy
              simp only [Except.ok.injEq] at hl
              subst hl
              have m := Shift.cutAll h hc hp (v := v) (N := ps.waiters.take (i + 1)) (fun b hb => List.mem_of_mem_take hb)
              refine ⟨h.shift (by rw [hc]; simp) m ?_ (Or.inl (h.absent (by rw [hc]; simp) (by rw [hc]; simp)))
                (fun _ h => by cases h), m.moved⟩
              rw [foldl_notify]
              exact h.stay (by rw [hc]; rfl) (by rw [hc]; rfl)
            · cases hy
          · cases hy
      · simp at hy
    · simp at hy
  | store a =>
    simp only [Conc.stops, Conc.storeStops] at hy
    split at hy
    · rename_i k p v r hc
      have hg : ∀ sh, BInv { s.go a .idle with shard := sh } ∧ Moved s { s.go a .idle with shard := sh } (some a) := fun sh =>
        h.simple hc (by simp) rfl rfl rfl rfl rfl (h.stay (by rw [hc]; rfl) (by rw [hc]; rfl)) (Or.inl (by simp))
          (fun _ h => by cases h)
      rcases List.mem_cons.mp hy with hy | hy
      · subst hy
        cases hl
        exact hg _
      · split at hy
        · rcases List.mem_append.mp hy with hy | hy
          · obtain ⟨sh, rfl⟩ := ofPoints_mem hy hl
            exact hg _
          · split at hy
            · simp only [List.mem_singleton] at hy
              subst hy
              cases hl
              exact hg _
            · simp at hy
        · simp at hy
    · simp at hy
  | finishDrop a =>
    simp only [Conc.stops, Conc.dropStops] at hy
    split at hy
    · rename_i he
      split at hy
      · simp only [List.mem_singleton] at hy
        subst hy
        cases hl
        exact h.exec (c := c) (act := .finishDrop a) he
      · simp at hy
    · simp at hy
  | call op =>
    simp only [Conc.stops, Conc.callStops] at hy
    split at hy
    · simp at hy
    · rename_i r he
      rcases List.mem_append.mp hy with hy | hy
      · obtain ⟨sh, rfl⟩ := ofPoints_mem hy hl
        exact ⟨h.shard sh, .shard _ sh⟩
      · split at hy
        · simp only [List.mem_singleton] at hy
          subst hy
          cases hl
          exact h.exec (c := c) (act := .call _) he
        · simp at hy
  | _ => simp [Conc.stops] at hy

/-! ### Poisoned locks keep it -/

section
variable {t : State K V}

theorem release_write (hw : t.base.writer = some a) : (release t a).base = t.base.unlockWrite := by
  unfold release; rw [if_pos hw]

theorem release_read (hw : t.base.writer ≠ some a) : (release t a).base = t.base.unlockRead a := by
  unfold release; rw [if_neg hw]

/-- Leaving with the read lock. -/
theorem BInv.expelRead (h : BInv t.base) {k : K} {p : Plh} {y : Ctl K V} (hc : t.base.ctl a = y)
    (hy : y = .rejoining k p ∨ y = .starting k p false) :
    BInv (release (expel t a) a).base ∧ Moved t.base (release (expel t a) a).base (some a) := by
  have hW : (t.base.ctl a).writes = false := by rcases hy with rfl | rfl <;> rw [hc] <;> rfl
  have hw : t.base.writer ≠ some a := fun e => by rw [(h.lock.wr a).mp e] at hW; cases hW
  have key : ∀ x : Ctl K V, (x = .idle ∨ x = .waiting k p) → BInv ((t.base.go a x).unlockRead a) ∧
      Moved t.base ((t.base.go a x).unlockRead a) (some a) := by
    intro x hx
    refine h.simple hc (by rcases hy with rfl | rfl <;> simp) rfl rfl rfl rfl rfl ?_
      (Or.inl (by rcases hy with rfl | rfl <;> simp)) (fun _ h => ?_)
    · have := h.lock.dropRead (a := a) hW
      rcases hx with rfl | rfl <;> exact this
    · rcases hx with rfl | rfl <;> cases h
  have hex : (expel t a).base = t.base.go a .idle ∨ (expel t a).base = t.base.go a (.waiting k p) := by
    unfold expel
    rcases hy with rfl | rfl <;> rw [hc] <;> simp only <;> split
    · exact Or.inr rfl
    · exact Or.inl rfl
    · exact Or.inr rfl
    · exact Or.inl rfl
  have hw' : (expel t a).base.writer ≠ some a := by rcases hex with e | e <;> rw [e] <;> exact hw
  rw [release_read hw']
  rcases hex with e | e <;> rw [e]
  · exact key _ (Or.inl rfl)
  · exact key _ (Or.inr rfl)

/-- Leaving with the write lock. -/
theorem BInv.expelWrite (h : BInv t.base) (hW : (t.base.ctl a).writes = true) {s1 : State K V}
    (hs : s1.base = t.base.go a .idle) :
    BInv (release s1 a).base ∧ Moved t.base (release s1 a).base (some a) := by
  have hw := (h.lock.wr a).mpr hW
  rw [release_write (by rw [hs]; exact hw), hs]
  refine h.simple rfl (fun e => by rw [e] at hW; cases hW) rfl rfl rfl rfl rfl (h.lock.dropWrite hW)
    (Or.inr (Or.inr (Or.inl rfl))) (fun _ h => by cases h)

/-- Leaving without lock. -/
theorem BInv.gone (h : BInv s) {y : Ctl K V} (hc : s.ctl a = y) (hy : y ≠ .idle) (hW : y.writes = false) (hR : y.reads = false) :
    BInv (s.go a .idle) ∧ Moved s (s.go a .idle) (some a) :=
  h.simple hc hy rfl rfl rfl rfl rfl (h.stay (by rw [hc, hW]; rfl) (by rw [hc, hR]; rfl))
    (Or.inr (Or.inr (Or.inl rfl))) (fun _ h => by cases h)

theorem mem_stateLock {l : Lock} (hl : l ∈ stateLock s a) {p : Plh} (hp : plhOf (s.ctl a) = some p) : l = .state p := by
  unfold stateLock at hl
  rw [hp] at hl
  simpa using hl

theorem mem_taskLocks {l : Lock} {bs : List Nat} (hl : l ∈ taskLocks s bs) : ∃ b ∈ bs, s.kind b = .task ∧ l = .waiter b := by
  unfold taskLocks at hl
  obtain ⟨b, hb, rfl⟩ := List.mem_map.mp hl
  have := List.mem_filter.mp hb
  exact ⟨b, this.1, by simpa using this.2, rfl⟩

/-- The place of the agent of an action that can be done. -/
theorem exec_ctl [DecidableEq K] {act : Act K V} (hx : Conc.exec c s act ≠ none) : match act with
    | .enter a _ => ∃ k, s.ctl a = .start k
    | .find a => ∃ k, s.ctl a = .seek k
    | .load a _ => ∃ k t v, s.ctl a = .saw k t v
    | .bump a => ∃ k t v, s.ctl a = .bump k t v
    | .tally a => ∃ k r, s.ctl a = .tally k r
    | .wake a => ∃ k p tid b, s.ctl a = .waiting k p ∧ s.kind a = .thread tid b
    | .drop a => ∃ k p, s.ctl a = .guard k p
    | .upsert a => ∃ k, s.ctl a = .created k ∧ s.unlocked = true
    | .join a => ∃ k p, s.ctl a = .joining k p
    | .startLoading a => ∃ k p w, s.ctl a = .starting k p w
    | .poll a _ => ∃ k p, s.ctl a = .waiting k p ∧ s.kind a = .task
    | .timeout a => ∃ k p tid, s.ctl a = .waiting k p ∧ s.kind a = .thread tid true
    | .relock a => ∃ k p, s.ctl a = .claimed k p
    | .rejoin a => ∃ k p, s.ctl a = .rejoining k p
    | .publish a _ => ∃ k p, s.ctl a = .guard k p
    | .store a => ∃ k p v r, s.ctl a = .inserting k p v r ∧ s.unlocked = true
    | .lockDrop a => ∃ k p, s.ctl a = .leaving k p ∧ s.unlocked = true
    | .finishDrop a => ∃ k p, s.ctl a = .dropping k p
    | .cancel a => s.kind a = .task ∧ ((∃ k, s.ctl a = .start k) ∨ ∃ k p, s.ctl a = .waiting k p)
    | .abandon a => ∃ k p, s.ctl a = .abandoning k p
    | _ => True := by
  cases act <;> simp only <;> simp only [Conc.exec, Conc.enter, Conc.find, Conc.load,
    Conc.bump, Conc.tally, Conc.wake, Conc.drop, Conc.upsert, Conc.join, Conc.startLoading, Conc.poll,
    Conc.timeout, Conc.relock, Conc.rejoin, Conc.publish, Conc.store, Conc.lockDrop, Conc.finishDrop, Conc.cancel,
    Conc.abandon] at hx <;> split at hx <;> simp_all

theorem BInv.onPoison [DecidableEq K] (h : BInv t.base) {act : Act K V} {l : Lock} (hx : Conc.exec c t.base act ≠ none)
    (hl : l ∈ locks t.base act) : BInv (onPoison t act l).base ∧ Moved t.base (onPoison t act l).base (agent act) := by
  have hc := exec_ctl hx
  cases act with
  | enter a w =>
    obtain ⟨k, hc⟩ := hc
    exact h.gone hc (by simp) rfl rfl
  | upsert a =>
    obtain ⟨k, hc, -⟩ := hc
    exact h.gone hc (by simp) rfl rfl
  | store a =>
    obtain ⟨k, p, v, r, hc, -⟩ := hc
    exact h.gone hc (by simp) rfl rfl
  | lockDrop a =>
    obtain ⟨k, p, hc, -⟩ := hc
    exact h.gone hc (by simp) rfl rfl
  | timeout a =>
    obtain ⟨k, p, tid, hc, -⟩ := hc
    exact h.gone hc (by simp) rfl rfl
  | abandon a =>
    obtain ⟨k, p, hc⟩ := hc
    exact h.gone hc (by simp) rfl rfl
  | call op => exact ⟨h, .shard _ _⟩
  | relock a =>
    obtain ⟨k, p, hc⟩ := hc
    simp only [Std.onPoison, expel, hc]
    split
    · exact h.simple hc (by simp) rfl rfl rfl rfl rfl (h.stay (by rw [hc]; rfl) (by rw [hc]; rfl)) (Or.inl (by simp))
        (fun _ h => by cases h)
    · exact h.gone hc (by simp) rfl rfl
  | poll a w =>
    obtain ⟨k, p, hc, -⟩ := hc
    simp only [Std.onPoison, expel, hc]
    exact ⟨h, .shard _ _⟩
  | join a =>
    obtain ⟨k, p, hc⟩ := hc
    exact h.expelWrite (by rw [hc]; rfl) (by unfold expel; rw [hc])
  | startLoading a =>
    obtain ⟨k, p, w, hc⟩ := hc
    cases w with
    | true => exact h.expelWrite (by rw [hc]; rfl) (by unfold expel; rw [hc])
    | false => exact h.expelRead hc (Or.inr rfl)
  | rejoin a =>
    obtain ⟨k, p, hc⟩ := hc
    exact h.expelRead hc (Or.inl rfl)
  | publish a v =>
    obtain ⟨k, p, hc⟩ := hc
    rcases List.mem_append.mp hl with hl | hl
    · obtain rfl := mem_stateLock hl (p := p) (by rw [hc]; rfl)
      simp only [Std.onPoison, hc]
      exact h.simple hc (by simp) rfl rfl rfl rfl rfl (h.stay (by rw [hc]; rfl) (by rw [hc]; rfl)) (Or.inl (by simp))
        (fun _ h => by cases h)
    · obtain ⟨b, hb, -, rfl⟩ := mem_taskLocks hl
      simp only [Std.onPoison, hc]
      split
      · rename_i ps hp
        have m := Shift.cutAll h hc hp (v := v) (N := ps.waiters.takeWhile (· ≠ b))
          (fun d hd => (List.takeWhile_sublist _).subset hd)
        refine ⟨h.shift (by rw [hc]; simp) m ?_ (Or.inl (h.absent (by rw [hc]; simp) (by rw [hc]; simp)))
          (fun _ h => by cases h), m.moved⟩
        rw [foldl_notify]
        exact h.stay (by rw [hc]; rfl) (by rw [hc]; rfl)
      · exact ⟨h, .shard _ _⟩
  | finishDrop a =>
    obtain ⟨k, p, hc⟩ := hc
    rcases List.mem_append.mp hl with hl | hl
    · obtain rfl := mem_stateLock hl (p := p) (by rw [hc]; rfl)
      exact h.expelWrite (by rw [hc]; rfl) rfl
    · obtain ⟨b, hb, -, rfl⟩ := mem_taskLocks hl
      simp only [Std.onPoison, hc]
      split
      · rename_i ps hp
        have hW : (t.base.ctl a).writes = true := by rw [hc]; rfl
        have hw := (h.lock.wr a).mpr hW
        rw [release_write (t := { t.poisonState p with
          base := (t.base.setPlh p { ps with waiters := ps.waiters.dropLast }).go a .idle }) hw]
        have m : Shift t.base (((t.base.setPlh p { ps with waiters := ps.waiters.dropLast }).go a .idle).unlockWrite) a .idle
            [] :=
          .cut (p := p) (ps := ps) (ps' := { ps with waiters := ps.waiters.dropLast }) h hp rfl rfl rfl rfl
            ((h.nodup _ _ hp).sublist (List.dropLast_sublist _))
            (fun d hd => ⟨(List.dropLast_sublist _).subset hd, by simp⟩) (by simp) (fun d _ hf => Or.inl hf)
        exact ⟨h.shift (by rw [hc]; simp) m (h.lock.dropWrite hW)
          (Or.inl (h.absent (by rw [hc]; simp) (by rw [hc]; simp))) (fun _ h => by cases h), m.moved⟩
      · exact ⟨h, .shard _ _⟩
  | cancel a =>
    obtain ⟨-, ⟨k, hc⟩ | ⟨k, p, hc⟩⟩ := hc
    · simp [locks, hc] at hl
    · have hg := h.gone hc (by simp) rfl rfl
      simp only [locks, hc] at hl
      rcases List.mem_append.mp hl with hl | hl
      · obtain rfl := mem_stateLock hl (p := p) (by rw [hc]; rfl)
        exact hg
      · simp only [List.mem_singleton] at hl
        subst hl
        simp only [Std.onPoison, hc]
        exact hg
  | _ => simp [locks] at hl

/-! ### Steps -/

/-- One step of a run, with the agent that does it and the events. -/
inductive Next [DecidableEq K] (c : Cfg K V RS) (t : State K V) : Option Nat → List (Ev K V) → State K V → Prop
  | act {t' : State K V} {act : Act K V} {evs : List (Ev K V)} (hs : exec c t act = some (.done t' evs)) :
      Next c t (agent act) evs t'
  | poison {t' : State K V} {act : Act K V} (hs : exec c t act = some (.panicked t')) : Next c t (agent act) [] t'
  | throw {t' : State K V} {act : Act K V} {i : Nat} {site : Where} (hs : throw c t act i = some (.panicked t', site)) :
      Next c t (agent act) [] t'
  | crash {t' : State K V} {a : Nat} (hs : crash t a = some t') : Next c t (some a) [] t'

variable {t' : State K V} [DecidableEq K] {act : Act K V} {evs : List (Ev K V)} {o : Option Nat}

theorem exec_done (hs : exec c t act = some (.done t' evs)) : barred t act = false ∧
    (locks t.base act).find? t.bad = none ∧
    ∃ b, Conc.exec c t.base act = some (.ok (b, evs)) ∧ t' = { t with base := b } := by
  unfold exec at hs
  split at hs
  · cases hs
  · rename_i hb
    split at hs
    · cases hs
    · rename_i r he
      split at hs
      · unfold panics at hs
        split at hs <;> cases hs
      · rename_i hl
        split at hs
        · cases hs
          exact ⟨by simpa using hb, hl, _, he, rfl⟩
        · split at hs <;> cases hs

theorem exec_panicked (hs : exec c t act = some (.panicked t')) : barred t act = false ∧ unwinds t act = false ∧
    Conc.exec c t.base act ≠ none ∧ ∃ l ∈ locks t.base act, t.bad l = true ∧ t' = onPoison t act l := by
  unfold exec at hs
  split at hs
  · cases hs
  · rename_i hb
    split at hs
    · cases hs
    · rename_i r he
      split at hs
      · rename_i l hl
        unfold panics at hs
        split at hs
        · cases hs
        · rename_i hu
          cases hs
          exact ⟨by simpa using hb, by simpa using hu, by rw [he]; simp, l, List.mem_of_find?_eq_some hl,
            List.find?_some hl, rfl⟩
      · split at hs
        · cases hs
        · split at hs <;> cases hs

theorem throw_panicked {i : Nat} {site : Where} (hs : throw c t act i = some (.panicked t', site)) :
    barred t act = false ∧ unwinds t act = false ∧ (locks t.base act).find? t.bad = none ∧
    ∃ x ∈ Conc.stops c t.base act, (Conc.stops c t.base act)[i]? = some x ∧ x.site = site ∧
      ∃ b, x.left = .ok b ∧ t' = onThrow t b act i site := by
  unfold throw at hs
  split at hs
  · cases hs
  · rename_i hb
    simp only [Bool.or_eq_true, not_or, Bool.not_eq_true, Option.isSome_eq_false_iff, Option.isNone_iff_eq_none] at hb
    split at hs
    · cases hs
    · rename_i x hx
      split at hs
      · rename_i b hl
        simp only [Option.some.injEq, Prod.mk.injEq] at hs
        obtain ⟨h1, rfl⟩ := hs
        unfold panics at h1
        split at h1
        · cases h1
        · rename_i hu
          cases h1
          exact ⟨hb.1, by simpa using hu, hb.2, x, List.mem_of_getElem? hx, hx, rfl, b, hl, rfl⟩
      · simp only [Option.some.injEq, Prod.mk.injEq] at hs
        cases hs.1

omit [DecidableEq K] in
theorem onThrow_base {b : Conc.State K V} {i : Nat} {site : Where} : (onThrow t b act i site).base = b := by
  unfold onThrow
  simp only
  split
  · rfl
  · split
    · rfl
    · split <;> rfl
    · rfl
    · split <;> rfl
    · split <;> rfl
    · rfl

/-- Nothing is healed. -/
structure Worse (s s' : State K V) : Prop where
  shard : s.shardBad = true → s'.shardBad = true
  state : ∀ i, s.stateBad i = true → s'.stateBad i = true
  waiter : ∀ a, s.waiterBad a = true → s'.waiterBad a = true
  unwinding : ∀ a, s.unwinding a = true → s'.unwinding a = true

omit [DecidableEq K]

theorem Worse.refl : Worse t t := ⟨id, fun _ => id, fun _ => id, fun _ => id⟩

theorem Worse.base (b : Conc.State K V) : Worse t { t with base := b } := ⟨id, fun _ => id, fun _ => id, fun _ => id⟩

theorem Worse.trans {t1 t2 t3 : State K V} (h : Worse t1 t2) (h' : Worse t2 t3) : Worse t1 t3 :=
  ⟨fun x => h'.shard (h.shard x), fun i x => h'.state i (h.state i x), fun i x => h'.waiter i (h.waiter i x),
    fun i x => h'.unwinding i (h.unwinding i x)⟩

theorem update_true {f : Nat → Bool} {i j : Nat} (h : f i = true) : update f j true i = true := by
  by_cases e : i = j
  · subst e; simp
  · rw [Function.update_of_ne e]; exact h

theorem Worse.poisonShard : Worse t t.poisonShard := ⟨fun _ => rfl, fun _ => id, fun _ => id, fun _ => id⟩
theorem Worse.poisonState {p : Plh} : Worse t (t.poisonState p) := ⟨id, fun _ h => update_true h, fun _ => id, fun _ => id⟩
theorem Worse.poisonWaiter {b : Nat} : Worse t (t.poisonWaiter b) := ⟨id, fun _ => id, fun _ h => update_true h, fun _ => id⟩
theorem Worse.unwind {b : Nat} : Worse t (t.unwind b) := ⟨id, fun _ => id, fun _ => id, fun _ h => update_true h⟩

theorem Worse.release : Worse t (release t a) := by
  unfold Std.release
  split
  · exact Worse.poisonShard.trans (.base _)
  · exact .base _

theorem Worse.expel : Worse t (expel t a) := by
  unfold Std.expel
  split
  · split
    · exact Worse.unwind.trans (.base _)
    · exact .base _
  · split
    · exact Worse.unwind.trans (.base _)
    · exact .base _
  · split
    · exact Worse.unwind.trans (.base _)
    · exact .base _
  · exact .unwind
  · exact .base _

theorem Worse.onPoison {l : Lock} : Worse t (onPoison t act l) := by
  unfold Std.onPoison
  split
  all_goals first
    | exact .base _
    | exact .expel
    | exact Worse.expel.trans .release
    | exact .refl
    | (exact (Worse.base _).trans .release)
    | skip
  · split
    · exact Worse.unwind.trans (.base _)
    · exact .refl
  · split
    · split
      · exact (Worse.unwind.trans .poisonState).trans (.base _)
      · exact .refl
    · exact .refl
  · split
    · split
      · exact (Worse.poisonState.trans (.base _)).trans .release
      · exact .refl
    · exact .refl
  · split
    · exact Worse.poisonState.trans (.base _)
    · exact .refl

theorem Worse.onThrow {b : Conc.State K V} {i : Nat} {site : Where} : Worse t (onThrow t b act i site) := by
  unfold Std.onThrow
  simp only
  split
  · exact (Worse.base b).trans .poisonShard
  · split
    · exact ((Worse.base b).trans .poisonShard).trans .poisonState
    · split
      · exact (((Worse.base b).trans .poisonShard).trans .poisonState).trans .poisonWaiter
      · exact ((Worse.base b).trans .poisonShard).trans .poisonState
    · exact ((Worse.base b).trans .unwind).trans .poisonWaiter
    · split
      · exact (((Worse.base b).trans .unwind).trans .poisonState).trans .poisonWaiter
      · exact ((Worse.base b).trans .unwind).trans .poisonState
    · split
      · exact (Worse.base b).trans .unwind
      · exact .base b
    · exact .base b

theorem crash_ok (hs : crash t a = some t') : Worse t t' ∧ t'.unwinding a = true ∧
    ((∃ k p, t.base.ctl a = .guard k p ∧ t' = { t.unwind a with base := t.base.go a (.leaving k p) }) ∨
      (t.base.kind a = .task ∧ (∃ k, (∃ p, t.base.ctl a = .waiting k p) ∨ t.base.ctl a = .start k) ∧ t' = t.unwind a)) := by
  unfold crash at hs
  split at hs
  · rename_i h1
    cases hs
    exact ⟨Worse.unwind.trans (.base _), by simp [State.unwind], Or.inl ⟨_, _, h1, rfl⟩⟩
  · rename_i k p h1 h2
    cases hs
    exact ⟨.unwind, by simp [State.unwind], Or.inr ⟨h2, ⟨k, Or.inl ⟨p, h1⟩⟩, rfl⟩⟩
  · rename_i k h1 h2
    cases hs
    exact ⟨.unwind, by simp [State.unwind], Or.inr ⟨h2, ⟨k, Or.inr h1⟩, rfl⟩⟩
  · cases hs

theorem Next.worse [DecidableEq K] (hn : Next c t o evs t') : Worse t t' := by
  cases hn with
  | act hs => obtain ⟨-, -, b, -, rfl⟩ := exec_done hs; exact .base b
  | poison hs => obtain ⟨-, -, -, l, -, -, rfl⟩ := exec_panicked hs; exact .onPoison
  | throw hs => obtain ⟨-, -, -, x, -, -, -, b, -, rfl⟩ := throw_panicked hs; exact .onThrow
  | crash hs => exact (crash_ok hs).1

theorem Next.binv [DecidableEq K] (hn : Next c t o evs t') (h : BInv t.base) : BInv t'.base ∧ Moved t.base t'.base o := by
  cases hn with
  | act hs => obtain ⟨-, -, b, he, rfl⟩ := exec_done hs; exact h.exec he
  | poison hs => obtain ⟨-, -, he, l, hl, -, rfl⟩ := exec_panicked hs; exact h.onPoison he hl
  | throw hs =>
    obtain ⟨-, -, -, x, hx, -, -, b, hl, rfl⟩ := throw_panicked hs
    rw [onThrow_base]
    exact h.stop hx hl
  | crash hs =>
    obtain ⟨-, -, ⟨k, p, hc, rfl⟩ | ⟨-, -, rfl⟩⟩ := crash_ok hs
    · exact h.simple hc (by simp) rfl rfl rfl rfl rfl (h.stay (by rw [hc]; rfl) (by rw [hc]; rfl)) (Or.inl (by simp))
        (fun _ h => by cases h)
    · exact ⟨h, .shard _ _⟩

end

end Std
end QuickCache
