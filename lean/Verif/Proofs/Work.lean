import Verif.Proofs.UnwindStep
import Verif.Proofs.Counters
import Verif.Spec.Work

/-!
# The number of items that eviction looks at

Every item the hand stops at pays for itself: its counter goes down, or it leaves the queue.
-/

namespace QuickCache
variable {K V RS : Type}

/-! ### Counting -/

namespace U
variable {α β : Type}

/-- The number of items looked at. -/
def cnt (x : U K V α) : Nat := (x.points.filter (·.site.examines)).length

/-- No item is looked at. -/
def Free (x : U K V α) : Prop := cnt x = 0

theorem cnt_bind_ok {x : U K V α} {f : α → U K V β} {a : α} (h : x.run = .ok a) : cnt (x >>= f) = cnt x + cnt (f a) := by
  unfold cnt
  rw [points_bind, h]
  simp

theorem Free.bind {x : U K V α} {f : α → U K V β} (h : Free x) (hf : ∀ a, x.run = .ok a → Free (f a)) : Free (x >>= f) := by
  cases hx : x.run with
  | ok a =>
    have := hf a hx
    unfold Free at h this ⊢
    rw [cnt_bind_ok hx]
    omega
  | error e =>
    unfold Free cnt at h ⊢
    rw [points_bind, hx]
    simpa using h

theorem Free.pure {a : α} : Free (Pure.pure a : U K V α) := rfl

theorem Free.lift {x : Res α} : Free (lift x : U K V α) := rfl

theorem Free.user {i : Site} {s : Shard K V} (h : i.examines = false) : Free (user i s) := by
  simp [Free, cnt, U.user, h]

theorem Free.ite {x y : U K V α} {b : Prop} [Decidable b] (hx : Free x) (hy : Free y) : Free (if b then x else y) := by
  split
  · exact hx
  · exact hy

theorem cnt_dropping (f : Shard K V → Res (Shard K V)) (x : U K V α) : cnt (dropping f x) = cnt x := by
  simp only [cnt, U.dropping, List.filter_map, List.length_map]
  rfl

end U

/-! ### The potential -/

/-- What is left to be paid for a slot: one step for every unit of the counter, and one for leaving. -/
def potF (c : Cfg K V RS) : Option (Entry K V) → Nat
  | some (.resident r) => if c.weight r.key r.value = 0 then 0 else r.referenced + 1
  | _ => 0

/-- The number of items that eviction can look at before the queues are empty. -/
def pot (c : Cfg K V RS) (s : Shard K V) : Nat := Slab.sumBy (potF c) s.entries

theorem sumBy_range_ge {T : Type _} (f : Option T → Nat) (hf : f none = 0) (s : Slab T) {n : Nat} (hn : s.entries.length ≤ n) :
    Slab.sumBy f s = ((List.range n).map (fun t => f (s.item t))).sum := by
  induction n with
  | zero => rw [sumBy_range, Nat.le_zero.mp hn]
  | succ n ih =>
    by_cases h : s.entries.length = n + 1
    · rw [sumBy_range, h]
    · rw [ih (by omega), List.range_succ]
      have : s.item n = none := by
        unfold Slab.item
        rw [List.getElem?_eq_none (by omega)]
        rfl
      simp [this, hf]

/-- `sumBy_le` for slabs of different lengths. -/
theorem sumBy_le_any {T : Type _} (f : Option T → Nat) (hf : f none = 0) {s s' : Slab T}
    (h : ∀ t, f (s'.item t) ≤ f (s.item t)) : Slab.sumBy f s' ≤ Slab.sumBy f s := by
  rw [sumBy_range_ge f hf s' (Nat.le_max_left s'.entries.length s.entries.length),
    sumBy_range_ge f hf s (Nat.le_max_right s'.entries.length s.entries.length)]
  exact sum_map_le h

theorem Slab.Upd.pot {c : Cfg K V RS} {s s' : Shard K V} {t : Nat} {old new : Option (Entry K V)}
    (h : Slab.Upd s.entries s'.entries t old new) : pot c s' + potF c old = pot c s + potF c new := h.sum (potF c) rfl

theorem EvStep.ref {c : Cfg K V RS} {I I' : Nat → Option (Entry K V)} {st st' : RS} {L : List (Event K V)}
    (h : EvStep c I st L I' st') (t : Nat) (r' : Resident K V) (ht : I' t = some (.resident r')) :
    ∃ r, I t = some (.resident r) ∧ r'.referenced ≤ r.referenced := by
  have gen : ∀ (u : Nat) (new : Option (Entry K V)),
      (∀ r', new = some (.resident r') → ∃ r, I u = some (.resident r) ∧ r'.referenced ≤ r.referenced) →
      upd I u new t = some (.resident r') → ∃ r, I t = some (.resident r) ∧ r'.referenced ≤ r.referenced := by
    intro u new hn hu
    by_cases hut : t = u
    · subst hut; rw [upd_same] at hu; exact hn r' hu
    · rw [upd_other _ _ hut] at hu; exact ⟨r', hu, Nat.le_refl _⟩
  cases h with
  | touch u r n st' hu hst =>
    refine gen u _ (fun r' h' => ⟨r, hu, ?_⟩) ht
    cases h'
    rcases hst with ⟨-, -, -, rfl⟩ | ⟨-, -, -, rfl⟩ <;> simp only <;> omega
  | spare u r v hu h0 hw hp hb hw' =>
    refine gen u _ (fun r' h' => ⟨r, hu, ?_⟩) ht
    cases h'
    exact Nat.le_refl _
  | evict u r v hu h0 hw hp hb hw' new hnew =>
    refine gen u _ (fun r' h' => ?_) ht
    rcases hnew with ⟨rfl, -⟩ | ⟨rfl, -⟩ <;> cases h'
  | dropGhost u g hu => exact gen u _ (fun r' h' => by cases h') ht

theorem EvSteps.ref {c : Cfg K V RS} {I I' : Nat → Option (Entry K V)} {st st' : RS} {L : List (Event K V)}
    (h : EvSteps c I st L I' st') : ∀ (t : Nat) (r' : Resident K V), I' t = some (.resident r') →
    ∃ r, I t = some (.resident r) ∧ r'.referenced ≤ r.referenced := by
  induction h with
  | nil => intro t r' h; exact ⟨r', h, Nat.le_refl _⟩
  | cons h hs ih =>
    intro t r' hr'
    obtain ⟨r1, h1, h2⟩ := ih t r' hr'
    obtain ⟨r, h3, h4⟩ := h.ref t r1 h1
    exact ⟨r, h3, Nat.le_trans h2 h4⟩

theorem EvPost.ref {c : Cfg K V RS} {s s' : Shard K V} {q q' : Req K V RS} (h : EvPost c s q s' q') {t : Nat}
    {r' : Resident K V} (ht : s'.entries.item t = some (.resident r')) :
    ∃ r, s.entries.item t = some (.resident r) ∧ r'.referenced ≤ r.referenced := by
  obtain ⟨L, -, hL⟩ := h.log
  exact hL.ref t r' ht

namespace U
variable {α β : Type} {c : Cfg K V RS}

/-- The items looked at and the potential left amount to at most `n`. -/
def Pay (c : Cfg K V RS) (n : Nat) (x : U K V α) (f : α → Shard K V) : Prop :=
  ∀ a, x.run = .ok a → cnt x + pot c (f a) ≤ n

theorem Pay.pure {a : α} {n : Nat} {f : α → Shard K V} (h : pot c (f a) ≤ n) : Pay c n (Pure.pure a) f := by
  intro b hb
  cases hb
  rw [show cnt (Pure.pure a : U K V α) = 0 from Free.pure]
  omega

theorem Pay.error {e : Panic} {n : Nat} {f : α → Shard K V} : Pay c n (U.lift (.error e)) f := by
  intro a ha; cases ha

theorem Pay.free {x : U K V α} {f : α → U K V β} {n : Nat} {g : β → Shard K V} (h : Free x)
    (hf : ∀ a, x.run = .ok a → Pay c n (f a) g) : Pay c n (x >>= f) g := by
  intro b hb
  rw [run_bind] at hb
  cases hx : x.run with
  | error e => rw [hx] at hb; cases hb
  | ok a =>
    rw [hx] at hb
    have := hf a hx b hb
    unfold Free at h
    rw [cnt_bind_ok hx]
    omega

/-- Looking at an item. -/
theorem Pay.look {i : Site} {s : Shard K V} {f : PUnit → U K V β} {n : Nat} {g : β → Shard K V}
    (hf : Pay c n (f PUnit.unit) g) : Pay c (n + 1) (user i s >>= f) g := by
  intro b hb
  rw [run_bind] at hb
  have := hf b hb
  rw [cnt_bind_ok (run_user i s)]
  have h1 : cnt (U.user i s) ≤ 1 := by
    unfold cnt U.user
    exact Nat.le_trans (List.length_filter_le ..) (Nat.le_refl _)
  omega

theorem Pay.bind {x : U K V α} {f : α → U K V β} {n m : Nat} {g0 : α → Shard K V} {g : β → Shard K V} (h : Pay c n x g0)
    (hf : ∀ a, x.run = .ok a → Pay c (pot c (g0 a) + m) (f a) g) : Pay c (n + m) (x >>= f) g := by
  intro b hb
  rw [run_bind] at hb
  cases hx : x.run with
  | error e => rw [hx] at hb; cases hb
  | ok a =>
    rw [hx] at hb
    have h1 := h a hx
    have h2 := hf a hx b hb
    rw [cnt_bind_ok hx]
    omega

theorem Pay.mono {x : U K V α} {n m : Nat} {g : α → Shard K V} (h : Pay c n x g) (hn : n ≤ m) : Pay c m x g :=
  fun a ha => Nat.le_trans (h a ha) hn

theorem Pay.ite {x y : U K V α} {b : Prop} [Decidable b] {n : Nat} {g : α → Shard K V} (hx : b → Pay c n x g)
    (hy : ¬ b → Pay c n y g) : Pay c n (if b then x else y) g := by
  split
  · exact hx ‹_›
  · exact hy ‹_›

theorem Pay.of_free {x : U K V α} {n : Nat} {g : α → Shard K V} (h : Free x)
    (hx : ∀ a, x.run = .ok a → pot c (g a) ≤ n) : Pay c n x g := by
  intro a ha
  have := hx a ha
  unfold Free at h
  omega

theorem Pay.dropping {x : U K V α} {n : Nat} {g : α → Shard K V} (h : Pay c n x g) (f : Shard K V → Res (Shard K V)) :
    Pay c n (dropping f x) g := by
  intro a ha
  rw [cnt_dropping]
  exact h a ha

end U

namespace Unwind
open U

section
variable {c : Cfg K V RS} {s : Shard K V}

/-! ### Functions that look at nothing -/

theorem searchLoop_free (h : UInt64) (eqv : K → Bool) (l : List Nat) : ∀ m, Free (searchLoop s h eqv l m) := by
  induction l with
  | nil => intro m; exact .pure
  | cons i l ih =>
    intro m
    unfold searchLoop
    rcases s.entries.get i with _ | ⟨⟨r⟩ | ph | g, n⟩
    · exact .lift
    · exact .bind (.user rfl) (fun _ _ => .ite .pure (ih m))
    · exact .bind (.user rfl) (fun _ _ => .ite .pure (ih m))
    · exact ih _

theorem search_free (h : UInt64) (eqv : K → Bool) : Free (search s h eqv) := searchLoop_free _ _ _ _

theorem searchResidentLoop_free (eqv : K → Bool) (l : List Nat) : Free (searchResidentLoop s eqv l) := by
  induction l with
  | nil => exact .pure
  | cons i l ih =>
    unfold searchResidentLoop
    rcases s.entries.get i with _ | ⟨⟨r⟩ | ph | g, n⟩
    · exact .lift
    · exact .bind (.user rfl) (fun _ _ => .ite .pure ih)
    · exact ih
    · exact ih

theorem searchResident_free (h : UInt64) (eqv : K → Bool) : Free (searchResident s h eqv) := searchResidentLoop_free _ _

theorem rehash_free (m : List (UInt64 × Nat)) : Free (rehash c s m) := by
  induction m with
  | nil => exact .pure
  | cons b m ih =>
    unfold rehash
    rcases s.entries.get b.2 with _ | ⟨⟨r⟩ | ph | g, n⟩
    · exact .lift
    · exact .bind (.user rfl) (fun _ _ => .bind ih (fun _ _ => .pure))
    · exact .bind (.user rfl) (fun _ _ => .bind ih (fun _ _ => .pure))
    · exact .bind ih (fun _ _ => .pure)

theorem mapInsert_free (h : UInt64) (t : Nat) : Free (mapInsert c s h t) := .bind (rehash_free _) (fun _ _ => .pure)

theorem reserve_free : Free (reserve c s) := .bind (rehash_free _) (fun _ _ => .pure)

theorem get_free (h : UInt64) (eqv : K → Bool) : Free (get s h eqv) := by
  unfold get
  refine .bind (searchResident_free h eqv) (fun a _ => ?_)
  rcases a with _ | ⟨t, r⟩ <;> exact .pure

theorem peekTokenMut_free (t : Nat) : Free (peekTokenMut c s t) := by
  unfold peekTokenMut
  rcases s.entries.get t with _ | ⟨⟨r⟩ | ph | g, n⟩
  · exact .pure
  · exact .bind (.user rfl) (fun _ _ => .pure)
  · exact .pure
  · exact .pure

theorem peekMut_free (h : UInt64) (eqv : K → Bool) : Free (peekMut c s h eqv) := by
  unfold peekMut
  refine .bind (searchResident_free h eqv) (fun a _ => ?_)
  rcases a with _ | ⟨t, r⟩
  · exact .pure
  · exact peekTokenMut_free t

theorem getMut_free (hh : UInt64) (eqv : K → Bool) : Free (getMut c s hh eqv) := by
  unfold getMut
  refine .bind (searchResident_free hh eqv) (fun a _ => ?_)
  rcases a with _ | ⟨t, r⟩
  · exact .pure
  · dsimp only
    rcases s.entries.get t with _ | ⟨⟨r⟩ | ph | g, n⟩
    · exact .lift
    · exact .bind (.user rfl) (fun _ _ => .pure)
    · exact .lift
    · exact .lift

theorem refMutWrite_free (t w : Nat) (f : V → V) : Free (refMutWrite c s t w f) := by
  unfold refMutWrite
  rcases s.entries.get t with _ | ⟨⟨r⟩ | ph | g, n⟩
  · exact .lift
  · exact .bind rfl (fun _ _ => .bind (.user rfl) (fun _ _ => .ite .lift .pure))
  · exact .lift
  · exact .lift

theorem writeRef_free (f : V → V) (r : Option (Nat × Nat)) : Free (writeRef c s f r) := by
  rcases r with _ | ⟨t, w⟩
  · exact .pure
  · exact refMutWrite_free t w f

theorem removeInternal_free (h : UInt64) (t : Nat) : Free (removeInternal c s h t) := by
  unfold removeInternal
  refine .bind .lift (fun s1 _ => .bind .lift (fun x _ => ?_))
  rcases x with ⟨e, _ | ⟨⟨r⟩ | ph | g, n⟩⟩
  · exact .lift
  · exact .bind (.user rfl) (fun _ _ => .bind .lift (fun _ _ => .bind .lift (fun _ _ => .pure)))
  · exact .pure
  · exact .bind .lift (fun _ _ => .pure)

theorem remove_free (h : UInt64) (eqv : K → Bool) : Free (remove c s h eqv) := by
  unfold remove
  refine .bind (search_free h eqv) (fun a _ => ?_)
  rcases a with _ | t
  · exact .pure
  · exact removeInternal_free h t

theorem retainTokens_free (f : K → V → Bool) (m : List (UInt64 × Nat)) : Free (retainTokens c s f m) := by
  induction m with
  | nil => exact .pure
  | cons b m ih =>
    unfold retainTokens
    rcases s.entries.get b.2 with _ | ⟨⟨r⟩ | ph | g, n⟩
    · exact ih
    · exact .bind (.user rfl) (fun _ _ => .ite ih (.bind (.user rfl) (fun _ _ => .bind ih (fun _ _ => .pure))))
    · exact ih
    · exact ih

theorem retainLoop_free (l : List (Nat × UInt64)) : ∀ s : Shard K V, Free (retainLoop c l s) := by
  induction l with
  | nil => intro s; exact .pure
  | cons b l ih => intro s; exact .bind (removeInternal_free _ _) (fun _ _ => ih _)

theorem retain_free (f : K → V → Bool) : Free (retain c s f) :=
  .bind (retainTokens_free f _) (fun _ _ => retainLoop_free _ _)

theorem hotVictim_free (q : Req K V RS) (t : Nat) (r : Resident K V) : Free (hotVictim c s q t r) := by
  unfold hotVictim
  refine .bind (.user rfl) (fun _ _ => .bind .lift (fun _ _ => .bind (.user rfl) (fun _ _ => ?_)))
  refine .bind (.user rfl) (fun _ _ => .ite (.bind .lift (fun _ _ => .pure)) ?_)
  refine .bind .lift (fun _ _ => .bind (.user rfl) (fun _ _ => .bind .lift (fun x _ => ?_)))
  rcases x with ⟨e, _ | ⟨⟨r⟩ | ph | g, n⟩⟩
  · exact .lift
  · exact .bind (.user rfl) (fun _ _ => .bind .lift (fun _ _ => .pure))
  · exact .lift
  · exact .lift

theorem coldVictim_free (q : Req K V RS) (t : Nat) (r : Resident K V) : Free (coldVictim c s q t r) := by
  unfold coldVictim
  refine .bind (.user rfl) (fun _ _ => .bind .lift (fun _ _ => .bind (.user rfl) (fun _ _ => ?_)))
  refine .bind (.user rfl) (fun _ _ => .ite (.bind .lift (fun _ _ => .pure)) ?_)
  refine .bind (.user rfl) (fun _ _ => .bind .lift (fun _ _ => .bind .lift (fun _ _ => .bind .lift (fun _ _ => ?_))))
  exact .bind .lift (fun _ _ => .bind (.user rfl) (fun _ _ => .pure))

/-! ### Eviction -/

open Shard (touch_post hotVictim_spec advanceHot_spec advanceCold_spec promoted_spec coldVictim_spec advanceGhost_spec of_rho
  rho_resident)

theorem potF_spared {r : Resident K V} {v : V} (h : c.weight r.key v = 0) :
    potF c (some (.resident { r with value := v })) = 0 := by simp [potF, h]

theorem potF_zero {r : Resident K V} (hw : c.weight r.key r.value ≠ 0) (hr : r.referenced = 0) :
    potF c (some (.resident r)) = 1 := by simp [potF, hw, hr]

theorem hotVictim_pot (h : Inv0 c s) (q : Req K V RS) {t : Nat} {r : Resident K V}
    (ht : s.entries.item t = some (.resident r)) (hst : r.state = .hot) (hw : c.weight r.key r.value ≠ 0)
    (hp : c.pinned r.key r.value = false) (hr : r.referenced = 0) {x : Shard K V × Req K V RS × Bool}
    (hx : s.hotVictim c q t r = .ok x) : pot c x.1 + 1 ≤ pot c s := by
  obtain ⟨s', q', h1, -, -, st1, v1, -, ⟨h2, -, h3⟩ | ⟨h2, -, h3⟩⟩ := hotVictim_spec h q ht hst hw hp hr
  all_goals
    rw [h1] at hx
    cases hx
    have h4 := h3.upd.pot (c := c)
    rw [potF_zero hw hr] at h4
  · rw [potF_spared h2] at h4
    simp only; omega
  · simp only [potF] at h4 ⊢; omega

theorem coldVictim_pot (h : Inv0 c s) (q : Req K V RS) {t : Nat} {r : Resident K V}
    (ht : s.entries.item t = some (.resident r)) (hst : r.state = .cold) (hw : c.weight r.key r.value ≠ 0)
    (hp : c.pinned r.key r.value = false) (hr : r.referenced = 0) {x : Shard K V × Req K V RS × Bool}
    (hx : s.coldVictim c q t r = .ok x) : pot c x.1 + 1 ≤ pot c s := by
  obtain ⟨s', q', h1, -, -, st1, v1, -, ⟨h2, -, h3⟩ | ⟨h2, -, s5, h3, h5, h6⟩⟩ := coldVictim_spec h q ht hst hw hp hr
  all_goals
    rw [h1] at hx
    cases hx
    have h4 := h3.upd.pot (c := c)
    rw [potF_zero hw hr] at h4
  · rw [potF_spared h2] at h4
    simp only; omega
  · simp only [potF] at h4
    rcases h6 with ⟨-, h6⟩ | ⟨-, rfl⟩
    · obtain ⟨s6, g1, -, -, u, g, -, -, g2⟩ := advanceGhost_spec h3.inv q (by omega)
      rw [g1] at h6
      cases h6
      have := g2.upd.pot (c := c)
      simp only [potF] at this ⊢
      omega
    · simp only; omega

theorem touch_pot {t : Nat} {r : Resident K V} (ht : s.entries.item t = some (.resident r))
    (hw : c.weight r.key r.value ≠ 0) (hr : r.referenced ≠ 0) :
    pot c (s.setEntry t (.resident { r with referenced := min r.referenced MAX_F - 1 })) + 1 ≤ pot c s := by
  have hu : Slab.Upd s.entries (s.setEntry t (.resident { r with referenced := min r.referenced MAX_F - 1 })).entries t
      (some (.resident r)) (some (.resident { r with referenced := min r.referenced MAX_F - 1 })) := Slab.Upd.setItem ht _
  have := hu.pot (c := c)
  simp only [potF, hw, if_false] at this
  omega

/-- A slot's place on a ring is not changed by lowering its counter. -/
theorem rho_touch {t u n : Nat} {r : Resident K V} (ht : s.entries.item t = some (.resident r)) :
    c.rho (s.setEntry t (.resident { r with referenced := n })).entries.item u = c.rho s.entries.item u := by
  unfold Cfg.rho
  rw [Shard.entries_setEntry, Slab.item_setItem (by simp [ht])]
  by_cases hu : u = t
  · subst hu; simp [ht, Cfg.ringOf]
  · simp [hu]

theorem advanceHotLoop_pay (hp : ∀ k v, c.pinned k v = false) (q : Req K V RS) : ∀ (fuel : Nat) (s : Shard K V) (t u : Nat),
    Inv0 c s → c.rho s.entries.item t = some .hot → Pay c (pot c s) (advanceHotLoop c fuel s q t u) (·.1)
  | 0, _, _, _, _, _ => .error
  | fuel + 1, s, t, u, hi, ht => by
    obtain ⟨r, h1, h2, h3⟩ := of_rho (st := .hot) ht
    unfold advanceHotLoop
    rw [Slab.get_eq, h1]
    have hs0 : ¬ r.state ≠ .hot := fun h => h h2
    simp only [Option.map_some, hp]
    rw [if_neg hs0]
    by_cases hr : r.referenced = 0
    · intro x hx
      simp only [hr] at hx ⊢
      simp only [Bool.false_eq_true, if_false, ne_eq, not_true] at hx ⊢
      rw [cnt_bind_ok (run_user _ _)]
      rw [run_bind, run_user] at hx
      have h4 := hotVictim_pot hi q h1 h2 h3 (hp _ _) hr (by rw [← run_hotVictim]; exact hx)
      have h5 : cnt (hotVictim c s q t r) = 0 := hotVictim_free q t r
      have h6 : cnt (U.user .pinnedHot s) = 1 := rfl
      omega
    · have h4 := touch_pot h1 h3 hr
      have h5 := touch_post hi q h1 h2 (Or.inr hr) rfl
      have h6 := advanceHotLoop_pay hp q fuel _ (s.entries.nxt t) (u + 1) h5.inv ((rho_touch h1).trans (rho_next hi ht))
      simp only [Bool.false_eq_true, if_false, ne_eq, hr, not_false_eq_true, if_true]
      exact (Pay.look h6).mono h4

theorem advanceHot_pay (hp : ∀ k v, c.pinned k v = false) (h : Inv0 c s) (q : Req K V RS) :
    Pay c (pot c s) (advanceHot c s q) (·.1) := by
  unfold advanceHot
  rcases hc : s.hotHead with _ | t
  · exact .pure (Nat.le_refl _)
  · obtain ⟨R, F, hR⟩ := h.str
    refine advanceHotLoop_pay hp q _ _ _ _ h ((hR.mem .hot t).mp ?_)
    have := hR.heads .hot
    change s.hotHead = _ at this
    rw [hc] at this
    exact List.mem_of_mem_head? this.symm

theorem evictHotLoop_pay (hp : ∀ k v, c.pinned k v = false) : ∀ (fuel : Nat) (s : Shard K V) (q : Req K V RS), Inv0 c s →
    Pay c (pot c s) (evictHotLoop c fuel s q) (·.1)
  | 0, _, _, _ => .error
  | fuel + 1, s, q, hi => by
    unfold evictHotLoop
    refine .ite (fun _ => .bind (m := 0) (advanceHot_pay hp hi q) (fun x hx => ?_)) (fun _ => .pure (Nat.le_refl _))
    obtain ⟨s', q', b, h1, h2, -⟩ := advanceHot_spec hi q
    rw [run_advanceHot, h1] at hx
    cases hx
    exact .ite (fun _ => evictHotLoop_pay hp fuel _ _ h2.inv) (fun _ => .pure (Nat.le_refl _))

theorem coldPromote_pay (hp : ∀ k v, c.pinned k v = false) (h : Inv0 c s) (q : Req K V RS) {t : Nat} {r : Resident K V}
    (ht : s.entries.item t = some (.resident r)) (hst : r.state = .cold) (hw : c.weight r.key r.value ≠ 0)
    (hr : r.referenced ≠ 0) : Pay c (pot c s) (coldPromote c s q t r) (·.1) := by
  rw [coldPromote_eq]
  have hpos : 1 ≤ pot c s := by
    have := Slab.le_sumBy (potF c) rfl s.entries t
    rw [ht] at this
    simp only [potF, hw, if_false] at this
    unfold pot
    omega
  refine Pay.mono (.look (n := pot c s - 1) (.free .lift (fun s4 h4 => ?_))) (by omega)
  rw [run_lift] at h4
  have hov : s.weightHot + c.weight r.key r.value < 2 ^ 64 := by
    apply Classical.byContradiction
    intro hov
    unfold Shard.promoted at h4
    simp only [show (s.setEntry t (.resident { r with referenced := r.referenced - 1, state := .hot })).weightHot =
      s.weightHot from rfl] at h4
    rw [cadd_err (Nat.le_of_not_lt hov)] at h4
    cases h4
  obtain ⟨_, g1, g2, -, g3⟩ := promoted_spec h q ht hst hw hr hov
  rw [g1] at h4
  cases h4
  have h5 := g3.upd.pot (c := c)
  simp only [potF, hw, if_false] at h5
  have h6 : pot c s4 ≤ pot c s - 1 := by omega
  exact Pay.mono (.bind (m := 0) (evictHotLoop_pay hp _ _ _ g2.inv) (fun _ _ => .pure (Nat.le_refl _))) h6

theorem advanceColdLoop_pay (hp : ∀ k v, c.pinned k v = false) (h : Inv0 c s) (q : Req K V RS) : ∀ (fuel t : Nat),
    c.rho s.entries.item t = some .cold → Pay c (pot c s) (advanceColdLoop c fuel s q t) (·.1)
  | 0, _, _ => .error
  | fuel + 1, t, ht => by
    obtain ⟨r, h1, h2, h3⟩ := of_rho (st := .cold) ht
    unfold advanceColdLoop
    rw [Slab.get_eq, h1]
    refine .ite (fun _ => .error) (fun _ => .ite (fun hr => coldPromote_pay hp h q h1 h2 h3 hr) (fun hr => ?_))
    have hr : r.referenced = 0 := Classical.byContradiction hr
    simp only [hp, Bool.false_eq_true, if_false]
    intro x hx
    rw [cnt_bind_ok (run_user _ _)]
    rw [run_bind, run_user] at hx
    have h4 := coldVictim_pot h q h1 h2 h3 (hp _ _) hr (by rw [← run_coldVictim]; exact hx)
    have h5 : cnt (coldVictim c s q t r) = 0 := coldVictim_free q t r
    have h6 : cnt (U.user .pinnedCold s) = 1 := rfl
    simp only
    omega

theorem advanceCold_pay (hp : ∀ k v, c.pinned k v = false) (h : Inv0 c s) (q : Req K V RS) :
    Pay c (pot c s) (advanceCold c s q) (·.1) := by
  unfold advanceCold
  rcases hc : s.coldHead with _ | t
  · exact advanceHot_pay hp h q
  · obtain ⟨R, F, hR⟩ := h.str
    refine advanceColdLoop_pay hp h q _ _ ((hR.mem .cold t).mp ?_)
    have := hR.heads .cold
    change s.coldHead = _ at this
    rw [hc] at this
    exact List.mem_of_mem_head? this.symm

theorem evictLoop_pay (hp : ∀ k v, c.pinned k v = false) (extra : Nat) : ∀ (fuel : Nat) (s : Shard K V) (q : Req K V RS),
    Inv0 c s → Pay c (pot c s) (evictLoop c extra fuel s q) (·.1)
  | 0, _, _, _ => .error
  | fuel + 1, s, q, hi => by
    unfold evictLoop
    refine .free .lift (fun a ha => .free .lift (fun _ _ => .ite (fun _ => ?_) (fun _ => .pure (Nat.le_refl _))))
    have hov : s.weightHot + s.weightCold < 2 ^ 64 := by
      rw [run_lift] at ha
      unfold cadd at ha
      split at ha
      · assumption
      · cases ha
    refine .bind (m := 0) (advanceCold_pay hp hi q) (fun x hx => ?_)
    obtain ⟨s', q', b, h1, h2, -⟩ := advanceCold_spec hi q hov
    rw [run_advanceCold, h1] at hx
    cases hx
    exact .ite (fun _ => evictLoop_pay hp extra fuel _ _ h2.inv) (fun _ => .pure (Nat.le_refl _))

/-! ### Insertion -/

open Shard (insRef NoKey overwritten_spec revived_spec filled_spec search_spec searchResident_spec removeInternal_spec
  Holds replacePlaceholder_spec insertNew_spec)

theorem insertExisting_replace_pay (q : Req K V RS) {t : Nat} {key : K} {value : V} {w : Nat} {soft : Bool} {e : Entry K V}
    (ht : s.entries.item t = some e) (hr : ∀ r, e ≠ .resident r) {n : Nat} (hn : pot c s ≤ n) :
    Pay c n (insertExisting c s q t key value w (.replace soft)) (·.1) := by
  unfold insertExisting
  rw [Slab.get_eq, ht]
  cases e with
  | resident r => exact absurd rfl (hr r)
  | placeholder p => exact .pure hn
  | ghost g => exact .pure hn

theorem insRef_pot {str : Strategy} (n : Nat) : insRef str n ≤ n + 1 ∧ insRef str n ≤ 2 := by
  unfold insRef MAX_F
  split <;> omega

/-- Storing a resident over an entry adds at most 3. -/
theorem Wrote.pot_over {s' : Shard K V} {t : Nat} {r : Resident K V} {key : K} {value : V} {st : St} {str : Strategy}
    (h : Wrote c s s' t (some (.resident r))
      (some (.resident { key := key, value := value, state := st, referenced := insRef str r.referenced }))) :
    pot c s' ≤ pot c s + 3 := by
  have := h.upd.pot (c := c)
  have h2 := insRef_pot (str := str) r.referenced
  simp only [potF] at this
  split at this <;> split at this <;> omega

/-- Storing a resident in a slot without one adds as much as its counter tells. -/
theorem Wrote.pot_new {s' : Shard K V} {t : Nat} {old : Option (Entry K V)} {r' : Resident K V}
    (h : Wrote c s s' t old (some (.resident r'))) : pot c s' ≤ pot c s + (r'.referenced + 1) := by
  have := h.upd.pot (c := c)
  have h2 : potF c (some (.resident r')) ≤ r'.referenced + 1 := by
    simp only [potF]; split <;> omega
  omega

theorem Wrote.pot_none {s' : Shard K V} {t : Nat} {old : Option (Entry K V)} (h : Wrote c s s' t old none) :
    pot c s' ≤ pot c s := by
  have := h.upd.pot (c := c)
  simp only [potF] at this
  omega

section
variable [DecidableEq K]

theorem insertAdmitted_pay (hp : ∀ k v, c.pinned k v = false) (h : Inv0 c s) (q : Req K V RS) (key : K) (value : V)
    (str : Strategy) :
    Pay c (pot c s + 3) (insertAdmitted c s q (c.hash key) key value (c.weight key value) str) (·.1) := by
  unfold insertAdmitted
  refine .free (search_free _ _) (fun x hx => ?_)
  rw [run_search] at hx
  have ev : ∀ {s3 : Shard K V} (q : Req K V RS), Inv0 c s3 → pot c s3 ≤ pot c s + 3 →
      Pay c (pot c s + 3) (do
        let (s4, q2) ← evictLoop c 0 s3.evictFuel s3 q
        pure (s4, q2, none) : U K V (Shard K V × Req K V RS × Option V)) (·.1) := fun q h3 hle =>
    .mono (.bind (m := 0) (evictLoop_pay hp _ _ _ _ h3) (fun _ _ => .pure (Nat.le_refl _))) hle
  rcases search_spec h.idx (Lawful.key c key) with ⟨t, e, k, h1, h2, h3, h4, h5⟩ | ⟨h0, hg⟩
  · rw [h1] at hx
    cases hx
    simp only [beq_iff_eq] at h5
    subst h5
    cases e with
    | resident r =>
      simp only [keyOf, Option.some.injEq] at h4
      subst h4
      dsimp only
      rw [insertExisting_resident_eq q _ _ _ _ h3]
      refine .free (.user rfl) (fun _ _ => .free .lift (fun s3 e3 => ?_))
      rw [run_lift] at e3
      obtain ⟨-, g2⟩ := Res.Sat.of_ok (overwritten_spec (r' := { key := r.key, value := value, state := r.state, referenced := insRef str r.referenced }) h h3 rfl rfl rfl rfl) e3
      exact .free (.user rfl) (fun _ _ => ev _ g2.inv (Wrote.pot_over g2))
    | placeholder ph =>
      simp only [keyOf, Option.some.injEq] at h4
      cases str with
      | insert =>
        subst h4
        dsimp only
        rw [insertExisting_placeholder_eq q _ _ _ h3]
        refine .free .lift (fun s3 e3 => ?_)
        obtain ⟨-, g2⟩ := (filled_spec h h3 h2 rfl rfl rfl rfl).of_ok e3
        exact ev _ g2.inv (Nat.le_trans (Wrote.pot_new g2) (by simp only; omega))
      | replace soft => exact insertExisting_replace_pay q h3 (by simp) (by omega)
    | ghost g => simp [keyOf] at h4
  · have hnk : NoKey s key := by
      intro h' t hm hk
      have := h0 h' t key hm hk
      simp at this
    rcases hg with ⟨t, h1, h2, h3⟩ | ⟨h1, h2⟩
    · rw [h1] at hx
      cases hx
      cases str with
      | insert =>
        dsimp only
        rw [insertExisting_ghost_eq q _ _ _ h3]
        refine .free .lift (fun s3 e3 => ?_)
        obtain ⟨-, g2⟩ := (revived_spec h h3 hnk rfl rfl rfl).of_ok e3
        exact ev _ g2.inv (Nat.le_trans (Wrote.pot_new g2) (by simp only; omega))
      | replace soft => exact insertExisting_replace_pay q h3 (by simp) (by omega)
    · rw [h1] at hx
      cases hx
      cases str with
      | insert =>
        dsimp only
        intro x hx
        rw [run_bind] at hx
        cases hn : (insertNew c s q (c.hash key) key value (c.weight key value)).run with
        | error e => rw [hn] at hx; cases hx
        | ok y =>
          rw [hn] at hx
          cases hx
          rw [cnt_bind_ok hn, show cnt (pure (y.1, y.2, none) : U K V (Shard K V × Req K V RS × Option V)) = 0 from Free.pure]
          rw [run_insertNew] at hn
          obtain ⟨s1, u, st, -, -, -, -, -, g1, g2⟩ := (insertNew_spec h q value hnk).of_ok hn
          have g3 := Wrote.pot_new g1
          have g4 := evictLoop_pay hp (c.weight key value) s.evictFuel s q h (s1, y.2) (by rw [run_evictLoop]; exact g2)
          have g5 : cnt (insertNew c s q (c.hash key) key value (c.weight key value)) ≤
              cnt (evictLoop c (c.weight key value) s.evictFuel s q) := by
            unfold insertNew
            cases hc : cadd s.weightHot (c.weight key value) with
            | error e => exact Nat.zero_le _
            | ok hw =>
              rw [cnt_bind_ok (a := hw) rfl, cnt_bind_ok (a := (s1, y.2)) (by rw [run_evictLoop]; exact g2)]
              rw [show cnt (U.lift (.ok hw) : U K V Nat) = 0 from rfl]
              have : ∀ (x : U K V (Shard K V × Req K V RS)), Free x →
                0 + (cnt (evictLoop c (c.weight key value) s.evictFuel s q) + cnt x) ≤
                  cnt (evictLoop c (c.weight key value) s.evictFuel s q) := by
                intro x hx; unfold Free at hx; omega
              apply this
              exact .bind .lift (fun _ _ => .bind .lift (fun _ _ => .bind .lift (fun _ _ => .bind (mapInsert_free _ _)
                (fun _ _ => .pure))))
          simp only at g3 g4 ⊢
          omega
      | replace soft => exact .pure (Nat.le_add_right ..)

theorem handleInsertOverweight_pay (h : Inv0 c s) (q : Req K V RS) (key : K) (value : V) (str : Strategy) :
    Pay c (pot c s) (handleInsertOverweight c s q (c.hash key) key value str) (·.1) := by
  unfold handleInsertOverweight
  refine .free (searchResident_free _ _) (fun x hx => ?_)
  rw [run_searchResident] at hx
  rcases searchResident_spec h.idx (Lawful.key c key) with ⟨t, r, h1, h2, h3⟩ | ⟨h1, h2⟩
  · rw [h1] at hx
    cases hx
    simp only [beq_iff_eq] at h3
    dsimp only
    refine .free (removeInternal_free _ _) (fun x hx => ?_)
    obtain ⟨s', g1, g2, g3⟩ := removeInternal_spec h h2 (h.idx.mapped t _ h2 (by simp))
    simp only [Shard.hashOf, Shard.residentPair, h3] at g1
    rw [run_removeInternal, g1] at hx
    cases hx
    have hle := Wrote.pot_none g2
    dsimp only
    refine .free (.user rfl) (fun _ _ => ?_)
    rw [pure_bind]
    cases str with
    | replace soft => exact .pure hle
    | insert => exact .free (.user rfl) (fun _ _ => .pure hle)
  · rw [h1] at hx
    cases hx
    dsimp only
    rw [pure_bind]
    cases str with
    | replace soft => exact .pure (Nat.le_refl _)
    | insert => exact .free (.user rfl) (fun _ _ => .pure (Nat.le_refl _))

theorem insert_pay (hp : ∀ k v, c.pinned k v = false) (h : Inv0 c s) (q : Req K V RS) (k : K) (v : V) (str : Strategy) :
    Pay c (pot c s + 3) (insert c s q (c.hash k) k v str) (·.1) := by
  unfold insert
  refine .free (.user rfl) (fun _ _ => .ite (fun _ => ?_) (fun _ => insertAdmitted_pay hp h _ k _ str))
  refine .free (.user rfl) (fun _ _ => .ite (fun _ => ?_) (fun _ => insertAdmitted_pay hp h _ k _ str))
  exact .free (.user rfl) (fun _ _ => .free (.user rfl) (fun _ _ =>
    .ite (fun _ => (handleInsertOverweight_pay h _ k _ str).mono (by omega)) (fun _ => insertAdmitted_pay hp h _ k _ str)))

/-! ### Placeholders -/

omit [DecidableEq K] in
theorem upsertPlaceholder_free (hh : UInt64) (eqv : K → Bool) (k : K) : Free (upsertPlaceholder c s hh eqv k) := by
  unfold upsertPlaceholder
  refine .bind (search_free _ _) (fun x _ => ?_)
  rcases x with _ | t
  · exact .bind (.user rfl) (fun _ _ => .bind .lift (fun x _ => .ite .lift
      (.bind (mapInsert_free _ _) (fun _ _ => .pure))))
  · dsimp only
    rcases s.entries.get t with _ | ⟨⟨r⟩ | ph | g, n⟩
    · exact .lift
    · exact .pure
    · exact .pure
    · exact .bind (.user rfl) (fun _ _ => .bind .lift (fun _ _ => .bind .lift (fun _ _ => .pure)))

omit [DecidableEq K] in
theorem bumpRef_pot (n : Nat) : Shard.bumpRef n ≤ n + 1 := by unfold Shard.bumpRef; split <;> omega

omit [DecidableEq K] in
theorem Upserted.pot {k : K} {x : Shard K V × Shard.Upsert V} (h : Shard.Upserted c s k x) :
    QuickCache.pot c x.1 ≤ QuickCache.pot c s + (match x.2 with | .found .. => 1 | .pending .. => 0) := by
  cases h with
  | found t r s' ht hk wrote hits misses np =>
    have := wrote.upd.pot (c := c)
    have h2 := bumpRef_pot r.referenced
    simp only [potF] at this ⊢
    split at this <;> omega
  | join => exact Nat.le_refl _
  | ghost t s' ht hno wrote =>
    have := wrote.upd.pot (c := c)
    simp only [potF] at this ⊢
    omega
  | fresh t s' hno hg wrote =>
    have := wrote.upd.pot (c := c)
    simp only [potF] at this ⊢
    omega

omit [DecidableEq K] in
theorem pot_store {t n : Nat} {e : Entry K V} (ht : s.entries.item t = some e) (e' : Entry K V) (st : St) (w : Nat) :
    pot c (((s.setEntry t e').setNum st n).setWgt st w) + potF c (some e) = pot c s + potF c (some e') := by
  have hu : Slab.Upd s.entries (((s.setEntry t e').setNum st n).setWgt st w).entries t (some e) (some e') := by
    simp only [Shard.entries_setWgt, Shard.entries_setNum, Shard.entries_setEntry]
    exact Slab.Upd.setItem ht _
  exact hu.pot

omit [DecidableEq K] in
theorem replacePlaceholderAdmit_pay (hp : ∀ k v, c.pinned k v = false) (h : Inv0 c s) {q : Req K V RS} {p : Plh}
    {ph : Placeholder K} (ht : s.entries.item p.idx = some (.placeholder ph)) (hm : (c.hash ph.key, p.idx) ∈ s.map)
    (referenced : Bool) (v : V) :
    Pay c (pot c s + (if referenced then 2 else 1))
      (replacePlaceholderAdmit c (s.setEntry p.idx (.ghost 0)) q p ph.key ph.hot referenced v (c.weight ph.key v)) (·.1) := by
  unfold replacePlaceholderAdmit
  refine .free .lift (fun t1 _ => .free .lift (fun t2 _ => ?_))
  simp only [setEntry_twice]
  generalize (if t2 ≤ (s.setEntry p.idx (.ghost 0)).weightCapacity then St.hot else ph.hot) = st
  refine .free .lift (fun w1 e1 => .ite (fun hw => .free .lift (fun s3 e3 => ?_)) (fun hw => ?_))
  · rw [run_lift] at e1 e3
    have e : s.filled p.idx { key := ph.key, value := v, state := st, referenced := if referenced = true then 1 else 0 } st
        (c.weight ph.key v) = .ok s3 := by
      unfold Shard.filled
      simp only
      rw [e1]
      simp only [Res.ok_bind, Shard.linkNew]
      rw [if_pos hw]
      exact e3
    obtain ⟨g1, g2⟩ := (filled_spec h ht hm rfl rfl rfl rfl).of_ok e
    refine (evictLoop_pay hp _ _ _ _ g2.inv).mono (Nat.le_trans (Wrote.pot_new g2) ?_)
    cases referenced <;> exact Nat.le_refl _
  · rw [run_lift] at e1
    simp only [ne_eq, Classical.not_not] at hw
    refine .pure (Nat.le_trans ?_ (Nat.le_add_right ..))
    have := pot_store (c := c) (n := (s.setEntry p.idx (Entry.resident ⟨ph.key, v, st, if referenced = true then 1 else 0⟩)).num st + 1)
      ht (Entry.resident ⟨ph.key, v, st, if referenced = true then 1 else 0⟩) st w1
    simp only [potF, hw, if_true] at this
    exact Nat.le_of_eq this

omit [DecidableEq K] in
theorem replacePlaceholder_pay (hp : ∀ k v, c.pinned k v = false) (h : Inv0 c s) (q : Req K V RS) {p : Plh}
    (hlive : ∀ ph, Holds c s p ph → p.hash = c.hash ph.key ∧ (p.hash, p.idx) ∈ s.map) (referenced : Bool) (v : V) :
    Pay c (pot c s + (if referenced then 2 else 1)) (replacePlaceholder c s q p referenced v) (·.1) := by
  have hrun := run_replacePlaceholder c s q p referenced v
  have hspec := replacePlaceholder_spec h q (p := p) referenced v hlive
  by_cases hh : ∃ ph, Holds c s p ph
  · obtain ⟨ph, hh⟩ := hh
    obtain ⟨l1, l2⟩ := hlive ph hh
    have hm : (c.hash ph.key, p.idx) ∈ s.map := l1 ▸ l2
    have hadm : ∀ (q : Req K V RS) (v : V), Pay c (pot c s + (if referenced then 2 else 1)) (do
        let (s2, q2) ← replacePlaceholderAdmit c (s.setEntry p.idx (.ghost 0)) q p ph.key ph.hot referenced v
          (c.weight ph.key v)
        pure (s2, q2, none) : U K V (Shard K V × Req K V RS × Option V)) (·.1) := fun q v =>
      .bind (m := 0) (replacePlaceholderAdmit_pay hp h hh.1 hm referenced v) (fun _ _ => .pure (Nat.le_refl _))
    by_cases hrej : s.weightTargetHot < c.weight ph.key v ∧ s.weightTargetHot < c.weight ph.key (q.before c ph.key v).2
    · refine .of_free ?_ (fun x hx => ?_)
      · unfold replacePlaceholder
        rw [Slab.get_eq, hh.1]
        simp only [Option.map_some]
        rw [if_pos hh.2]
        refine .bind (.user rfl) (fun _ _ => ?_)
        rw [if_pos (show (s.setEntry p.idx (.ghost 0)).weightTargetHot < _ from hrej.1)]
        refine .bind (.user rfl) (fun _ _ => ?_)
        rw [if_pos (hp _ _)]
        refine .bind (.user rfl) (fun _ _ => .bind (.user rfl) (fun _ _ => ?_))
        rw [if_pos (show (s.setEntry p.idx (.ghost 0)).weightTargetHot < _ from hrej.2)]
        refine .bind ?_ (fun _ _ => .pure)
        exact .bind .lift (fun _ _ => .bind .lift (fun _ _ => .bind (.user rfl) (fun _ _ => .pure)))
      · rw [hrun] at hx
        have := hspec.of_ok hx
        cases this with
        | gone hg => exact absurd hh (hg ph)
        | direct ph' st s3 s' q' hp' hw' =>
          have := hp'.1.symm.trans hh.1
          cases this
          exact absurd ⟨hrej.1, hp _ _⟩ hw'
        | shrunk ph' st q1 v1 s3 s' q' hp' hw' hpin hb hw1' =>
          have := hp'.1.symm.trans hh.1
          cases this
          have h1 := hrej.2
          rw [hb] at h1
          exact absurd h1 (Nat.not_lt.mpr hw1')
        | rejected ph' q1 v1 s' hp' hw' hpin hb hw1' same wrote =>
          exact Nat.le_trans (Wrote.pot_none wrote) (Nat.le_add_right ..)
    · unfold replacePlaceholder
      rw [Slab.get_eq, hh.1]
      simp only [Option.map_some]
      rw [if_pos hh.2]
      refine .free (.user rfl) (fun _ _ => .ite (fun hw => ?_) (fun _ => hadm q v))
      refine .free (.user rfl) (fun _ _ => .ite (fun _ => ?_) (fun _ => hadm q v))
      refine .free (.user rfl) (fun _ _ => .free (.user rfl) (fun _ _ => .ite (fun hw1 => ?_) (fun _ => hadm _ _)))
      exact absurd ⟨hw, hw1⟩ hrej
  · intro x hx
    have hg : ∀ ph, ¬ Holds c s p ph := fun ph h => hh ⟨ph, h⟩
    have hf : Free (replacePlaceholder c s q p referenced v) := by
      unfold replacePlaceholder
      rw [Slab.get_eq]
      rcases hi : s.entries.item p.idx with _ | ⟨r⟩ | ph | g
      · exact .pure
      · exact .pure
      · simp only [Option.map_some]
        rw [if_neg (fun h => hg ph ⟨hi, h⟩)]
        exact .pure
      · exact .pure
    rw [hrun] at hx
    unfold Free at hf
    have := hspec.of_ok hx
    cases this with
    | gone hg => simp only; omega
    | direct ph' st s3 s' q' hp' hw' => exact absurd hp' (hg ph')
    | shrunk ph' st q1 v1 s3 s' q' hp' hw' hpin hb hw1' => exact absurd hp' (hg ph')
    | rejected ph' q1 v1 s' hp' => exact absurd hp' (hg ph')

omit [DecidableEq K] in
theorem Pending.live {s0 s1 : Shard K V} {k : K} {p : Plh} (h : Pending c s0 k s1 p) :
    ∀ ph, Holds c s1 p ph → p.hash = c.hash ph.key ∧ (p.hash, p.idx) ∈ s1.map := by
  intro ph' h'
  obtain ⟨ph, h1, h2, rfl⟩ := h.holds
  have := h'.1.symm.trans h1
  cases this
  exact ⟨h.hash, by rw [h.hash]; exact h.mapped⟩

omit [DecidableEq K] in
theorem fill_pay (hp : ∀ k v, c.pinned k v = false) {s1 : Shard K V} {k : K} {p : Plh} (h : Pending c s k s1 p) (v : V) :
    Pay c (pot c s1 + 1) (fill c s1 p v) (·.1) := by
  unfold fill
  refine .free (.user rfl) (fun _ _ => ?_)
  exact .bind (m := 0) (replacePlaceholder_pay hp h.inv _ (Pending.live h) false v)
    (fun _ _ => .ite (fun _ => .error) (fun _ => .pure (Nat.le_refl _)))

omit [DecidableEq K] in
/-- A loaded item is new: its counter is zero. -/
theorem fill_fresh {s1 : Shard K V} {k : K} {p : Plh} (h : Pending c s k s1 p) {v : V} {x : Shard K V × Req K V RS}
    (hx : (fill c s1 p v).run = .ok x) : Inv0 c x.1 ∧
      ∀ r, x.1.entries.item p.idx = some (.resident r) → r.referenced = 0 := by
  unfold fill at hx
  rw [run_bind, run_user] at hx
  simp only [ok_bind, run_bind, run_replacePlaceholder] at hx
  cases hy : s1.replacePlaceholder c c.begin p false v with
  | error e => rw [hy] at hx; cases hx
  | ok y =>
    rw [hy] at hx
    simp only [ok_bind] at hx
    have hr := (replacePlaceholder_spec h.inv c.begin false v (Pending.live h)).of_ok hy
    have key : ∀ {s3 s' : Shard K V} {qa q' : Req K V RS} {ph : Placeholder K} {v1 : V} {st : St} {b : Prop},
        Wrote c s1 s3 p.idx (some (.placeholder ph)) (some (.resident
          { key := ph.key, value := v1, state := st, referenced := if false = true then 1 else 0 })) →
        AfterEvict c s3 qa s' q' ∨ (b ∧ s' = s3 ∧ q' = qa) → Inv0 c s' ∧
          ∀ r, s'.entries.item p.idx = some (.resident r) → r.referenced = 0 := by
      intro s3 s' qa q' ph v1 st b wrote after
      rcases after with after | ⟨-, rfl, -⟩
      · refine ⟨after.post.inv, fun r hr => ?_⟩
        obtain ⟨r0, h0, h1⟩ := after.post.ref hr
        rw [wrote.upd.after] at h0
        cases h0
        simpa using h1
      · refine ⟨wrote.inv, fun r hr => ?_⟩
        rw [wrote.upd.after] at hr
        cases hr
        rfl
    cases hr with
    | gone hg => simp at hx
    | direct ph st s3 s' q' hp' hw same wrote after =>
      simp at hx
      cases hx
      exact key wrote after
    | shrunk ph st q1 v1 s3 s' q' hp' hw hpin hb hw1 same wrote after =>
      simp at hx
      cases hx
      exact key wrote after
    | rejected ph q1 v1 s' hp' hw hpin hb hw1 same wrote =>
      simp at hx
      cases hx
      refine ⟨wrote.inv, fun r hr => ?_⟩
      rw [wrote.upd.after] at hr
      cases hr

omit [DecidableEq K] in
/-- Writing through a reference. -/
theorem write_pot {t : Nat} {f : V → V} (h : Inv0 c s) {s' : Shard K V}
    (hs : (do
      let r ← peekTokenMut c s t
      writeRef c s f r : U K V (Shard K V)).run = .ok s') :
    s' = s ∨ ∃ r, Wrote c s s' t (some (.resident r)) (some (.resident { r with value := f r.value })) := by
  rw [run_bind, run_peekTokenMut] at hs
  simp only [ok_bind, run_writeRef] at hs
  rcases ht : s.entries.item t with _ | ⟨r⟩ | ph | g
  case some.resident =>
    rw [peekTokenMut_res ht] at hs
    exact Or.inr ⟨r, ((Shard.refMutWrite_spec h f ht).of_ok hs).1⟩
  all_goals
    left
    rw [peekTokenMut_none (by unfold Shard.peekToken; rw [Slab.get_eq, ht]; rfl)] at hs
    cases hs
    rfl

omit [DecidableEq K] in
theorem potF_le (r : Resident K V) : potF c (some (.resident r)) ≤ r.referenced + 1 := by
  simp only [potF]; split <;> omega

omit [DecidableEq K] in
theorem bumpRef_le {n : Nat} (h : n ≤ MAX_F) : Shard.bumpRef n ≤ 2 := by
  unfold Shard.bumpRef
  unfold MAX_F at h ⊢
  split <;> omega

omit [DecidableEq K] in
theorem Pending.pot {s1 : Shard K V} {k : K} {p : Plh} (h : Pending c s k s1 p) :
    QuickCache.pot c s1 ≤ QuickCache.pot c s := by
  refine sumBy_le_any _ rfl (fun t => ?_)
  rcases ht : s1.entries.item t with _ | ⟨r⟩ | ph | g
  case some.resident => rw [(h.res t r).mp ht]; exact Nat.le_refl _
  all_goals exact Nat.zero_le _

theorem getOrInsertToken_pay (hp : ∀ k v, c.pinned k v = false) (h : Inv0 c s) (hl : RefLe MAX_F s) (k : K) (load : Option V)
    {x : Shard K V × Req K V RS × Bool × Option Nat} (hx : (getOrInsertToken c s k load).run = .ok x) :
    Inv0 c x.1 ∧ cnt (getOrInsertToken c s k load) + pot c x.1 ≤ pot c s + 1 ∧
      ∀ t r, x.2.2.2 = some t → x.1.entries.item t = some (.resident r) →
        cnt (getOrInsertToken c s k load) + pot c x.1 + (r.referenced + 1) ≤ pot c s + 3 + potF c (some (.resident r)) := by
  have hx0 := hx
  unfold getOrInsertToken at hx0 ⊢
  rw [run_bind, run_user] at hx0
  rw [cnt_bind_ok (run_user _ _), show cnt (U.user .hashKey s) = 0 from rfl]
  simp only [ok_bind] at hx0
  rw [run_bind] at hx0
  cases hu : (upsertPlaceholder c s (c.hash k) (fun x => x == k) k).run with
  | error e => rw [hu] at hx0; cases hx0
  | ok u =>
    rw [hu] at hx0
    rw [cnt_bind_ok hu, show cnt (upsertPlaceholder c s (c.hash k) (fun x => x == k) k) = 0 from upsertPlaceholder_free _ _ _]
    rw [run_upsertPlaceholder] at hu
    have h1 := (QuickCache.upsert_sat h k).of_ok hu
    obtain ⟨s1, u2⟩ := u
    rcases h1 with ⟨t, r, h2, -, -, -, wrote⟩ | ⟨p, b, h2, hpd⟩
    · cases h2
      simp only [ok_bind] at hx0 ⊢
      cases hx0
      have h3 := wrote.upd.pot (c := c)
      have h4 := potF_le (c := c) { r with referenced := Shard.bumpRef r.referenced }
      have h5 := bumpRef_le (hl _ _ wrote.upd.before)
      have h6 := bumpRef_pot r.referenced
      rw [show cnt (pure (s1, c.begin, false, some t) : U K V _) = 0 from Free.pure]
      refine ⟨wrote.inv, ?_, ?_⟩
      · simp only [potF] at h3 ⊢
        split at h3 <;> omega
      · rintro t' r' h7 h8
        cases h7
        rw [wrote.upd.after] at h8
        cases h8
        simp only at h3 h4 ⊢
        omega
    · cases h2
      have h3 : pot c s1 ≤ pot c s := Pending.pot hpd
      simp only [ok_bind] at hx0 ⊢
      rw [run_bind, run_user] at hx0
      rw [cnt_bind_ok (run_user _ _), show cnt (U.user .loader s1) = 0 from rfl]
      cases load with
      | none =>
        simp only [ok_bind] at hx0 ⊢
        cases hx0
        rw [show cnt (pure (s1, c.begin, true, none) : U K V _) = 0 from Free.pure]
        exact ⟨hpd.inv, by simp only; omega, fun t r h => by cases h⟩
      | some v =>
        simp only [ok_bind] at hx0 ⊢
        rw [run_bind] at hx0
        cases hf : (fill c s1 p v).run with
        | error e => rw [hf] at hx0; cases hx0
        | ok y =>
          rw [hf] at hx0
          simp only [ok_bind] at hx0
          rw [run_bind, run_user] at hx0
          cases hx0
          have h4 := fill_pay hp hpd v _ hf
          obtain ⟨h5, h6⟩ := fill_fresh hpd hf
          rw [cnt_bind_ok hf]
          rw [cnt_bind_ok (run_user _ _), show cnt (U.user .endRequest y.1) = 0 from rfl,
            show cnt (pure (y.1, y.2, true, some p.idx) : U K V _) = 0 from Free.pure]
          refine ⟨h5, by simp only at h4 ⊢; omega, ?_⟩
          rintro t r h7 h8
          cases h7
          rw [h6 r h8]
          simp only at h4 ⊢
          omega

omit [DecidableEq K] in
theorem useGuard_pay (hp : ∀ k v, c.pinned k v = false) {s1 : Shard K V} {k : K} {p : Plh} (h : Pending c s k s1 p)
    (use : GuardUse V) : Pay c (pot c s1 + 1) (useGuard c s1 p use) (·.1) := by
  unfold useGuard
  refine .free (show cnt _ = 0 by rw [cnt_dropping]; rfl) (fun _ _ => ?_)
  cases use with
  | insert v =>
    exact .bind (m := 0) ((fill_pay hp h v).dropping _) (fun _ _ => .free (.user rfl) (fun _ _ => .pure (Nat.le_refl _)))
  | drop =>
    refine .free .lift (fun s2 h2 => .pure ?_)
    rw [run_lift] at h2
    obtain ⟨s', h1, -, -, h4, -⟩ := Shard.removePlaceholder_spec h.inv (p := p) (by
      intro ph h1 h2
      obtain ⟨ph', h3, h4, h5⟩ := h.holds
      rw [h1] at h3; cases h3
      rw [h4])
    rw [h1] at h2
    cases h2
    unfold pot
    rw [h4]
    exact Nat.le_succ _
  | forget => exact .pure (Nat.le_succ _)

theorem upsert_pay (h : Inv0 c s) (k : K) {β : Type} {n : Nat} {g : β → Shard K V}
    {f : Shard K V × Shard.Upsert V → U K V β}
    (hf1 : ∀ t r s1, Wrote c s s1 t (some (.resident r)) (some (.resident { r with referenced := Shard.bumpRef r.referenced })) →
      Pay c n (f (s1, .found t r.value)) g)
    (hf2 : ∀ s1 p b, Pending c s k s1 p → Pay c n (f (s1, .pending p b)) g) :
    Pay c n (do
      user .hashKey s
      let x ← upsertPlaceholder c s (c.hash k) (fun x => x == k) k
      f x) g := by
  refine .free (.user rfl) (fun _ _ => .free (upsertPlaceholder_free _ _ _) (fun x hx => ?_))
  rw [run_upsertPlaceholder] at hx
  obtain ⟨s1, u⟩ := x
  rcases (QuickCache.upsert_sat h k).of_ok hx with ⟨t, r, h2, -, -, -, wrote⟩ | ⟨p, b, h2, hpd⟩
  · cases h2; exact hf1 t r s1 wrote
  · cases h2; exact hf2 s1 p b hpd

omit [DecidableEq K] in
theorem hit_pot {s' : Shard K V} {t n : Nat} {r : Resident K V} {v : V} (hn : n ≤ 2)
    (wrote : Wrote c s s' t (some (.resident r)) (some (.resident { r with referenced := n, value := v }))) :
    pot c s' ≤ pot c s + 3 := by
  have h1 := wrote.upd.pot (c := c)
  have h2 := potF_le (c := c) { r with referenced := n, value := v }
  simp only at h2
  omega

/-- Calls that never evict. -/
def idle : Op K V → Prop
  | .remove .. | .get .. | .peek .. | .containsKey .. | .getMut .. | .peekMut .. | .retain .. | .clear | .drain
  | .reserve => True
  | _ => False

theorem StepEff.pot_idle {op : Op K V} {x : Shard K V × Out K V × Req K V RS} (hl : RefLe MAX_F s)
    (h : StepEff c s op x) (hop : idle op) : pot c x.1 ≤ pot c s + Spec.credit op := by
  cases h with
  | insert h => exact hop.elim
  | replace h => exact hop.elim
  | removeHit t r hk wrote same => exact Wrote.pot_none wrote
  | removeIdle t e he hno wrote same => exact Wrote.pot_none wrote
  | removeNone hno => exact Nat.le_refl _
  | hit hh t r hk wrote hits misses =>
    have h1 := hl _ _ wrote.upd.before
    have h2 := bumpRef_le h1
    have h3 := bumpRef_pot r.referenced
    have h4 := wrote.upd.pot (c := c)
    cases hh with
    | get =>
      simp only [potF, id, if_true] at h4
      simp only [Spec.credit]
      split at h4 <;> omega
    | getMut => exact hit_pot (by simpa using h2) wrote
    | peekMut => exact hit_pot (by simpa [MAX_F] using h1) wrote
    | _ => exact hop.elim
  | miss hh hno => exact Nat.le_add_right ..
  | peek t r ht hk => exact Nat.le_refl _
  | contains t r ht hk => exact Nat.le_refl _
  | retain inv same ghosts drop keep map =>
    refine sumBy_le_any _ rfl (fun t => ?_)
    rename_i f s'
    rcases ht : s.entries.item t with _ | ⟨r⟩ | ph | g
    case some.resident =>
      cases hf : f r.key r.value with
      | false => rw [drop t r ht hf]; exact Nat.zero_le _
      | true =>
        rw [keep t (fun r' hr' => by rw [ht] at hr'; cases hr'; exact hf), ht]
        exact Nat.le_refl _
    all_goals
      rw [keep t (fun r' hr' => by rw [ht] at hr'; cases hr'), ht]
      exact Nat.le_refl _
  | clear =>
    refine sumBy_le_any _ rfl (fun t => ?_)
    rw [show s.clear.entries.item t = none from by simp [Shard.clear, Shard.drain, Slab.drain, Slab.item]]
    exact Nat.zero_le _
  | drain =>
    refine sumBy_le_any _ rfl (fun t => ?_)
    rw [show s.drain.1.entries.item t = none from by simp [Shard.drain, Slab.drain, Slab.item]]
    exact Nat.zero_le _
  | reserve => exact Nat.le_refl _
  | leave hh hp => cases hh <;> exact hop.elim
  | drop hh hp inv same entries wgt ghosts map => cases hh <;> exact hop.elim
  | fill hh hp h taken => cases hh <;> exact hop.elim
  | fillMutOut => exact hop.elim
  | fillMut => exact hop.elim

theorem step_pay (hp : ∀ k v, c.pinned k v = false) (h : Inv c s) (hl : RefLe MAX_F s) (op : Op K V) :
    Pay c (pot c s + Spec.credit op) (step c s op) (·.1) := by
  have h0 := h.toInv0
  have hidle : Free (step c s op) → idle op → Pay c (pot c s + Spec.credit op) (step c s op) (·.1) := fun hf hop =>
    .of_free hf (fun x hx => StepEff.pot_idle hl (QuickCache.step_eff h (by rw [← run_step]; exact hx)) hop)
  cases op with
  | insert k v =>
    unfold step cacheInsert
    refine .bind (m := 0) (.free (.user rfl) (fun _ _ => .free (.user rfl) (fun _ _ =>
      .bind (m := 0) (insert_pay hp h0 _ k v _) (fun x _ => .ite (fun _ => .error) (fun _ => ?_))))) (fun x _ => .pure (Nat.le_refl _))
    exact .free (.user rfl) (fun _ _ => .pure (Nat.le_refl _))
  | replace k v soft =>
    unfold step cacheReplace
    refine .bind (m := 0) (.free (.user rfl) (fun _ _ => .free (.user rfl) (fun _ _ =>
      .bind (m := 0) (insert_pay hp h0 _ k v _) (fun x _ => .ite (fun _ => .pure (Nat.le_refl _)) (fun _ => ?_)))))
      (fun x _ => .pure (Nat.le_refl _))
    exact .free (.user rfl) (fun _ _ => .pure (Nat.le_refl _))
  | remove k => exact hidle (.bind (.user rfl) (fun _ _ => .bind (remove_free _ _) (fun _ _ => .pure))) trivial
  | get k => exact hidle (.bind (.user rfl) (fun _ _ => .bind (get_free _ _) (fun _ _ => .pure))) trivial
  | peek k => exact hidle (.bind (.user rfl) (fun _ _ => .bind (searchResident_free _ _) (fun _ _ => .pure))) trivial
  | containsKey k =>
    exact hidle (.bind (.user rfl) (fun _ _ => .bind (searchResident_free _ _) (fun _ _ => .pure))) trivial
  | getMut k f =>
    exact hidle (.bind (.user rfl) (fun _ _ => .bind (getMut_free _ _) (fun _ _ => .bind (writeRef_free _ _) (fun _ _ => .pure))))
      trivial
  | peekMut k f =>
    exact hidle (.bind (.user rfl) (fun _ _ => .bind (peekMut_free _ _) (fun _ _ => .bind (writeRef_free _ _) (fun _ _ => .pure))))
      trivial
  | retain f => exact hidle (.bind (retain_free f) (fun _ _ => .pure)) trivial
  | clear => exact hidle .pure trivial
  | drain => exact hidle .pure trivial
  | reserve => exact hidle (.bind reserve_free (fun _ _ => .pure)) trivial
  | getOrInsertWith k load =>
    unfold step getOrInsertWith
    exact .bind (m := 0) (.bind (m := 0) (g0 := (·.1)) (fun x hx => (getOrInsertToken_pay hp h0 hl k load hx).2.1)
      (fun _ _ => .pure (Nat.le_refl _))) (fun _ _ => .pure (Nat.le_refl _))
  | getMutOrInsertWith k load f =>
    unfold step
    refine .bind (m := 0) (n := pot c s + 3) (g0 := (·.1)) ?_ (fun _ _ => .pure (Nat.le_refl _))
    unfold getMutOrInsertWith
    intro x hx
    rw [run_bind] at hx
    cases ht : (getOrInsertToken c s k load).run with
    | error e => rw [ht] at hx; cases hx
    | ok y =>
      obtain ⟨g1, g2, g3⟩ := getOrInsertToken_pay hp h0 hl k load ht
      rw [ht] at hx
      rw [cnt_bind_ok ht]
      obtain ⟨s1, q, called, t⟩ := y
      cases t with
      | none =>
        simp only [ok_bind] at hx ⊢
        cases hx
        rw [show cnt (pure (s1, q, called, none) : U K V (Shard K V × Req K V RS × Bool × Option (Option V))) = 0 from Free.pure]
        simp only at g2 ⊢
        omega
      | some t =>
        simp only [ok_bind] at hx ⊢
        have hf : ∀ (b : Option (Option V)), Free (do
            let r ← peekTokenMut c s1 t
            let s2 ← writeRef c s1 f r
            pure (s2, q, called, b) : U K V (Shard K V × Req K V RS × Bool × Option (Option V))) :=
          fun b => .bind (peekTokenMut_free _) (fun _ _ => .bind (writeRef_free _ _) (fun _ _ => .pure))
        have hf := hf (some (s1.peekToken t))
        unfold Free at hf
        rw [hf]
        have hw : ∃ s2, (do
            let r ← peekTokenMut c s1 t
            writeRef c s1 f r : U K V (Shard K V)).run = .ok s2 ∧ x.1 = s2 := by
          rw [← bind_assoc, run_bind] at hx
          cases hw : (do
            let r ← peekTokenMut c s1 t
            writeRef c s1 f r : U K V (Shard K V)).run with
          | error e => rw [hw] at hx; cases hx
          | ok s2 => rw [hw] at hx; cases hx; exact ⟨s2, rfl, rfl⟩
        obtain ⟨s2, hw, hx1⟩ := hw
        rw [hx1]
        rcases write_pot g1 hw with rfl | ⟨r, wrote⟩
        · simp only at g2 ⊢; omega
        · have h3 := g3 t r rfl wrote.upd.before
          have h4 := wrote.upd.pot (c := c)
          have h5 := potF_le (c := c) { r with value := f r.value }
          simp only at h3 h4 h5 ⊢
          omega
  | getRefOrGuard k use =>
    unfold step getRefOrGuard
    refine .bind (m := 0) (n := pot c s + 1) (upsert_pay h0 k (fun t r s1 wrote => .pure ?_) (fun s1 p b hpd => ?_))
      (fun _ _ => .pure (Nat.le_refl _))
    · have h1 := wrote.upd.pot (c := c)
      have h2 := bumpRef_pot r.referenced
      simp only [potF] at h1 ⊢
      split at h1 <;> omega
    · exact .mono (.bind (m := 0) (useGuard_pay hp hpd use) (fun _ _ => .pure (Nat.le_refl _)))
        (Nat.add_le_add_right (Pending.pot hpd) 1)
  | getMutOrGuard k f use =>
    unfold step getMutOrGuard
    refine .bind (m := 0) (n := pot c s + 3) (upsert_pay h0 k (fun t r s1 wrote => ?_) (fun s1 p b hpd => ?_))
      (fun _ _ => .pure (Nat.le_refl _))
    · dsimp only
      rw [← bind_assoc]
      refine .free (.bind (peekTokenMut_free _) (fun _ _ => writeRef_free _ _)) (fun s2 hs2 => .pure ?_)
      have hb := bumpRef_le (hl _ _ wrote.upd.before)
      rcases write_pot wrote.inv hs2 with rfl | ⟨r', wrote'⟩
      · exact hit_pot (v := r.value) hb wrote
      · have := wrote.upd.after.symm.trans wrote'.upd.before
        cases this
        exact hit_pot hb (wrote.trans wrote' rfl rfl)
    · refine .mono (.bind (m := 0) (useGuard_pay hp hpd use) (fun _ _ => .pure (Nat.le_refl _))) ?_
      have := Pending.pot hpd
      omega

end
end
end Unwind

section
variable {c : Cfg K V RS} {s : Shard K V}

theorem sum_three {l : List Nat} {f g g' : Nat → Nat} (h : ∀ t, f t ≤ 3 * (g t + g' t)) :
    (l.map f).sum ≤ 3 * ((l.map g).sum + (l.map g').sum) := by
  induction l with
  | nil => simp
  | cons a l ih =>
    have := h a
    simp only [List.map_cons, List.sum_cons]
    omega

/-- No more than three steps per item. -/
theorem pot_le (h : Inv c s) (hl : RefLe MAX_F s) : pot c s ≤ 3 * s.len := by
  rw [show s.len = s.num .hot + s.num .cold from rfl, h.cnt.num, h.cnt.num]
  unfold pot
  simp only [sumBy_range]
  refine sum_three (fun t => ?_)
  rcases ht : s.entries.item t with _ | ⟨r⟩ | ph | g
  case some.resident =>
    have h2 := hl t r ht
    unfold MAX_F at h2
    have h3 := Unwind.potF_le (c := c) r
    have h4 : numF .hot (some (.resident r)) + numF .cold (some (.resident r)) = 1 := by
      cases hs : r.state <;> simp [numF, hs]
    rw [h4]
    omega
  all_goals exact Nat.zero_le _

end

namespace Spec
variable [DecidableEq K] {c : Cfg K V RS} {target cap gcap : Nat}

/-- What counts for a history is kept by it. -/
theorem Work.run {s0 s : Shard K V} {h0 : List (Unsync.Call K V)} {ops : List (Op K V)} {n : Nat}
    (h : Unsync.Run c (Shard.new target cap gcap) h0 s0) (w : Work c s0 ops n s) :
    ∃ h, Unsync.Run c (Shard.new target cap gcap) h s := by
  induction w with
  | start => exact ⟨_, h⟩
  | layout m p hr hm hp ih => obtain ⟨h, ih⟩ := ih; exact ⟨_, .layout m p ih hm hp⟩
  | call hr hs ih => obtain ⟨h, ih⟩ := ih; exact ⟨_, .call ih hs⟩

theorem examined_step (hp : ∀ k v, c.pinned k v = false) {s s' : Shard K V} (h : Inv c s) (hl : RefLe MAX_F s) {op : Op K V}
    {out : Out K V} {q : Req K V RS} (hs : Unsync.step c s op = .ok (s', out, q)) :
    examined c s op + pot c s' ≤ pot c s + credit op :=
  Unwind.step_pay hp h hl op (s', out, q) (by rw [Unwind.run_step]; exact hs)

theorem Work.pot {s0 s : Shard K V} {h0 : List (Unsync.Call K V)} {ops : List (Op K V)} {n : Nat}
    (hp : ∀ k v, c.pinned k v = false) (h : Unsync.Run c (Shard.new target cap gcap) h0 s0) (w : Work c s0 ops n s) :
    n + QuickCache.pot c s ≤ QuickCache.pot c s0 + (ops.map credit).sum := by
  induction w with
  | start => simp
  | layout m p hr hm hp ih => exact ih
  | call hr hs ih =>
    obtain ⟨h1, h2⟩ := hr.run h
    have := examined_step hp (h2.reach (.new ..)).inv h2.refOK hs
    simp only [List.map_append, List.sum_append, List.map_cons, List.map_nil, List.sum_cons, List.sum_nil]
    omega

end Spec
end QuickCache
