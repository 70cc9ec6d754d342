import Verif.Proofs.UnwindAgree
import Verif.Proofs.OpSpec
import Verif.Proofs.Run
import Verif.Spec.Unwind

/-!
# What panics leave behind, on slots
-/

namespace QuickCache
variable {K V RS : Type}

namespace U
variable {α β : Type}

/-- Every call of user code that is made at a safe place leaves a shard satisfying `P` if it panics, unless the destructor run
then panics in the same way as the whole computation would have. -/
def Pts (x : U K V α) (P : Shard K V → Prop) : Prop :=
  ∀ p ∈ x.points, p.site.safe = true →
    (∃ s, p.left = .ok s ∧ P s) ∨ ∃ e, p.left = .error e ∧ x.run = .error e

theorem points_bind (x : U K V α) (f : α → U K V β) :
    (x >>= f).points = x.points ++ match x.run with
      | .ok a => (f a).points
      | .error _ => [] := by
  change (U.bind x f).points = _
  unfold U.bind
  cases h : x.run <;> simp

theorem Pts.mono {x : U K V α} {P Q : Shard K V → Prop} (h : Pts x P) (hPQ : ∀ s, P s → Q s) : Pts x Q := by
  intro p hp hs
  rcases h p hp hs with ⟨s, h1, h2⟩ | h
  · exact Or.inl ⟨s, h1, hPQ s h2⟩
  · exact Or.inr h

theorem Pts.bind {x : U K V α} {f : α → U K V β} {P : Shard K V → Prop} (h : Pts x P)
    (hf : ∀ a, x.run = .ok a → Pts (f a) P) : Pts (x >>= f) P := by
  intro p hp hs
  rw [points_bind, List.mem_append] at hp
  rw [run_bind]
  rcases hp with hp | hp
  · rcases h p hp hs with h | ⟨e, h1, h2⟩
    · exact Or.inl h
    · exact Or.inr ⟨e, h1, by rw [h2]; rfl⟩
  · cases hx : x.run with
    | error e => rw [hx] at hp; cases hp
    | ok a =>
      rw [hx] at hp
      exact hf a hx p hp hs

theorem Pts.pure {a : α} {P : Shard K V → Prop} : Pts (Pure.pure a : U K V α) P := by
  intro p hp; cases hp

theorem Pts.lift {x : Res α} {P : Shard K V → Prop} : Pts (lift x : U K V α) P := by
  intro p hp; cases hp

theorem Pts.user {i : Site} {s : Shard K V} {P : Shard K V → Prop} (h : i.safe = true → P s) : Pts (user i s) P := by
  intro p hp hs
  simp only [U.user, List.mem_singleton] at hp
  subst hp
  exact Or.inl ⟨s, rfl, h hs⟩

theorem Pts.unsafe {i : Site} {s : Shard K V} {P : Shard K V → Prop} (h : i.safe = false) : Pts (U.user i s) P :=
  .user (fun h' => by rw [h] at h'; cases h')

theorem Pts.ite {x y : U K V α} {P : Shard K V → Prop} {b : Prop} [Decidable b] (hx : b → Pts x P) (hy : ¬ b → Pts y P) :
    Pts (if b then x else y) P := by
  split
  · exact hx ‹_›
  · exact hy ‹_›

/-- `Pts.bind` keeping track of the result. -/
theorem Pts.bindR {x : U K V α} {f : α → U K V β} {P : Shard K V → Prop} {y : Res β} (hy : (x >>= f).run = y) (h : Pts x P)
    (hf : ∀ a, x.run = .ok a → (f a).run = y → Pts (f a) P) : Pts (x >>= f) P :=
  .bind h (fun a ha => hf a ha (by rw [run_bind, ha] at hy; exact hy))

theorem Pts.iteR {x y : U K V α} {P : Shard K V → Prop} {b : Prop} [Decidable b] {z : Res α}
    (hz : (if b then x else y).run = z) (hx : b → x.run = z → Pts x P) (hy : ¬ b → y.run = z → Pts y P) :
    Pts (if b then x else y) P := by
  split
  · rename_i h; exact hx h (by rw [if_pos h] at hz; exact hz)
  · rename_i h; exact hy h (by rw [if_neg h] at hz; exact hz)

theorem Pts.dropping {x : U K V α} {P Q : Shard K V → Prop} {f : Shard K V → Res (Shard K V)} (h : Pts x P)
    (hf : ∀ s, P s → ∃ s', f s = .ok s' ∧ Q s') : Pts (dropping f x) Q := by
  intro p hp hs
  simp only [U.dropping, List.mem_map] at hp
  obtain ⟨p0, h0, rfl⟩ := hp
  rcases h p0 h0 hs with ⟨s, h1, h2⟩ | ⟨e, h1, h2⟩
  · obtain ⟨s', h3, h4⟩ := hf s h2
    exact Or.inl ⟨s', by simp only [h1]; exact h3, h4⟩
  · exact Or.inr ⟨e, by simp only [h1]; rfl, h2⟩

theorem lift_bind (x : Res α) (f : α → Res β) :
    (U.lift (x >>= f) : U K V β) = U.lift x >>= fun a => U.lift (f a) := by
  cases x <;> rfl

instance : LawfulMonad (U K V) := LawfulMonad.mk' (U K V)
  (id_map := by
    intro α x
    change U.bind x _ = x
    obtain ⟨ps, r⟩ := x
    cases r <;> simp [U.bind])
  (pure_bind := by
    intro α β a f
    change U.bind _ _ = _
    simp [U.bind, Pure.pure])
  (bind_assoc := by
    intro α β γ x f g
    change U.bind (U.bind x f) g = U.bind x (fun a => U.bind (f a) g)
    obtain ⟨ps, r⟩ := x
    cases r with
    | error e => rfl
    | ok a =>
      simp only [U.bind]
      cases (f a).run <;> simp)

end U

namespace Unwind
open U

section
variable {c : Cfg K V RS} {s : Shard K V}

theorem searchLoop_pts (h : UInt64) (eqv : K → Bool) (l : List Nat) : ∀ m, Pts (searchLoop s h eqv l m) (· = s) := by
  induction l with
  | nil => intro m; exact .pure
  | cons i l ih =>
    intro m
    unfold searchLoop
    rcases s.entries.get i with _ | ⟨⟨r⟩ | ph | g, n⟩
    · exact .lift
    · exact .bind (.user (fun _ => rfl)) (fun _ _ => .ite (fun _ => .pure) (fun _ => ih m))
    · exact .bind (.user (fun _ => rfl)) (fun _ _ => .ite (fun _ => .pure) (fun _ => ih m))
    · exact ih _

theorem search_pts (h : UInt64) (eqv : K → Bool) : Pts (search s h eqv) (· = s) := searchLoop_pts _ _ _ _

theorem searchResidentLoop_pts (eqv : K → Bool) (l : List Nat) : Pts (searchResidentLoop s eqv l) (· = s) := by
  induction l with
  | nil => exact .pure
  | cons i l ih =>
    unfold searchResidentLoop
    rcases s.entries.get i with _ | ⟨⟨r⟩ | ph | g, n⟩
    · exact .lift
    · exact .bind (.user (fun _ => rfl)) (fun _ _ => .ite (fun _ => .pure) (fun _ => ih))
    · exact ih
    · exact ih

theorem searchResident_pts (h : UInt64) (eqv : K → Bool) : Pts (searchResident s h eqv) (· = s) := searchResidentLoop_pts _ _

theorem rehash_pts (m : List (UInt64 × Nat)) : Pts (rehash c s m) (fun _ => False) := by
  induction m with
  | nil => exact .pure
  | cons b m ih =>
    unfold rehash
    rcases s.entries.get b.2 with _ | ⟨⟨r⟩ | ph | g, n⟩
    · exact .lift
    · exact .bind (.unsafe rfl) (fun _ _ => .bind ih (fun _ _ => .pure))
    · exact .bind (.unsafe rfl) (fun _ _ => .bind ih (fun _ _ => .pure))
    · exact .bind ih (fun _ _ => .pure)

theorem mapInsert_pts (h : UInt64) (t : Nat) : Pts (mapInsert c s h t) (fun _ => False) :=
  .bind (rehash_pts _) (fun _ _ => .pure)

theorem reserve_pts : Pts (reserve c s) (fun _ => False) := .bind (rehash_pts _) (fun _ _ => .pure)

theorem get_pts (h : UInt64) (eqv : K → Bool) : Pts (get s h eqv) (· = s) := by
  unfold get
  refine .bind (searchResident_pts h eqv) (fun a _ => ?_)
  rcases a with _ | ⟨t, r⟩ <;> exact .pure

theorem peekTokenMut_pts (t : Nat) : Pts (peekTokenMut c s t) (· = s) := by
  unfold peekTokenMut
  rcases s.entries.get t with _ | ⟨⟨r⟩ | ph | g, n⟩
  · exact .pure
  · exact .bind (.user (fun _ => rfl)) (fun _ _ => .pure)
  · exact .pure
  · exact .pure

theorem peekMut_pts (h : UInt64) (eqv : K → Bool) : Pts (peekMut c s h eqv) (· = s) := by
  unfold peekMut
  refine .bind (searchResident_pts h eqv) (fun a _ => ?_)
  rcases a with _ | ⟨t, r⟩
  · exact .pure
  · exact peekTokenMut_pts t

theorem removeInternal_pts (h : UInt64) (t : Nat) : Pts (removeInternal c s h t) (fun _ => False) := by
  unfold removeInternal
  refine .bind .lift (fun s1 _ => .bind .lift (fun x _ => ?_))
  rcases x with ⟨e, _ | ⟨⟨r⟩ | ph | g, n⟩⟩
  · exact .lift
  · exact .bind (.unsafe rfl) (fun _ _ => .bind .lift (fun _ _ => .bind .lift (fun _ _ => .pure)))
  · exact .pure
  · exact .bind .lift (fun _ _ => .pure)

theorem remove_pts (h : UInt64) (eqv : K → Bool) : Pts (remove c s h eqv) (· = s) := by
  unfold remove
  refine .bind (search_pts h eqv) (fun a _ => ?_)
  rcases a with _ | t
  · exact .pure
  · exact (removeInternal_pts h t).mono (fun _ h => h.elim)

theorem retainTokens_pts (f : K → V → Bool) (m : List (UInt64 × Nat)) : Pts (retainTokens c s f m) (· = s) := by
  induction m with
  | nil => exact .pure
  | cons b m ih =>
    unfold retainTokens
    rcases s.entries.get b.2 with _ | ⟨⟨r⟩ | ph | g, n⟩
    · exact ih
    · exact .bind (.user (fun _ => rfl)) (fun _ _ => .ite (fun _ => ih)
        (fun _ => .bind (.user (fun _ => rfl)) (fun _ _ => .bind ih (fun _ _ => .pure))))
    · exact ih
    · exact ih

theorem retainLoop_pts (l : List (Nat × UInt64)) : ∀ s : Shard K V, Pts (retainLoop c l s) (fun _ => False) := by
  induction l with
  | nil => intro s; exact .pure
  | cons b l ih => intro s; exact .bind (removeInternal_pts _ _) (fun _ _ => ih _)

theorem retain_pts (f : K → V → Bool) : Pts (retain c s f) (· = s) :=
  .bind (retainTokens_pts f _) (fun _ _ => (retainLoop_pts _ _).mono (fun _ h => h.elim))

/-! ### Eviction -/

open Shard (touch_post advanceHot_spec advanceCold_spec promoted_spec coldVictim_spec of_rho)

/-- The states an eviction from `s` passes through. -/
def Evicting (c : Cfg K V RS) (s : Shard K V) (q : Req K V RS) (s' : Shard K V) : Prop := ∃ q', EvPost c s q s' q'

theorem Evicting.refl (h : Inv0 c s) (q : Req K V RS) : Evicting c s q s := ⟨q, .refl h q⟩

theorem Evicting.after {s1 s' : Shard K V} {q q1 : Req K V RS} (h : EvPost c s q s1 q1) (h' : Evicting c s1 q1 s') :
    Evicting c s q s' := by
  obtain ⟨q', h'⟩ := h'
  exact ⟨q', h.trans h'⟩

theorem hotVictim_pts (q : Req K V RS) (t : Nat) (r : Resident K V) : Pts (hotVictim c s q t r) (· = s) := by
  unfold hotVictim
  refine .bind (.user (fun _ => rfl)) (fun _ _ => .bind .lift (fun _ _ => .bind (.unsafe rfl) (fun _ _ => ?_)))
  refine .bind (.unsafe rfl) (fun _ _ => .ite (fun _ => .bind .lift (fun _ _ => .pure)) (fun _ => ?_))
  refine .bind .lift (fun _ _ => .bind (.unsafe rfl) (fun _ _ => .bind .lift (fun x _ => ?_)))
  rcases x with ⟨e, _ | ⟨⟨r⟩ | ph | g, n⟩⟩
  · exact .lift
  · exact .bind (.unsafe rfl) (fun _ _ => .bind .lift (fun _ _ => .pure))
  · exact .lift
  · exact .lift

theorem advanceHotLoop_pts (q : Req K V RS) : ∀ (fuel : Nat) (s : Shard K V) (t u : Nat), Inv0 c s →
    Pts (advanceHotLoop c fuel s q t u) (Evicting c s q)
  | 0, _, _, _, _ => .lift
  | fuel + 1, s, t, u, hi => by
    unfold advanceHotLoop
    rw [Slab.get_eq]
    rcases ht : s.entries.item t with _ | ⟨r⟩ | ph | g
    · exact .lift
    · refine .ite (fun _ => .lift) (fun hst => .bind (.user (fun _ => .refl hi q)) (fun _ _ => ?_))
      have hst : r.state = .hot := Classical.byContradiction hst
      refine .ite (fun hp => ?_) (fun hp => .ite (fun hr => ?_) (fun _ => ?_))
      · have h1 := touch_post hi q ht hst (Or.inl hp) rfl
        exact .ite (fun _ => .pure) (fun _ => (advanceHotLoop_pts q fuel _ _ _ h1.inv).mono (fun _ h => .after h1 h))
      · have h1 := touch_post hi q ht hst (Or.inr hr) rfl
        exact (advanceHotLoop_pts q fuel _ _ _ h1.inv).mono (fun _ h => .after h1 h)
      · exact (hotVictim_pts q t r).mono (fun _ h => h ▸ .refl hi q)
    · exact .lift
    · exact .lift

theorem advanceHot_pts (h : Inv0 c s) (q : Req K V RS) : Pts (advanceHot c s q) (Evicting c s q) := by
  unfold advanceHot
  rcases s.hotHead with _ | t
  · exact .pure
  · exact advanceHotLoop_pts q _ _ _ _ h

theorem evictHotLoop_pts : ∀ (fuel : Nat) (s : Shard K V) (q : Req K V RS), Inv0 c s →
    Pts (evictHotLoop c fuel s q) (Evicting c s q)
  | 0, _, _, _ => .lift
  | fuel + 1, s, q, hi => by
    unfold evictHotLoop
    refine .ite (fun _ => .bind (advanceHot_pts hi q) (fun x hx => ?_)) (fun _ => .pure)
    obtain ⟨s', q', b, h1, h2, -⟩ := advanceHot_spec hi q
    rw [run_advanceHot, h1] at hx
    cases hx
    exact .ite (fun _ => (evictHotLoop_pts fuel _ _ h2.inv).mono (fun _ h => .after h2 h)) (fun _ => .pure)

theorem coldPromote_eq (q : Req K V RS) (t : Nat) (r : Resident K V) :
    coldPromote c s q t r = (do
      user .weighPromoted (s.setEntry t (.resident { r with referenced := r.referenced - 1, state := .hot }))
      let s4 ← lift (s.promoted t r (c.weight r.key r.value))
      let (s5, q5) ← evictHotLoop c s4.evictFuel s4 q
      pure (s5, q5, true)) := by
  unfold coldPromote Shard.promoted
  simp only [lift_bind, bind_assoc]

theorem coldPromote_pts (h : Inv0 c s) (q : Req K V RS) {t : Nat} {r : Resident K V}
    (ht : s.entries.item t = some (.resident r)) (hst : r.state = .cold) (hw : c.weight r.key r.value ≠ 0)
    (hr : r.referenced ≠ 0) : Pts (coldPromote c s q t r) (Evicting c s q) := by
  rw [coldPromote_eq]
  refine .bind (.unsafe rfl) (fun _ _ => .bind .lift (fun s4 h4 => ?_))
  rw [run_lift] at h4
  have hov : s.weightHot + c.weight r.key r.value < 2 ^ 64 := by
    apply Classical.byContradiction
    intro hov
    unfold Shard.promoted at h4
    simp only [show (s.setEntry t (.resident { r with referenced := r.referenced - 1, state := .hot })).weightHot =
      s.weightHot from rfl] at h4
    rw [cadd_err (Nat.le_of_not_lt hov)] at h4
    cases h4
  obtain ⟨s4', g1, g2, -⟩ := promoted_spec h q ht hst hw hr hov
  rw [g1] at h4
  cases h4
  exact .bind ((evictHotLoop_pts _ _ _ g2.inv).mono (fun _ h => .after g2 h)) (fun _ _ => .pure)

theorem coldVictim_pts (h : Inv0 c s) (q : Req K V RS) {t : Nat} {r : Resident K V}
    (ht : s.entries.item t = some (.resident r)) (hst : r.state = .cold) (hw : c.weight r.key r.value ≠ 0)
    (hp : c.pinned r.key r.value = false) (hr : r.referenced = 0) : Pts (coldVictim c s q t r) (Evicting c s q) := by
  obtain ⟨s', q', h1, h2, -⟩ := coldVictim_spec h q ht hst hw hp hr
  rw [← run_coldVictim] at h1
  unfold coldVictim at h1 ⊢
  refine .bindR h1 (.user (fun _ => .refl h q)) (fun _ _ h1 => .bindR h1 .lift (fun _ _ h1 =>
    .bindR h1 (.unsafe rfl) (fun _ _ h1 => ?_)))
  refine .bindR h1 (.unsafe rfl) (fun _ _ h1 => .iteR h1 (fun _ _ => .bind .lift (fun _ _ => .pure)) (fun _ h1 => ?_))
  refine .bindR h1 (.unsafe rfl) (fun _ _ h1 => .bindR h1 .lift (fun _ _ h1 => .bindR h1 .lift (fun _ _ h1 =>
    .bindR h1 .lift (fun _ _ h1 => ?_))))
  refine .bindR h1 .lift (fun s6 _ h1 => .bind (.user (fun _ => ?_)) (fun _ _ => .pure))
  rw [run_bind] at h1
  cases h1
  exact ⟨_, h2⟩

theorem rho_next (h : Inv0 c s) {i : RingId} {t : Nat} (hr : c.rho s.entries.item t = some i) :
    c.rho s.entries.item (s.entries.nxt t) = some i := by
  obtain ⟨R, F, hR⟩ := h.str
  obtain ⟨A, B, hs⟩ := List.append_of_mem ((hR.mem i t).mpr hr)
  apply (hR.mem i _).mp
  rcases hR.next_split hs with ⟨-, -, B2, h1, -⟩ | ⟨-, B2, -, h1⟩ <;> rw [h1] <;> simp

theorem advanceColdLoop_pts (h : Inv0 c s) (q : Req K V RS) : ∀ (fuel t : Nat), c.rho s.entries.item t = some .cold →
    Pts (advanceColdLoop c fuel s q t) (Evicting c s q)
  | 0, _, _ => .lift
  | fuel + 1, t, ht => by
    obtain ⟨r, h1, h2, h3⟩ := of_rho (st := .cold) ht
    unfold advanceColdLoop
    rw [Slab.get_eq, h1]
    refine .ite (fun _ => .lift) (fun _ => .ite (fun hr => coldPromote_pts h q h1 h2 h3 hr) (fun hr => ?_))
    refine .bind (.user (fun _ => .refl h q)) (fun _ _ => .ite (fun hp => ?_) (fun hp => ?_))
    · exact .ite (fun _ => advanceHot_pts h q) (fun _ => advanceColdLoop_pts h q fuel _ (rho_next h ht))
    · exact coldVictim_pts h q h1 h2 h3 (by simpa using hp) (Classical.byContradiction hr)

theorem advanceCold_pts (h : Inv0 c s) (q : Req K V RS) : Pts (advanceCold c s q) (Evicting c s q) := by
  unfold advanceCold
  rcases hc : s.coldHead with _ | t
  · exact advanceHot_pts h q
  · obtain ⟨R, F, hR⟩ := h.str
    refine advanceColdLoop_pts h q _ _ ((hR.mem .cold t).mp ?_)
    have := hR.heads .cold
    change s.coldHead = _ at this
    rw [hc] at this
    exact List.mem_of_mem_head? this.symm

theorem evictLoop_pts (extra : Nat) : ∀ (fuel : Nat) (s : Shard K V) (q : Req K V RS), Inv0 c s →
    Pts (evictLoop c extra fuel s q) (Evicting c s q)
  | 0, _, _, _ => .lift
  | fuel + 1, s, q, hi => by
    unfold evictLoop
    refine .bind .lift (fun a ha => .bind .lift (fun _ _ => .ite (fun _ => ?_) (fun _ => .pure)))
    have hov : s.weightHot + s.weightCold < 2 ^ 64 := by
      rw [run_lift] at ha
      unfold cadd at ha
      split at ha
      · assumption
      · cases ha
    refine .bind (advanceCold_pts hi q) (fun x hx => ?_)
    obtain ⟨s', q', b, h1, h2, -⟩ := advanceCold_spec hi q hov
    rw [run_advanceCold, h1] at hx
    cases hx
    exact .ite (fun _ => (evictLoop_pts extra fuel _ _ h2.inv).mono (fun _ h => .after h2 h)) (fun _ => .pure)

/-! ### Insertion -/

open Shard (insRef NoRes NoKey overwritten_spec revived_spec filled_spec search_spec searchResident_spec removeInternal_spec
  res_key_uniq Holds removePlaceholder_spec replacePlaceholder_spec getMut_spec)

/-- The states passed through while an admitted item is stored. -/
inductive Storing (c : Cfg K V RS) (s : Shard K V) (q : Req K V RS) (k : K) (v : V) (str : Strategy) (s' : Shard K V) : Prop
  | same (h : s' = s)
  | room (hstr : str = .insert) (hno : NoKey s k) (post : Evicting c s q s')
  | put (s2 : Shard K V) (qb : Req K V RS) (t : Nat) (old : Option (Entry K V)) (r : Resident K V)
      (same : Same s s2) (wrote : Wrote c s s2 t old (some (.resident r))) (hk : r.key = k) (hv : r.value = v)
      (hplh : ∀ ph, old = some (.placeholder ph) → ph.key = k)
      (hold : (∃ r0, old = some (.resident r0) ∧ r0.key = k ∧ qb = q.on c k r0.value) ∨
        ((∀ r0, old ≠ some (.resident r0)) ∧ NoRes s k ∧ qb = q ∧ str = .insert))
      (post : Evicting c s2 qb s')

/-- The states passed through by a storing operation. -/
inductive Halt (c : Cfg K V RS) (s : Shard K V) (q : Req K V RS) (k : K) (v : V) (str : Strategy) (s' : Shard K V) : Prop
  | same (h : s' = s)
  | storing (q1 : Req K V RS) (v1 : V) (he : Entering c s q k v q1 v1) (adm : q1 = q ∨ c.weight k v1 ≤ s.weightTargetHot)
      (h : Storing c s q1 k v1 str s')
  | reject (q1 : Req K V RS) (v1 : V) (hw : s.weightTargetHot < c.weight k v) (hp : c.pinned k v = false)
      (hb : q.before c k v = (q1, v1)) (hw1 : s.weightTargetHot < c.weight k v1) (q' : Req K V RS)
      (hr : RejEff c s q1 k s' q')
      (hplh : str ≠ .insert → ∀ t ph, s.entries.item t = some (.placeholder ph) → s'.entries.item t = some (.placeholder ph))

theorem insertExisting_resident_eq (q : Req K V RS) {t : Nat} {r : Resident K V} (key : K) (value : V) (w : Nat)
    (strategy : Strategy) (ht : s.entries.item t = some (.resident r)) :
    insertExisting c s q t key value w strategy = (do
      user .weighReplaced (s.setEntry t (.resident
        { key := key, value := value, state := r.state, referenced := insRef strategy r.referenced }))
      let s3 ← lift (s.overwritten t r
        { key := key, value := value, state := r.state, referenced := insRef strategy r.referenced }
        (c.weight r.key r.value) w)
      user .onReplaced s3
      let (s4, q2) ← evictLoop c 0 s3.evictFuel s3 (q.on c r.key r.value)
      pure (s4, q2, none)) := by
  have href : min (min (r.referenced + if strategy = .replace true then 0 else 1) (2 ^ 16 - 1)) MAX_F =
      insRef strategy r.referenced := by
    unfold insRef
    have : MAX_F = 2 := rfl
    omega
  unfold insertExisting Shard.overwritten
  rw [Slab.get_eq, ht]
  simp only [Option.map_some, bind_assoc, lift_bind]
  rw [href]

theorem insertExisting_ghost_eq (q : Req K V RS) {t : Nat} {g : UInt64} (key : K) (value : V) (w : Nat)
    (ht : s.entries.item t = some (.ghost g)) :
    insertExisting c s q t key value w .insert = (do
      let s4 ← lift (s.revived t { key := key, value := value, state := .hot, referenced := 0 } w)
      let (s5, q2) ← evictLoop c 0 s4.evictFuel s4 q
      pure (s5, q2, none)) := by
  unfold insertExisting Shard.revived
  rw [Slab.get_eq, ht]
  simp only [Option.map_some, bind_assoc, lift_bind]

theorem insertExisting_placeholder_eq (q : Req K V RS) {t : Nat} {ph : Placeholder K} (key : K) (value : V) (w : Nat)
    (ht : s.entries.item t = some (.placeholder ph)) :
    insertExisting c s q t key value w .insert = (do
      let s3 ← lift (s.filled t { key := key, value := value, state := ph.hot, referenced := 1 } ph.hot w)
      let (s4, q2) ← evictLoop c 0 s3.evictFuel s3 q
      pure (s4, q2, none)) := by
  unfold insertExisting Shard.filled
  rw [Slab.get_eq, ht]
  simp only [Option.map_some, bind_assoc, lift_bind]

theorem insertExisting_replace_pts (q : Req K V RS) {t : Nat} {key : K} {value : V} {w : Nat} {soft : Bool} {e : Entry K V}
    (ht : s.entries.item t = some e) (hr : ∀ r, e ≠ .resident r) {P : Shard K V → Prop} :
    Pts (insertExisting c s q t key value w (.replace soft)) P := by
  unfold insertExisting
  rw [Slab.get_eq, ht]
  cases e with
  | resident r => exact absurd rfl (hr r)
  | placeholder p => exact .pure
  | ghost g => exact .pure

section
variable [DecidableEq K]

theorem insertAdmitted_pts (h : Inv0 c s) (q : Req K V RS) (key : K) (value : V) (str : Strategy) :
    Pts (insertAdmitted c s q (c.hash key) key value (c.weight key value) str) (Storing c s q key value str) := by
  unfold insertAdmitted
  refine .bind ((search_pts _ _).mono (fun _ h => .same h)) (fun x hx => ?_)
  rw [run_search] at hx
  rcases search_spec h.idx (Lawful.key c key) with ⟨t, e, k, h1, h2, h3, h4, h5⟩ | ⟨h0, hg⟩
  · rw [h1] at hx
    cases hx
    simp only [beq_iff_eq] at h5
    subst h5
    cases e with
    | resident r =>
      simp only [keyOf, Option.some.injEq] at h4
      subst h4
      dsimp only
      rw [insertExisting_resident_eq q _ _ _ _ h3]
      refine .bind (.unsafe rfl) (fun _ _ => .bind .lift (fun s3 e3 => ?_))
      rw [run_lift] at e3
      obtain ⟨g1, g2⟩ := Res.Sat.of_ok (overwritten_spec (r' := { key := r.key, value := value, state := r.state, referenced := insRef str r.referenced }) h h3 rfl rfl rfl rfl) e3
      have put : ∀ {s'}, Evicting c s3 (q.on c r.key r.value) s' → Storing c s q r.key value str s' := fun hs =>
        .put s3 _ t _ _ g1 g2 rfl rfl (fun _ h => by cases h) (Or.inl ⟨r, rfl, rfl, rfl⟩) hs
      exact .bind (.user (fun _ => put (.refl g2.inv _))) (fun _ _ => .bind ((evictLoop_pts _ _ _ _ g2.inv).mono
        (fun _ hs => put hs)) (fun _ _ => .pure))
    | placeholder ph =>
      simp only [keyOf, Option.some.injEq] at h4
      cases str with
      | insert =>
        subst h4
        dsimp only
        rw [insertExisting_placeholder_eq q _ _ _ h3]
        refine .bind .lift (fun s3 e3 => ?_)
        obtain ⟨g1, g2⟩ := (filled_spec h h3 h2 rfl rfl rfl rfl).of_ok e3
        exact .bind ((evictLoop_pts _ _ _ _ g2.inv).mono (fun _ hs => .put s3 _ t _ _ g1 g2 rfl rfl
          (fun _ h => by cases h; rfl) (Or.inr ⟨by simp, plh_noRes h h3 h2, rfl, rfl⟩) hs)) (fun _ _ => .pure)
      | replace soft => exact insertExisting_replace_pts q h3 (by simp)
    | ghost g => simp [keyOf] at h4
  · have hnk : NoKey s key := by
      intro h' t hm hk
      have := h0 h' t key hm hk
      simp at this
    rcases hg with ⟨t, h1, h2, h3⟩ | ⟨h1, h2⟩
    · rw [h1] at hx
      cases hx
      cases str with
      | insert =>
        dsimp only
        rw [insertExisting_ghost_eq q _ _ _ h3]
        refine .bind .lift (fun s3 e3 => ?_)
        obtain ⟨g1, g2⟩ := (revived_spec h h3 hnk rfl rfl rfl).of_ok e3
        exact .bind ((evictLoop_pts _ _ _ _ g2.inv).mono (fun _ hs => .put s3 _ t _ _ g1 g2 rfl rfl
          (fun _ h => by cases h) (Or.inr ⟨by simp, hnk.noRes h, rfl, rfl⟩) hs)) (fun _ _ => .pure)
      | replace soft => exact insertExisting_replace_pts q h3 (by simp)
    · rw [h1] at hx
      cases hx
      cases str with
      | insert =>
        refine .bind ?_ (fun _ _ => .pure)
        unfold insertNew
        refine .bind .lift (fun _ _ => .bind ((evictLoop_pts _ _ _ _ h).mono (fun _ hs => .room rfl hnk hs))
          (fun _ _ => .bind .lift (fun _ _ => .bind .lift (fun _ _ => .bind .lift (fun _ _ => .bind
            ((mapInsert_pts _ _).mono (fun _ h => h.elim)) (fun _ _ => .pure))))))
      | replace soft => exact .pure

theorem handleInsertOverweight_pts (h : Inv0 c s) (q : Req K V RS) (key : K) (value : V) (str : Strategy) :
    Pts (handleInsertOverweight c s q (c.hash key) key value str)
      (fun s' => s' = s ∨ (∃ q', RejEff c s q key s' q') ∧
        ∀ t ph, s.entries.item t = some (.placeholder ph) → s'.entries.item t = some (.placeholder ph)) := by
  unfold handleInsertOverweight
  refine .bind ((searchResident_pts _ _).mono (fun _ h => Or.inl h)) (fun x hx => ?_)
  rw [run_searchResident] at hx
  rcases searchResident_spec h.idx (Lawful.key c key) with ⟨t, r, h1, h2, h3⟩ | ⟨h1, h2⟩
  · rw [h1] at hx
    cases hx
    simp only [beq_iff_eq] at h3
    dsimp only
    refine .bind ((removeInternal_pts _ _).mono (fun _ h => h.elim)) (fun x hx => ?_)
    obtain ⟨s', g1, g2, g3⟩ := removeInternal_spec h h2 (h.idx.mapped t _ h2 (by simp))
    simp only [Shard.hashOf, Shard.residentPair, h3] at g1
    rw [run_removeInternal, g1] at hx
    cases hx
    have hr : s' = s ∨ (∃ q', RejEff c s q key s' q') ∧
        ∀ t ph, s.entries.item t = some (.placeholder ph) → s'.entries.item t = some (.placeholder ph) := by
      refine Or.inr ⟨⟨_, .old t r h3 g3 g2⟩, fun u ph hu => ?_⟩
      rw [g2.upd.other]
      · exact hu
      · rintro rfl
        rw [h2] at hu; cases hu
    dsimp only
    refine .bind (.user (fun _ => hr)) (fun _ _ => ?_)
    rw [pure_bind]
    cases str with
    | replace soft => exact .pure
    | insert => exact .bind (.user (fun _ => hr)) (fun _ _ => .pure)
  · rw [h1] at hx
    cases hx
    dsimp only
    rw [pure_bind]
    cases str with
    | replace soft => exact .pure
    | insert => exact .bind (.user (fun _ => Or.inl rfl)) (fun _ _ => .pure)

theorem insert_pts (h : Inv0 c s) (q : Req K V RS) (k : K) (v : V) (str : Strategy) :
    Pts (insert c s q (c.hash k) k v str) (Halt c s q k v str) := by
  unfold insert
  refine .bind (.user (fun _ => .same rfl)) (fun _ _ => .ite (fun hw => ?_) (fun hw => ?_))
  · refine .bind (.user (fun _ => .same rfl)) (fun _ _ => .ite (fun hp => ?_) (fun hp => ?_))
    · refine .bind (.user (fun _ => .same rfl)) (fun _ _ => .bind (.user (fun _ => .same rfl)) (fun _ _ =>
        .ite (fun hw1 => ?_) (fun hw1 => ?_)))
      · refine (handleInsertOverweight_pts h _ k _ str).mono ?_
        rintro s' (rfl | ⟨⟨q', hr⟩, hplh⟩)
        · exact .same rfl
        · exact .reject _ _ hw hp rfl hw1 q' hr (fun _ => hplh)
      · exact (insertAdmitted_pts h _ k _ str).mono (fun _ hs =>
          .storing _ _ (.before hw hp rfl) (Or.inr (Nat.le_of_not_lt hw1)) hs)
    · exact (insertAdmitted_pts h _ k _ str).mono (fun _ hs => .storing _ _ (.direct (fun h => hp h.2)) (Or.inl rfl) hs)
  · exact (insertAdmitted_pts h _ k _ str).mono (fun _ hs => .storing _ _ (.direct (fun h => hw h.1)) (Or.inl rfl) hs)

/-! ### Placeholders -/

omit [DecidableEq K] in
theorem upsertPlaceholder_pts (hh : UInt64) (eqv : K → Bool) (k : K) : Pts (upsertPlaceholder c s hh eqv k) (· = s) := by
  unfold upsertPlaceholder
  refine .bind (search_pts _ _) (fun x _ => ?_)
  rcases x with _ | t
  · refine .bind (.user (fun _ => rfl)) (fun _ _ => .bind .lift (fun x _ => .ite (fun _ => .lift) (fun _ => ?_)))
    exact .bind ((mapInsert_pts _ _).mono (fun _ h => h.elim)) (fun _ _ => .pure)
  · dsimp only
    rcases s.entries.get t with _ | ⟨⟨r⟩ | ph | g, n⟩
    · exact .lift
    · exact .pure
    · exact .pure
    · exact .bind (.user (fun _ => rfl)) (fun _ _ => .bind .lift (fun _ _ => .bind .lift (fun _ _ => .pure)))

omit [DecidableEq K] in
theorem setEntry_twice (t : Nat) (e e' : Entry K V) : (s.setEntry t e).setEntry t e' = s.setEntry t e' := by
  simp only [Shard.setEntry]
  unfold Slab.setItem Slab.mod
  simp only [List.modify_modify_eq]
  rfl

/-- The states passed through while a placeholder is filled. -/
def Filling (c : Cfg K V RS) (s : Shard K V) (q : Req K V RS) (k : K) (v : V) (t : Nat) (s' : Shard K V) : Prop :=
  Halt c s q k v .insert s' ∧ (s' = s ∨ ∀ ph, s'.entries.item t ≠ some (.placeholder ph))

omit [DecidableEq K] in
theorem replacePlaceholderAdmit_pts (h : Inv0 c s) {q q1 : Req K V RS} {p : Plh} {ph : Placeholder K}
    (ht : s.entries.item p.idx = some (.placeholder ph)) (hm : (c.hash ph.key, p.idx) ∈ s.map)
    (referenced : Bool) {v v1 : V} (he : Entering c s q ph.key v q1 v1)
    (adm : q1 = q ∨ c.weight ph.key v1 ≤ s.weightTargetHot) :
    Pts (replacePlaceholderAdmit c (s.setEntry p.idx (.ghost 0)) q1 p ph.key ph.hot referenced v1 (c.weight ph.key v1))
      (Filling c s q ph.key v p.idx) := by
  unfold replacePlaceholderAdmit
  refine .bind .lift (fun t1 _ => .bind .lift (fun t2 _ => ?_))
  simp only [setEntry_twice]
  generalize (if t2 ≤ (s.setEntry p.idx (.ghost 0)).weightCapacity then St.hot else ph.hot) = st
  refine .bind .lift (fun w1 e1 => .ite (fun hw => .bind .lift (fun s3 e3 => ?_)) (fun _ => .pure))
  rw [run_lift] at e1 e3
  have e : s.filled p.idx { key := ph.key, value := v1, state := st, referenced := if referenced = true then 1 else 0 } st
      (c.weight ph.key v1) = .ok s3 := by
    unfold Shard.filled
    simp only
    rw [e1]
    simp only [Res.ok_bind, Shard.linkNew]
    rw [if_pos hw]
    exact e3
  obtain ⟨g1, g2⟩ := (filled_spec h ht hm rfl rfl rfl rfl).of_ok e
  refine (evictLoop_pts _ _ _ _ g2.inv).mono (fun s' hs => ⟨.storing q1 v1 he adm (.put s3 q1 p.idx _ _ g1 g2 rfl rfl
    (fun _ h => by cases h; rfl) (Or.inr ⟨by simp, plh_noRes h ht hm, rfl, rfl⟩) hs), Or.inr (fun ph' hp' => ?_)⟩)
  obtain ⟨q', hs⟩ := hs
  obtain ⟨L, -, hL⟩ := hs.log
  rw [← hL.frame.1, g2.upd.after] at hp'
  cases hp'

omit [DecidableEq K] in
theorem replacePlaceholder_pts (h : Inv0 c s) (q : Req K V RS) {p : Plh} {ph : Placeholder K} (hh : Holds c s p ph)
    (hp : p.hash = c.hash ph.key) (hm : (p.hash, p.idx) ∈ s.map) (referenced : Bool) (v : V) :
    Pts (replacePlaceholder c s q p referenced v) (Filling c s q ph.key v p.idx) := by
  have hm' : (c.hash ph.key, p.idx) ∈ s.map := hp ▸ hm
  have hrun := run_replacePlaceholder c s q p referenced v
  have hspec := replacePlaceholder_spec h q (p := p) referenced v (fun ph' h' => by
    have := h'.1.symm.trans hh.1
    cases this; exact ⟨hp, hm⟩)
  unfold replacePlaceholder at hrun ⊢
  rw [Slab.get_eq, hh.1] at hrun ⊢
  simp only [Option.map_some] at hrun ⊢
  rw [if_pos hh.2] at hrun ⊢
  refine .bindR hrun (.unsafe rfl) (fun _ _ hrun => .iteR hrun (fun hw hrun => ?_) (fun hw _ => ?_))
  · refine .bindR hrun (.unsafe rfl) (fun _ _ hrun => .iteR hrun (fun hp hrun => ?_) (fun hp _ => ?_))
    · refine .bindR hrun (.unsafe rfl) (fun _ _ hrun => .bindR hrun (.unsafe rfl) (fun _ _ hrun =>
        .iteR hrun (fun hw1 hrun => ?_) (fun hw1 _ => ?_)))
      · unfold handleOverweightReplacePlaceholder at hrun ⊢
        rw [bind_assoc] at hrun ⊢
        refine .bindR hrun .lift (fun x _ hrun => ?_)
        rw [bind_assoc] at hrun ⊢
        refine .bindR hrun .lift (fun s2 _ hrun => ?_)
        rw [bind_assoc] at hrun ⊢
        refine .bind (.user (fun _ => ?_)) (fun _ _ => .pure)
        rw [run_bind, run_user] at hrun
        have hr := hspec.of_ok hrun.symm
        generalize hx : ((s2, (q.before c ph.key v).1.on c ph.key (q.before c ph.key v).2, none) :
          Shard K V × Req K V RS × Option V) = x at hr
        cases hr with
        | gone hg => exact absurd hh (hg ph)
        | direct ph' st s3 s' q' hp' hw' =>
          have := hp'.1.symm.trans hh.1
          cases this
          exact absurd ⟨hw, hp⟩ hw'
        | shrunk ph' st q1 v1 s3 s' q' hp' hw' hpin hb hw1' =>
          have := hp'.1.symm.trans hh.1
          cases this
          rw [hb] at hw1
          exact absurd hw1 (Nat.not_lt.mpr hw1')
        | rejected ph' q1 v1 s' hp' hw' hpin hb hw1' same wrote =>
          have := hp'.1.symm.trans hh.1
          cases this
          obtain rfl : s2 = s' := congrArg (·.1) hx
          refine ⟨.reject q1 v1 hw hp hb hw1' q1 (.plh p.idx ph rfl (plh_noRes h hh.1 hm) same wrote) (fun h => absurd rfl h), Or.inr (fun ph hp => ?_)⟩
          rw [wrote.upd.after] at hp
          cases hp
      · exact .bind (replacePlaceholderAdmit_pts h hh.1 hm' referenced (.before hw hp rfl) (Or.inr (Nat.le_of_not_lt hw1)))
          (fun _ _ => .pure)
    · exact .bind (replacePlaceholderAdmit_pts h hh.1 hm' referenced (.direct (fun h => hp h.2)) (Or.inl rfl))
        (fun _ _ => .pure)
  · exact .bind (replacePlaceholderAdmit_pts h hh.1 hm' referenced (.direct (fun h => hw h.1)) (Or.inl rfl))
        (fun _ _ => .pure)

omit [DecidableEq K] in
theorem fill_pts {s1 : Shard K V} {k : K} {p : Plh} (h : Pending c s k s1 p) (v : V) :
    Pts (fill c s1 p v) (Filling c s1 c.begin k v p.idx) := by
  obtain ⟨ph, h1, h2, rfl⟩ := h.holds
  have hh : Holds c s1 p ph := ⟨h1, by rw [h2]; unfold Cfg.sameAs; cases c.ptrEq <;> simp⟩
  have hm : (p.hash, p.idx) ∈ s1.map := by rw [h.hash]; exact h.mapped
  unfold fill
  refine .bind (.user (fun _ => ⟨.same rfl, Or.inl rfl⟩)) (fun _ _ => .bind
    (replacePlaceholder_pts h.inv _ hh h.hash hm false v) (fun _ _ => .ite (fun _ => .lift) (fun _ => .pure)))

omit [DecidableEq K] in
theorem getMut_pts (hh : UInt64) (eqv : K → Bool) :
    Pts (getMut c s hh eqv) (fun s' => s' = s ∨ ∃ r, s.getMut c hh eqv = .ok (s', r)) := by
  have h1 := run_getMut c s hh eqv
  unfold getMut at h1 ⊢
  refine .bindR h1 ((searchResident_pts _ _).mono (fun _ h => Or.inl h)) (fun x _ h1 => ?_)
  rcases x with _ | ⟨t, r0⟩
  · exact .pure
  · dsimp only at h1 ⊢
    rcases hg : s.entries.get t with _ | ⟨⟨r⟩ | ph | g, n⟩
    · exact .lift
    · rw [hg] at h1
      dsimp only at h1 ⊢
      refine .bind (.user (fun _ => Or.inr ?_)) (fun _ _ => .pure)
      rw [run_bind] at h1
      exact ⟨_, h1.symm⟩
    · exact .lift
    · exact .lift

omit [DecidableEq K] in
theorem refMutWrite_pts (t w : Nat) (f : V → V) :
    Pts (refMutWrite c s t w f) (fun s' => s.refMutWrite c t w f = .ok s') := by
  intro p hp hs
  rw [run_refMutWrite]
  unfold refMutWrite at hp
  rcases hg : s.entries.get t with _ | ⟨⟨r⟩ | ph | g, n⟩ <;> rw [hg] at hp
  · cases hp
  · rw [points_bind, List.mem_append] at hp
    rcases hp with hp | hp
    · simp only [List.mem_singleton] at hp
      subst hp
      dsimp only
      cases s.refMutWrite c t w f with
      | ok s' => exact Or.inl ⟨s', rfl, rfl⟩
      | error e => exact Or.inr ⟨e, rfl, rfl⟩
    · exfalso
      dsimp only at hp
      rw [points_bind, List.mem_append] at hp
      rcases hp with hp | hp
      · simp only [U.user, List.mem_singleton] at hp
        subst hp
        cases hs
      · dsimp only [run_user] at hp
        split at hp <;> cases hp
  · cases hp
  · cases hp

omit [DecidableEq K] in
theorem writeRef_pts (f : V → V) (r : Option (Nat × Nat)) :
    Pts (writeRef c s f r) (fun s' => Unsync.writeRef c s f r = .ok s') := by
  rcases r with _ | ⟨t, w⟩
  · exact .pure
  · exact refMutWrite_pts t w f

end

end
end Unwind
end QuickCache
