import Mathlib.Data.List.TakeWhile
import Verif.Proofs.ClockAbs

/-!
# Eviction implements the abstract clock machine
-/

namespace QuickCache
variable {K V RS : Type _}
open Spec

namespace Shard
variable [DecidableEq K] {c : Cfg K V RS} {s s' : Shard K V}

omit [DecidableEq K] in
theorem touch_turned (h : Inv0 c s) (q : Req K V RS) {t n : Nat} {r : Resident K V}
    (ht : s.entries.item t = some (.resident r)) (hst : r.state = .hot)
    (hpr : c.pinned r.key r.value = true ∨ r.referenced ≠ 0) (hn : n = min r.referenced MAX_F - 1) :
    Turned c s (s.setEntry t (.resident { r with referenced := n })) t (some (.resident r))
      (some (.resident { r with referenced := n })) id := by
  refine (touch_post h q ht hst hpr hn).toEvPost0.turned (Slab.Upd.setItem ht _) ?_
  have hocc : (s.entries.item t).isSome := by simp [ht]
  refine (Moves.setItem hocc _).congr_rho ?_
  funext u
  by_cases hu : u = t
  · subst hu; simp [Cfg.rho, ht, Cfg.ringOf]
  · rw [upd_other _ _ hu]

/-- The hot hand passes an item. -/
theorem abs_touch (h : Inv0 c s) (q : Req K V RS) {t : Nat} {r : Resident K V}
    (ht : s.entries.item t = some (.resident r)) (hst : r.state = .hot)
    (hpr : c.pinned r.key r.value = true ∨ r.referenced ≠ 0) (R : RingId → List Nat) :
    (s.setEntry t (.resident { r with referenced := min r.referenced MAX_F - 1 })).abs R =
      (s.abs R).setItem r.key r.item.cool :=
  ((touch_turned h q ht hst hpr rfl).chg h).abs_same h rfl R

theorem abs_hot (s : Shard K V) (R : RingId → List Nat) (l : List Nat) :
    s.abs (upd R .hot l) = { s.abs R with hot := klist s.entries.item l } := by
  simp [abs, upd]

theorem abs_cold (s : Shard K V) (R : RingId → List Nat) (l : List Nat) :
    s.abs (upd R .cold l) = { s.abs R with cold := klist s.entries.item l } := by
  simp [abs, upd]

theorem abs_ghost (s : Shard K V) (R : RingId → List Nat) (l : List Nat) :
    s.abs (upd R .ghost l) = { s.abs R with ghosts := glist s.entries.item l } := by
  simp [abs, upd]

/-- The hot hand takes an item. -/
theorem hotVictim_sim {R : RingId → List Nat} {F : List Nat} (h : Inv0 c s) (hr : s.HasRings c R F) (q : Req K V RS)
    {A B : List Nat} {t : Nat} {r : Resident K V} (hR : R .hot = A ++ t :: B)
    (ht : s.entries.item t = some (.resident r)) (hst : r.state = .hot) (hw : c.weight r.key r.value ≠ 0)
    (hp : c.pinned r.key r.value = false) (hz : r.referenced = 0) {q' : Req K V RS} {b : Bool}
    (hv : s.hotVictim c q t r = .ok (s', q', b)) :
    b = true ∧ ∀ m0, (∀ m1, Clock.Hand c (s.abs (upd R .hot (t :: (B ++ A)))) m1 → Clock.Hand c m0 m1) →
      ∃ m' L, Clock.TurnHot c m0 q.st L m' q'.st true ∧ q'.log = q.log ++ L ∧ Implements c s' m' := by
  obtain ⟨s2, q2, h1, -, -, st1, v1, hb, h2⟩ := hotVictim_spec h q ht hst hw hp hz
  rw [h1] at hv
  simp only [Except.ok.injEq, Prod.mk.injEq] at hv
  obtain ⟨rfl, rfl, rfl⟩ := hv
  refine ⟨rfl, fun m0 hm0 => ?_⟩
  have hnd := hr.links.nodup .hot
  rw [hR] at hnd
  have hnd' := List.nodup_cons.mp (List.perm_middle.nodup_iff.mp hnd)
  have htA : t ∉ A := fun hm => hnd'.1 (by simp [hm])
  have hBA : t ∉ B ++ A := fun hm => hnd'.1 (by simp only [List.mem_append] at hm ⊢; exact hm.symm)
  have hleave : leave .hot t R = upd R .hot (B ++ A) := by
    unfold leave; rw [hR, skipSlot_split htA]
  have hat : (s.abs (upd R .hot (t :: (B ++ A)))).hot = r.key :: klist s.entries.item (B ++ A) := by
    rw [abs_hot]; exact klist_cons (keyAt_res ht) _
  have hhere : (s.abs (upd R .hot (t :: (B ++ A)))).items r.key = some r.item := h.abs_item _ ht
  have hand := hm0 _ (.stop hat hhere hp hz)
  rcases h2 with ⟨hl, rfl, hT⟩ | ⟨hl, rfl, hT⟩
  · refine ⟨_, _, .spare hand hat hhere hb hl, rfl, ?_⟩
    obtain ⟨F', hr'⟩ := hT.rings R F hr
    rw [hleave] at hr'
    refine ⟨_, F', hr', ?_⟩
    rw [(hT.chg h).abs_same h rfl, abs_hot, abs_hot]; rfl
  · refine ⟨_, _, .evict hand hat hhere hb hl, by simp [Resident.item], ?_⟩
    obtain ⟨F', hr'⟩ := hT.rings R F hr
    rw [hleave] at hr'
    refine ⟨_, F', hr', ?_⟩
    have hct : t ∉ R .cold := hr.not_mem (i := .hot) (by rw [hR]; simp) (by simp)
    have hgt : t ∉ R .ghost := hr.not_mem (i := .hot) (by rw [hR]; simp) (by simp)
    rw [(hT.chg h).abs_del h (by simp) (by simp), hT.upd.fn]
    simp only [abs_hot, upd_same, upd_other _ _ (show RingId.cold ≠ .hot by simp),
      upd_other _ _ (show RingId.ghost ≠ .hot by simp), klist_upd_off _ _ hct, glist_upd_off _ _ hgt,
      klist_upd_off _ _ hBA]
    rfl

/-- The counters of the items of some keys are lowered. -/
def coolOn (l : List K) (m : Clock K V) : Clock K V :=
  { m with items := fun k => if k ∈ l then (m.items k).map Item.cool else m.items k }

/-- The loop of the hot hand. -/
theorem hotLoop_sim {R : RingId → List Nat} {F : List Nat} (q : Req K V RS) : ∀ (fuel : Nat) (s : Shard K V)
    (A B : List Nat) (t unp : Nat), Inv0 c s → s.HasRings c R F → R .hot = A ++ t :: B →
    (unp = 0 → ∀ u ∈ A, PinnedAt c s u) → ∀ {s' : Shard K V} {q' : Req K V RS} {b : Bool},
    advanceHotLoop c fuel s q t unp = .ok (s', q', b) →
    (b = true → ∀ m0, (∀ m1, Clock.Hand c (s.abs (upd R .hot (t :: (B ++ A)))) m1 → Clock.Hand c m0 m1) →
      ∃ m' L, Clock.TurnHot c m0 q.st L m' q'.st true ∧ q'.log = q.log ++ L ∧ Implements c s' m') ∧
    (b = false → unp = 0 ∧ q' = q ∧ (∀ u ∈ R .hot, PinnedAt c s u) ∧ (∃ F', s'.HasRings c R F') ∧
      s'.abs R = coolOn (klist s.entries.item (t :: B)) (s.abs R))
  | 0, _, _, _, _, _, _, _, _, _, _, _, _, h => by simp [advanceHotLoop] at h
  | fuel + 1, s, A, B, t, unp, hi, hr, hR, hA, s', q', b, hres => by
    have htm : t ∈ R .hot := by rw [hR]; simp
    obtain ⟨r, ht, hst, hw⟩ := hr.hot htm
    have hnd := hr.links.nodup .hot
    rw [hR] at hnd
    have hnd' := List.nodup_cons.mp (List.perm_middle.nodup_iff.mp hnd)
    have htB : t ∉ B := fun hm => hnd'.1 (by simp [hm])
    unfold advanceHotLoop at hres
    rw [Slab.get_eq, ht] at hres
    simp only [Option.map_some] at hres
    rw [if_neg (fun h => h hst)] at hres
    have hr' := rings_touch (n := min r.referenced MAX_F - 1) hr ht
    have hpin : ∀ u, PinnedAt c (s.setEntry t (.resident { r with referenced := min r.referenced MAX_F - 1 })) u ↔
        PinnedAt c s u := fun u => PinnedAt.touch ht
    have hkl : ∀ l, klist (s.setEntry t (.resident { r with referenced := min r.referenced MAX_F - 1 })).entries.item l =
        klist s.entries.item l := by
      intro l
      rw [entries_setEntry, (Slab.Upd.setItem ht _).fn]
      exact klist_upd_key _ _ (by simp [keyAt, ht, keyOf])
    -- the item in this slot
    have one : ∀ (hpr : c.pinned r.key r.value = true ∨ r.referenced ≠ 0) (l : List Nat), t ∉ l → (∀ u ∈ l, u ∈ R .hot) →
        ∀ {s2 : Shard K V}, s2.abs R = coolOn (klist s.entries.item l)
          ((s.setEntry t (.resident { r with referenced := min r.referenced MAX_F - 1 })).abs R) →
        s2.abs R = coolOn (klist s.entries.item (t :: l)) (s.abs R) := by
      intro hpr l hl hlR s2 h2
      rw [h2, abs_touch hi q ht hst hpr, klist_cons (keyAt_res ht)]
      have hkl : r.key ∉ klist s.entries.item l := hi.key_off hr ht hlR (by simp) hl
      simp only [Clock.setItem, coolOn]
      congr 1
      funext k
      by_cases hk : k = r.key
      · subst hk
        simp [hkl, hi.abs_item R ht]
      · simp [hk, put_other _ _ hk]
    -- the recursive call
    have recur : ∀ unp', ((c.pinned r.key r.value = true ∧ unp' = unp ∧
          ¬ (unp = 0 ∧ s.head .hot = some (s.entries.nxt t))) ∨
          (c.pinned r.key r.value = false ∧ unp' = unp + 1 ∧ r.referenced ≠ 0)) →
        advanceHotLoop c fuel (s.setEntry t (.resident { r with referenced := min r.referenced MAX_F - 1 })) q
            (s.entries.nxt t) unp' = .ok (s', q', b) →
        (b = true → ∀ m0, (∀ m1, Clock.Hand c (s.abs (upd R .hot (t :: (B ++ A)))) m1 → Clock.Hand c m0 m1) →
          ∃ m' L, Clock.TurnHot c m0 q.st L m' q'.st true ∧ q'.log = q.log ++ L ∧ Implements c s' m') ∧
        (b = false → unp = 0 ∧ q' = q ∧ (∀ u ∈ R .hot, PinnedAt c s u) ∧ (∃ F', s'.HasRings c R F') ∧
          s'.abs R = coolOn (klist s.entries.item (t :: B)) (s.abs R)) := by
      intro unp' hcase hrec
      have hpr := hcase.imp (·.1) (·.2.2)
      have hi' := (touch_turned hi q ht hst hpr rfl).inv
      have key : ∃ A2 B2, R .hot = A2 ++ s.entries.nxt t :: B2 ∧
          s.entries.nxt t :: (B2 ++ A2) = (B ++ A) ++ [t] ∧
          (unp' = 0 → ∀ u ∈ A2, PinnedAt c s u) ∧
          (s.head .hot ≠ some (s.entries.nxt t) → (s.entries.nxt t :: B2) = B) := by
        rcases hr.next_split hR with ⟨hB, hh, B2, h1, h2⟩ | ⟨hh, B2, h1, h2⟩
        · refine ⟨[], B2, h1, by simp [hB, h2], by simp, fun h => absurd hh h⟩
        · refine ⟨A ++ [t], B2, h2, by simp [h1], ?_, fun _ => h1.symm⟩
          intro h0 u hu
          obtain ⟨h3, h4⟩ : unp = 0 ∧ c.pinned r.key r.value = true := by
            rcases hcase with ⟨h3, h4, -⟩ | ⟨h3, h4, -⟩
            · exact ⟨by omega, h3⟩
            · omega
          simp only [List.mem_append, List.mem_singleton] at hu
          rcases hu with hu | rfl
          · exact hA h3 u hu
          · intro r' hr'; rw [ht] at hr'; cases hr'; exact h4
      obtain ⟨A2, B2, k1, k2, k3, k4⟩ := key
      obtain ⟨g1, g2⟩ := hotLoop_sim q fuel _ A2 B2 (s.entries.nxt t) unp' hi' hr' k1
        (fun h0 u hu => (hpin u).mpr (k3 h0 u hu)) hrec
      constructor
      · intro hb m0 hm0
        refine g1 hb m0 (fun m1 hm1 => hm0 m1 ?_)
        refine .pass (k := r.key) (l := klist s.entries.item (B ++ A)) (i := r.item) ?_ (hi.abs_item _ ht) hpr ?_
        · rw [abs_hot]; exact klist_cons (keyAt_res ht) _
        · rw [k2, abs_touch hi q ht hst hpr, abs_hot] at hm1
          rw [abs_hot]
          rw [klist_append _ (B ++ A) [t], klist_cons (keyAt_res ht)] at hm1
          exact hm1
      · intro hb
        obtain ⟨f1, f2, f3, f4, f5⟩ := g2 hb
        have h0 : unp = 0 ∧ s.head .hot ≠ some (s.entries.nxt t) := by
          rcases hcase with ⟨-, h3, h4⟩ | ⟨-, h3, -⟩
          · have : unp = 0 := by omega
            exact ⟨this, fun hh => h4 ⟨this, hh⟩⟩
          · omega
        refine ⟨h0.1, f2, fun u hu => (hpin u).mp (f3 u hu), f4, ?_⟩
        rw [hkl, k4 h0.2] at f5
        exact one hpr B htB (fun u hu => by rw [hR]; simp [hu]) f5
    cases hp : c.pinned r.key r.value with
    | true =>
      rw [hp] at recur hres one
      simp only [if_true] at hres
      have hhd : s.head .hot = s.hotHead := rfl
      split at hres
      · rename_i hex
        simp only [Except.ok.injEq, Prod.mk.injEq] at hres
        obtain ⟨rfl, rfl, rfl⟩ := hres
        refine ⟨by simp, fun _ => ?_⟩
        rcases hr.next_split hR with ⟨hB, -⟩ | ⟨hne, -⟩
        · subst hB
          refine ⟨hex.1, rfl, ?_, ⟨F, hr'⟩, ?_⟩
          · intro u hu
            rw [hR] at hu
            simp only [List.mem_append, List.mem_singleton] at hu
            rcases hu with hu | rfl
            · exact hA hex.1 u hu
            · intro r' hr'; rw [ht] at hr'; cases hr'; exact hp
          · exact one (Or.inl rfl) [] (by simp) (by simp) (by simp [coolOn])
        · exact absurd (hhd.trans hex.2.symm) hne
      · rename_i hex
        exact recur unp (Or.inl ⟨rfl, rfl, fun h => hex ⟨h.1, h.2.symm⟩⟩) hres
    | false =>
      rw [hp] at recur hres
      simp only [Bool.false_eq_true, if_false] at hres
      split at hres
      · rename_i hne
        exact recur _ (Or.inr ⟨rfl, rfl, hne⟩) hres
      · rename_i hz
        obtain ⟨h1, h2⟩ := hotVictim_sim hi hr q hR ht hst hw hp (by omega) hres
        exact ⟨fun _ => h2, fun hb => by rw [h1] at hb; cases hb⟩

/-- What a turn leads to. -/
theorem advanceHot_sim {R : RingId → List Nat} {F : List Nat} (h : Inv0 c s) (hr : s.HasRings c R F) (q : Req K V RS)
    {q' : Req K V RS} {b : Bool} (hres : s.advanceHot c q = .ok (s', q', b)) :
    ∃ m' L, Clock.TurnHot c (s.abs R) q.st L m' q'.st b ∧ q'.log = q.log ++ L ∧ Implements c s' m' := by
  have hhd : s.hotHead = (R .hot).head? := hr.heads .hot
  unfold advanceHot at hres
  cases hR : R .hot with
  | nil =>
    rw [hR] at hhd
    simp only [hhd, List.head?_nil] at hres
    simp only [Except.ok.injEq, Prod.mk.injEq] at hres
    obtain ⟨rfl, rfl, rfl⟩ := hres
    have hot : (s.abs R).hot = [] := by simp [abs, hR]
    refine ⟨_, [], .stuck (by rw [hot]; simp), by simp, R, F, hr, ?_⟩
    simp only [Clock.coolAll, hot, List.not_mem_nil, if_false]
    rw [← hot]
  | cons t B =>
    rw [hR] at hhd
    simp only [hhd, List.head?_cons] at hres
    obtain ⟨h1, h2⟩ := hotLoop_sim q s.hotFuel s [] B t 0 h hr (by simp [hR]) (by simp) hres
    cases b with
    | true =>
      refine h1 rfl _ (fun m1 hm1 => ?_)
      have : upd R .hot (t :: (B ++ [])) = R := by
        rw [List.append_nil, ← hR]; simp
      rwa [this] at hm1
    | false =>
      obtain ⟨-, rfl, f3, ⟨F', f4⟩, f5⟩ := h2 rfl
      have hot : (s.abs R).hot = klist s.entries.item (t :: B) := by simp [abs, hR]
      refine ⟨_, [], .stuck ?_, by simp, R, F', f4, ?_⟩
      · intro k hk
        rw [hot, ← hR] at hk
        obtain ⟨u, hu, h3⟩ := mem_klist.mp hk
        obtain ⟨r, h4, -⟩ := hr.hot hu
        rw [keyAt_res h4] at h3
        cases h3
        simp [Clock.pinned, h.abs_item R h4, Resident.item, f3 u hu r h4]
      · rw [f5, Clock.coolAll, coolOn, hot]

/-- Taking items out of the hot list. -/
theorem evictHotLoop_sim : ∀ (fuel : Nat) (s : Shard K V) (q : Req K V RS) (R : RingId → List Nat) (F : List Nat), Inv0 c s →
    s.HasRings c R F → ∀ {s' : Shard K V} {q' : Req K V RS}, evictHotLoop c fuel s q = .ok (s', q') →
    ∃ m' L, Clock.ShrinkHot c (s.abs R) q.st L m' q'.st ∧ q'.log = q.log ++ L ∧ Implements c s' m'
  | 0, _, _, _, _, _, _, _, _, h => by simp [evictHotLoop] at h
  | fuel + 1, s, q, R, F, h, hr, s', q', hres => by
    unfold evictHotLoop at hres
    have hw := abs_hotWeight h hr
    split at hres
    · rename_i hover
      obtain ⟨s1, q1, b, h1, h2, -⟩ := advanceHot_spec h q
      rw [h1] at hres
      simp only [Res.ok_bind] at hres
      obtain ⟨m1, L, g1, g2, R1, F1, g3, rfl⟩ := advanceHot_sim h hr q h1
      have hov : (s.abs R).target < (s.abs R).hotWeight c := by rw [hw]; exact hover
      cases b with
      | true =>
        simp only [if_true] at hres
        obtain ⟨m2, L2, f1, f2, f3⟩ := evictHotLoop_sim fuel s1 q1 R1 F1 h2.inv g3 hres
        exact ⟨m2, L ++ L2, .more hov g1 f1, by rw [f2, g2, List.append_assoc], f3⟩
      | false =>
        simp only [Bool.false_eq_true, if_false, Except.ok.injEq, Prod.mk.injEq] at hres
        obtain ⟨rfl, rfl⟩ := hres
        exact ⟨_, L, .stop hov g1, g2, R1, F1, g3, rfl⟩
    · rename_i hover
      simp only [Except.ok.injEq, Prod.mk.injEq] at hres
      obtain ⟨rfl, rfl⟩ := hres
      exact ⟨_, [], .done (by rw [hw]; exact Nat.le_of_not_lt hover), by simp, R, F, hr, rfl⟩

/-- The oldest ghost leaves. -/
theorem advanceGhost_sim {R : RingId → List Nat} {F : List Nat} (h : Inv0 c s) (hr : s.HasRings c R F) (q : Req K V RS)
    (hn : 0 < s.numNonResident) (hres : s.advanceGhost = .ok s') :
    Implements c s' { s.abs R with ghosts := (s.abs R).ghosts.tail } := by
  obtain ⟨s2, h1, -, -, t, g, hhd, ht, hT⟩ := advanceGhost_spec h q hn
  rw [h1] at hres
  cases hres
  have hd := hr.heads .ghost
  rw [show s.head .ghost = some t from hhd] at hd
  obtain ⟨l, hR⟩ : ∃ l, R .ghost = t :: l := by
    cases hR : R .ghost with
    | nil => rw [hR] at hd; cases hd
    | cons a l => rw [hR] at hd; cases hd; exact ⟨l, rfl⟩
  obtain ⟨F', hr'⟩ := hT.rings R F hr
  have hleave : leave .ghost t R = upd R .ghost l := by
    unfold leave; rw [hR]
    have := skipSlot_split (t := t) (A := []) (B := l) (by simp)
    simp only [List.nil_append, List.append_nil] at this
    rw [this]
  rw [hleave] at hr'
  refine ⟨_, F', hr', ?_⟩
  have hnd := hr.links.nodup .ghost
  rw [hR] at hnd
  have htl := (List.nodup_cons.mp hnd).1
  have hct : t ∉ R .cold := hr.not_mem (i := .ghost) (by rw [hR]; simp) (by simp)
  have hht : t ∉ R .hot := hr.not_mem (i := .ghost) (by rw [hR]; simp) (by simp)
  rw [(hT.chg h).abs_idle h (by simp) (by simp) (by simp) (by simp), hT.upd.fn]
  simp only [abs_ghost, upd_same, upd_other _ _ (show RingId.cold ≠ .ghost by simp),
    upd_other _ _ (show RingId.hot ≠ .ghost by simp), klist_upd_off _ _ hct, glist_upd_off _ _ htl,
    klist_upd_off _ _ hht]
  have : (s.abs R).ghosts.tail = glist s.entries.item l := by
    simp only [abs, hR, glist_cons ht, List.tail_cons]
  rw [this]; rfl

omit [DecidableEq K] in
theorem dropWhile_split {p : K → Bool} {A B : List K} {k : K} (hA : ∀ x ∈ A, p x = true) (hk : p k = false) :
    (A ++ k :: B).dropWhile p = k :: B ∧ (A ++ k :: B).takeWhile p = A := by
  rw [List.dropWhile_append_of_pos hA, List.takeWhile_append_of_pos hA]
  simp [hk]

theorem abs_passes (h : Inv0 c s) (R : RingId → List Nat) {t : Nat} {r : Resident K V}
    (ht : s.entries.item t = some (.resident r)) :
    (s.abs R).passes c r.key = (r.referenced == 0 && c.pinned r.key r.value) := by
  simp [Clock.passes, h.abs_item R ht, Resident.item]

omit [DecidableEq K] in
theorem haunt_over {m : Clock K V} (h : m.ghostCap < m.ghosts.length + 1) (x : UInt64) :
    m.haunt x = { m with ghosts := (m.ghosts ++ [x]).tail } := by
  unfold Clock.haunt; rw [if_pos h]

omit [DecidableEq K] in
theorem haunt_room {m : Clock K V} (h : ¬ m.ghostCap < m.ghosts.length + 1) (x : UInt64) :
    m.haunt x = { m with ghosts := m.ghosts ++ [x] } := by
  unfold Clock.haunt; rw [if_neg h]

/-- The loop of the cold hand. -/
theorem coldLoop_sim {R : RingId → List Nat} {F : List Nat} (h : Inv0 c s) (hr : s.HasRings c R F) (q : Req K V RS)
    (hov : s.weightHot + s.weightCold < 2 ^ 64) : ∀ (fuel : Nat) (A B : List Nat) (t : Nat), R .cold = A ++ t :: B →
    (∀ k ∈ klist s.entries.item A, (s.abs R).passes c k = true) → ∀ {s' : Shard K V} {q' : Req K V RS} {b : Bool},
    advanceColdLoop c fuel s q t = .ok (s', q', b) →
    ∃ m' L, Clock.TurnCold c (s.abs R) q.st L m' q'.st b ∧ q'.log = q.log ++ L ∧ Implements c s' m'
  | 0, _, _, _, _, _, _, _, _, h => by simp [advanceColdLoop] at h
  | fuel + 1, A, B, t, hR, hA, s', q', b, hres => by
    have htm : t ∈ R .cold := by rw [hR]; simp
    obtain ⟨r, ht, hst, hw⟩ := hr.cold htm
    have hnd := hr.links.nodup .cold
    rw [hR] at hnd
    have hnd' := List.nodup_cons.mp (List.perm_middle.nodup_iff.mp hnd)
    have htA : t ∉ A := fun hm => hnd'.1 (by simp [hm])
    have hBA : t ∉ B ++ A := fun hm => hnd'.1 (by simp only [List.mem_append] at hm ⊢; exact hm.symm)
    have hht : t ∉ R .hot := hr.not_mem (i := .cold) htm (by simp)
    have hgt : t ∉ R .ghost := hr.not_mem (i := .cold) htm (by simp)
    have hpass := abs_passes h R ht
    have hcold : (s.abs R).cold = klist s.entries.item A ++ r.key :: klist s.entries.item B := by
      simp only [abs, hR, klist_append, klist_cons (keyAt_res ht)]
    have hleave : leave .cold t R = upd R .cold (B ++ A) := by
      unfold leave; rw [hR, skipSlot_split htA]
    unfold advanceColdLoop at hres
    rw [Slab.get_eq, ht] at hres
    simp only [Option.map_some] at hres
    rw [if_neg (fun h => h hst)] at hres
    split at hres
    · rename_i href
      -- promoted
      have hno : (s.abs R).passes c r.key = false := by rw [hpass]; simp [href]
      obtain ⟨d1, d2⟩ := dropWhile_split (B := klist s.entries.item B) hA hno
      rw [← hcold] at d1 d2
      obtain ⟨s2, q2, g1, -, -, s4, hT, g2⟩ := coldPromote_spec h q ht hst hw href hov
      rw [g1] at hres
      simp only [Except.ok.injEq, Prod.mk.injEq] at hres
      obtain ⟨rfl, rfl, rfl⟩ := hres
      obtain ⟨F4, hr4⟩ := hT.rings R F hr
      simp only [hleave] at hr4
      obtain ⟨m', L, e1, e2, e3⟩ := evictHotLoop_sim _ s4 q _ F4 hT.inv hr4 g2
      refine ⟨m', L, .promote d1 (h.abs_item R ht) href ?_, e2, e3⟩
      rw [(hT.chg h).abs_same h rfl, abs_hot, abs_cold] at e1
      rw [d2]
      simp only [klist_append, klist_cons (keyAt_res ht), klist_nil] at e1
      exact e1
    · rename_i href
      simp only [ne_eq, Classical.not_not] at href
      cases hp : c.pinned r.key r.value with
      | true =>
        rw [hp] at hres
        simp only [if_true] at hres
        have hyes : (s.abs R).passes c r.key = true := by rw [hpass]; simp [href, hp]
        have hhd : s.head .cold = s.coldHead := rfl
        split at hres
        · rename_i hex
          rcases hr.next_split hR with ⟨hB, -⟩ | ⟨hne, -⟩
          · subst hB
            obtain ⟨m', L, e1, e2, e3⟩ := advanceHot_sim h hr q hres
            refine ⟨m', L, .hot ?_ e1, e2, e3⟩
            rw [hcold]
            refine List.dropWhile_eq_nil_iff.mpr ?_
            intro x hx
            simp only [klist_nil, List.mem_append, List.mem_singleton] at hx
            rcases hx with hx | rfl
            · exact hA x hx
            · exact hyes
          · exact absurd (hhd.trans hex.symm) hne
        · rename_i hex
          rcases hr.next_split hR with ⟨-, hh, -⟩ | ⟨-, B2, h1, h2⟩
          · exact absurd (hhd.symm.trans hh).symm hex
          · refine coldLoop_sim h hr q hov fuel (A ++ [t]) B2 _ h2 ?_ hres
            intro x hx
            simp only [klist_append, klist_cons (keyAt_res ht), klist_nil, List.mem_append, List.mem_singleton] at hx
            rcases hx with hx | rfl
            · exact hA x hx
            · exact hyes
      | false =>
        rw [hp] at hres
        simp only [Bool.false_eq_true, if_false] at hres
        have hno : (s.abs R).passes c r.key = false := by rw [hpass]; simp [hp]
        obtain ⟨d1, d2⟩ := dropWhile_split (B := klist s.entries.item B) hA hno
        rw [← hcold] at d1 d2
        obtain ⟨s2, q2, g1, -, -, st1, v1, hb, g2⟩ := coldVictim_spec h q ht hst hw hp href
        rw [g1] at hres
        simp only [Except.ok.injEq, Prod.mk.injEq] at hres
        obtain ⟨rfl, rfl, rfl⟩ := hres
        rcases g2 with ⟨hl, rfl, hT⟩ | ⟨hl, rfl, s5, hT, hnum, hG⟩
        · refine ⟨_, _, .spare d1 (h.abs_item R ht) href hb hl, rfl, ?_⟩
          obtain ⟨F', hr'⟩ := hT.rings R F hr
          rw [hleave] at hr'
          refine ⟨_, F', hr', ?_⟩
          rw [(hT.chg h).abs_same h rfl, abs_cold, d2]
          simp only [klist_append]; rfl
        · refine ⟨_, _, .evict d1 (h.abs_item R ht) href hb hl, by simp [Resident.item], ?_⟩
          obtain ⟨F5, hr5⟩ := hT.rings R F hr
          simp only [hleave] at hr5
          have hgl : (s.abs R).ghosts.length = s.numNonResident := abs_ghosts h hr
          have habs : s5.abs (upd (upd R .cold (B ++ A)) .ghost (R .ghost ++ [t])) =
              { (s.abs R).dropItem r.key with
                cold := klist s.entries.item (B ++ A), ghosts := (s.abs R).ghosts ++ [c.hash r.key] } := by
            have hgn : glist (upd s.entries.item t (some (.ghost (c.hash r.key)))) [t] = [c.hash r.key] := by
              rw [glist_cons (h := c.hash r.key) (by simp)]; rfl
            rw [(hT.chg h).abs_del h (by simp) (by simp), hT.upd.fn]
            simp only [abs_ghost, abs_cold, upd_same, upd_other _ _ (show RingId.cold ≠ .ghost by simp),
              upd_other _ _ (show RingId.hot ≠ .ghost by simp), upd_other _ _ (show RingId.hot ≠ .cold by simp),
              klist_upd_off _ _ hht, klist_upd_off _ _ hBA, glist_append, glist_upd_off _ _ hgt, hgn]
            rfl
          have hcl : klist s.entries.item B ++ (s.abs R).cold.takeWhile ((s.abs R).passes c) =
              klist s.entries.item (B ++ A) := by rw [d2, klist_append]
          rw [hcl]
          rcases hG with ⟨hlt, hadv⟩ | ⟨hle, rfl⟩
          · have := advanceGhost_sim hT.inv hr5 q (by omega) hadv
            rw [habs] at this
            have hif : (s.abs R).ghostCap < (s.abs R).ghosts.length + 1 := by rw [hgl]; exact hlt
            rw [haunt_over]
            · exact this
            · exact hif
          · refine ⟨_, F5, hr5, ?_⟩
            rw [habs]
            have hif : ¬ (s.abs R).ghostCap < (s.abs R).ghosts.length + 1 := by
              rw [hgl]; exact Nat.not_lt.mpr hle
            rw [haunt_room]
            · rfl
            · exact hif

theorem advanceCold_sim {R : RingId → List Nat} {F : List Nat} (h : Inv0 c s) (hr : s.HasRings c R F) (q : Req K V RS)
    (hov : s.weightHot + s.weightCold < 2 ^ 64) {q' : Req K V RS} {b : Bool}
    (hres : s.advanceCold c q = .ok (s', q', b)) :
    ∃ m' L, Clock.TurnCold c (s.abs R) q.st L m' q'.st b ∧ q'.log = q.log ++ L ∧ Implements c s' m' := by
  have hhd : s.coldHead = (R .cold).head? := hr.heads .cold
  unfold advanceCold at hres
  cases hR : R .cold with
  | nil =>
    rw [hR] at hhd
    simp only [hhd, List.head?_nil] at hres
    obtain ⟨m', L, e1, e2, e3⟩ := advanceHot_sim h hr q hres
    exact ⟨m', L, .hot (by simp [abs, hR]) e1, e2, e3⟩
  | cons t B =>
    rw [hR] at hhd
    simp only [hhd, List.head?_cons] at hres
    exact coldLoop_sim h hr q hov _ [] B t (by simp [hR]) (by simp) hres

/-- The eviction loop makes room as the abstract machine does. -/
theorem evictLoop_sim (extra : Nat) : ∀ (fuel : Nat) (s : Shard K V) (q : Req K V RS) (R : RingId → List Nat) (F : List Nat),
    Inv0 c s → s.HasRings c R F → ∀ {s' : Shard K V} {q' : Req K V RS}, evictLoop c extra fuel s q = .ok (s', q') →
    ∃ m' L, Clock.Fit c extra (s.abs R) q.st L m' q'.st ∧ q'.log = q.log ++ L ∧ Implements c s' m'
  | 0, _, _, _, _, _, _, _, _, h => by simp [evictLoop] at h
  | fuel + 1, s, q, R, F, h, hr, s', q', hres => by
    unfold evictLoop at hres
    have hw := abs_hotWeight h hr
    have hw2 := abs_coldWeight h hr
    rcases Nat.lt_or_ge (s.weightHot + s.weightCold) (2 ^ 64) with hov | hov
    rotate_left
    · rw [cadd_err hov] at hres; cases hres
    rw [cadd_ok hov] at hres
    simp only [Res.ok_bind] at hres
    rcases Nat.lt_or_ge (s.weightHot + s.weightCold + extra) (2 ^ 64) with hov2 | hov2
    rotate_left
    · rw [cadd_err hov2] at hres; cases hres
    rw [cadd_ok hov2] at hres
    simp only [Res.ok_bind] at hres
    split at hres
    · rename_i hover
      obtain ⟨s1, q1, b, h1, h2, -⟩ := advanceCold_spec h q hov
      rw [h1] at hres
      simp only [Res.ok_bind] at hres
      obtain ⟨m1, L, g1, g2, R1, F1, g3, rfl⟩ := advanceCold_sim h hr q hov h1
      have hlt : (s.abs R).cap < (s.abs R).hotWeight c + (s.abs R).coldWeight c + extra := by
        rw [hw, hw2]; exact hover
      cases b with
      | true =>
        simp only [if_true] at hres
        obtain ⟨m2, L2, f1, f2, f3⟩ := evictLoop_sim extra fuel s1 q1 R1 F1 h2.inv g3 hres
        exact ⟨m2, L ++ L2, .more hlt g1 f1, by rw [f2, g2, List.append_assoc], f3⟩
      | false =>
        simp only [Bool.false_eq_true, if_false, Except.ok.injEq, Prod.mk.injEq] at hres
        obtain ⟨rfl, rfl⟩ := hres
        exact ⟨_, L, .stop hlt g1, g2, R1, F1, g3, rfl⟩
    · rename_i hover
      simp only [Except.ok.injEq, Prod.mk.injEq] at hres
      obtain ⟨rfl, rfl⟩ := hres
      exact ⟨_, [], .done (by rw [hw, hw2]; exact Nat.le_of_not_lt hover), by simp, R, F, hr, rfl⟩

end Shard
end QuickCache
