import Verif.Proofs.EvSteps

/-!
# Total correctness of the eviction machinery
-/

namespace QuickCache
variable {K V RS : Type _}

namespace Shard
variable {c : Cfg K V RS} {s : Shard K V}

theorem linkTo_spec {rho : Nat → Option RingId} (hs : Struct s.entries s.head rho) (i : RingId) {t : Nat}
    (ht : (s.entries.item t).isSome) (hr : rho t = none) :
    ∃ e h, s.linkTo i t = .ok ({ s with entries := e }.setHead i (some h)) ∧ e.items = s.entries.items ∧
      e.nextFree = s.entries.nextFree ∧ Struct e (upd s.head i (some h)) (upd rho t (some i)) := by
  obtain ⟨e, h, h1, h2, h3, h4⟩ := hs.link i ht hr
  exact ⟨e, h, by unfold linkTo; rw [h1]; rfl, h2, h3, h4⟩

theorem unlinkFrom_spec {rho : Nat → Option RingId} (hs : Struct s.entries s.head rho) {i : RingId} {t : Nat}
    (hr : rho t = some i) :
    ∃ e h, s.unlinkFrom i t = .ok ({ s with entries := e }.setHead i h) ∧ e.items = s.entries.items ∧
      e.nextFree = s.entries.nextFree ∧ Struct e (upd s.head i h) (upd rho t none) := by
  obtain ⟨e, h, h1, h2, h3, h4, -⟩ := hs.unlink hr
  exact ⟨e, h, by unfold unlinkFrom; rw [h1]; rfl, h2, h3, h4⟩

theorem linkTo_moves {rho : Nat → Option RingId} (hs : Struct s.entries s.head rho) (i : RingId) {t : Nat}
    (ht : (s.entries.item t).isSome) (hr : rho t = none) :
    ∃ e h, s.linkTo i t = .ok ({ s with entries := e }.setHead i (some h)) ∧ s.entries.link t (s.head i) = .ok (e, h) ∧
      e.items = s.entries.items ∧ e.nextFree = s.entries.nextFree ∧
      Moves s.entries s.head rho e (upd s.head i (some h)) (upd rho t (some i)) (fun R => upd R i (R i ++ [t])) := by
  obtain ⟨e, h, h1, h2, h3, h4⟩ := hs.link i ht hr
  exact ⟨e, h, by unfold linkTo; rw [h1]; rfl, h1, h2, h3, Moves.link ht hr h1⟩

theorem unlinkFrom_moves {rho : Nat → Option RingId} (hs : Struct s.entries s.head rho) {i : RingId} {t : Nat}
    (hr : rho t = some i) :
    ∃ e h, s.unlinkFrom i t = .ok ({ s with entries := e }.setHead i h) ∧ s.entries.unlink t = .ok (e, h) ∧
      e.items = s.entries.items ∧ e.nextFree = s.entries.nextFree ∧
      Moves s.entries s.head rho e (upd s.head i h) (upd rho t none) (fun R => upd R i (skipSlot t (R i))) := by
  obtain ⟨e, h, h1, h2, h3, h4, -⟩ := hs.unlink hr
  exact ⟨e, h, by unfold unlinkFrom; rw [h1]; rfl, h1, h2, h3, Moves.unlink hr h1⟩

theorem rho_resident {I : Nat → Option (Entry K V)} {t : Nat} {r : Resident K V} (ht : I t = some (.resident r))
    (hw : c.weight r.key r.value ≠ 0) : c.rho I t = some r.state.ring := by
  unfold Cfg.rho; rw [ht]; simp [Cfg.ringOf, hw]

theorem rho_light {I : Nat → Option (Entry K V)} {t : Nat} {r : Resident K V} (ht : I t = some (.resident r))
    (hw : c.weight r.key r.value = 0) : c.rho I t = none := by
  unfold Cfg.rho; rw [ht]; simp [Cfg.ringOf, hw]

theorem rho_ghost {I : Nat → Option (Entry K V)} {t : Nat} {g : UInt64} (ht : I t = some (.ghost g)) :
    c.rho I t = some .ghost := by
  unfold Cfg.rho; rw [ht]; simp [Cfg.ringOf]

theorem rho_placeholder {I : Nat → Option (Entry K V)} {t : Nat} {p : Placeholder K}
    (ht : I t = some (.placeholder p)) : c.rho I t = none := by
  unfold Cfg.rho; rw [ht]; simp [Cfg.ringOf]

/-- A slot on the ring of a resident state holds a resident of that state with non-zero weight. -/
theorem of_rho {I : Nat → Option (Entry K V)} {t : Nat} {st : St} (h : c.rho I t = some st.ring) :
    ∃ r, I t = some (.resident r) ∧ r.state = st ∧ c.weight r.key r.value ≠ 0 := by
  unfold Cfg.rho at h
  cases he : I t with
  | none => rw [he] at h; simp at h
  | some e =>
    rw [he, Option.bind_some] at h
    cases e with
    | resident r =>
      simp only [Cfg.ringOf] at h
      split at h
      · simp at h
      · rename_i hw
        refine ⟨r, rfl, ?_, hw⟩
        simp only [Option.some.injEq] at h
        cases hr : r.state <;> rw [hr] at h <;> cases st <;> simp_all [St.ring]
    | placeholder p => simp [Cfg.ringOf] at h
    | ghost g => cases st <;> simp [Cfg.ringOf, St.ring] at h

theorem of_rho_ghost {I : Nat → Option (Entry K V)} {t : Nat} (h : c.rho I t = some .ghost) :
    ∃ g, I t = some (.ghost g) := by
  unfold Cfg.rho at h
  cases he : I t with
  | none => rw [he] at h; simp at h
  | some e =>
    rw [he, Option.bind_some] at h
    cases e with
    | resident r =>
      simp only [Cfg.ringOf] at h
      split at h
      · simp at h
      · cases hr : r.state <;> rw [hr] at h <;> simp [St.ring] at h
    | placeholder p => simp [Cfg.ringOf] at h
    | ghost g => exact ⟨g, rfl⟩

/-- `EvPost0` of a change of a single slot. -/
theorem _root_.QuickCache.EvPost0.of_upd {s' : Shard K V} {q q' : Req K V RS} {t : Nat} {old new : Option (Entry K V)}
    {L : List (Event K V)} (h : Inv0 c s) (hinv : Inv0 c s') (hu : Slab.Upd s.entries s'.entries t old new)
    (hL : q'.log = q.log ++ L) (hstep : EvStep c s.entries.item q.st L (upd s.entries.item t new) q'.st)
    (same : Same s s')
    (hmap : (s'.map = s.map ∧ new.isSome) ∨ (s'.map = s.map.filter (fun b => b.2 != t) ∧ new = none))
    (hlen : s'.entries.entries.length = s.entries.entries.length)
    (total : s'.weightHot + s'.weightCold ≤ s.weightHot + s.weightCold)
    (hmu : muF c new ≤ muF c old) :
    EvPost0 c s q s' q' ∧ QuickCache.mu c s' + muF c old = QuickCache.mu c s + muF c new := by
  have hsum := hu.sum (muF c) rfl
  refine ⟨⟨hinv, ⟨L, hL, ?_⟩, same, ?_, hlen, total, ?_⟩, ?_⟩
  · rw [hu.fn]; exact .single hstep
  · intro b
    rcases hmap with ⟨hm, hn⟩ | ⟨hm, hn⟩
    · rw [hm]
      exact ⟨fun hb => ⟨hb, by rw [← hm] at hb; exact hinv.map_occ hb⟩, fun hb => hb.1⟩
    · rw [hm]
      simp only [List.mem_filter, bne_iff_ne, ne_eq]
      constructor
      · rintro ⟨b1, b2⟩
        refine ⟨b1, ?_⟩
        rw [hu.other b2]; exact h.map_occ b1
      · rintro ⟨b1, b2⟩
        refine ⟨b1, ?_⟩
        intro hbt
        rw [hbt, hu.after, hn] at b2; simp at b2
  · unfold QuickCache.mu; omega
  · unfold QuickCache.mu; omega

/-- `EvPost` of a change of a single slot. -/
theorem _root_.QuickCache.EvPost.of_upd {s' : Shard K V} {q q' : Req K V RS} {t : Nat} {old new : Option (Entry K V)}
    {L : List (Event K V)} (h : Inv0 c s) (hinv : Inv0 c s') (hu : Slab.Upd s.entries s'.entries t old new)
    (hL : q'.log = q.log ++ L) (hstep : EvStep c s.entries.item q.st L (upd s.entries.item t new) q'.st)
    (same : Same s s')
    (hmap : (s'.map = s.map ∧ new.isSome) ∨ (s'.map = s.map.filter (fun b => b.2 != t) ∧ new = none))
    (hlen : s'.entries.entries.length = s.entries.entries.length)
    (ghosts : s'.numNonResident ≤ s.numNonResident) (total : s'.weightHot + s'.weightCold ≤ s.weightHot + s.weightCold)
    (hmu : muF c new ≤ muF c old) :
    EvPost c s q s' q' ∧ QuickCache.mu c s' + muF c old = QuickCache.mu c s + muF c new := by
  obtain ⟨h1, h2⟩ := EvPost0.of_upd h hinv hu hL hstep same hmap hlen total hmu
  refine ⟨⟨h1, fun hg => ?_⟩, h2⟩
  have := same.ghostCap
  omega

/-- `s'` arises from `s` by an eviction's change of slot `t`; `M` says what happens to the rings. -/
structure _root_.QuickCache.Turned (c : Cfg K V RS) (s s' : Shard K V) (t : Nat) (old new : Option (Entry K V))
    (M : (RingId → List Nat) → RingId → List Nat) : Prop where
  inv : Inv0 c s'
  upd : Slab.Upd s.entries s'.entries t old new
  same : Same s s'
  map : ∀ b, b ∈ s'.map ↔ b ∈ s.map ∧ (s'.entries.item b.2).isSome
  rings : Moves s.entries s.head (c.rho s.entries.item) s'.entries s'.head (c.rho s'.entries.item) M

/-- Slot `t` leaves ring `i`, the hand moving to the next slot. -/
def leave (i : RingId) (t : Nat) (R : RingId → List Nat) : RingId → List Nat :=
  QuickCache.upd R i (skipSlot t (R i))

theorem _root_.QuickCache.EvPost0.turned {s' : Shard K V} {q q' : Req K V RS} (h : EvPost0 c s q s' q') {t : Nat}
    {old new : Option (Entry K V)} {M : (RingId → List Nat) → RingId → List Nat}
    (hu : Slab.Upd s.entries s'.entries t old new)
    (hm : Moves s.entries s.head (c.rho s.entries.item) s'.entries s'.head
      (QuickCache.upd (c.rho s.entries.item) t (new.bind c.ringOf)) M) : Turned c s s' t old new M :=
  ⟨h.inv, hu, h.same, h.map, hm.congr_rho (by rw [hu.fn, Cfg.rho_upd])⟩

/-- Lowering a counter. -/
theorem touch_post (h : Inv0 c s) (q : Req K V RS) {t n : Nat} {r : Resident K V}
    (ht : s.entries.item t = some (.resident r)) (hst : r.state = .hot)
    (hpr : c.pinned r.key r.value = true ∨ r.referenced ≠ 0) (hn : n = min r.referenced MAX_F - 1) :
    EvPost c s q (s.setEntry t (.resident { r with referenced := n })) q := by
  have hu : Slab.Upd s.entries (s.setEntry t (.resident { r with referenced := n })).entries t
      (some (.resident r)) (some (.resident { r with referenced := n })) := Slab.Upd.setItem ht _
  have hocc : (s.entries.item t).isSome := by simp [ht]
  have hinv : Inv0 c (s.setEntry t (.resident { r with referenced := n })) := by
    refine h.step hu ?_ ?_ ?_ ?_ ?_
    · refine (h.str.setItem hocc _).congr_rho (fun u => ?_)
      by_cases hut : u = t
      · subst hut; simp [Cfg.rho, ht, Cfg.ringOf]
      · rw [upd_other _ _ hut]
    · exact h.idx.change_res ht (h.idx.mapped t _ ht (by simp)) rfl (Or.inr rfl) (by simp)
    · intro st; simp [numF]
    · intro st; simp [wgtF]
    · simp [ghostF]
  exact (EvPost.of_upd h hinv hu (L := []) (by simp)
    (.touch t r n r.state ht (Or.inl ⟨hst, hpr, hst, hn⟩))
    ⟨rfl, rfl, rfl, rfl, rfl, rfl, rfl⟩ (Or.inl ⟨rfl, rfl⟩) (Slab.length_mod ..) (Nat.le_refl _) (Nat.le_refl _)
    (Nat.le_refl _)).1

theorem hotVictim_spec (h : Inv0 c s) (q : Req K V RS) {t : Nat} {r : Resident K V}
    (ht : s.entries.item t = some (.resident r)) (hst : r.state = .hot) (hw : c.weight r.key r.value ≠ 0)
    (hp : c.pinned r.key r.value = false) (hr : r.referenced = 0) :
    ∃ s' q', s.hotVictim c q t r = .ok (s', q', true) ∧ EvPost c s q s' q' ∧ mu c s' < mu c s ∧
      ∃ st1 v1, c.beforeEvict q.st r.key r.value = (st1, v1) ∧
        ((c.weight r.key v1 = 0 ∧ q' = { st := st1, log := q.log ++ [.beforeEvict r.key r.value v1] } ∧
          Turned c s s' t (some (.resident r)) (some (.resident { r with value := v1 })) (leave .hot t)) ∨
        (c.weight r.key v1 ≠ 0 ∧ q' = { st := c.onEvict st1 r.key v1, log :=
          q.log ++ [.beforeEvict r.key r.value v1] ++ [.onEvict r.key v1] } ∧
          Turned c s s' t (some (.resident r)) none (leave .hot t))) := by
  have hocc : (s.entries.item t).isSome := by simp [ht]
  have hwle : c.weight r.key r.value ≤ s.weightHot := by
    have := h.wgt_ge ht .hot; simpa [wgtF, hst, wgt] using this
  have hnle : 1 ≤ s.numHot := by
    have h1 := h.cnt.num .hot
    have h2 := Slab.le_sumBy (numF .hot) rfl s.entries t
    rw [ht] at h2
    simp [numF, hst, num] at h1 h2
    omega
  have hrho : c.rho s.entries.item t = some .hot := by rw [rho_resident ht hw, hst]; rfl
  have hmapped := h.idx.mapped t _ ht (by simp)
  simp only [hashOf] at hmapped
  obtain ⟨st1, v1, hb⟩ : ∃ st1 v1, c.beforeEvict q.st r.key r.value = (st1, v1) := ⟨_, _, rfl⟩
  have hu1 : Slab.Upd s.entries (s.entries.setItem t (.resident { r with value := v1 })) t
      (some (.resident r)) (some (.resident { r with value := v1 })) := Slab.Upd.setItem ht _
  have hs1 : Struct (s.entries.setItem t (.resident { r with value := v1 })) s.head (c.rho s.entries.item) :=
    h.str.setItem hocc _
  have hlen1 : (s.entries.setItem t (.resident { r with value := v1 })).entries.length = s.entries.entries.length :=
    Slab.length_mod ..
  have hmu : muF c (some (.resident r)) = 1 := by simp [muF, hw, hst]
  by_cases hw1 : c.weight r.key v1 = 0
  · -- spared
    obtain ⟨e, hd, h1, h0, h2, h3, h4⟩ := unlinkFrom_moves (i := .hot)
      (s := { s.setEntry t (.resident { r with value := v1 }) with weightHot := s.weightHot - c.weight r.key r.value })
      hs1 hrho
    have hu := Slab.Upd.items_right h2 hu1
    have hmu' : muF c (some (.resident { r with value := v1 })) = 0 := by simp [muF, hw1]
    have hinv : Inv0 c (Shard.setHead { s.setEntry t (.resident { r with value := v1 }) with
        weightHot := s.weightHot - c.weight r.key r.value, entries := e } .hot hd) := by
      refine h.step (old := some (.resident r)) (new := some (.resident { r with value := v1 })) (t := t) ?_ ?_ ?_ ?_ ?_ ?_
      · simpa using hu
      · have : (Option.bind (some (Entry.resident { r with value := v1 })) c.ringOf) = none := by
          simp [Cfg.ringOf, hw1]
        rw [this, entries_setHead, head_setHead]; exact h4.struct hs1
      · simp only [map_setHead, probe_setHead, nextPlh_setHead]
        exact h.idx.change_res ht hmapped rfl (Or.inr rfl) (by simp)
      · intro st; cases st <;> simp [numF, num]
      · intro st; cases st <;> simp [wgtF, wgt, hst, hw1, hwle]
      · simp [ghostF]
    have post := EvPost.of_upd (q := q) (q' := { st := st1, log := q.log ++ [.beforeEvict r.key r.value v1] })
      h hinv hu rfl (.spare t r v1 ht hr hw hp hb hw1)
      ⟨rfl, rfl, rfl, rfl, rfl, rfl, rfl⟩ (Or.inl ⟨rfl, rfl⟩) ((Slab.length_congr h2).trans hlen1) (Nat.le_refl _)
      (by simp) (by omega)
    refine ⟨_, _, ?_, post.1, by omega, st1, v1, hb, Or.inl ⟨hw1, rfl, post.1.turned hu ?_⟩⟩
    · unfold hotVictim
      rw [csub_ok hwle]
      simp only [Res.ok_bind, Req.before, hb, hw1, if_true, h1]
    · rw [entries_setHead, head_setHead]
      refine (h4.after_setItem hocc).congr_rho ?_
      simp [Cfg.ringOf, hw1]
  · -- evicted
    obtain ⟨e, hd, h1, h2, h3, h4, -⟩ := hs1.remove (x := .resident { r with value := v1 }) hrho hu1.after
    have hu := hu1.trans h2
    have hmr := mapRemove_spec (s := { s.setEntry t (.resident { r with value := v1 }) with
        weightHot := s.weightHot - c.weight r.key r.value, numHot := s.numHot - 1, entries := e, hotHead := hd })
        h.idx hmapped
    have hinv : Inv0 c { s.setEntry t (.resident { r with value := v1 }) with
        weightHot := s.weightHot - c.weight r.key r.value, numHot := s.numHot - 1, entries := e, hotHead := hd,
        map := s.map.filter (fun b => b.2 != t) } := by
      refine h.step (old := some (.resident r)) (new := none) (t := t) hu ?_ ?_ ?_ ?_ ?_
      · have : Shard.head { s.setEntry t (.resident { r with value := v1 }) with
            weightHot := s.weightHot - c.weight r.key r.value, numHot := s.numHot - 1, entries := e, hotHead := hd,
            map := s.map.filter (fun b => b.2 != t) } = upd s.head .hot hd := by
          funext i; cases i <;> simp [head, upd, setEntry]
        simp only [Option.bind_none]
        exact this ▸ h4
      · exact h.idx.del t
      · intro st; cases st <;> simp [numF, num, hst, hnle]
      · intro st; cases st <;> simp [wgtF, wgt, hst, hwle]
      · simp [ghostF]
    have post := EvPost.of_upd (q := q) (q' := { st := c.onEvict st1 r.key v1, log :=
        q.log ++ [.beforeEvict r.key r.value v1] ++ [.onEvict r.key v1] })
      (L := [.beforeEvict r.key r.value v1, .onEvict r.key v1])
      h hinv hu (by simp) (.evict t r v1 ht hr hw hp hb hw1 none (Or.inl ⟨rfl, hst⟩))
      ⟨rfl, rfl, rfl, rfl, rfl, rfl, rfl⟩ (Or.inr ⟨rfl, rfl⟩) (h3.trans hlen1) (Nat.le_refl _)
      (by simp) (by simp [muF])
    have hm0 : muF c (none : Option (Entry K V)) = 0 := rfl
    refine ⟨_, _, ?_, post.1, by omega, st1, v1, hb, Or.inr ⟨hw1, rfl, post.1.turned hu ?_⟩⟩
    · unfold hotVictim
      rw [csub_ok hwle]
      have : csub (s.setEntry t (.resident { r with value := v1 })).numHot 1 = .ok (s.numHot - 1) := csub_ok hnle
      simp only [Res.ok_bind, Req.before, hb, hw1, if_false, this, entries_setEntry, h1, Req.on]
      simp only [setEntry] at hmr ⊢
      rw [hmr]; rfl
    · have : Shard.head { s.setEntry t (.resident { r with value := v1 }) with
          weightHot := s.weightHot - c.weight r.key r.value, numHot := s.numHot - 1, entries := e, hotHead := hd,
          map := s.map.filter (fun b => b.2 != t) } = QuickCache.upd s.head .hot hd := by
        funext i; cases i <;> simp [head, QuickCache.upd, setEntry]
      rw [this]
      exact (Moves.remove hrho h1 hu1.after).after_setItem hocc

/-! ### Walking a ring -/

theorem _root_.QuickCache.Rings.next_split {T : Type _} {sl : Slab T} {hd : RingId → Option Nat} {rho : Nat → Option RingId}
    {R : RingId → List Nat} {F : List Nat} (h : Rings sl hd rho R F) {i : RingId} {A B : List Nat} {t : Nat}
    (hR : R i = A ++ t :: B) :
    (B = [] ∧ hd i = some (sl.nxt t) ∧ ∃ B2, R i = [] ++ sl.nxt t :: B2 ∧ sl.nxt t :: B2 = A ++ [t]) ∨
    (hd i ≠ some (sl.nxt t) ∧ ∃ B2, B = sl.nxt t :: B2 ∧ R i = (A ++ [t]) ++ sl.nxt t :: B2) := by
  have hr := h.links.ring i
  rw [hR] at hr
  obtain ⟨n, hn1, hn2, -⟩ := hr.next_mem
  rw [hn2]
  cases B with
  | nil =>
    left
    simp only [List.nil_append] at hn1
    refine ⟨rfl, ?_, ?_⟩
    · rw [h.heads, hR]; exact hn1
    · cases A with
      | nil => simp at hn1; subst hn1; exact ⟨[], by simp [hR], by simp⟩
      | cons a A => simp at hn1; subst hn1; exact ⟨A ++ [t], by simp [hR], by simp⟩
  | cons b B =>
    right
    simp at hn1; subst hn1
    refine ⟨?_, B, rfl, by simp [hR]⟩
    rw [h.heads, hR]
    have hnd := h.links.nodup i
    rw [hR] at hnd
    cases A with
    | nil =>
      simp only [List.nil_append, List.head?_cons, ne_eq, Option.some.injEq]
      intro e; subst e; simp at hnd
    | cons a A =>
      simp only [List.cons_append, List.head?_cons, ne_eq, Option.some.injEq]
      intro e; subst e; simp at hnd

/-- The entry in slot `t` is pinned. -/
def PinnedAt (c : Cfg K V RS) (s : Shard K V) (t : Nat) : Prop :=
  ∀ r, s.entries.item t = some (.resident r) → c.pinned r.key r.value = true

theorem PinnedAt.touch {t u n : Nat} {r : Resident K V} (ht : s.entries.item t = some (.resident r)) :
    PinnedAt c (s.setEntry t (.resident { r with referenced := n })) u ↔ PinnedAt c s u := by
  unfold PinnedAt
  rw [entries_setEntry, Slab.item_setItem (by simp [ht])]
  by_cases hu : u = t
  · subst hu; simp [ht]
  · simp [hu]

/-- The counter in slot `t`, capped. -/
def refAt (s : Shard K V) (t : Nat) : Nat :=
  match s.entries.item t with
  | some (.resident r) => min r.referenced MAX_F
  | _ => 0

theorem refAt_touch {t u n : Nat} {r : Resident K V} (ht : s.entries.item t = some (.resident r)) :
    refAt (s.setEntry t (.resident { r with referenced := n })) u = if u = t then min n MAX_F else refAt s u := by
  unfold refAt
  rw [entries_setEntry, Slab.item_setItem (by simp [ht])]
  by_cases hu : u = t
  · subst hu; simp
  · simp [hu]

theorem rings_touch {R : RingId → List Nat} {F : List Nat} {t n : Nat} {r : Resident K V}
    (h : Rings s.entries s.head (c.rho s.entries.item) R F) (ht : s.entries.item t = some (.resident r)) :
    Rings (s.setEntry t (.resident { r with referenced := n })).entries
      (s.setEntry t (.resident { r with referenced := n })).head
      (c.rho (s.setEntry t (.resident { r with referenced := n })).entries.item) R F := by
  have hocc : (s.entries.item t).isSome := by simp [ht]
  have hrho : c.rho (s.setEntry t (.resident { r with referenced := n })).entries.item = c.rho s.entries.item := by
    funext u
    unfold Cfg.rho
    rw [entries_setEntry, Slab.item_setItem hocc]
    by_cases hu : u = t
    · subst hu; simp [ht, Cfg.ringOf]
    · simp [hu]
  rw [hrho]
  exact ⟨h.links.setItem hocc _, by simpa using h.heads, h.mem⟩

/-- `advance_hot`'s loop, from slot `t` on the hot ring. Either some slot ahead is not pinned, and an item is taken out
of the hot ring; or the whole ring is pinned, and nothing but counters changes. -/
theorem advanceHotLoop_spec {R : RingId → List Nat} {F : List Nat} (q : Req K V RS) : ∀ (fuel : Nat) (s : Shard K V)
    (A B : List Nat) (t unp : Nat), Inv0 c s → Rings s.entries s.head (c.rho s.entries.item) R F →
    R .hot = A ++ t :: B → (unp = 0 → ∀ u ∈ A, PinnedAt c s u) →
    ((∃ pos u, (t :: (B ++ A))[pos]? = some u ∧ ¬ PinnedAt c s u ∧ refAt s u * (R .hot).length + pos < fuel) ∨
      (unp = 0 ∧ (∀ u ∈ R .hot, PinnedAt c s u) ∧ (t :: B).length ≤ fuel)) →
    ∃ s' q' b, advanceHotLoop c fuel s q t unp = .ok (s', q', b) ∧ EvPost c s q s' q' ∧
      (b = true → mu c s' < mu c s) ∧
      (b = false → (∀ u ∈ R .hot, PinnedAt c s u) ∧ q' = q)
  | 0, s, A, B, t, unp, _, _, _, _, hf => by
    rcases hf with ⟨_, _, _, _, h⟩ | ⟨_, _, h⟩
    · omega
    · simp at h
  | fuel + 1, s, A, B, t, unp, hi, hr, hR, hA, hf => by
    have htm : t ∈ R .hot := by rw [hR]; simp
    obtain ⟨r, ht, hst, hw⟩ := of_rho (st := .hot) ((hr.mem _ _).mp htm)
    unfold advanceHotLoop
    rw [Slab.get_eq, ht]
    simp only [Option.map_some]
    rw [if_neg (fun h => h hst)]
    have htouch0 := fun hpr => touch_post (n := min r.referenced MAX_F - 1) hi q ht hst hpr rfl
    have hr' := rings_touch (n := min r.referenced MAX_F - 1) hr ht
    have hnx : (s.setEntry t (.resident { r with referenced := min r.referenced MAX_F - 1 })).entries.nxt t =
        s.entries.nxt t := Slab.nxt_setItem ..
    have hpin : ∀ u, PinnedAt c (s.setEntry t (.resident { r with referenced := min r.referenced MAX_F - 1 })) u ↔
        PinnedAt c s u := fun u => PinnedAt.touch ht
    -- the recursive call
    have recur : ∀ unp', ((c.pinned r.key r.value = true ∧ unp' = unp ∧
          ¬ (unp = 0 ∧ s.head .hot = some (s.entries.nxt t))) ∨
          (c.pinned r.key r.value = false ∧ unp' = unp + 1 ∧ r.referenced ≠ 0)) →
        ∃ s' q' b, advanceHotLoop c fuel
            (s.setEntry t (.resident { r with referenced := min r.referenced MAX_F - 1 })) q
            (s.entries.nxt t) unp' = .ok (s', q', b) ∧ EvPost c s q s' q' ∧ (b = true → mu c s' < mu c s) ∧
          (b = false → (∀ u ∈ R .hot, PinnedAt c s u) ∧ q' = q) := by
      intro unp' hcase
      have htouch := htouch0 (hcase.imp (·.1) (·.2.2))
      have key : ∃ A2 B2, R .hot = A2 ++ s.entries.nxt t :: B2 ∧
          s.entries.nxt t :: (B2 ++ A2) = (B ++ A) ++ [t] ∧
          (unp' = 0 → ∀ u ∈ A2, PinnedAt c s u) ∧
          (s.head .hot ≠ some (s.entries.nxt t) → (s.entries.nxt t :: B2) = B) := by
        rcases hr.next_split hR with ⟨hB, hh, B2, h1, h2⟩ | ⟨hh, B2, h1, h2⟩
        · refine ⟨[], B2, h1, by simp [hB, h2], by simp, fun h => absurd hh h⟩
        · refine ⟨A ++ [t], B2, h2, by simp [h1], ?_, fun _ => h1.symm⟩
          intro h0 u hu
          obtain ⟨h3, h4⟩ : unp = 0 ∧ c.pinned r.key r.value = true := by
            rcases hcase with ⟨h3, h4, -⟩ | ⟨h3, h4, -⟩
            · exact ⟨by omega, h3⟩
            · omega
          simp only [List.mem_append, List.mem_singleton] at hu
          rcases hu with hu | rfl
          · exact hA h3 u hu
          · intro r' hr'; rw [ht] at hr'; cases hr'; exact h4
      obtain ⟨A2, B2, k1, k2, k3, k4⟩ := key
      obtain ⟨s', q', b, g1, g2, g3, g4⟩ := advanceHotLoop_spec q fuel
        (s.setEntry t (.resident { r with referenced := min r.referenced MAX_F - 1 })) A2 B2 (s.entries.nxt t) unp'
        htouch.inv hr' k1 (fun h0 u hu => (hpin u).mpr (k3 h0 u hu)) (by
          rcases hf with ⟨pos, u, f1, f2, f3⟩ | ⟨f1, f2, f3⟩
          · left
            cases pos with
            | succ pos =>
              refine ⟨pos, u, ?_, fun h => f2 ((hpin u).mp h), ?_⟩
              · rw [k2]
                simp only [List.getElem?_cons_succ] at f1
                rw [List.getElem?_append_left (List.getElem?_eq_some_iff.mp f1).1]; exact f1
              · rw [refAt_touch ht]
                have hne : u ≠ t := by
                  rintro rfl
                  have hnd := hr.links.nodup .hot
                  rw [hR] at hnd
                  have hnd' := List.nodup_cons.mp (List.perm_middle.nodup_iff.mp hnd)
                  have hm := List.mem_of_getElem? (by simpa using f1)
                  apply hnd'.1
                  simp only [List.mem_append] at hm ⊢
                  exact hm.symm
                rw [if_neg hne]
                omega
            | zero =>
              simp only [List.getElem?_cons_zero, Option.some.injEq] at f1
              subst f1
              have hup : c.pinned r.key r.value = false := by
                cases hp : c.pinned r.key r.value with
                | false => rfl
                | true =>
                  exact absurd (fun r' hr' => by rw [ht] at hr'; cases hr'; exact hp) f2
              have hrz : r.referenced ≠ 0 := by
                rcases hcase with ⟨h3, -⟩ | ⟨-, -, h3⟩
                · rw [hup] at h3; cases h3
                · exact h3
              refine ⟨(B ++ A).length, t, ?_, fun h => f2 ((hpin t).mp h), ?_⟩
              · rw [k2, List.getElem?_append_right (Nat.le_refl _)]; simp
              · rw [refAt_touch ht, if_pos rfl]
                have hlen : (R .hot).length = (B ++ A).length + 1 := by rw [hR]; simp; omega
                have hra : refAt s t = min r.referenced MAX_F := by simp [refAt, ht]
                rw [hra] at f3
                have h2 : min r.referenced MAX_F = (min r.referenced MAX_F - 1) + 1 := by
                  unfold MAX_F; omega
                rw [h2, Nat.add_mul] at f3
                have h3 : min (min r.referenced MAX_F - 1) MAX_F = min r.referenced MAX_F - 1 := by omega
                rw [h3]
                omega
          · right
            have hpt : c.pinned r.key r.value = true := f2 t htm r ht
            rcases hcase with ⟨-, h4, h5⟩ | ⟨h3, -⟩
            · have hne : s.head .hot ≠ some (s.entries.nxt t) := fun h => h5 ⟨f1, h⟩
              refine ⟨by omega, fun u hu => (hpin u).mpr (f2 u hu), ?_⟩
              rw [k4 hne]
              simp only [List.length_cons] at f3
              omega
            · rw [hpt] at h3; cases h3)
      exact ⟨s', q', b, g1, htouch.trans g2, fun hb => Nat.lt_of_lt_of_le (g3 hb) htouch.mu,
        fun hb => ⟨fun u hu => (hpin u).mp ((g4 hb).1 u hu), (g4 hb).2⟩⟩
    cases hp : c.pinned r.key r.value with
    | true =>
      rw [hp] at recur
      simp only [if_true]
      have hhd : s.head .hot = s.hotHead := rfl
      split
      · rename_i hex
        refine ⟨_, _, _, rfl, htouch0 (Or.inl hp), by simp, fun _ => ⟨fun u hu => ?_, rfl⟩⟩
        rcases hr.next_split hR with ⟨hB, -⟩ | ⟨hne, -⟩
        · subst hB
          rw [hR] at hu
          simp only [List.mem_append, List.mem_singleton] at hu
          rcases hu with hu | rfl
          · exact hA hex.1 u hu
          · intro r' hr'; rw [ht] at hr'; cases hr'; exact hp
        · exact absurd (hhd.trans hex.2.symm) hne
      · rename_i hex
        refine recur unp (Or.inl ⟨rfl, rfl, fun h => hex ⟨h.1, h.2.symm⟩⟩)
    | false =>
      rw [hp] at recur
      simp only [Bool.false_eq_true, if_false]
      split
      · rename_i hne
        exact recur _ (Or.inr ⟨rfl, rfl, hne⟩)
      · rename_i hz
        obtain ⟨s', q', h1, h2, h3, -⟩ := hotVictim_spec hi q ht hst hw hp (by omega)
        exact ⟨s', q', true, h1, h2, fun _ => h3, by simp⟩

theorem length_le_of_nodup_lt : ∀ (n : Nat) (l : List Nat), l.Nodup → (∀ x ∈ l, x < n) → l.length ≤ n
  | 0, l, _, h => by
    cases l with
    | nil => simp
    | cons a l => exact absurd (h a (by simp)) (by omega)
  | n + 1, l, hn, h => by
    by_cases hm : n ∈ l
    · have h1 := length_le_of_nodup_lt n (l.erase n) (hn.erase n) (fun x hx => by
        have h2 := h x (List.mem_of_mem_erase hx)
        have h3 : x ≠ n := by
          rintro rfl
          exact (hn.mem_erase_iff.mp hx).1 rfl
        omega)
      have := List.length_erase_of_mem hm
      have := List.length_pos_of_mem hm
      omega
    · have := length_le_of_nodup_lt n l hn (fun x hx => by
        have h2 := h x hx
        have h3 : x ≠ n := by rintro rfl; exact hm hx
        omega)
      omega

theorem _root_.QuickCache.Rings.length_le {T : Type _} {sl : Slab T} {hd : RingId → Option Nat}
    {rho : Nat → Option RingId} {R : RingId → List Nat} {F : List Nat} (h : Rings sl hd rho R F) (i : RingId) :
    (R i).length ≤ sl.entries.length :=
  length_le_of_nodup_lt _ _ (h.links.nodup i) (fun x hx => Slab.lt_of_item (h.links.occ i x hx))

/-- Steps without lifecycle calls keep every resident's key and value. -/
theorem _root_.QuickCache.EvSteps.silent {I I' : Nat → Option (Entry K V)} {st st' : RS} {L : List (Event K V)}
    (h : EvSteps c I st L I' st') (hL : L = []) : ∀ t r', I' t = some (.resident r') →
    ∃ r, I t = some (.resident r) ∧ r.key = r'.key ∧ r.value = r'.value := by
  induction h with
  | nil => intro t r' h; exact ⟨r', h, rfl, rfl⟩
  | cons h hs ih =>
    simp only [List.append_eq_nil_iff] at hL
    obtain ⟨hL1, hL2⟩ := hL
    intro t r' hr'
    obtain ⟨r1, h1, h2, h3⟩ := ih hL2 t r' hr'
    cases h with
    | touch u r n st' hu hst =>
      by_cases htu : t = u
      · subst htu
        rw [upd_same] at h1; cases h1
        exact ⟨r, hu, h2, h3⟩
      · rw [upd_other _ _ htu] at h1; exact ⟨r1, h1, h2, h3⟩
    | spare => cases hL1
    | evict => cases hL1
    | dropGhost u g hu =>
      by_cases htu : t = u
      · subst htu
        rw [upd_same] at h1; cases h1
      · rw [upd_other _ _ htu] at h1; exact ⟨r1, h1, h2, h3⟩

/-- Every resident of the given state that is on a ring is pinned. -/
def AllPinned (c : Cfg K V RS) (s : Shard K V) (st : St) : Prop :=
  ∀ t r, s.entries.item t = some (.resident r) → r.state = st → c.weight r.key r.value ≠ 0 →
    c.pinned r.key r.value = true

/-- Nothing can be evicted. -/
def Stuck (c : Cfg K V RS) (s : Shard K V) : Prop :=
  ∀ t r, s.entries.item t = some (.resident r) → c.weight r.key r.value ≠ 0 → c.pinned r.key r.value = true

theorem Stuck.of_silent {s' : Shard K V} {q : Req K V RS} (hp : EvPost c s q s' q) (h : Stuck c s) : Stuck c s' := by
  intro t r' hr' hw
  obtain ⟨L, h1, h2⟩ := hp.log
  have hL : L = [] := by simpa using h1.symm
  obtain ⟨r, g1, g2, g3⟩ := h2.silent hL t r' hr'
  rw [← g2, ← g3] at hw ⊢
  exact h t r g1 hw

theorem advanceHot_spec (h : Inv0 c s) (q : Req K V RS) :
    ∃ s' q' b, s.advanceHot c q = .ok (s', q', b) ∧ EvPost c s q s' q' ∧ (b = true → mu c s' < mu c s) ∧
      (b = false → AllPinned c s .hot ∧ q' = q) := by
  obtain ⟨R, F, hr⟩ := h.str
  have hmem : ∀ t r, s.entries.item t = some (.resident r) → r.state = .hot → c.weight r.key r.value ≠ 0 →
      t ∈ R .hot := by
    intro t r ht hst hw
    rw [hr.mem, rho_resident ht hw, hst]; rfl
  have hhd : s.hotHead = (R .hot).head? := hr.heads .hot
  unfold advanceHot
  cases hR : R .hot with
  | nil =>
    rw [hR] at hhd
    simp only [hhd, List.head?_nil]
    refine ⟨s, q, false, rfl, .refl h q, by simp, fun _ => ⟨?_, rfl⟩⟩
    intro t r ht hst hw
    have := hmem t r ht hst hw
    rw [hR] at this; simp at this
  | cons t B =>
    rw [hR] at hhd
    simp only [hhd, List.head?_cons]
    have hlen : (R .hot).length ≤ s.entries.entries.length := hr.length_le .hot
    have hRl : (R .hot).length = B.length + 1 := by rw [hR]; rfl
    obtain ⟨s', q', b, h1, h2, h3, h4⟩ := advanceHotLoop_spec q s.hotFuel s [] B t 0 h hr (by simp [hR])
      (by simp) (by
        by_cases hall : ∀ u ∈ R .hot, PinnedAt c s u
        · right
          refine ⟨rfl, hall, ?_⟩
          unfold hotFuel; simp only [List.length_cons]; omega
        · left
          simp only [Classical.not_forall] at hall
          obtain ⟨u, hu, hup⟩ := hall
          rw [hR] at hu
          obtain ⟨pos, hpos, hget⟩ := List.getElem_of_mem hu
          refine ⟨pos, u, ?_, hup, ?_⟩
          · simp only [List.append_nil]
            rw [List.getElem?_eq_getElem hpos, hget]
          · simp only [List.length_cons] at hpos
            have : refAt s u ≤ 2 := by
              unfold refAt; split
              · unfold MAX_F; omega
              · omega
            have := Nat.mul_le_mul_right (R .hot).length this
            unfold hotFuel; omega)
    refine ⟨s', q', b, h1, h2, h3, fun hb => ⟨?_, (h4 hb).2⟩⟩
    intro u r hu hst hw
    exact (h4 hb).1 u (hmem u r hu hst hw) r hu

/-- `while weight_hot > weight_target_hot && advance_hot() {}` -/
theorem evictHotLoop_spec : ∀ (fuel : Nat) (s : Shard K V) (q : Req K V RS), Inv0 c s → mu c s < fuel →
    ∃ s' q', evictHotLoop c fuel s q = .ok (s', q') ∧ EvPost c s q s' q'
  | 0, _, _, _, hf => by omega
  | fuel + 1, s, q, h, hf => by
    unfold evictHotLoop
    split
    · obtain ⟨s1, q1, b, h1, h2, h3, h4⟩ := advanceHot_spec h q
      rw [h1]
      simp only [Res.ok_bind]
      cases b with
      | true =>
        simp only [if_true]
        obtain ⟨s2, q2, g1, g2⟩ := evictHotLoop_spec fuel s1 q1 h2.inv (by have := h3 rfl; omega)
        exact ⟨s2, q2, g1, h2.trans g2⟩
      | false => exact ⟨s1, q1, by simp, h2⟩
    · exact ⟨s, q, rfl, .refl h q⟩

theorem mu_lt_fuel (c : Cfg K V RS) (s : Shard K V) : mu c s < s.evictFuel := by
  have := mu_le c s
  unfold evictFuel; omega

theorem advanceGhost_spec (h : Inv0 c s) (q : Req K V RS) (hn : 0 < s.numNonResident) :
    ∃ s', s.advanceGhost = .ok s' ∧ EvPost c s q s' q ∧ s'.numNonResident + 1 = s.numNonResident ∧
      ∃ t g, s.ghostHead = some t ∧ s.entries.item t = some (.ghost g) ∧
        Turned c s s' t (some (.ghost g)) none (leave .ghost t) := by
  obtain ⟨R, F, hr⟩ := h.str
  have hsome : ∃ t g, s.entries.item t = some (.ghost g) := by
    have h1 := h.cnt.ghost
    rw [h1] at hn
    unfold Slab.sumBy at hn
    obtain ⟨x, hx, hpos⟩ : ∃ x ∈ s.entries.items.map ghostF, 0 < x := by
      apply Classical.byContradiction
      intro hcon
      have : ∀ (l : List Nat), (∀ x ∈ l, x = 0) → l.sum = 0 := by
        intro l hl; induction l with
        | nil => rfl
        | cons a l ih => simp [hl a (by simp), ih (fun x hx => hl x (by simp [hx]))]
      have h2 := this (s.entries.items.map ghostF) (fun x hx => by
        apply Classical.byContradiction
        intro hne
        exact hcon ⟨x, hx, by omega⟩)
      omega
    rw [List.mem_map] at hx
    obtain ⟨e, he, rfl⟩ := hx
    obtain ⟨t, ht, hget⟩ := List.getElem_of_mem he
    cases e with
    | none => simp [ghostF] at hpos
    | some e =>
      cases e with
      | ghost g =>
        refine ⟨t, g, ?_⟩
        rw [Slab.item_eq_items, List.getElem?_eq_getElem ht, hget]; rfl
      | resident r => simp [ghostF] at hpos
      | placeholder p => simp [ghostF] at hpos
  obtain ⟨t0, g0, ht0⟩ := hsome
  have hm0 : t0 ∈ R .ghost := by rw [hr.mem, rho_ghost ht0]
  obtain ⟨t, hhd⟩ : ∃ t, s.ghostHead = some t := by
    have := hr.heads .ghost
    cases hR : R .ghost with
    | nil => rw [hR] at hm0; simp at hm0
    | cons a l => rw [hR] at this; exact ⟨a, this⟩
  have htm : t ∈ R .ghost := by
    have := hr.heads .ghost
    have h2 : s.head .ghost = some t := hhd
    rw [h2] at this
    exact List.mem_of_head? this.symm
  have hrho := (hr.mem _ _).mp htm
  obtain ⟨g, ht⟩ := of_rho_ghost hrho
  have hmapped := h.idx.mapped t _ ht (by simp)
  simp only [hashOf] at hmapped
  have hmr := mapRemove_spec (s := { s with numNonResident := s.numNonResident - 1 }) h.idx hmapped
  obtain ⟨e, hd, h1, h2, h3, h4, -⟩ := h.str.remove hrho ht
  have hinv : Inv0 c { s with
      numNonResident := s.numNonResident - 1, map := s.map.filter (fun b => b.2 != t),
      entries := e, ghostHead := hd } := by
    refine h.step h2 ?_ (h.idx.del t) ?_ ?_ ?_
    · have : Shard.head { s with
          numNonResident := s.numNonResident - 1, map := s.map.filter (fun b => b.2 != t),
          entries := e, ghostHead := hd } = upd s.head .ghost hd := by
        funext i; cases i <;> simp [head, upd]
      exact this ▸ h4
    · intro st; cases st <;> simp [numF, num]
    · intro st; cases st <;> simp [wgtF, wgt]
    · simp [ghostF]; omega
  have post := EvPost.of_upd (q := q) (q' := q) (L := []) h hinv h2 (by simp) (.dropGhost t g ht)
    ⟨rfl, rfl, rfl, rfl, rfl, rfl, rfl⟩ (Or.inr ⟨rfl, rfl⟩) h3 (by simp) (Nat.le_refl _) (by simp [muF])
  refine ⟨_, ?_, post.1, by simp; omega, t, g, hhd, ht, post.1.turned h2 ?_⟩
  rotate_left
  · have : Shard.head { s with
        numNonResident := s.numNonResident - 1, map := s.map.filter (fun b => b.2 != t),
        entries := e, ghostHead := hd } = QuickCache.upd s.head .ghost hd := by
      funext i; cases i <;> simp [head, QuickCache.upd]
    rw [this]
    exact Moves.remove hrho h1 ht
  unfold advanceGhost
  rw [if_neg (by omega), hhd]
  simp only
  rw [Slab.get_eq, ht]
  simp only [Option.map_some]
  rw [csub_ok (by omega)]
  simp only [Res.ok_bind]
  rw [hhd] at hmr
  rw [hmr]
  simp only [Res.ok_bind, h1]

/-- `advance_cold` up to the point where a referenced item has moved to the hot queue. -/
def promoted (s : Shard K V) (t : Nat) (r : Resident K V) (w : Nat) : Res (Shard K V) := do
  let s1 := s.setEntry t (.resident { r with referenced := r.referenced - 1, state := .hot })
  let wh ← cadd s1.weightHot w
  let wc ← csub s1.weightCold w
  let nc ← csub s1.numCold 1
  let s2 := { s1 with weightHot := wh, weightCold := wc, numHot := s1.numHot + 1, numCold := nc }
  let s3 ← s2.unlinkFrom .cold t
  s3.linkTo .hot t

theorem promoted_spec (h : Inv0 c s) (q : Req K V RS) {t : Nat} {r : Resident K V}
    (ht : s.entries.item t = some (.resident r)) (hst : r.state = .cold) (hw : c.weight r.key r.value ≠ 0)
    (hr : r.referenced ≠ 0) (hov : s.weightHot + c.weight r.key r.value < 2 ^ 64) :
    ∃ s4, s.promoted t r (c.weight r.key r.value) = .ok s4 ∧ EvPost c s q s4 q ∧ mu c s4 < mu c s ∧
      Turned c s s4 t (some (.resident r)) (some (.resident { r with referenced := r.referenced - 1, state := .hot }))
        (fun R => upd (leave .cold t R) .hot (R .hot ++ [t])) := by
  have hocc : (s.entries.item t).isSome := by simp [ht]
  have hwle : c.weight r.key r.value ≤ s.weightCold := by
    have := h.wgt_ge ht .cold; simpa [wgtF, hst, wgt] using this
  have hnle : 1 ≤ s.numCold := by
    have h1 := h.cnt.num .cold
    have h2 := Slab.le_sumBy (numF .cold) rfl s.entries t
    rw [ht] at h2
    simp [numF, hst, num] at h1 h2
    omega
  have hrho : c.rho s.entries.item t = some .cold := by rw [rho_resident ht hw, hst]; rfl
  have hmapped := h.idx.mapped t _ ht (by simp)
  obtain ⟨new, hnew⟩ : ∃ new : Resident K V, new = { r with referenced := r.referenced - 1, state := .hot } := ⟨_, rfl⟩
  have hnw : c.weight new.key new.value = c.weight r.key r.value := by rw [hnew]
  have hnst : new.state = .hot := by rw [hnew]
  have hu1 : Slab.Upd s.entries (s.entries.setItem t (.resident new)) t
      (some (.resident r)) (some (.resident new)) := Slab.Upd.setItem ht _
  have hs1 : Struct (s.entries.setItem t (.resident new)) s.head (c.rho s.entries.item) := h.str.setItem hocc _
  have hlen1 : (s.entries.setItem t (.resident new)).entries.length = s.entries.entries.length := Slab.length_mod ..
  obtain ⟨e1, hd1, a1, -, a2, a3, a4⟩ := unlinkFrom_moves (i := .cold)
    (s := { s.setEntry t (.resident new) with
      weightHot := s.weightHot + c.weight r.key r.value, weightCold := s.weightCold - c.weight r.key r.value,
      numHot := s.numHot + 1, numCold := s.numCold - 1 }) hs1 hrho
  have hu2 := Slab.Upd.items_right a2 hu1
  obtain ⟨e2, hd2, b1, -, b2, b3, b4⟩ := linkTo_moves
    (s := Shard.setHead { s.setEntry t (.resident new) with
      weightHot := s.weightHot + c.weight r.key r.value, weightCold := s.weightCold - c.weight r.key r.value,
      numHot := s.numHot + 1, numCold := s.numCold - 1, entries := e1 } .cold hd1)
    (rho := upd (c.rho s.entries.item) t none) (by rw [head_setHead, entries_setHead]; exact a4.struct hs1) .hot (t := t)
    (by rw [entries_setHead]; simp [hu2.after]) (by simp)
  have hu3 : Slab.Upd s.entries e2 t (some (.resident r)) (some (.resident new)) := Slab.Upd.items_right b2 hu2
  obtain ⟨s4, hs4⟩ : ∃ s4 : Shard K V, s4 = Shard.setHead { Shard.setHead { s.setEntry t (.resident new) with
      weightHot := s.weightHot + c.weight r.key r.value, weightCold := s.weightCold - c.weight r.key r.value,
      numHot := s.numHot + 1, numCold := s.numCold - 1, entries := e1 } .cold hd1 with entries := e2 } .hot (some hd2) :=
    ⟨_, rfl⟩
  have hinv : Inv0 c s4 := by
    subst hs4
    refine h.step (t := t) (old := some (.resident r)) (new := some (.resident new)) (by simpa using hu3) ?_ ?_ ?_ ?_ ?_
    · rw [entries_setHead, head_setHead]
      have hb : (Option.bind (some (Entry.resident new)) c.ringOf) = some .hot := by
        simp [Cfg.ringOf, hnw, hw, hnst, St.ring]
      rw [hb]
      have := b4.struct (by rw [head_setHead, entries_setHead]; exact a4.struct hs1)
      rw [upd_upd] at this
      exact this
    · simp only [map_setHead, probe_setHead, nextPlh_setHead]
      exact h.idx.change_res ht hmapped (by simp [hashOf, hnew]) (Or.inr (by simp [keyOf, hnew])) (by simp)
    · intro st; cases st <;> simp [numF, num, hst, hnst, setHead]; omega
    · intro st; cases st <;> simp [wgtF, wgt, hst, hnst, hnw, setHead]; omega
    · simp [ghostF, setHead]
  have post := EvPost.of_upd (s' := s4) (q := q) (q' := q) (L := []) h hinv (by subst hs4; simpa using hu3) (by simp)
    (by
      have := EvStep.touch (c := c) (I := s.entries.item) (st := q.st) t r (r.referenced - 1) .hot ht
        (Or.inr ⟨hst, hr, rfl, rfl⟩)
      rw [hnew]; exact this)
    (by subst hs4; exact ⟨rfl, rfl, rfl, rfl, rfl, rfl, rfl⟩) (Or.inl ⟨by subst hs4; rfl, rfl⟩)
    (by subst hs4; simp only [entries_setHead]; exact ((Slab.length_congr b2).trans (Slab.length_congr a2)).trans hlen1)
    (by subst hs4; simp) (by subst hs4; simp [setHead]; omega) (by simp [muF, hnw, hw, hnst, hst])
  have hmu : mu c s4 < mu c s := by
    have := post.2
    simp only [muF, hnw, hw, hnst, hst, if_true, if_false] at this
    simp at this; omega
  refine ⟨s4, ?_, post.1, hmu, post.1.turned (t := t) ?_ ?_⟩
  · unfold promoted
    rw [← hnew]
    simp only [weightHot_setEntry, weightCold_setEntry, numCold_setEntry, numHot_setEntry]
    rw [cadd_ok hov, csub_ok hwle, csub_ok hnle]
    simp only [Res.ok_bind, a1, b1]
    rw [← hs4]
  · subst hs4; rw [← hnew]; simpa using hu3
  · rw [← hnew]
    have hb : (Option.bind (some (Entry.resident new)) c.ringOf) = some .hot := by
      simp [Cfg.ringOf, hnw, hw, hnst, St.ring]
    rw [hb]
    subst hs4
    rw [head_setHead, entries_setHead] at b4
    have := (a4.after_setItem hocc).trans b4
    rw [upd_upd] at this
    simp only [entries_setHead, head_setHead]
    exact this.congr_head (fun i => by cases i <;> rfl) (fun i => by cases i <;> simp [head, setHead, setEntry, QuickCache.upd])

theorem coldPromote_eq (q : Req K V RS) (t : Nat) (r : Resident K V) :
    s.coldPromote c q t r = (do
      let s4 ← s.promoted t r (c.weight r.key r.value)
      let (s5, q5) ← evictHotLoop c s4.evictFuel s4 q
      .ok (s5, q5, true)) := by
  unfold coldPromote promoted
  simp only [bind_assoc]

theorem coldPromote_spec (h : Inv0 c s) (q : Req K V RS) {t : Nat} {r : Resident K V}
    (ht : s.entries.item t = some (.resident r)) (hst : r.state = .cold) (hw : c.weight r.key r.value ≠ 0)
    (hr : r.referenced ≠ 0) (hov : s.weightHot + s.weightCold < 2 ^ 64) :
    ∃ s' q', s.coldPromote c q t r = .ok (s', q', true) ∧ EvPost c s q s' q' ∧ mu c s' < mu c s ∧
      ∃ s4, Turned c s s4 t (some (.resident r))
        (some (.resident { r with referenced := r.referenced - 1, state := .hot }))
        (fun R => upd (leave .cold t R) .hot (R .hot ++ [t])) ∧
        evictHotLoop c s4.evictFuel s4 q = .ok (s', q') := by
  have hwle : c.weight r.key r.value ≤ s.weightCold := by
    have := h.wgt_ge ht .cold; simpa [wgtF, hst, wgt] using this
  obtain ⟨s4, h1, h2, h3, h4⟩ := promoted_spec h q ht hst hw hr (by omega)
  obtain ⟨s5, q5, g1, g2⟩ := evictHotLoop_spec s4.evictFuel s4 q h2.inv (mu_lt_fuel c s4)
  refine ⟨s5, q5, ?_, h2.trans g2, Nat.lt_of_le_of_lt g2.mu h3, s4, h4, g1⟩
  rw [coldPromote_eq, h1]
  simp only [Res.ok_bind, g1]

theorem coldVictim_spec (h : Inv0 c s) (q : Req K V RS) {t : Nat} {r : Resident K V}
    (ht : s.entries.item t = some (.resident r)) (hst : r.state = .cold) (hw : c.weight r.key r.value ≠ 0)
    (hp : c.pinned r.key r.value = false) (hr : r.referenced = 0) :
    ∃ s' q', s.coldVictim c q t r = .ok (s', q', true) ∧ EvPost c s q s' q' ∧ mu c s' < mu c s ∧
      ∃ st1 v1, c.beforeEvict q.st r.key r.value = (st1, v1) ∧
        ((c.weight r.key v1 = 0 ∧ q' = { st := st1, log := q.log ++ [.beforeEvict r.key r.value v1] } ∧
          Turned c s s' t (some (.resident r)) (some (.resident { r with value := v1 })) (leave .cold t)) ∨
        (c.weight r.key v1 ≠ 0 ∧ q' = { st := c.onEvict st1 r.key v1, log :=
          q.log ++ [.beforeEvict r.key r.value v1] ++ [.onEvict r.key v1] } ∧
          ∃ s5, Turned c s s5 t (some (.resident r)) (some (.ghost (c.hash r.key)))
              (fun R => upd (leave .cold t R) .ghost (R .ghost ++ [t])) ∧
            s5.numNonResident = s.numNonResident + 1 ∧
            ((s.capacityNonResident < s.numNonResident + 1 ∧ s5.advanceGhost = .ok s') ∨
              (s.numNonResident + 1 ≤ s.capacityNonResident ∧ s' = s5)))) := by
  have hocc : (s.entries.item t).isSome := by simp [ht]
  have hwle : c.weight r.key r.value ≤ s.weightCold := by
    have := h.wgt_ge ht .cold; simpa [wgtF, hst, wgt] using this
  have hnle : 1 ≤ s.numCold := by
    have h1 := h.cnt.num .cold
    have h2 := Slab.le_sumBy (numF .cold) rfl s.entries t
    rw [ht] at h2
    simp [numF, hst, num] at h1 h2
    omega
  have hrho : c.rho s.entries.item t = some .cold := by rw [rho_resident ht hw, hst]; rfl
  have hmapped := h.idx.mapped t _ ht (by simp)
  obtain ⟨st1, v1, hb⟩ : ∃ st1 v1, c.beforeEvict q.st r.key r.value = (st1, v1) := ⟨_, _, rfl⟩
  have hu1 : Slab.Upd s.entries (s.entries.setItem t (.resident { r with value := v1 })) t
      (some (.resident r)) (some (.resident { r with value := v1 })) := Slab.Upd.setItem ht _
  have hs1 : Struct (s.entries.setItem t (.resident { r with value := v1 })) s.head (c.rho s.entries.item) :=
    h.str.setItem hocc _
  have hlen1 : (s.entries.setItem t (.resident { r with value := v1 })).entries.length = s.entries.entries.length :=
    Slab.length_mod ..
  have hmu : muF c (some (.resident r)) = 2 := by simp [muF, hw, hst]
  by_cases hw1 : c.weight r.key v1 = 0
  · -- spared
    obtain ⟨e, hd, h1, h0, h2, h3, h4⟩ := unlinkFrom_moves (i := .cold)
      (s := { s.setEntry t (.resident { r with value := v1 }) with weightCold := s.weightCold - c.weight r.key r.value })
      hs1 hrho
    have hu := Slab.Upd.items_right h2 hu1
    have hmu' : muF c (some (.resident { r with value := v1 })) = 0 := by simp [muF, hw1]
    have hinv : Inv0 c (Shard.setHead { s.setEntry t (.resident { r with value := v1 }) with
        weightCold := s.weightCold - c.weight r.key r.value, entries := e } .cold hd) := by
      refine h.step (old := some (.resident r)) (new := some (.resident { r with value := v1 })) (t := t) ?_ ?_ ?_ ?_ ?_ ?_
      · simpa using hu
      · have : (Option.bind (some (Entry.resident { r with value := v1 })) c.ringOf) = none := by
          simp [Cfg.ringOf, hw1]
        rw [this, entries_setHead, head_setHead]; exact h4.struct hs1
      · simp only [map_setHead, probe_setHead, nextPlh_setHead]
        exact h.idx.change_res ht hmapped rfl (Or.inr rfl) (by simp)
      · intro st; cases st <;> simp [numF, num]
      · intro st; cases st <;> simp [wgtF, wgt, hst, hw1, hwle]
      · simp [ghostF]
    have post := EvPost.of_upd (q := q) (q' := { st := st1, log := q.log ++ [.beforeEvict r.key r.value v1] })
      h hinv hu rfl (.spare t r v1 ht hr hw hp hb hw1)
      ⟨rfl, rfl, rfl, rfl, rfl, rfl, rfl⟩ (Or.inl ⟨rfl, rfl⟩) ((Slab.length_congr h2).trans hlen1) (Nat.le_refl _)
      (by simp) (by omega)
    refine ⟨_, _, ?_, post.1, by omega, st1, v1, hb, Or.inl ⟨hw1, rfl, post.1.turned hu ?_⟩⟩
    · unfold coldVictim
      rw [csub_ok hwle]
      simp only [Res.ok_bind, Req.before, hb, hw1, if_true, h1]
    · rw [entries_setHead, head_setHead]
      refine (h4.after_setItem hocc).congr_rho ?_
      simp [Cfg.ringOf, hw1]
  · -- evicted
    have hocc1 : ((s.entries.setItem t (.resident { r with value := v1 })).item t).isSome := by simp [hu1.after]
    have hu2 : Slab.Upd s.entries ((s.entries.setItem t (.resident { r with value := v1 })).setItem t
        (.ghost (c.hash r.key))) t (some (.resident r)) (some (.ghost (c.hash r.key))) :=
      hu1.trans (Slab.Upd.setItem hu1.after _)
    have hlen2 : ((s.entries.setItem t (.resident { r with value := v1 })).setItem t
        (.ghost (c.hash r.key))).entries.length = s.entries.entries.length := (Slab.length_mod ..).trans hlen1
    have hs2 := hs1.setItem hocc1 (.ghost (c.hash r.key))
    obtain ⟨e1, hd1, a1, -, a2, a3, a4⟩ := unlinkFrom_moves (i := .cold)
      (s := Shard.setEntry { s.setEntry t (.resident { r with value := v1 }) with
        weightCold := s.weightCold - c.weight r.key r.value } t (.ghost (c.hash r.key)))
      hs2 hrho
    have hu3 := Slab.Upd.items_right a2 hu2
    obtain ⟨e2, hd2, b1, -, b2, b3, b4⟩ := linkTo_moves
      (s := Shard.setHead { Shard.setEntry { s.setEntry t (.resident { r with value := v1 }) with
        weightCold := s.weightCold - c.weight r.key r.value } t (.ghost (c.hash r.key)) with entries := e1 } .cold hd1)
      (rho := upd (c.rho s.entries.item) t none) (by rw [head_setHead, entries_setHead]; exact a4.struct hs2) .ghost (t := t)
      (by rw [entries_setHead]; simp [hu3.after]) (by simp)
    have hu4 : Slab.Upd s.entries e2 t (some (.resident r)) (some (.ghost (c.hash r.key))) :=
      Slab.Upd.items_right b2 hu3
    obtain ⟨s5, hs5⟩ : ∃ s5 : Shard K V, s5 = { Shard.setHead { Shard.setHead { Shard.setEntry {
        s.setEntry t (.resident { r with value := v1 }) with
        weightCold := s.weightCold - c.weight r.key r.value } t (.ghost (c.hash r.key)) with entries := e1 }
        .cold hd1 with entries := e2 } .ghost (some hd2) with
        numCold := s.numCold - 1, numNonResident := s.numNonResident + 1 } := ⟨_, rfl⟩
    have hinv : Inv0 c s5 := by
      subst hs5
      refine h.step (t := t) (old := some (.resident r)) (new := some (.ghost (c.hash r.key)))
        (by simpa using hu4) ?_ ?_ ?_ ?_ ?_
      · have := b4.struct (by rw [head_setHead, entries_setHead]; exact a4.struct hs2)
        rw [upd_upd, ← head_setHead] at this
        exact this
      · exact h.idx.change_res ht hmapped (by simp [hashOf]) (Or.inl (by simp [keyOf])) (by simp)
      · intro st; cases st <;> simp [numF, num, hst, setHead]; omega
      · intro st; cases st <;> simp [wgtF, wgt, hst, setHead]; omega
      · simp [ghostF]
    have post := EvPost0.of_upd (s' := s5) (q := q) (q' := { st := c.onEvict st1 r.key v1, log :=
        q.log ++ [.beforeEvict r.key r.value v1] ++ [.onEvict r.key v1] })
      (L := [.beforeEvict r.key r.value v1, .onEvict r.key v1])
      h hinv (by subst hs5; simpa using hu4) (by simp)
      (.evict t r v1 ht hr hw hp hb hw1 _ (Or.inr ⟨rfl, hst⟩))
      (by subst hs5; exact ⟨rfl, rfl, rfl, rfl, rfl, rfl, rfl⟩) (Or.inl ⟨by subst hs5; rfl, rfl⟩)
      (by subst hs5; simp only [entries_setHead]; exact ((Slab.length_congr b2).trans (Slab.length_congr a2)).trans hlen2)
      (by subst hs5; simp [setHead]) (by simp [muF])
    have hnr : s5.numNonResident = s.numNonResident + 1 := by subst hs5; rfl
    have hmu5 : mu c s5 < mu c s := by
      have := post.2
      rw [hmu] at this
      simp only [muF] at this
      omega
    have hstep : s.coldVictim c q t r = (if s5.capacityNonResident < s5.numNonResident then
        s5.advanceGhost >>= fun s6 => Except.ok (s6, { st := c.onEvict st1 r.key v1, log :=
          q.log ++ [.beforeEvict r.key r.value v1] ++ [.onEvict r.key v1] }, true)
        else Except.ok (s5, { st := c.onEvict st1 r.key v1, log :=
          q.log ++ [.beforeEvict r.key r.value v1] ++ [.onEvict r.key v1] }, true)) := by
      unfold coldVictim
      rw [csub_ok hwle]
      simp only [Res.ok_bind, Req.before, hb, hw1, if_false, a1, b1, Req.on]
      simp only [numCold_setHead, numCold_setEntry]
      rw [csub_ok hnle]
      simp only [Res.ok_bind]
      rw [hs5]
      rfl
    have hturn : Turned c s s5 t (some (.resident r)) (some (.ghost (c.hash r.key)))
        (fun R => QuickCache.upd (leave .cold t R) .ghost (R .ghost ++ [t])) := by
      refine post.1.turned (t := t) (by subst hs5; simpa using hu4) ?_
      subst hs5
      rw [head_setHead, entries_setHead] at b4
      have := ((a4.after_setItem hocc1).after_setItem hocc).trans b4
      rw [upd_upd] at this
      refine Moves.congr_head (hd := s.head) ?_ (fun i => rfl)
        (hd' := QuickCache.upd (QuickCache.upd s.head .cold hd1) .ghost (some hd2))
        (fun i => by cases i <;> simp [head, setHead, setEntry, QuickCache.upd])
      simp only [entries_setHead]
      exact this.congr_head (fun i => by cases i <;> rfl) (fun i => by cases i <;> simp [head, setEntry, QuickCache.upd])
    have hcap : s5.capacityNonResident = s.capacityNonResident := hturn.same.ghostCap
    rw [hstep]
    split
    · rename_i hlt
      obtain ⟨s6, g1, g2, g3, -⟩ := advanceGhost_spec hinv { st := c.onEvict st1 r.key v1, log :=
        q.log ++ [.beforeEvict r.key r.value v1] ++ [.onEvict r.key v1] } (by omega)
      refine ⟨s6, _, by rw [g1]; rfl, ⟨post.1.trans g2.toEvPost0, fun hg => ?_⟩, ?_,
        st1, v1, hb, Or.inr ⟨hw1, rfl, s5, hturn, hnr, Or.inl ⟨by omega, g1⟩⟩⟩
      · have := g2.same.ghostCap; have := post.1.same.ghostCap; omega
      · exact Nat.lt_of_le_of_lt g2.mu hmu5
    · exact ⟨s5, _, rfl, ⟨post.1, fun hg => by omega⟩, hmu5,
        st1, v1, hb, Or.inr ⟨hw1, rfl, s5, hturn, hnr, Or.inr ⟨by omega, rfl⟩⟩⟩

theorem advanceColdLoop_spec {R : RingId → List Nat} {F : List Nat} (q : Req K V RS) (h : Inv0 c s)
    (hr : Rings s.entries s.head (c.rho s.entries.item) R F) (hov : s.weightHot + s.weightCold < 2 ^ 64) :
    ∀ (fuel : Nat) (A B : List Nat) (t : Nat), R .cold = A ++ t :: B → (∀ u ∈ A, PinnedAt c s u) →
    (t :: B).length ≤ fuel →
    ∃ s' q' b, advanceColdLoop c fuel s q t = .ok (s', q', b) ∧ EvPost c s q s' q' ∧
      (b = true → mu c s' < mu c s) ∧ (b = false → Stuck c s' ∧ q' = q)
  | 0, _, _, _, _, _, hf => by simp at hf
  | fuel + 1, A, B, t, hR, hA, hf => by
    have htm : t ∈ R .cold := by rw [hR]; simp
    obtain ⟨r, ht, hst, hw⟩ := of_rho (st := .cold) ((hr.mem _ _).mp htm)
    unfold advanceColdLoop
    rw [Slab.get_eq, ht]
    simp only [Option.map_some]
    rw [if_neg (fun h => h hst)]
    split
    · rename_i href
      obtain ⟨s', q', g1, g2, g3, -⟩ := coldPromote_spec h q ht hst hw href hov
      exact ⟨s', q', true, g1, g2, fun _ => g3, by simp⟩
    · rename_i href
      have href : r.referenced = 0 := by omega
      cases hp : c.pinned r.key r.value with
      | true =>
        simp only [if_true]
        have hpt : PinnedAt c s t := by intro r' hr'; rw [ht] at hr'; cases hr'; exact hp
        have hhd : s.head .cold = s.coldHead := rfl
        split
        · rename_i hex
          obtain ⟨s', q', b, g1, g2, g3, g4⟩ := advanceHot_spec h q
          refine ⟨s', q', b, g1, g2, g3, fun hb => ?_⟩
          obtain ⟨g5, g6⟩ := g4 hb
          subst g6
          refine ⟨Stuck.of_silent g2 ?_, rfl⟩
          intro u r' hu hw'
          cases hs' : r'.state with
          | hot => exact g5 u r' hu hs' hw'
          | cold =>
            rcases hr.next_split hR with ⟨hB, -⟩ | ⟨hne, -⟩
            · subst hB
              have hum : u ∈ R .cold := by rw [hr.mem, rho_resident hu hw', hs']; rfl
              rw [hR] at hum
              simp only [List.mem_append, List.mem_singleton] at hum
              rcases hum with hum | rfl
              · exact hA u hum r' hu
              · exact hpt r' hu
            · exact absurd (hhd.trans hex.symm) hne
        · rename_i hex
          rcases hr.next_split hR with ⟨-, hh, -⟩ | ⟨-, B2, h1, h2⟩
          · exact absurd (hhd.symm.trans hh).symm hex
          · refine advanceColdLoop_spec q h hr hov fuel (A ++ [t]) B2 _ h2 ?_ ?_
            · intro u hu
              simp only [List.mem_append, List.mem_singleton] at hu
              rcases hu with hu | rfl
              · exact hA u hu
              · exact hpt
            · rw [← h1]; simp only [List.length_cons] at hf; omega
      | false =>
        simp only [Bool.false_eq_true, if_false]
        obtain ⟨s', q', g1, g2, g3, -⟩ := coldVictim_spec h q ht hst hw hp href
        exact ⟨s', q', true, g1, g2, fun _ => g3, by simp⟩

theorem advanceCold_spec (h : Inv0 c s) (q : Req K V RS) (hov : s.weightHot + s.weightCold < 2 ^ 64) :
    ∃ s' q' b, s.advanceCold c q = .ok (s', q', b) ∧ EvPost c s q s' q' ∧ (b = true → mu c s' < mu c s) ∧
      (b = false → Stuck c s' ∧ q' = q) := by
  obtain ⟨R, F, hr⟩ := h.str
  have hhd : s.coldHead = (R .cold).head? := hr.heads .cold
  unfold advanceCold
  cases hR : R .cold with
  | nil =>
    rw [hR] at hhd
    simp only [hhd, List.head?_nil]
    obtain ⟨s', q', b, g1, g2, g3, g4⟩ := advanceHot_spec h q
    refine ⟨s', q', b, g1, g2, g3, fun hb => ?_⟩
    obtain ⟨g5, g6⟩ := g4 hb
    subst g6
    refine ⟨Stuck.of_silent g2 ?_, rfl⟩
    intro u r' hu hw'
    cases hs' : r'.state with
    | hot => exact g5 u r' hu hs' hw'
    | cold =>
      have hum : u ∈ R .cold := by rw [hr.mem, rho_resident hu hw', hs']; rfl
      rw [hR] at hum; simp at hum
  | cons t B =>
    rw [hR] at hhd
    simp only [hhd, List.head?_cons]
    have hlen : (R .cold).length ≤ s.entries.entries.length := hr.length_le .cold
    rw [hR] at hlen
    exact advanceColdLoop_spec q h hr hov _ [] B t (by simp [hR]) (by simp) (by omega)

/-- The eviction loop of the insertion paths: it ends with the total (plus `extra`) within capacity or with nothing
left to evict. -/
theorem evictLoop_spec (extra : Nat) : ∀ (fuel : Nat) (s : Shard K V) (q : Req K V RS), Inv0 c s → mu c s < fuel →
    (evictLoop c extra fuel s q = .error .overflow ∧ 2 ^ 64 ≤ s.weightHot + s.weightCold + extra) ∨
    ∃ s' q', evictLoop c extra fuel s q = .ok (s', q') ∧ EvPost c s q s' q' ∧
      (s'.weightHot + s'.weightCold + extra ≤ s'.weightCapacity ∨ Stuck c s') ∧
      s.weightHot + s.weightCold + extra < 2 ^ 64
  | 0, _, _, _, hf => by omega
  | fuel + 1, s, q, h, hf => by
    by_cases hov : s.weightHot + s.weightCold + extra < 2 ^ 64
    · right
      unfold evictLoop
      rw [cadd_ok (by omega)]
      simp only [Res.ok_bind]
      rw [cadd_ok (by omega)]
      simp only [Res.ok_bind]
      split
      · obtain ⟨s1, q1, b, h1, h2, h3, h4⟩ := advanceCold_spec h q (by omega)
        rw [h1]
        simp only [Res.ok_bind]
        cases b with
        | true =>
          simp only [if_true]
          have := h2.total
          rcases evictLoop_spec extra fuel s1 q1 h2.inv (by have := h3 rfl; omega) with
            ⟨g1, g2⟩ | ⟨s2, q2, g1, g2, g3, g4⟩
          · omega
          · exact ⟨s2, q2, g1, h2.trans g2, g3, hov⟩
        | false =>
          obtain ⟨h5, h6⟩ := h4 rfl
          exact ⟨s1, q1, by simp, h2, Or.inr h5, hov⟩
      · exact ⟨s, q, rfl, .refl h q, Or.inl (by omega), hov⟩
    · left
      refine ⟨?_, by omega⟩
      unfold evictLoop
      by_cases h1 : s.weightHot + s.weightCold < 2 ^ 64
      · rw [cadd_ok h1]
        simp only [Res.ok_bind]
        rw [cadd_err (by omega)]
        rfl
      · rw [cadd_err (by omega)]
        rfl

/-- Nothing happens when everything fits. -/
theorem evictLoop_fits (extra : Nat) {fuel : Nat} (q : Req K V RS) (hf : 0 < fuel)
    (hfit : s.weightHot + s.weightCold + extra ≤ s.weightCapacity) (hov : s.weightHot + s.weightCold + extra < 2 ^ 64) :
    evictLoop c extra fuel s q = .ok (s, q) := by
  obtain ⟨f, rfl⟩ : ∃ f, fuel = f + 1 := ⟨fuel - 1, by omega⟩
  unfold evictLoop
  rw [cadd_ok (by omega)]
  simp only [Res.ok_bind]
  rw [cadd_ok (by omega)]
  simp only [Res.ok_bind]
  rw [if_neg (by omega)]

end Shard
end QuickCache
