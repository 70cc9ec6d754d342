import Verif.Proofs.Protocol
import Verif.Spec.History

/-!
# Reference counters, ghosts and pending placeholders along a run
-/

namespace QuickCache
variable {K V RS : Type _}
open Shard Unsync Spec

section
variable {c : Cfg K V RS} {s s' : Shard K V}

/-! ### Reference counters stay at most `MAX_F`, and below any larger bound -/

/-- All reference counters are at most `B`. -/
def RefLe (B : Nat) (s : Shard K V) : Prop := ∀ t r, s.entries.item t = some (.resident r) → r.referenced ≤ B

variable {B : Nat}

theorem EvStep.refLe {I I' : Nat → Option (Entry K V)} {st st' : RS} {L : List (Event K V)} (h : EvStep c I st L I' st')
    (hr : ∀ t r, I t = some (.resident r) → r.referenced ≤ B) :
    ∀ t r, I' t = some (.resident r) → r.referenced ≤ B := by
  have gen : ∀ (t : Nat) (new : Option (Entry K V)), (∀ r, new = some (.resident r) → r.referenced ≤ B) →
      ∀ u r, upd I t new u = some (.resident r) → r.referenced ≤ B := by
    intro t new hn u r hu
    by_cases hut : u = t
    · subst hut; rw [upd_same] at hu; exact hn r hu
    · rw [upd_other _ _ hut] at hu; exact hr u r hu
  cases h with
  | touch t r n st' ht hst =>
    refine gen t _ (fun r' h' => ?_)
    cases h'
    have := hr t r ht
    rcases hst with ⟨-, -, -, rfl⟩ | ⟨-, -, -, rfl⟩ <;> simp only <;> omega
  | spare t r v ht h0 hw hp hb hw' =>
    refine gen t _ (fun r' h' => ?_)
    cases h'
    exact hr t r ht
  | evict t r v ht h0 hw hp hb hw' new hnew =>
    refine gen t _ (fun r' h' => ?_)
    rcases hnew with ⟨rfl, -⟩ | ⟨rfl, -⟩ <;> cases h'
  | dropGhost t g ht => exact gen t _ (fun r' h' => by cases h')

theorem EvSteps.refLe {I I' : Nat → Option (Entry K V)} {st st' : RS} {L : List (Event K V)} (h : EvSteps c I st L I' st')
    (hr : ∀ t r, I t = some (.resident r) → r.referenced ≤ B) :
    ∀ t r, I' t = some (.resident r) → r.referenced ≤ B := by
  induction h with
  | nil => exact hr
  | cons h hs ih => exact ih (h.refLe hr)

theorem EvPost.refLe {q q' : Req K V RS} (h : EvPost c s q s' q') (hr : RefLe B s) : RefLe B s' := by
  obtain ⟨L, -, hev⟩ := h.log
  exact hev.refLe hr

theorem Wrote.refLe {t : Nat} {old new : Option (Entry K V)} (h : Wrote c s s' t old new) (hr : RefLe B s)
    (hn : ∀ r, new = some (.resident r) → r.referenced ≤ B) : RefLe B s' := by
  intro u r hu
  by_cases hut : u = t
  · subst hut; rw [h.upd.after] at hu; exact hn r hu
  · rw [h.upd.other hut] at hu; exact hr u r hu

theorem StoreEff.refLe {q : Req K V RS} {k : K} {v : V} {str : Strategy} {x : Shard K V × Req K V RS × Option V}
    (h : StoreEff c s q k v str x) (hB : MAX_F ≤ B) (hr : RefLe B s) : RefLe B x.1 := by
  cases h with
  | put q1 v1 he adm hp =>
    obtain ⟨s1, s2, qa, qb, t, old, r, pre, wrote, hk, hv, href, hold, post, fits, fresh, done, same, once⟩ := hp
    exact post.refLe (wrote.refLe (pre.refLe hr) (fun r' h' => by cases h'; exact Nat.le_trans href hB))
  | reject q1 v1 hw hp hb hw1 hrej =>
    have : ∀ {s' : Shard K V} {q' : Req K V RS}, RejEff c s q1 k s' q' → RefLe B s' := by
      intro s' q' hrej
      cases hrej with
      | old t r hk same wrote => exact wrote.refLe hr (fun r' h' => by cases h')
      | plh t ph hk hno same wrote => exact wrote.refLe hr (fun r' h' => by cases h')
      | none => exact hr
    cases str <;> exact this hrej
  | absent => exact hr

theorem Pending.refLe {s1 : Shard K V} {k : K} {p : Plh} (h : Pending c s k s1 p) (hr : RefLe B s) : RefLe B s1 :=
  fun t r ht => hr t r ((h.res t r).mp ht)

theorem bumpRef_le (n : Nat) : bumpRef n ≤ MAX_F ∨ bumpRef n ≤ n := by unfold bumpRef; split <;> omega

theorem StepEff.refLe [DecidableEq K] {op : Op K V} {x : Shard K V × Out K V × Req K V RS} (h : StepEff c s op x)
    (hi : Inv0 c s) (hB : MAX_F ≤ B) (hr : RefLe B s) : RefLe B x.1 := by
  cases h with
  | insert h => exact h.refLe hB hr
  | replace h => exact h.refLe hB hr
  | removeHit t r hk wrote same => exact wrote.refLe hr (fun r' h' => by cases h')
  | removeIdle t e he hno wrote same => exact wrote.refLe hr (fun r' h' => by cases h')
  | removeNone => exact hr
  | hit hop t r hk wrote hits misses =>
    refine wrote.refLe hr (fun r' h' => ?_)
    cases h'
    have := hr t r wrote.upd.before
    have := bumpRef_le r.referenced
    simp only
    split <;> omega
  | miss hop hno => exact hr
  | peek => exact hr
  | contains => exact hr
  | retain inv same ghosts drop keep map =>
    intro t r ht
    by_cases hk : ∀ r, s.entries.item t = some (.resident r) → ‹K → V → Bool› r.key r.value = true
    · rw [keep t hk] at ht; exact hr t r ht
    · simp only [Classical.not_forall, Bool.not_eq_true] at hk
      obtain ⟨r0, h0, h1⟩ := hk
      rw [drop t r0 h0 h1] at ht; cases ht
  | clear =>
    obtain ⟨-, -, h0, -⟩ := drain_spec hi
    intro t r ht; rw [show (s.clear).entries.item t = none from h0 t] at ht; cases ht
  | drain =>
    obtain ⟨-, -, h0, -⟩ := drain_spec hi
    intro t r ht; rw [h0 t] at ht; cases ht
  | reserve => exact hr
  | leave hop hp => exact hp.refLe hr
  | drop hop hp inv same entries wgt ghosts map =>
    have := hp.refLe hr
    intro t r ht; simp only [entries] at ht; exact this t r ht
  | fill hop hp h taken => exact h.refLe hB (hp.refLe hr)
  | fillMutOut hp h hno taken => exact h.refLe hB (hp.refLe hr)
  | fillMut hp h taken t r hk wrote same =>
    have h1 := h.refLe hB (hp.refLe hr)
    refine wrote.refLe h1 (fun r' h' => ?_)
    cases h'
    exact h1 t r wrote.upd.before

/-! ### Where ghosts and pending placeholders come from -/

/-- A pending placeholder of the key is in the index. -/
def Pend (s : Shard K V) (k : K) : Prop :=
  ∃ t ph hh, s.entries.item t = some (.placeholder ph) ∧ ph.key = k ∧ (hh, t) ∈ s.map

/-- The effect of some calls on ghosts and pending placeholders: ghosts are old or come from the evictions of `log`,
pending placeholders are old. -/
structure Idles (c : Cfg K V RS) (s s' : Shard K V) (log : List (Event K V)) : Prop where
  gho : ∀ t g, s'.entries.item t = some (.ghost g) →
    (∃ t', s.entries.item t' = some (.ghost g)) ∨ ∃ k v, .onEvict k v ∈ log ∧ c.hash k = g
  plh : ∀ k, Pend s' k → Pend s k

theorem Idles.refl (s : Shard K V) : Idles c s s [] := ⟨fun t _ h => Or.inl ⟨t, h⟩, fun _ h => h⟩

theorem Idles.trans {s1 s2 : Shard K V} {L1 L2 : List (Event K V)} (h1 : Idles c s s1 L1) (h2 : Idles c s1 s2 L2) :
    Idles c s s2 (L1 ++ L2) where
  gho t g h := by
    rcases h2.gho t g h with ⟨t', h'⟩ | ⟨k, v, a, b⟩
    · rcases h1.gho t' g h' with h | ⟨k, v, a, b⟩
      · exact Or.inl h
      · exact Or.inr ⟨k, v, by simp [a], b⟩
    · exact Or.inr ⟨k, v, by simp [a], b⟩
  plh k h := h1.plh k (h2.plh k h)

theorem Idles.mono {L1 L2 : List (Event K V)} (h : Idles c s s' L1) (hs : ∀ e ∈ L1, e ∈ L2) : Idles c s s' L2 where
  gho t g ht := by
    rcases h.gho t g ht with h | ⟨k, v, a, b⟩
    · exact Or.inl h
    · exact Or.inr ⟨k, v, hs _ a, b⟩
  plh := h.plh

theorem EvStep.gho {I I' : Nat → Option (Entry K V)} {st st' : RS} {L : List (Event K V)} (h : EvStep c I st L I' st')
    (t : Nat) (g : UInt64) (ht : I' t = some (.ghost g)) :
    (∃ t', I t' = some (.ghost g)) ∨ ∃ k v, .onEvict k v ∈ L ∧ c.hash k = g := by
  have gen : ∀ (u : Nat) (new : Option (Entry K V)), (new ≠ some (.ghost g)) → upd I u new t = some (.ghost g) →
      ∃ t', I t' = some (.ghost g) := by
    intro u new hn hu
    by_cases hut : t = u
    · subst hut; rw [upd_same] at hu; exact absurd hu hn
    · rw [upd_other _ _ hut] at hu; exact ⟨t, hu⟩
  cases h with
  | touch u r n st' hu hst => exact Or.inl (gen u _ (by simp) ht)
  | spare u r v hu h0 hw hp hb hw' => exact Or.inl (gen u _ (by simp) ht)
  | evict u r v hu h0 hw hp hb hw' new hnew =>
    by_cases hut : t = u
    · subst hut
      rw [upd_same] at ht
      rcases hnew with ⟨rfl, -⟩ | ⟨rfl, -⟩
      · cases ht
      · cases ht; exact Or.inr ⟨r.key, v, by simp, rfl⟩
    · rw [upd_other _ _ hut] at ht; exact Or.inl ⟨t, ht⟩
  | dropGhost u g' hu => exact Or.inl (gen u _ (by simp) ht)

theorem EvSteps.gho {I I' : Nat → Option (Entry K V)} {st st' : RS} {L : List (Event K V)} (h : EvSteps c I st L I' st') :
    ∀ (t : Nat) (g : UInt64), I' t = some (.ghost g) →
    (∃ t', I t' = some (.ghost g)) ∨ ∃ k v, .onEvict k v ∈ L ∧ c.hash k = g := by
  induction h with
  | nil => intro t g ht; exact Or.inl ⟨t, ht⟩
  | cons h hs ih =>
    intro t g ht
    rcases ih t g ht with ⟨t', h'⟩ | ⟨k, v, a, b⟩
    · rcases h.gho t' g h' with h | ⟨k, v, a, b⟩
      · exact Or.inl h
      · exact Or.inr ⟨k, v, by simp [a], b⟩
    · exact Or.inr ⟨k, v, by simp [a], b⟩

theorem EvPost.idles {q q' : Req K V RS} (h : EvPost c s q s' q') : ∃ L, q'.log = q.log ++ L ∧ Idles c s s' L := by
  obtain ⟨L, h1, hev⟩ := h.log
  refine ⟨L, h1, fun t g ht => hev.gho t g ht, ?_⟩
  rintro k ⟨t, ph, hh, ht, hk, hm⟩
  exact ⟨t, ph, hh, (hev.frame.1 t ph).mpr ht, hk, ((h.map _).mp hm).1⟩

theorem Wrote.idles {t : Nat} {old new : Option (Entry K V)} (h : Wrote c s s' t old new)
    (h1 : ∀ g, new ≠ some (.ghost g)) (h2 : ∀ p, new ≠ some (.placeholder p)) : Idles c s s' [] where
  gho u g hu := by
    by_cases hut : u = t
    · subst hut; rw [h.upd.after] at hu; exact absurd hu (h1 g)
    · rw [h.upd.other hut] at hu; exact Or.inl ⟨u, hu⟩
  plh := by
    rintro k ⟨u, ph, hh, hu, hk, hm⟩
    by_cases hut : u = t
    · subst hut; rw [h.upd.after] at hu; exact absurd hu (h2 ph)
    · rw [h.upd.other hut] at hu
      rcases (h.map _).mp hm with ⟨-, hm⟩ | ⟨h', -⟩
      · exact ⟨u, ph, hh, hu, hk, hm⟩
      · exact absurd h' hut

theorem PutEff.idles {q q' : Req K V RS} {k : K} {v : V} {str : Strategy} (h : PutEff c s q k v str s' q') :
    ∃ L, q'.log = q.log ++ L ∧ Idles c s s' L := by
  obtain ⟨s1, s2, qa, qb, t, old, r, pre, wrote, hk, hv, href, hold, post, fits, fresh, done, same, once⟩ := h
  obtain ⟨L1, e1, i1⟩ := pre.idles
  obtain ⟨L2, e2, i2⟩ := post.idles
  have i := i1.trans ((wrote.idles (by simp) (by simp)).trans i2)
  rcases hold with ⟨r0, -, -, -, rfl, rfl, -⟩ | ⟨-, -, rfl, -⟩
  · refine ⟨.onEvict k r0.value :: L2, by simp [e2, Req.on], i.mono ?_⟩
    have : L1 = [] := by simpa using e1
    subst this
    intro e he
    simp only [List.nil_append] at he
    exact List.mem_cons_of_mem _ he
  · exact ⟨L1 ++ L2, by rw [e2, e1, List.append_assoc], i.mono (by intro e he; simpa using he)⟩

theorem StoreEff.idles {q : Req K V RS} {k : K} {v : V} {str : Strategy} {x : Shard K V × Req K V RS × Option V}
    (h : StoreEff c s q k v str x) : Idles c s x.1 x.2.1.log := by
  cases h with
  | put q1 v1 he adm hp =>
    obtain ⟨L, e, i⟩ := hp.idles
    exact i.mono (by intro a ha; simp only [e, List.mem_append]; exact Or.inr ha)
  | reject q1 v1 hw hp hb hw1 hrej =>
    have : ∀ {s' : Shard K V} {q' : Req K V RS}, RejEff c s q1 k s' q' → Idles c s s' [] := by
      intro s' q' hrej
      cases hrej with
      | old t r hk same wrote => exact wrote.idles (by simp) (by simp)
      | plh t ph hk hno same wrote => exact wrote.idles (by simp) (by simp)
      | none => exact .refl s
    cases str <;> exact (this hrej).mono (by simp)
  | absent => exact (Idles.refl s).mono (by simp)

/-- The effect of a call on ghosts and pending placeholders. -/
structure Keeps (c : Cfg K V RS) (s s' : Shard K V) (op : Op K V) (out : Out K V) (log : List (Event K V)) : Prop where
  gho : ∀ t g, s'.entries.item t = some (.ghost g) →
    (∃ t', s.entries.item t' = some (.ghost g)) ∨ ∃ k v, .onEvict k v ∈ log ∧ c.hash k = g
  plh : ∀ k, Pend s' k → Pend s k ∨ LeaveOp op k out

theorem Idles.keeps {op : Op K V} {out : Out K V} {L : List (Event K V)} (h : Idles c s s' L) :
    Keeps c s s' op out L := ⟨h.gho, fun k hk => Or.inl (h.plh k hk)⟩

theorem Pending.plh_of {s1 : Shard K V} {k k' : K} {p : Plh} (h : Pending c s k s1 p) (hp : Pend s1 k') :
    Pend s k' ∨ k' = k := by
  obtain ⟨t, ph, hh, ht, rfl, hm⟩ := hp
  rcases h.plhs t ph ht with h1 | h1
  · rcases h.map _ hm with h2 | h2
    · obtain ⟨ph', g1, g2, g3⟩ := h.holds
      simp only at h2
      rw [← h2, ht] at g1
      cases g1
      exact Or.inr g3
    · exact Or.inl ⟨t, ph, hh, h1, rfl, h2⟩
  · exact Or.inr h1

theorem Pending.fillKeeps {s1 : Shard K V} {k : K} {p : Plh} {op : Op K V} {out : Out K V} {L : List (Event K V)}
    (h : Pending c s k s1 p) (hi : Idles c s1 s' L) (ht : Taken s' k) : Keeps c s s' op out L where
  gho t g hg := by
    rcases hi.gho t g hg with ⟨t', h'⟩ | h'
    · exact Or.inl ⟨t', h.gho t' g h'⟩
    · exact Or.inr h'
  plh k' hk' := by
    rcases h.plh_of (hi.plh k' hk') with h1 | rfl
    · exact Or.inl h1
    · obtain ⟨t, ph, hh, h1, h2, h3⟩ := hk'
      exact absurd h2 (ht t ph hh h1 h3)

theorem StepEff.idle [DecidableEq K] {op : Op K V} {x : Shard K V × Out K V × Req K V RS} (h : StepEff c s op x)
    (hi : Inv0 c s) : Keeps c s x.1 op x.2.1 x.2.2.log := by
  have empty : ∀ {s' : Shard K V} {out : Out K V}, (∀ t, s'.entries.item t = none) → Keeps c s s' op out [] := by
    intro s' out h0
    refine ⟨fun t g ht => (by rw [h0] at ht; cases ht), ?_⟩
    rintro k ⟨t, ph, hh, ht, -⟩
    rw [h0] at ht; cases ht
  cases h with
  | insert h => exact (h.idles).keeps
  | replace h => exact (h.idles).keeps
  | removeHit t r hk wrote same => exact (wrote.idles (by simp) (by simp)).keeps
  | removeIdle t e he hno wrote same => exact (wrote.idles (by simp) (by simp)).keeps
  | removeNone => exact (Idles.refl s).keeps
  | hit hop t r hk wrote hits misses => exact (wrote.idles (by simp) (by simp)).keeps
  | miss hop hno => exact Idles.keeps ⟨fun t g h => Or.inl ⟨t, h⟩, fun k h => h⟩
  | peek => exact (Idles.refl s).keeps
  | contains => exact (Idles.refl s).keeps
  | retain inv same ghosts drop keep map =>
    have old : ∀ {s' : Shard K V} {f : K → V → Bool}
        (_ : ∀ t r, s.entries.item t = some (.resident r) → f r.key r.value = false → s'.entries.item t = none)
        (_ : ∀ t, (∀ r, s.entries.item t = some (.resident r) → f r.key r.value = true) →
          s'.entries.item t = s.entries.item t) (t : Nat) (e : Entry K V), s'.entries.item t = some e →
        s.entries.item t = some e := by
      intro s' f drop keep t e ht
      by_cases hk : ∀ r, s.entries.item t = some (.resident r) → f r.key r.value = true
      · rwa [keep t hk] at ht
      · simp only [Classical.not_forall, Bool.not_eq_true] at hk
        obtain ⟨r0, h0, h1⟩ := hk
        rw [drop t r0 h0 h1] at ht; cases ht
    refine Idles.keeps ⟨fun t g ht => Or.inl ⟨t, old drop keep t _ ht⟩, ?_⟩
    rintro k ⟨t, ph, hh, ht, hk, hm⟩
    exact ⟨t, ph, hh, old drop keep t _ ht, hk, ((map _).mp hm).1⟩
  | clear =>
    obtain ⟨-, -, h0, -⟩ := drain_spec hi
    exact empty (fun t => h0 t)
  | drain =>
    obtain ⟨-, -, h0, -⟩ := drain_spec hi
    exact empty (fun t => h0 t)
  | reserve => exact (Idles.refl s).keeps
  | leave hop hp =>
    refine ⟨fun t g ht => Or.inl ⟨t, hp.gho t g ht⟩, fun k' hk' => ?_⟩
    rcases hp.plh_of hk' with h1 | rfl
    · exact Or.inl h1
    · exact Or.inr hop
  | drop hop hp inv same entries wgt ghosts map =>
    refine ⟨fun t g ht => Or.inl ⟨t, hp.gho t g (by simpa only [entries] using ht)⟩, ?_⟩
    rintro k' ⟨t, ph, hh, ht, hk, hm⟩
    simp only [entries] at ht
    obtain ⟨hm, hne⟩ := (map _).mp hm
    rcases hp.plh_of ⟨t, ph, hh, ht, hk, hm⟩ with h1 | rfl
    · exact Or.inl h1
    · exfalso
      obtain ⟨ph', g1, g2, g3⟩ := hp.holds
      exact hne (hp.inv.idx.uniq _ t _ _ k' hm hp.mapped (by simp [keyAt, ht, keyOf, hk])
        (by simp [keyAt, g1, keyOf, g3]))
  | fill hop hp h taken => exact hp.fillKeeps h.idles taken
  | fillMutOut hp h hno taken => exact hp.fillKeeps h.idles taken
  | fillMut hp h taken t r hk wrote same =>
    refine hp.fillKeeps ((h.idles.trans (wrote.idles (by simp) (by simp))).mono (by simp)) ?_
    intro u ph hh hu hm
    by_cases hut : u = t
    · subst hut; rw [wrote.upd.after] at hu; cases hu
    · rw [wrote.upd.other hut] at hu
      rcases (wrote.map _).mp hm with ⟨-, hm⟩ | ⟨h', -⟩
      · exact taken u ph hh hu hm
      · exact absurd h' hut

end

/-! ### Along a run -/

section
variable [DecidableEq K] {c : Cfg K V RS} {s s0 : Shard K V} {target cap gcap : Nat} {h : List (Call K V)}

theorem Unsync.Run.refOK (hr : Run c (Shard.new target cap gcap) h s) : RefLe MAX_F s := by
  generalize h0 : (Shard.new target cap gcap : Shard K V) = s0 at hr
  induction hr with
  | start => subst h0; intro t r ht; simp [Shard.new, Slab.new, Slab.item] at ht
  | layout m p hr hm hp ih => exact ih
  | call hr hs ih =>
    subst h0
    have hre := hr.reach_new
    exact (step_eff hre.inv hs).refLe hre.inv.toInv0 (Nat.le_refl _) ih

/-- Where the ghosts and pending placeholders of a state come from. -/
structure Prov (c : Cfg K V RS) (l : List (Call K V)) (s : Shard K V) : Prop where
  gho : ∀ t g, s.entries.item t = some (.ghost g) → ∃ x ∈ l, ∃ k v, .onEvict k v ∈ x.log ∧ c.hash k = g
  plh : ∀ k, Pend s k → ∃ x ∈ l, Unfinished k x

omit [DecidableEq K] in
theorem LeaveOp.unfinished {op : Op K V} {k : K} {out : Out K V} (h : LeaveOp op k out) (L : List (Event K V)) :
    Unfinished k ⟨op, out, L⟩ := by
  cases h with
  | load => exact .load _
  | loadMut _ f => exact .loadMut f _
  | guard => exact .guard _
  | guardMut _ f => exact .guardMut f _

omit [DecidableEq K] in
theorem sinceClear_append (h : List (Call K V)) (x : Call K V) :
    ((x.op = .clear ∨ x.op = .drain) ∧ sinceClear (h ++ [x]) = []) ∨ sinceClear (h ++ [x]) = sinceClear h ++ [x] := by
  unfold sinceClear
  rw [List.foldl_append]
  rcases x with ⟨op, out, log⟩
  cases op <;> simp

theorem Unsync.Run.prov (hr : Run c (Shard.new target cap gcap) h s) : Prov c (sinceClear h) s := by
  generalize h0 : (Shard.new target cap gcap : Shard K V) = s0 at hr
  induction hr with
  | start =>
    subst h0
    refine ⟨fun t g ht => by simp [Shard.new, Slab.new, Slab.item] at ht, ?_⟩
    rintro k ⟨t, ph, hh, ht, -⟩
    simp [Shard.new, Slab.new, Slab.item] at ht
  | layout m p hr hm hp ih =>
    refine ⟨ih.gho, ?_⟩
    rintro k ⟨t, ph, hh, ht, hk, hmem⟩
    exact ih.plh k ⟨t, ph, hh, ht, hk, hm.mem_iff.mp hmem⟩
  | @call h s s' op out q hr hs ih =>
    subst h0
    have hre := hr.reach_new
    have he := step_eff hre.inv hs
    rcases sinceClear_append h ⟨op, out, q.log⟩ with ⟨h1, h2⟩ | h2
    · have hnone : ∀ t, s'.entries.item t = none := by
        obtain ⟨-, -, h0, -⟩ := drain_spec hre.inv.toInv0
        simp only at h1
        rcases h1 with rfl | rfl
        · cases hs; exact h0
        · cases hs; exact h0
      refine ⟨fun t g ht => (by rw [hnone] at ht; cases ht), ?_⟩
      rintro k ⟨t, ph, hh, ht, -⟩
      rw [hnone] at ht; cases ht
    · have hk := he.idle hre.inv.toInv0
      rw [h2]
      have up : ∀ {P : Call K V → Prop}, (∃ x ∈ sinceClear h, P x) → ∃ x ∈ sinceClear h ++ [⟨op, out, q.log⟩], P x :=
        fun ⟨x, hx, hp⟩ => ⟨x, by simp [hx], hp⟩
      constructor
      · intro t g ht
        rcases hk.gho t g ht with ⟨t', h'⟩ | ⟨k, v, h3, h4⟩
        · exact up (ih.gho t' g h')
        · exact ⟨⟨op, out, q.log⟩, by simp, k, v, h3, h4⟩
      · intro k hp
        rcases hk.plh k hp with h' | h'
        · exact up (ih.plh k h')
        · exact ⟨⟨op, out, q.log⟩, by simp, h'.unfinished _⟩

end
end QuickCache
