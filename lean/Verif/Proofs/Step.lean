import Verif.Proofs.Store
import Verif.Model.Unsync
import Verif.Spec.Ops

/-!
# The effect of every call of the unsync cache, on slots
-/

namespace QuickCache
variable {K V RS : Type _}
open Shard Unsync

section
variable {c : Cfg K V RS} {s : Shard K V}

theorem Wrote.trans {s1 s2 : Shard K V} {t : Nat} {a b d : Option (Entry K V)} (h1 : Wrote c s s1 t a b)
    (h2 : Wrote c s1 s2 t b d) (hb : b.isSome = true) (hr : a.bind c.ringOf = b.bind c.ringOf) : Wrote c s s2 t a d where
  inv := h2.inv
  upd := h1.upd.trans h2.upd
  target := h2.target.trans h1.target
  capacity := h2.capacity.trans h1.capacity
  ghostCap := h2.ghostCap.trans h1.ghostCap
  probe := h2.probe.trans h1.probe
  map x := by
    rw [h2.map, h1.map]
    constructor
    · rintro (⟨h, ⟨-, h'⟩ | ⟨h', -⟩⟩ | h)
      · exact Or.inl ⟨h, h'⟩
      · exact absurd h' h
      · exact Or.inr h
    · rintro (⟨h, h'⟩ | h)
      · exact Or.inl ⟨h, Or.inl ⟨h, h'⟩⟩
      · exact Or.inr h
  rings := by
    have h := h1.rings.trans h2.rings
    rw [hb, hr, ringMove_same] at h
    rw [hr]; exact h

/-- After the placeholder lookup missed: the shard holds a placeholder of the key and the same items as before. -/
structure Pending (c : Cfg K V RS) (s : Shard K V) (k : K) (s1 : Shard K V) (p : Plh) : Prop where
  inv : Inv0 c s1
  ghosts : s1.numNonResident ≤ s.numNonResident
  target : s1.weightTargetHot = s.weightTargetHot
  capacity : s1.weightCapacity = s.weightCapacity
  ghostCap : s1.capacityNonResident = s.capacityNonResident
  total : s1.weightHot + s1.weightCold = s.weightHot + s.weightCold
  res : ∀ t r, s1.entries.item t = some (.resident r) ↔ s.entries.item t = some (.resident r)
  gho : ∀ t g, s1.entries.item t = some (.ghost g) → s.entries.item t = some (.ghost g)
  plhs : ∀ t x, s1.entries.item t = some (.placeholder x) → s.entries.item t = some (.placeholder x) ∨ x.key = k
  holds : ∃ ph : Placeholder K, s1.entries.item p.idx = some (.placeholder ph) ∧ ph.shared = p ∧ ph.key = k
  hash : p.hash = c.hash k
  mapped : (c.hash k, p.idx) ∈ s1.map
  map : ∀ b ∈ s1.map, b.2 = p.idx ∨ b ∈ s.map
  noRes : NoRes s k
  /-- the number of placeholder slots grew by at most one -/
  count : ∀ f : Option (Entry K V) → Nat, f none = 0 → (∀ x, f (some (.placeholder x)) = 1) →
    Slab.sumBy f s1.entries ≤ Slab.sumBy f s.entries + 1
  stats : (s1.hits = s.hits + 1 ∧ s1.misses = s.misses ∧
      ∃ t ph, s.entries.item t = some (.placeholder ph) ∧ ph.key = k ∧ (c.hash k, t) ∈ s.map) ∨
    (s1.hits = s.hits ∧ s1.misses = s.misses + 1 ∧ NoKey s k)

theorem upserted_pending (h : Inv0 c s) {k : K} {x : Shard K V × Upsert V} (hu : Upserted c s k x) {p : Plh} {b : Bool}
    (hx : x.2 = .pending p b) : Pending c s k x.1 p := by
  cases hu with
  | found t r s' ht hk wrote hits misses np => cases hx
  | join t ph ht hk hm hno =>
    cases hx
    obtain ⟨e1, e2, e3⟩ := h.idx.plh t ph ht
    have hi : Inv0 c { s with hits := s.hits + 1 } := ⟨h.str, h.idx, ⟨h.cnt.num, h.cnt.wgt, h.cnt.ghost⟩⟩
    exact {
      inv := hi, ghosts := Nat.le_refl _, target := rfl, capacity := rfl, ghostCap := rfl, total := rfl
      res := fun _ _ => Iff.rfl, gho := fun _ _ h => h, plhs := fun _ _ h => Or.inl h
      holds := ⟨ph, by rw [e1]; exact ht, rfl, hk⟩, hash := by rw [e2, hk], mapped := by rw [e1]; exact hm
      map := fun b hb => Or.inr hb
      noRes := hno, count := fun f _ _ => Nat.le_succ _, stats := Or.inl ⟨rfl, rfl, t, ph, ht, hk, hm⟩ }
  | ghost t s' ht hno wrote hits misses np =>
    cases hx
    have ht' := wrote.upd.after
    exact {
      inv := wrote.inv
      ghosts := by have := wrote.ghosts h; simp [ghostF] at this; simp only; omega
      target := wrote.target, capacity := wrote.capacity, ghostCap := wrote.ghostCap
      total := by have := wrote.total h; simp [totF] at this; omega
      res := fun u r => by
        by_cases hut : u = t
        · subst hut; rw [ht', ht]; simp
        · rw [wrote.upd.other hut]
      gho := fun u r hu => by
        by_cases hut : u = t
        · subst hut; rw [ht'] at hu; cases hu
        · rwa [wrote.upd.other hut] at hu
      plhs := fun u r hu => by
        by_cases hut : u = t
        · subst hut; rw [ht'] at hu; cases hu; exact Or.inr rfl
        · rw [wrote.upd.other hut] at hu; exact Or.inl hu
      holds := ⟨_, ht', rfl, rfl⟩, hash := rfl
      mapped := (wrote.map _).mpr (Or.inr ⟨rfl, rfl⟩)
      map := fun b hb => by
        rcases (wrote.map b).mp hb with h | h
        · exact Or.inr h.2
        · exact Or.inl h.1
      noRes := hno.noRes h
      count := fun f h0 h1 => by have := wrote.upd.sum f h0; rw [h1] at this; simp only; omega
      stats := Or.inr ⟨hits, misses, hno⟩ }
  | fresh t s' hno hg wrote hits misses np =>
    cases hx
    have ht := wrote.upd.before
    have ht' := wrote.upd.after
    exact {
      inv := wrote.inv
      ghosts := by have := wrote.ghosts h; simp [ghostF] at this; simp only; omega
      target := wrote.target, capacity := wrote.capacity, ghostCap := wrote.ghostCap
      total := by have := wrote.total h; simp [totF] at this; omega
      res := fun u r => by
        by_cases hut : u = t
        · subst hut; rw [ht', ht]; simp
        · rw [wrote.upd.other hut]
      gho := fun u r hu => by
        by_cases hut : u = t
        · subst hut; rw [ht'] at hu; cases hu
        · rwa [wrote.upd.other hut] at hu
      plhs := fun u r hu => by
        by_cases hut : u = t
        · subst hut; rw [ht'] at hu; cases hu; exact Or.inr rfl
        · rw [wrote.upd.other hut] at hu; exact Or.inl hu
      holds := ⟨_, ht', rfl, rfl⟩, hash := rfl
      mapped := (wrote.map _).mpr (Or.inr ⟨rfl, rfl⟩)
      map := fun b hb => by
        rcases (wrote.map b).mp hb with h | h
        · exact Or.inr h.2
        · exact Or.inl h.1
      noRes := hno.noRes h
      count := fun f h0 h1 => by have := wrote.upd.sum f h0; rw [h1] at this; simp only; omega
      stats := Or.inr ⟨hits, misses, hno⟩ }

/-- The token of a filled placeholder reads exactly the item of the key, if it is still there. -/
theorem Shard.Replaced.token {q : Req K V RS} {p : Plh} {refd : Bool} {v : V} {x : Shard K V × Req K V RS × Option V}
    {ph : Placeholder K} (hp : Holds c s p ph) {hh : UInt64} (hm : (hh, p.idx) ∈ s.map)
    (hi : Inv0 c s) (h : Replaced c s q p refd v x) (r : Resident K V) :
    x.1.entries.item p.idx = some (.resident r) ↔ ∃ u, x.1.entries.item u = some (.resident r) ∧ r.key = ph.key := by
  have hkey : ∀ ph', Holds c s p ph' → ph' = ph := by
    intro ph' h'
    have := h'.1.symm.trans hp.1
    cases this; rfl
  have gen : ∀ {s3 s' : Shard K V} {q1 q' : Req K V RS} {e : Resident K V}, e.key = ph.key →
      s3.entries.item p.idx = some (.resident e) → Inv0 c s3 → EvPost c s3 q1 s' q' →
      (s'.entries.item p.idx = some (.resident r) ↔ ∃ u, s'.entries.item u = some (.resident r) ∧ r.key = ph.key) := by
    intro s3 s' q1 q' e he hs3 hi3 post
    obtain ⟨L, -, hev⟩ := post.log
    obtain ⟨-, f2, -⟩ := hev.frame
    constructor
    · intro h
      have := f2 p.idx r.key (by simp [keyAt, h, keyOf])
      simp [keyAt, hs3, keyOf] at this
      exact ⟨_, h, by rw [← this, he]⟩
    · rintro ⟨u, hu, hk⟩
      have h1 := f2 u r.key (by simp [keyAt, hu, keyOf])
      have h2 := (post.map _).mp (post.inv.idx.mapped u _ hu (by simp))
      have := hi3.idx.uniq _ u _ p.idx r.key h2.1 (hi3.idx.mapped _ _ hs3 (by simp)) h1
        (by simp [keyAt, hs3, keyOf, he, hk])
      rwa [this] at hu
  cases h with
  | gone hg => exact absurd hp (hg ph)
  | direct ph' st s3 s' q' hp' hw same wrote after level light =>
    obtain rfl := hkey ph' hp'
    have post : EvPost c s3 q s' q' := by
      rcases after with h | ⟨-, rfl, rfl⟩
      · exact h.post
      · exact .refl wrote.inv _
    exact gen rfl wrote.upd.after wrote.inv post
  | shrunk ph' st q1 v1 s3 s' q' hp' hw hpin hb hw1 same wrote after level light =>
    obtain rfl := hkey ph' hp'
    have post : EvPost c s3 q1 s' q' := by
      rcases after with h | ⟨-, rfl, rfl⟩
      · exact h.post
      · exact .refl wrote.inv _
    exact gen rfl wrote.upd.after wrote.inv post
  | rejected ph' q1 v1 s' hp' hw hpin hb hw1 same wrote =>
    obtain rfl := hkey ph' hp'
    have hno := plh_noRes hi hp.1 hm
    constructor
    · intro h; exact ⟨_, h, by rw [wrote.upd.after] at h; cases h⟩
    · rintro ⟨u, hu, hk⟩
      by_cases hut : u = p.idx
      · rwa [hut] at hu
      · rw [wrote.upd.other hut] at hu
        exact absurd hk (hno u r hu)

theorem Shard.Replaced.inv {q : Req K V RS} {p : Plh} {refd : Bool} {v : V} {x : Shard K V × Req K V RS × Option V}
    (hi : Inv0 c s) (h : Replaced c s q p refd v x) : Inv0 c x.1 := by
  cases h with
  | gone hg => exact hi
  | direct ph' st s3 s' q' hp' hw same wrote after level light =>
    rcases after with h | ⟨-, rfl, rfl⟩
    · exact h.post.inv
    · exact wrote.inv
  | shrunk ph' st q1 v1 s3 s' q' hp' hw hpin hb hw1 same wrote after level light =>
    rcases after with h | ⟨-, rfl, rfl⟩
    · exact h.post.inv
    · exact wrote.inv
  | rejected ph' q1 v1 s' hp' hw hpin hb hw1 same wrote => exact wrote.inv

/-- No placeholder of the key is in the index. -/
def Taken (s : Shard K V) (k : K) : Prop :=
  ∀ u ph hh, s.entries.item u = some (.placeholder ph) → (hh, u) ∈ s.map → ph.key ≠ k

/-- A filled placeholder is gone. -/
theorem Shard.Replaced.taken {q : Req K V RS} {p : Plh} {refd : Bool} {v : V} {x : Shard K V × Req K V RS × Option V}
    {ph : Placeholder K} (hp : Holds c s p ph) {hh : UInt64} (hm : (hh, p.idx) ∈ s.map)
    (hi : Inv0 c s) (h : Replaced c s q p refd v x) : Taken x.1 ph.key := by
  have hkey : ∀ ph', Holds c s p ph' → ph' = ph := by
    intro ph' h'
    have := h'.1.symm.trans hp.1
    cases this; rfl
  have gen : ∀ {s3 s' : Shard K V} {q1 q' : Req K V RS} {e : Resident K V}, e.key = ph.key →
      s3.entries.item p.idx = some (.resident e) → Inv0 c s3 → EvPost c s3 q1 s' q' → Taken s' ph.key := by
    intro s3 s' q1 q' e he hs3 hi3 post u ph' hh' hu hmu hk
    obtain ⟨L, -, hev⟩ := post.log
    obtain ⟨f1, -, -⟩ := hev.frame
    have h1 := (f1 u ph').mpr hu
    have := hi3.idx.uniq _ u _ p.idx ph.key ((post.map _).mp hmu).1 (hi3.idx.mapped _ _ hs3 (by simp))
      (by simp [keyAt, h1, keyOf, hk]) (by simp [keyAt, hs3, keyOf, he])
    rw [this, hs3] at h1
    cases h1
  cases h with
  | gone hg => exact absurd hp (hg ph)
  | direct ph' st s3 s' q' hp' hw same wrote after level light =>
    obtain rfl := hkey ph' hp'
    have post : EvPost c s3 q s' q' := by
      rcases after with h | ⟨-, rfl, rfl⟩
      · exact h.post
      · exact .refl wrote.inv _
    exact gen rfl wrote.upd.after wrote.inv post
  | shrunk ph' st q1 v1 s3 s' q' hp' hw hpin hb hw1 same wrote after level light =>
    obtain rfl := hkey ph' hp'
    have post : EvPost c s3 q1 s' q' := by
      rcases after with h | ⟨-, rfl, rfl⟩
      · exact h.post
      · exact .refl wrote.inv _
    exact gen rfl wrote.upd.after wrote.inv post
  | rejected ph' q1 v1 s' hp' hw hpin hb hw1 same wrote =>
    obtain rfl := hkey ph' hp'
    intro u ph2 hh' hu hmu hk
    have hne : u ≠ p.idx := by
      rintro rfl
      rw [wrote.upd.after] at hu; cases hu
    rw [wrote.upd.other hne] at hu
    rcases (wrote.map _).mp hmu with ⟨-, h⟩ | ⟨h, -⟩
    · exact hne (hi.idx.uniq _ u _ p.idx ph'.key h hm (by simp [keyAt, hu, keyOf, hk]) (by simp [keyAt, hp.1, keyOf]))
    · exact hne h

theorem peekToken_eq (s : Shard K V) (t : Nat) (v : V) :
    s.peekToken t = some v ↔ ∃ r, s.entries.item t = some (.resident r) ∧ r.value = v := by
  unfold peekToken
  rw [Slab.get_eq]
  cases h : s.entries.item t with
  | none => simp
  | some e => cases e <;> simp

theorem option_ext' {α : Type _} {a b : Option α} (h : ∀ x, a = some x ↔ b = some x) : a = b := by
  cases a with
  | none =>
    cases b with
    | none => rfl
    | some y => exact absurd ((h y).mpr rfl) (by simp)
  | some x => exact ((h x).mp rfl).symm

/-- Filling the pending placeholder. -/
theorem Pending.fill [DecidableEq K] {s1 : Shard K V} {k : K} {p : Plh} (h : Pending c s k s1 p) (v : V) :
    Res.Sat (Unsync.fill c s1 p v) (fun x => StoreEff c s1 c.begin k v .insert (x.1, x.2, none) ∧ Inv0 c x.1 ∧
        x.1.peekToken p.idx = x.1.contents k ∧ (∀ r, x.1.entries.item p.idx = some (.resident r) → r.key = k) ∧
        Taken x.1 k)
      (OvErr s (addWeight c s c.begin k v)) := by
  obtain ⟨ph, h1, h2, h3⟩ := h.holds
  have hh : Holds c s1 p ph := ⟨h1, by rw [h2]; unfold Cfg.sameAs; cases c.ptrEq <;> simp⟩
  have hm : (p.hash, p.idx) ∈ s1.map := by rw [h.hash]; exact h.mapped
  unfold Unsync.fill
  refine Res.Sat.bind (P := fun x => Replaced c s1 c.begin p false v x ∧ x.2.2 = none) ?_ ?_
  · refine (replacePlaceholder_spec h.inv c.begin false v ?_).mono (fun x hx => ⟨hx, ?_⟩) ?_
    · intro ph' hp'
      have := hp'.1.symm.trans h1
      cases this
      exact ⟨by rw [h.hash, h3], hm⟩
    · cases hx with
      | gone hg => exact absurd hh (hg ph)
      | _ => rfl
    · rintro e ⟨ph', hp', he⟩
      have := hp'.1.symm.trans h1
      cases this
      rw [h3] at he
      simpa [OvErr, addWeight, h.target, h.total] using he
  · rintro ⟨s', q', r⟩ ⟨hx, hr⟩
    simp only at hr
    subst hr
    simp only [Option.isSome_none, Bool.false_eq_true, if_false]
    refine .ok ⟨?_, hx.inv h.inv, ?_, ?_, ?_⟩
    · have := hx.storeEff h.inv hh hm
      rwa [h3] at this
    rotate_left 2
    · have := hx.taken hh hm h.inv
      rwa [h3] at this
    rotate_left
    · intro r hr
      obtain ⟨-, -, hk⟩ := (hx.token hh hm h.inv r).mp hr
      rw [hk, h3]
    · have ht := hx.token hh hm h.inv
      have hi := hx.inv h.inv
      simp only at ht hi ⊢
      apply option_ext'
      intro w
      rw [peekToken_eq, hi.contents_slot]
      constructor
      · rintro ⟨r, hr, hv⟩
        obtain ⟨u, hu, hk⟩ := (ht r).mp hr
        exact ⟨u, r, hu, by rw [hk, h3], hv⟩
      · rintro ⟨u, r, hu, hk, hv⟩
        exact ⟨r, (ht r).mpr ⟨u, hu, by rw [hk, h3]⟩, hv⟩

/-! ### Calls by kind -/

/-- Calls that look up a key and, on a hit, return its value and replace it by `f` of it; `b`: whether the access is
counted. -/
inductive HitOp : Op K V → K → Bool → (V → V) → (V → Out K V) → Prop
  | get (k : K) : HitOp (.get k) k true id (fun v => .value (some v))
  | getMut (k : K) (f : V → V) : HitOp (.getMut k f) k true f (fun v => .value (some v))
  | peekMut (k : K) (f : V → V) : HitOp (.peekMut k f) k false f (fun v => .value (some v))
  | getOrInsertWith (k : K) (load : Option V) :
      HitOp (.getOrInsertWith k load) k true id (fun v => .loaded false (some (some v)))
  | getMutOrInsertWith (k : K) (load : Option V) (f : V → V) :
      HitOp (.getMutOrInsertWith k load f) k true f (fun v => .loaded false (some (some v)))
  | getRefOrGuard (k : K) (use : GuardUse V) : HitOp (.getRefOrGuard k use) k true id (fun v => .orGuard (some v))
  | getMutOrGuard (k : K) (f : V → V) (use : GuardUse V) :
      HitOp (.getMutOrGuard k f use) k true f (fun v => .orGuard (some v))

/-- Lookups without loading; `b`: whether a miss is counted. -/
inductive MissOp : Op K V → K → Bool → Out K V → Prop
  | get (k : K) : MissOp (.get k) k true (.value none)
  | getMut (k : K) (f : V → V) : MissOp (.getMut k f) k true (.value none)
  | peek (k : K) : MissOp (.peek k) k false (.value none)
  | peekMut (k : K) (f : V → V) : MissOp (.peekMut k f) k false (.value none)
  | containsKey (k : K) : MissOp (.containsKey k) k false (.bool false)

/-- Lookups that create a placeholder on a miss, which is then left behind. -/
inductive LeaveOp : Op K V → K → Out K V → Prop
  | load (k : K) : LeaveOp (.getOrInsertWith k none) k (.loaded true none)
  | loadMut (k : K) (f : V → V) : LeaveOp (.getMutOrInsertWith k none f) k (.loaded true none)
  | guard (k : K) : LeaveOp (.getRefOrGuard k .forget) k (.orGuard none)
  | guardMut (k : K) (f : V → V) : LeaveOp (.getMutOrGuard k f .forget) k (.orGuard none)

/-- Lookups that yield a guard on a miss, which is then dropped. -/
inductive DropOp : Op K V → K → Prop
  | guard (k : K) : DropOp (.getRefOrGuard k .drop) k
  | guardMut (k : K) (f : V → V) : DropOp (.getMutOrGuard k f .drop) k

/-- Lookups that fill the placeholder on a miss; the output depends on what is stored in the end. -/
inductive FillOp : Op K V → K → V → (Option V → Out K V) → Prop
  | load (k : K) (v : V) : FillOp (.getOrInsertWith k (some v)) k v (fun r => .loaded true (some r))
  | guard (k : K) (v : V) : FillOp (.getRefOrGuard k (.insert v)) k v (fun _ => .orGuard none)
  | guardMut (k : K) (f : V → V) (v : V) : FillOp (.getMutOrGuard k f (.insert v)) k v (fun _ => .orGuard none)

/-- The effect of a call on the slots, with its output and the final request state. -/
inductive StepEff [DecidableEq K] (c : Cfg K V RS) (s : Shard K V) :
    Op K V → Shard K V × Out K V × Req K V RS → Prop
  | insert {k : K} {v : V} {s' : Shard K V} {q : Req K V RS} (h : StoreEff c s c.begin k v .insert (s', q, none)) :
      StepEff c s (.insert k v) (s', .unit, q)
  | replace {k : K} {v : V} {soft : Bool} {s' : Shard K V} {q : Req K V RS} {r : Option V}
      (h : StoreEff c s c.begin k v (.replace soft) (s', q, r)) :
      StepEff c s (.replace k v soft) (s', .replaced (r.map (fun v' => (k, v'))), q)
  | removeHit {k : K} {s' : Shard K V} (t : Nat) (r : Resident K V) (hk : r.key = k)
      (wrote : Wrote c s s' t (some (.resident r)) none) (same : Same s s') :
      StepEff c s (.remove k) (s', .removed (some (k, r.value)), c.begin)
  | removeIdle {k : K} {s' : Shard K V} (t : Nat) (e : Entry K V) (he : ∀ r, e ≠ .resident r) (hno : NoRes s k)
      (wrote : Wrote c s s' t (some e) none) (same : Same s s') : StepEff c s (.remove k) (s', .removed none, c.begin)
  | removeNone {k : K} (hno : NoRes s k) : StepEff c s (.remove k) (s, .removed none, c.begin)
  | hit {op : Op K V} {k : K} {b : Bool} {f : V → V} {out : V → Out K V} {s' : Shard K V} (hop : HitOp op k b f out)
      (t : Nat) (r : Resident K V) (hk : r.key = k)
      (wrote : Wrote c s s' t (some (.resident r)) (some (.resident
        { r with referenced := if b then bumpRef r.referenced else r.referenced, value := f r.value })))
      (hits : s'.hits = s.hits + if b then 1 else 0) (misses : s'.misses = s.misses) :
      StepEff c s op (s', out r.value, c.begin)
  | miss {op : Op K V} {k : K} {b : Bool} {out : Out K V} (hop : MissOp op k b out) (hno : NoRes s k) :
      StepEff c s op ({ s with misses := s.misses + if b then 1 else 0 }, out, c.begin)
  | peek {k : K} (t : Nat) (r : Resident K V) (ht : s.entries.item t = some (.resident r)) (hk : r.key = k) :
      StepEff c s (.peek k) (s, .value (some r.value), c.begin)
  | contains {k : K} (t : Nat) (r : Resident K V) (ht : s.entries.item t = some (.resident r)) (hk : r.key = k) :
      StepEff c s (.containsKey k) (s, .bool true, c.begin)
  | retain {f : K → V → Bool} {s' : Shard K V} (inv : Inv0 c s') (same : Same s s')
      (ghosts : s'.numNonResident = s.numNonResident)
      (drop : ∀ t r, s.entries.item t = some (.resident r) → f r.key r.value = false → s'.entries.item t = none)
      (keep : ∀ t, (∀ r, s.entries.item t = some (.resident r) → f r.key r.value = true) →
        s'.entries.item t = s.entries.item t) (map : ∀ b, b ∈ s'.map ↔ b ∈ s.map ∧ (s'.entries.item b.2).isSome) :
      StepEff c s (.retain f) (s', .unit, c.begin)
  | clear : StepEff c s .clear (s.clear, .unit, c.begin)
  | drain : StepEff c s .drain (s.drain.1, .items s.iter, c.begin)
  | reserve : StepEff c s .reserve (s, .unit, c.begin)
  | leave {op : Op K V} {k : K} {out : Out K V} {s1 : Shard K V} {p : Plh} (hop : LeaveOp op k out)
      (hp : Pending c s k s1 p) : StepEff c s op (s1, out, c.begin)
  | drop {op : Op K V} {k : K} {s1 s' : Shard K V} {p : Plh} (hop : DropOp op k) (hp : Pending c s k s1 p)
      (inv : Inv0 c s') (same : Same s1 s') (entries : s'.entries = s1.entries) (wgt : s'.wgt = s1.wgt)
      (ghosts : s'.numNonResident = s1.numNonResident) (map : ∀ b, b ∈ s'.map ↔ b ∈ s1.map ∧ b.2 ≠ p.idx) :
      StepEff c s op (s', .orGuard none, c.begin)
  | fill {op : Op K V} {k : K} {v : V} {out : Option V → Out K V} {s1 s' : Shard K V} {p : Plh} {q : Req K V RS}
      (hop : FillOp op k v out) (hp : Pending c s k s1 p) (h : StoreEff c s1 c.begin k v .insert (s', q, none))
      (taken : Taken s' k) : StepEff c s op (s', out (s'.contents k), q)
  | fillMutOut {k : K} {v : V} {f : V → V} {s1 s' : Shard K V} {p : Plh} {q : Req K V RS} (hp : Pending c s k s1 p)
      (h : StoreEff c s1 c.begin k v .insert (s', q, none)) (hno : NoRes s' k) (taken : Taken s' k) :
      StepEff c s (.getMutOrInsertWith k (some v) f) (s', .loaded true (some none), q)
  | fillMut {k : K} {v : V} {f : V → V} {s1 s2 s' : Shard K V} {p : Plh} {q : Req K V RS} (hp : Pending c s k s1 p)
      (h : StoreEff c s1 c.begin k v .insert (s2, q, none)) (taken : Taken s2 k) (t : Nat) (r : Resident K V)
      (hk : r.key = k) (wrote : Wrote c s2 s' t (some (.resident r)) (some (.resident { r with value := f r.value })))
      (same : Same s2 s') :
      StepEff c s (.getMutOrInsertWith k (some v) f) (s', .loaded true (some (some r.value)), q)

open Spec (Adds Grows)

/-- The panics a call may end with. -/
def StepErr [DecidableEq K] (c : Cfg K V RS) (s : Shard K V) (op : Op K V) (p : Panic) : Prop :=
  (p = .overflow ∧ ∃ w, Adds c s.weightTargetHot s.contents op w ∧ 2 ^ 64 ≤ s.weightHot + s.weightCold + w) ∨
  (p = .slabFull ∧ Grows s.contents op ∧ s.entries.entries.length + 2 = 2 ^ 32)

theorem AddErr.stepErr [DecidableEq K] {op : Op K V} {w : Nat} {p : Panic} (ha : Adds c s.weightTargetHot s.contents op w) {g : Prop}
    (hg : g → Grows s.contents op) (h : AddErr s g w p) : StepErr c s op p := by
  rcases h with ⟨rfl, h⟩ | h
  · exact Or.inl ⟨rfl, w, ha, h⟩
  · exact Or.inr ⟨h.1, hg h.2.1, h.2.2⟩

theorem OvErr.stepErr [DecidableEq K] {op : Op K V} {w : Nat} {p : Panic} (ha : Adds c s.weightTargetHot s.contents op w) (h : OvErr s w p) :
    StepErr c s op p := Or.inl ⟨h.1, w, ha, h.2⟩

theorem addWeight_begin (k : K) (v : V) : addWeight c s c.begin k v = Spec.enterWeight c s.weightTargetHot k v := rfl

theorem slot_contents [DecidableEq K] (hi : Inv0 c s) {t : Nat} {r : Resident K V} {k : K}
    (ht : s.entries.item t = some (.resident r)) (hk : r.key = k) : s.contents k = some r.value :=
  hi.contents_slot.mpr ⟨t, r, ht, hk, rfl⟩

theorem write_after (h : Inv0 c s) {s1 : Shard K V} {t n : Nat} {r : Resident K V} (f : V → V)
    (wrote : Wrote c s s1 t (some (.resident r)) (some (.resident { r with referenced := n }))) :
    Res.Sat (s1.refMutWrite c t (c.weight r.key r.value) f)
      (fun s' => Wrote c s s' t (some (.resident r)) (some (.resident { r with referenced := n, value := f r.value })) ∧
        Same s1 s')
      (OvErr s (c.weight r.key (f r.value))) := by
  refine (refMutWrite_spec wrote.inv f wrote.upd.after).mono (fun s' hs' => ⟨wrote.trans hs'.1 rfl rfl, hs'.2⟩) ?_
  rintro p ⟨rfl, hp⟩
  refine ⟨rfl, ?_⟩
  have := wrote.total h
  simp only [totF] at this hp
  omega

section
variable [DecidableEq K]

theorem eqv_false {k : K} (h : ∀ t r, s.entries.item t = some (.resident r) → (r.key == k) = false) : NoRes s k := by
  intro t r hr hk
  have := h t r hr
  simp [hk] at this

omit [DecidableEq K] in
theorem miss_inv (h : Inv0 c s) (n : Nat) : Inv0 c { s with misses := n } :=
  ⟨h.str, h.idx, ⟨h.cnt.num, h.cnt.wgt, h.cnt.ghost⟩⟩

/-- The lookup of the loading calls. -/
theorem upsert_sat (h : Inv0 c s) (k : K) :
    Res.Sat (s.upsertPlaceholder c (c.hash k) (fun x => x == k) k)
      (fun x => (∃ t r, x.2 = .found t r.value ∧ r.key = k ∧ x.1.hits = s.hits + 1 ∧ x.1.misses = s.misses ∧
          Wrote c s x.1 t (some (.resident r)) (some (.resident { r with referenced := bumpRef r.referenced }))) ∨
        ∃ p b, x.2 = .pending p b ∧ Pending c s k x.1 p)
      (fun p => p = .slabFull ∧ s.contents k = none ∧ s.entries.entries.length + 2 = 2 ^ 32) := by
  refine (upsertPlaceholder_spec h (Lawful.key c k) (by simp)).mono (fun x hx => ?_)
    (fun _ hp => ⟨hp.1, h.contents_none.mpr (hp.2.1.noRes h), hp.2.2⟩)
  rcases hx2 : x.2 with ⟨t, v⟩ | ⟨p, b⟩
  · left
    cases hx with
    | found t r s' ht hk wrote hits misses np => cases hx2; exact ⟨t, r, rfl, hk, hits, misses, wrote⟩
    | _ => cases hx2
  · right
    exact ⟨p, b, rfl, upserted_pending h hx hx2⟩

theorem loadToken_sat (h : Inv0 c s) (k : K) (load : Option V) :
    Res.Sat (getOrInsertToken c s k load)
      (fun x =>
        (∃ t r, x.2 = (c.begin, false, some t) ∧ r.key = k ∧ x.1.hits = s.hits + 1 ∧ x.1.misses = s.misses ∧
          Wrote c s x.1 t (some (.resident r)) (some (.resident { r with referenced := bumpRef r.referenced }))) ∨
        (∃ p, load = none ∧ x.2 = (c.begin, true, none) ∧ Pending c s k x.1 p) ∨
        ∃ s1 p v q, load = some v ∧ x.2 = (q, true, some p.idx) ∧ Pending c s k s1 p ∧
          StoreEff c s1 c.begin k v .insert (x.1, q, none) ∧ Inv0 c x.1 ∧ x.1.peekToken p.idx = x.1.contents k ∧
          (∀ r, x.1.entries.item p.idx = some (.resident r) → r.key = k) ∧ Taken x.1 k)
      (fun p => (∃ v, load = some v ∧ s.contents k = none ∧ OvErr s (addWeight c s c.begin k v) p) ∨
        (p = .slabFull ∧ s.contents k = none ∧ s.entries.entries.length + 2 = 2 ^ 32)) := by
  unfold getOrInsertToken
  refine Res.Sat.bind ((upsert_sat h k).mono (fun _ hx => hx) (fun _ hp => Or.inr hp)) ?_
  rintro ⟨s1, x2⟩ hx
  rcases hx with ⟨t, r, hx2, hk, hits, misses, wrote⟩ | ⟨p, b, hx2, hp⟩
  · simp only at hx2 hits misses wrote
    subst hx2
    exact .ok (Or.inl ⟨t, r, rfl, hk, hits, misses, wrote⟩)
  · simp only at hx2 hp
    subst hx2
    cases load with
    | none => exact .ok (Or.inr (Or.inl ⟨p, rfl, rfl, hp⟩))
    | some v =>
      simp only
      refine Res.Sat.bind ((hp.fill v).mono (fun _ hx => hx) (fun _ he => Or.inl ⟨v, rfl, h.contents_none.mpr hp.noRes, he⟩)) ?_
      rintro ⟨s2, q⟩ ⟨h1, h2, h3, h4, h5⟩
      exact .ok (Or.inr (Or.inr ⟨s1, p, v, q, rfl, rfl, hp, h1, h2, h3, h4, h5⟩))

theorem useGuard_sat {s1 : Shard K V} {k : K} {p : Plh} (hp : Pending c s k s1 p) (use : GuardUse V) :
    Res.Sat (useGuard c s1 p use)
      (fun x => (use = .forget ∧ x = (s1, c.begin)) ∨
        (use = .drop ∧ x.2 = c.begin ∧ Inv0 c x.1 ∧ Same s1 x.1 ∧ x.1.entries = s1.entries ∧ x.1.wgt = s1.wgt ∧
          x.1.numNonResident = s1.numNonResident ∧ ∀ b, b ∈ x.1.map ↔ b ∈ s1.map ∧ b.2 ≠ p.idx) ∨
        (∃ v, use = .insert v ∧ StoreEff c s1 c.begin k v .insert (x.1, x.2, none) ∧ Taken x.1 k))
      (fun e => ∃ v, use = .insert v ∧ OvErr s (addWeight c s c.begin k v) e) := by
  cases use with
  | insert v =>
    exact (hp.fill v).mono (fun x hx => Or.inr (Or.inr ⟨v, rfl, hx.1, hx.2.2.2.2⟩)) (fun e he => ⟨v, rfl, he⟩)
  | drop =>
    obtain ⟨s', h1, h2, h3, h4, h5, h6, h7, h8, -⟩ := removePlaceholder_spec hp.inv (p := p) (by
      intro ph h1 h2
      obtain ⟨ph', h3, h4, h5⟩ := hp.holds
      rw [h1] at h3; cases h3
      rw [h4])
    unfold useGuard
    rw [h1]
    refine .ok (Or.inr (Or.inl ⟨rfl, rfl, h2, h3, h4, h5, h7, fun b => ?_⟩))
    obtain ⟨ph, g1, g2, g3⟩ := hp.holds
    have h9 : s'.map = s1.map.filter (fun b => b.2 != p.idx) :=
      h8 ⟨ph, g1, by rw [g2]; unfold Cfg.sameAs; cases c.ptrEq <;> simp⟩
    simp [h9]
  | forget => exact .ok (Or.inl ⟨rfl, rfl⟩)

omit [DecidableEq K] in
theorem peekToken_res {t : Nat} {r : Resident K V} (ht : s.entries.item t = some (.resident r)) :
    s.peekToken t = some r.value := (peekToken_eq s t _).mpr ⟨r, ht, rfl⟩

omit [DecidableEq K] in
theorem peekTokenMut_res {t : Nat} {r : Resident K V} (ht : s.entries.item t = some (.resident r)) :
    s.peekTokenMut c t = some (t, c.weight r.key r.value) := by
  unfold peekTokenMut; rw [Slab.get_eq, ht]; rfl

omit [DecidableEq K] in
theorem peekTokenMut_none {t : Nat} (ht : s.peekToken t = none) : s.peekTokenMut c t = none := by
  unfold peekTokenMut; unfold peekToken at ht; rw [Slab.get_eq] at *
  cases h : s.entries.item t with
  | none => rfl
  | some e => cases e <;> simp_all

/-- Every call either has its effect or panics because of an overflow. -/
theorem step_sat (h : Inv0 c s) (op : Op K V) : Res.Sat (step c s op) (StepEff c s op) (StepErr c s op) := by
  cases op with
  | insert k v =>
    unfold step Unsync.insert
    refine Res.Sat.bind (P := fun x => StoreEff c s c.begin k v .insert (x.1, x.2, none)) ?_ ?_
    · refine Res.Sat.bind ((insert_spec h c.begin k v .insert).mono (fun x hx => hx.storeEff h)
        (fun p hp => AddErr.stepErr (.insert k v)
          (fun hg => .insert v (h.contents_none.mpr (hg.2.noRes h))) hp)) ?_
      rintro ⟨s', q, r⟩ hx
      have hr : r = none := by
        cases hx with
        | put => rfl
        | reject => rfl
        | absent _ _ _ _ hstr => cases hstr
      subst hr
      exact .ok hx
    · rintro ⟨s', q⟩ hx
      exact .ok (.insert hx)
  | replace k v soft =>
    unfold step Unsync.replace
    refine Res.Sat.bind (P := fun x => ∃ r, x.2.2 = r.map (fun v' => (k, v')) ∧
      StoreEff c s c.begin k v (.replace soft) (x.1, x.2.1, r)) ?_ ?_
    · refine Res.Sat.bind ((insert_spec h c.begin k v (.replace soft)).mono (fun x hx => hx.storeEff h)
        (fun p hp => AddErr.stepErr (.replace k v soft) (fun hg => nomatch hg.1) hp)) ?_
      rintro ⟨s', q, r⟩ hx
      exact .ok ⟨r, rfl, hx⟩
    · rintro ⟨s', q, r⟩ ⟨r', h1, hx⟩
      simp only at h1
      subst h1
      exact .ok (.replace hx)
  | remove k =>
    unfold step
    simp only
    rcases remove_spec h (Lawful.key c k) with ⟨h1, h2⟩ | ⟨s', t, e, h1, h2, h3, h4, h5, h6⟩
    · rw [h1]
      refine .ok (.removeNone ?_)
      intro t r hr hk
      have := h2 _ t r.key (h.idx.mapped t _ hr (by simp)) (by simp [keyAt, hr, keyOf])
      simp [hk] at this
    · rw [h1]
      simp only [Res.ok_bind]
      cases e with
      | resident r =>
        have hk : r.key = k := by
          rcases h6 with ⟨k', hk', he⟩ | ⟨he, -⟩
          · simp only [keyOf, Option.some.injEq] at hk'
            rw [hk']; simpa using he
          · cases he
        simp only [residentPair, hk]
        exact .ok (.removeHit t r hk h4 h5)
      | placeholder ph =>
        refine .ok (.removeIdle t _ (by simp) ?_ h4 h5)
        rcases h6 with ⟨k', hk', he⟩ | ⟨he, -⟩
        · simp only [keyOf, Option.some.injEq] at hk'
          have hk : ph.key = k := by rw [hk']; simpa using he
          rw [← hk]
          exact plh_noRes h h2 h3
        · cases he
      | ghost g =>
        refine .ok (.removeIdle t _ (by simp) ?_ h4 h5)
        rcases h6 with ⟨k', hk', he⟩ | ⟨-, he⟩
        · cases hk'
        · intro t r hr hk
          have := he _ t r.key (h.idx.mapped t _ hr (by simp)) (by simp [keyAt, hr, keyOf])
          simp [hk] at this
  | get k =>
    unfold step
    simp only
    rcases get_spec h (Lawful.key c k) with ⟨t, r, s', h1, h2, h3, h4, h5, h6, h7⟩ | ⟨h1, h2⟩
    · rw [h1]
      exact .ok (.hit (.get k) t r (by simpa using h3) h4 (by simpa using h5) h6)
    · rw [h1]
      exact .ok (.miss (.get k) (eqv_false h2))
  | peek k =>
    unfold step
    simp only
    rcases peek_spec h (Lawful.key c k) with ⟨t, r, h1, -, -, h2, h3⟩ | ⟨h1, -, -, h2⟩
    · rw [h1]; exact .ok (.peek t r h2 (by simpa using h3))
    · rw [h1]; exact .ok (.miss (.peek k) (eqv_false h2))
  | containsKey k =>
    unfold step
    simp only
    rcases peek_spec h (Lawful.key c k) with ⟨t, r, -, h1, -, h2, h3⟩ | ⟨-, h1, -, h2⟩
    · rw [h1]; exact .ok (.contains t r h2 (by simpa using h3))
    · rw [h1]; exact .ok (.miss (.containsKey k) (eqv_false h2))
  | getMut k f =>
    unfold step
    simp only
    rcases getMut_spec h (Lawful.key c k) with ⟨t, r, s1, h1, h2, h3, h4, h5, h6, h7⟩ | ⟨h1, h2⟩
    · have hk : r.key = k := by simpa using h3
      rw [h1]
      simp only [Res.ok_bind, writeRef]
      refine Res.Sat.bind ((write_after h f h4).mono (fun _ hx => hx)
        (fun p hp => OvErr.stepErr (Adds.getMut f (slot_contents h h2 hk)) (by rw [← hk]; exact hp))) ?_
      rintro s2 ⟨g1, g2⟩
      simp only [Option.bind_some, peekToken_res h4.upd.after]
      exact .ok (.hit (.getMut k f) t r hk g1 (by rw [g2.hits, h5]; rfl) (by rw [g2.misses, h6]))
    · rw [h1]; exact .ok (.miss (.getMut k f) (eqv_false h2))
  | peekMut k f =>
    unfold step
    simp only
    rcases peek_spec h (Lawful.key c k) with ⟨t, r, -, -, h1, h2, h3⟩ | ⟨-, -, h1, h2⟩
    · have hk : r.key = k := by simpa using h3
      rw [h1]
      simp only [Res.ok_bind, writeRef]
      refine Res.Sat.bind ((refMutWrite_spec h f h2).mono (fun _ hx => hx)
        (fun p hp => OvErr.stepErr (Adds.peekMut f (slot_contents h h2 hk)) (by rw [← hk]; exact hp))) ?_
      rintro s2 ⟨g1, g2⟩
      simp only [Option.bind_some, peekToken_res h2]
      exact .ok (.hit (.peekMut k f) t r hk g1 (by rw [g2.hits]; rfl) g2.misses)
    · rw [h1]; exact .ok (.miss (.peekMut k f) (eqv_false h2))
  | retain f =>
    unfold step
    simp only
    obtain ⟨s', h1, h2, h3, h4, h5, h6, h7⟩ := retain_spec h f
    rw [h1]
    exact .ok (.retain h2 h3 h4 h5 h6 h7)
  | clear => exact .ok .clear
  | drain =>
    unfold step
    obtain ⟨-, -, -, -, -, h1⟩ := drain_spec h
    rw [h1]; exact .ok .drain
  | reserve =>
    unfold step
    simp only [reserve_spec h]
    exact .ok .reserve
  | getOrInsertWith k load =>
    unfold step Unsync.getOrInsertWith
    refine Res.Sat.bind (P := fun x => StepEff c s (.getOrInsertWith k load) (x.1, .loaded x.2.2.1 x.2.2.2, x.2.1)) ?_ ?_
    · refine Res.Sat.bind ((loadToken_sat h k load).mono (fun _ hx => hx) ?_) ?_
      · rintro p (⟨v, rfl, hno, hp⟩ | hp)
        · exact OvErr.stepErr (.load v hno) hp
        · exact Or.inr ⟨hp.1, .load load hp.2.1, hp.2.2⟩
      · rintro ⟨s1, q, b, t⟩ (⟨t, r, hx, hk, hits, misses, wrote⟩ | ⟨p, rfl, hx, hp⟩ | ⟨s0, p, v, q, rfl, hx, hp, g1, g2, g3, g4, g5⟩)
        · cases hx
          simp only at hits misses wrote
          refine .ok ?_
          simp only [Option.map_some, peekToken_res wrote.upd.after]
          exact .hit (.getOrInsertWith k load) t r hk wrote hits misses
        · cases hx; exact .ok (.leave (.load k) hp)
        · cases hx
          simp only at g1 g2 g3 g4 g5
          refine .ok ?_
          simp only [Option.map_some, g3]
          exact .fill (.load k v) hp g1 g5
    · rintro ⟨s1, q, b, t⟩ hx; exact .ok hx
  | getMutOrInsertWith k load f =>
    unfold step Unsync.getMutOrInsertWith
    refine Res.Sat.bind (P := fun x => StepEff c s (.getMutOrInsertWith k load f)
      (x.1, .loaded x.2.2.1 x.2.2.2, x.2.1)) ?_ ?_
    · refine Res.Sat.bind ((loadToken_sat h k load).mono (fun _ hx => hx) ?_) ?_
      · rintro p (⟨v, rfl, hno, hp⟩ | hp)
        · obtain ⟨rfl, hp⟩ := hp
          refine OvErr.stepErr (.loadMut v v f hno) ⟨rfl, by rw [← addWeight_begin]; omega⟩
        · exact Or.inr ⟨hp.1, .loadMut load f hp.2.1, hp.2.2⟩
      · rintro ⟨s1, q, b, t⟩ (⟨t, r, hx, hk, hits, misses, wrote⟩ | ⟨p, rfl, hx, hp⟩ | ⟨s0, p, v, q, rfl, hx, hp, g1, g2, g3, g4, g5⟩)
        · cases hx
          simp only at hits misses wrote
          simp only [peekTokenMut_res wrote.upd.after, writeRef, peekToken_res wrote.upd.after]
          refine Res.Sat.bind ((write_after h f wrote).mono (fun _ hx => hx)
            (fun p hp => OvErr.stepErr (Adds.loadMutHit load f (slot_contents h wrote.upd.before hk)) (by rw [← hk]; exact hp))) ?_
          rintro s2 ⟨k1, k2⟩
          exact .ok (.hit (.getMutOrInsertWith k load f) t r hk k1 (by rw [k2.hits, hits]; rfl) (by rw [k2.misses, misses]))
        · cases hx; exact .ok (.leave (.loadMut k f) hp)
        · cases hx
          simp only at g1 g2 g3 g4 g5
          simp only
          cases hv : s1.peekToken p.idx with
          | none =>
            simp only [peekTokenMut_none hv, writeRef, Res.ok_bind]
            refine .ok (.fillMutOut hp g1 ?_ g5)
            rw [← g2.contents_none, ← g3, hv]
          | some w =>
            obtain ⟨r, hr, rfl⟩ := (peekToken_eq _ _ _).mp hv
            have hk : r.key = k := g4 r hr
            simp only [peekTokenMut_res hr, writeRef]
            refine Res.Sat.bind ((refMutWrite_spec g2 f hr).mono (fun _ hx => hx) ?_) ?_
            · rintro p ⟨rfl, hp'⟩
              refine OvErr.stepErr (Adds.loadMut v r.value f (h.contents_none.mpr hp.noRes)) ⟨rfl, ?_⟩
              rw [← addWeight_begin]
              have h1 := g1.total_le hp.inv
              simp only at h1
              have h2 := hp.total
              have h3 : addWeight c s0 c.begin k v = addWeight c s c.begin k v := by simp [addWeight, hp.target]
              rw [hk] at hp'
              omega
            · rintro s2 ⟨k1, k2⟩
              exact .ok (.fillMut hp g1 g5 p.idx r hk k1 k2)
    · rintro ⟨s1, q, b, t⟩ hx; exact .ok hx
  | getRefOrGuard k use =>
    unfold step Unsync.getRefOrGuard
    refine Res.Sat.bind (P := fun x => StepEff c s (.getRefOrGuard k use) (x.1, .orGuard x.2.2, x.2.1)) ?_ ?_
    · refine Res.Sat.bind ((upsert_sat h k).mono (fun _ hx => hx) (fun _ hp => Or.inr ⟨hp.1, .guard use hp.2.1, hp.2.2⟩)) ?_
      rintro ⟨s1, x2⟩ (⟨t, r, hx2, hk, hits, misses, wrote⟩ | ⟨p, b, hx2, hp⟩)
      · cases hx2
        exact .ok (.hit (.getRefOrGuard k use) t r hk wrote hits misses)
      · cases hx2
        simp only
        refine Res.Sat.bind ((useGuard_sat hp use).mono (fun _ hx => hx) ?_) ?_
        · rintro e ⟨v, rfl, he⟩
          exact OvErr.stepErr (.guard v (h.contents_none.mpr hp.noRes)) he
        · rintro ⟨s2, q⟩ (⟨rfl, hx⟩ | ⟨rfl, hx, g1, g2, g3, g4, g5, g6⟩ | ⟨v, rfl, hx, g1⟩)
          · cases hx; exact .ok (.leave (.guard k) hp)
          · cases hx; exact .ok (.drop (.guard k) hp g1 g2 g3 g4 g5 g6)
          · exact .ok (.fill (.guard k v) hp hx g1)
    · rintro ⟨s1, q, r⟩ hx; exact .ok hx
  | getMutOrGuard k f use =>
    unfold step Unsync.getMutOrGuard
    refine Res.Sat.bind (P := fun x => StepEff c s (.getMutOrGuard k f use) (x.1, .orGuard x.2.2, x.2.1)) ?_ ?_
    · refine Res.Sat.bind ((upsert_sat h k).mono (fun _ hx => hx) (fun _ hp => Or.inr ⟨hp.1, .guardMut f use hp.2.1, hp.2.2⟩)) ?_
      rintro ⟨s1, x2⟩ (⟨t, r, hx2, hk, hits, misses, wrote⟩ | ⟨p, b, hx2, hp⟩)
      · cases hx2
        simp only at hits misses wrote
        simp only [peekTokenMut_res wrote.upd.after, writeRef]
        refine Res.Sat.bind ((write_after h f wrote).mono (fun _ hx => hx)
          (fun p hp => OvErr.stepErr (Adds.guardMutHit f use (slot_contents h wrote.upd.before hk)) (by rw [← hk]; exact hp))) ?_
        rintro s2 ⟨k1, k2⟩
        exact .ok (.hit (.getMutOrGuard k f use) t r hk k1 (by rw [k2.hits, hits]; rfl) (by rw [k2.misses, misses]))
      · cases hx2
        simp only
        refine Res.Sat.bind ((useGuard_sat hp use).mono (fun _ hx => hx) ?_) ?_
        · rintro e ⟨v, rfl, he⟩
          exact OvErr.stepErr (.guardMut f v (h.contents_none.mpr hp.noRes)) he
        · rintro ⟨s2, q⟩ (⟨rfl, hx⟩ | ⟨rfl, hx, g1, g2, g3, g4, g5, g6⟩ | ⟨v, rfl, hx, g1⟩)
          · cases hx; exact .ok (.leave (.guardMut k f) hp)
          · cases hx; exact .ok (.drop (.guardMut k f) hp g1 g2 g3 g4 g5 g6)
          · exact .ok (.fill (.guardMut k f v) hp hx g1)
    · rintro ⟨s1, q, r⟩ hx; exact .ok hx

end
end
end QuickCache
