import Verif.Proofs.Sweep
import Verif.Props.Sharded

/-!
# Property C80: calls that visit all shards; C36 for the concurrent cache

`Sweep.Run c (Sweep.start s0) h s`: `s0` is a cache just built by `with_options`, used by any number of threads, some of which make
calls that visit all shards; `h` lists all moments, each with what happened and the cache afterwards. A call `t`, made by
whomever, is the part of `h` between `called a t` and `returned a out`; the moments `h2` in between are those during the call.
-/

namespace QuickCache.Props
variable {K V RS : Type} [DecidableEq K] {c : Cfg K V RS} {o : Options} {s0 : SyncCache K V} {s : Sweep.State K V}
  {h h1 h2 : List (Sweep.Moment K V)} {x y : Conc.Cache K V} {a : Nat} {out : Sweep.TOut}
open Unsync Spec Conc Sweep

/-! ### C36: statistics -/

/-- In a shard used by any number of callers, `hits` is the number of calls that returned an item they found, plus the number of
times somebody joined a load; `misses` is the number of lookups that found nothing, plus the number of loads. -/
theorem C36_conc {target cap gcap : Nat} {tr : List (Conc.Ev K V)} {st : Conc.State K V}
    (hr : Conc.Run c (State.new (Shard.new target cap gcap)) tr st) (hq : c.ptrEq = true) :
    st.shard.hits = tr.countP countsHit ∧ st.shard.misses = tr.countP countsMiss := hr.stats hq

omit [DecidableEq K] in
theorem sum_set {f : Conc.State K V → Nat} {st st' : Conc.State K V} {d : Nat} (hf : f st' = f st + d) :
    ∀ {l : List (Conc.State K V)} {i : Nat}, l[i]? = some st → ((l.set i st').map f).sum = (l.map f).sum + d := by
  intro l
  induction l with
  | nil => intro i hi; simp at hi
  | cons z l ih =>
    intro i hi
    cases i with
    | zero =>
      simp only [List.getElem?_cons_zero, Option.some.injEq] at hi
      subst hi
      simp only [List.set_cons_zero, List.map_cons, List.sum_cons]
      omega
    | succ i =>
      simp only [List.set_cons_succ, List.map_cons, List.sum_cons]
      rw [ih (by simpa using hi)]
      omega

/-- The same for the whole cache. -/
theorem C36_sharded {tr : List (Nat × Conc.Ev K V)} (hb : SyncCache.withOptions o = .ok s0)
    (hr : Conc.Cache.Run c (Conc.Cache.start s0) tr x) (hq : c.ptrEq = true) :
    x.still.hits = tr.countP (fun e => countsHit e.2) ∧ x.still.misses = tr.countP (fun e => countsMiss e.2) := by
  have e1 : ∀ x : Conc.Cache K V, x.still.hits = (x.shards.map (fun st => st.shard.hits)).sum := by
    intro x; simp [SyncCache.hits, Conc.Cache.still, Function.comp_def]
  have e2 : ∀ x : Conc.Cache K V, x.still.misses = (x.shards.map (fun st => st.shard.misses)).sum := by
    intro x; simp [SyncCache.misses, Conc.Cache.still, Function.comp_def]
  rw [e1, e2]
  induction hr with
  | start =>
    obtain ⟨j, -, -, -, hs0⟩ := built hb
    generalize hotTarget o s0 = T at hs0
    subst hs0
    simp [Conc.Cache.start, State.new, Shard.new]
  | layout m p hr hi hm hp ih =>
    refine ⟨(sum_set (d := 0) ?_ hi).trans ih.1, (sum_set (d := 0) ?_ hi).trans ih.2⟩ <;> rfl
  | @act tr s s' i act evs hr hs ih =>
    obtain ⟨-, st, st', hst, hex, rfl⟩ := Cache.exec_some hs
    have hst' := (((runs hb hr hq).reach hq hst).inv.eff hq hex).stats
    simp only [List.countP_append, List.countP_map, Function.comp_def]
    rw [← ih.1, ← ih.2]
    exact ⟨sum_set hst'.1 hst, sum_set hst'.2 hst⟩

/-! ### What the calls return -/

omit [DecidableEq K] in
theorem sweptStart (hb : SyncCache.withOptions o = .ok s0) : Sweep.start s0 =
    Sweep.start ⟨List.replicate s0.numShards (Shard.new (hotTarget o s0) (share o.weight s0.numShards)
      (fracOf (share o.items s0.numShards) o.ghost)), s0.mask⟩ := by
  obtain ⟨j, -, -, hn, hs0⟩ := built hb
  rw [hn]
  congr 1
  generalize hotTarget o s0 = T at hs0 ⊢
  subst hs0
  rfl

/-- The moments of an execution are states of the sharded cache. -/
theorem swept (hb : SyncCache.withOptions o = .ok s0) (hr : Sweep.Run c (Sweep.start s0) h s) (hq : c.ptrEq = true) :
    Cache.SInv c s0.numShards s0.mask (hotTarget o s0) (share o.weight s0.numShards)
      (fracOf (share o.items s0.numShards) o.ghost) (onShards h) s.cache := runs hb hr.sharded hq

theorem sweptAt (hb : SyncCache.withOptions o = .ok s0) (hr : Sweep.Run c (Sweep.start s0) h s) (hq : c.ptrEq = true)
    {m : Sweep.Moment K V} (hm : m ∈ h) : ∃ tr, Cache.SInv c s0.numShards s0.mask (hotTarget o s0) (share o.weight s0.numShards)
      (fracOf (share o.items s0.numShards) o.ghost) tr m.cache := by
  obtain ⟨u, v, rfl⟩ := List.mem_iff_append.1 hm
  obtain ⟨s1, h3, h4⟩ := hr.at rfl
  exact ⟨_, h4 ▸ swept hb h3 hq⟩

omit [DecidableEq K] in
theorem sumOver_congr {f g : Nat → Conc.Cache K V → Nat} {seen : List (Conc.Cache K V)}
    (hf : ∀ i m, seen[i]? = some m → f i m = g i m) : sumOver f seen = sumOver g seen := by
  unfold sumOver
  congr 1
  apply List.ext_getElem
  · simp
  · intro i h1 h2
    simp only [List.getElem_mapIdx]
    exact hf i _ (List.getElem?_eq_getElem _)

omit [DecidableEq K] in
theorem sumOver_le {f g : Nat → Conc.Cache K V → Nat} {seen : List (Conc.Cache K V)}
    (hf : ∀ i m, seen[i]? = some m → f i m ≤ g i m) : sumOver f seen ≤ sumOver g seen := by
  induction seen using List.reverseRecOn with
  | nil => exact Nat.le_refl _
  | append_singleton l z ih =>
    rw [sumOver_concat, sumOver_concat]
    have h1 := ih fun i m hi => hf i m (by
      rw [List.getElem?_append_left (List.getElem?_eq_some_iff.1 hi).1]; exact hi)
    have h2 := hf l.length z (by simp)
    omega

omit [DecidableEq K] in
theorem sumOver_const {f : Nat → Conc.Cache K V → Nat} {seen : List (Conc.Cache K V)} {n : Nat}
    (hf : ∀ i m, seen[i]? = some m → f i m = n) : sumOver f seen = seen.length * n := by
  induction seen using List.reverseRecOn with
  | nil => simp [sumOver]
  | append_singleton l z ih =>
    rw [sumOver_concat, hf l.length z (by simp), ih fun i m hi => hf i m (by
      rw [List.getElem?_append_left (List.getElem?_eq_some_iff.1 hi).1]; exact hi)]
    simp [Nat.add_mul]

/-- `len()` returns the sum, over the shards, of the numbers of items they had at certain moments during the call, one after the
other. -/
theorem C80_len (hb : SyncCache.withOptions o = .ok s0) (hq : c.ptrEq = true)
    (hr : Sweep.Run c (Sweep.start s0) (h1 ++ ⟨[.called a .len], x⟩ :: h2 ++ [⟨[.returned a out], y⟩]) s) :
    ∃ seen : List (Conc.Cache K V), seen.Sublist (h2.map Sweep.Moment.cache) ∧ seen.length = s0.numShards ∧
      out = .num (sumOver (fun i m => (shardItems i m).length) seen) := by
  obtain ⟨-, w, hw, hn, ho⟩ := hr.returned (sweptStart hb) hq
  rcases hw.reads rfl with ⟨seen, h3, h4, h5, h6⟩ | ⟨h3, -⟩
  · refine ⟨seen, h3, h4.trans hn, ?_⟩
    rw [ho, h5]
    refine congrArg TOut.num (sumOver_congr fun i m hi => ?_)
    obtain ⟨st, n, h7, -⟩ := h6 i m hi
    obtain ⟨m', hm', rfl⟩ := List.mem_map.1 (h3.subset (List.mem_of_getElem? hi))
    obtain ⟨tr, h8⟩ := sweptAt hb hr hq (m := m') (by simp [hm'])
    simp only [readAt, shardItems, h7, Tour.read]
    exact ((h8.reach hq h7).inv.shard.toInv0.len_iter).symm
  · cases h3

/-- `weight()` likewise returns the sum of the weights. -/
theorem C80_weight (hb : SyncCache.withOptions o = .ok s0) (hq : c.ptrEq = true)
    (hr : Sweep.Run c (Sweep.start s0) (h1 ++ ⟨[.called a .weight], x⟩ :: h2 ++ [⟨[.returned a out], y⟩]) s) :
    ∃ seen : List (Conc.Cache K V), seen.Sublist (h2.map Sweep.Moment.cache) ∧ seen.length = s0.numShards ∧
      out = .num (sumOver (fun i m => total c.weight (shardItems i m)) seen) := by
  obtain ⟨-, w, hw, hn, ho⟩ := hr.returned (sweptStart hb) hq
  rcases hw.reads rfl with ⟨seen, h3, h4, h5, h6⟩ | ⟨h3, -⟩
  · refine ⟨seen, h3, h4.trans hn, ?_⟩
    rw [ho, h5]
    refine congrArg TOut.num (sumOver_congr fun i m hi => ?_)
    obtain ⟨st, n, h7, h9⟩ := h6 i m hi
    obtain ⟨m', hm', rfl⟩ := List.mem_map.1 (h3.subset (List.mem_of_getElem? hi))
    obtain ⟨tr, h8⟩ := sweptAt hb hr hq (m := m') (by simp [hm'])
    simp only [readAt, shardItems, h7, h9]
    rw [(h8.reach hq h7).inv.shard.toInv0.total_iter]
    simp only [Tour.read, Shard.weight, cadd] at h9
    split at h9 <;> cases h9
    rfl
  · cases h3

/-- If nothing is pinned, `weight()` never exceeds `capacity()`, whatever happens during the call (for capacities up to `2^53`). -/
theorem C80_bound (hb : SyncCache.withOptions o = .ok s0) (hw : o.weight ≤ 2 ^ 53) (h0 : 0 ≤ o.hot) (ho : o.hot ≤ 1)
    (hq : c.ptrEq = true) (hp : ∀ k v, c.pinned k v = false)
    (hr : Sweep.Run c (Sweep.start s0) (h1 ++ ⟨[.called a .weight], x⟩ :: h2 ++ [⟨[.returned a out], y⟩]) s) {cap : Nat}
    (hc : s0.capacity = .ok cap) : ∃ n, out = .num n ∧ n ≤ cap := by
  obtain ⟨seen, h3, h4, rfl⟩ := C80_weight hb hq hr
  refine ⟨_, rfl, ?_⟩
  obtain ⟨j, hj, hs, hn, -⟩ := built hb
  have hpos : 0 < s0.numShards := by rw [hn]; exact Nat.two_pow_pos j
  have h5 : s0.numShards * share o.weight s0.numShards < 2 ^ 64 := by
    have := (share_bounds hpos (show o.weight + s0.numShards ≤ 2 ^ 64 by
      have := Nat.pow_le_pow_right (n := 2) (by norm_num) hj
      rw [hn]
      omega)).2
    have := Nat.pow_le_pow_right (n := 2) (by norm_num) hj
    omega
  have h6 := (runs hb (.start (c := c)) hq).capacity hq h5
  have h7 : (Cache.start s0).still = s0 := by
    unfold Cache.still Cache.start
    rw [List.map_map]
    exact congrArg (SyncCache.mk · s0.mask) (List.map_id _)
  rw [h7, hc] at h6
  cases h6
  have h10 := sumOver_const (f := fun _ _ => share o.weight s0.numShards) (seen := seen) (fun _ _ _ => rfl)
  rw [h4] at h10
  rw [← h10]
  refine sumOver_le fun i m hi => ?_
  obtain ⟨m', hm', rfl⟩ := List.mem_map.1 (h3.subset (List.mem_of_getElem? hi))
  obtain ⟨tr, h8⟩ := sweptAt hb hr hq (m := m') (by simp [hm'])
  simp only [shardItems]
  split
  · rename_i st hst
    have h9 := (h8.run i st hst).evW_le hq (hotTarget_le hb hw h0 ho)
    rw [evW_iter] at h9
    have : total c.weight st.shard.iter = total (evictable c) st.shard.iter := by
      unfold total
      congr 1
      apply List.map_congr_left
      rintro ⟨k, v⟩ -
      simp [evictable, hp k v]
    rw [this]
    exact h9
  · exact Nat.zero_le _

/-- `capacity()` always returns the same. -/
theorem C80_capacity (hb : SyncCache.withOptions o = .ok s0) (hw : o.weight < 2 ^ 64) (hq : c.ptrEq = true)
    (hr : Sweep.Run c (Sweep.start s0) (h1 ++ ⟨[.called a .capacity], x⟩ :: h2 ++ [⟨[.returned a out], y⟩]) s) :
    ∃ n, out = .num n ∧ s0.capacity = .ok n := by
  obtain ⟨-, w, hw', hn, ho⟩ := hr.returned (sweptStart hb) hq
  obtain ⟨j, hj, hs, hnj, -⟩ := built hb
  have h5 : s0.numShards * share o.weight s0.numShards < 2 ^ 64 := by
    have hpos := Nat.two_pow_pos j
    rw [hnj]
    rcases Nat.lt_or_ge (2 ^ 64) (o.weight + 2 ^ j) with h2 | h2
    · exact (share_bounds_sat hpos hw h2).1
    · have := (share_bounds hpos h2).2; omega
  have h6 := (runs hb (.start (c := c)) hq).capacity hq h5
  have h7 : (Cache.start s0).still = s0 := by
    unfold Cache.still Cache.start
    rw [List.map_map]
    exact congrArg (SyncCache.mk · s0.mask) (List.map_id _)
  rw [h7] at h6
  refine ⟨_, ?_, h6⟩
  rcases hw'.reads rfl with ⟨seen, h3, h4, h5, h8⟩ | ⟨h3, -⟩
  · rw [ho, h5, ← hn, ← h4]
    refine congrArg TOut.num (sumOver_const fun i m hi => ?_)
    obtain ⟨st, n, h7, -⟩ := h8 i m hi
    obtain ⟨m', hm', rfl⟩ := List.mem_map.1 (h3.subset (List.mem_of_getElem? hi))
    obtain ⟨tr, h9⟩ := sweptAt hb hr hq (m := m') (by simp [hm'])
    simp only [readAt, h7, Tour.read, Shard.capacity]
    rw [(h9.reach hq h7).reach.capacity, h4, hn]
  · cases h3

/-- If `is_empty()` returns true, every shard was empty at some moment during the call (though not all at the same one, see
below); if it returns false, the cache was not empty at some moment. -/
theorem C80_empty (hb : SyncCache.withOptions o = .ok s0) (hq : c.ptrEq = true)
    (hr : Sweep.Run c (Sweep.start s0) (h1 ++ ⟨[.called a .isEmpty], x⟩ :: h2 ++ [⟨[.returned a out], y⟩]) s) :
    (out = .bool true ∧ ∃ seen : List (Conc.Cache K V), seen.Sublist (h2.map Sweep.Moment.cache) ∧ seen.length = s0.numShards ∧
      ∀ i m, seen[i]? = some m → shardItems i m = []) ∨
    (out = .bool false ∧ ∃ m ∈ h2, items m.cache ≠ []) := by
  obtain ⟨-, w, hw, hn, ho⟩ := hr.returned (sweptStart hb) hq
  have at_ : ∀ m ∈ h2, ∀ i, readAt .isEmpty i m.cache = (shardItems i m.cache).length := by
    intro m hm i
    obtain ⟨tr, h8⟩ := sweptAt hb hr hq (m := m) (by simp [hm])
    cases h7 : m.cache.shards[i]? with
    | some st =>
      simp only [readAt, shardItems, Tour.read, h7]
      exact ((h8.reach hq h7).inv.shard.toInv0.len_iter).symm
    | none => simp [readAt, shardItems, h7]
  have some_ : ∀ m ∈ h2, ∀ i, readAt .isEmpty i m.cache ≠ 0 → items m.cache ≠ [] := by
    intro m hm i hi he
    rw [at_ m hm i, shardItems] at hi
    split at hi
    · rename_i st hst
      apply hi
      rw [List.length_eq_zero_iff]
      unfold items at he
      rw [List.flatMap_eq_nil_iff] at he
      exact he st (List.mem_of_getElem? hst)
    · exact hi rfl
  rcases hw.reads rfl with ⟨seen, h3, h4, h5, h6⟩ | ⟨-, h3, m, hm, i, hi⟩
  · by_cases hz : ∀ i m, seen[i]? = some m → readAt .isEmpty i m = 0
    · left
      have h7 : w.acc = 0 := by rw [h5, sumOver_const hz, Nat.mul_zero]
      refine ⟨by rw [ho, h7]; rfl, seen, h3, h4.trans hn, ?_⟩
      intro i m hi
      obtain ⟨m', hm', rfl⟩ := List.mem_map.1 (h3.subset (List.mem_of_getElem? hi))
      have := hz i _ hi
      rw [at_ m' hm' i] at this
      exact List.length_eq_zero_iff.1 this
    · right
      simp only [not_forall] at hz
      obtain ⟨i, m, hi, hz⟩ := hz
      obtain ⟨m', hm', rfl⟩ := List.mem_map.1 (h3.subset (List.mem_of_getElem? hi))
      have h7 : w.acc ≠ 0 := by
        intro h7
        rw [h5, sumOver, List.sum_eq_zero_iff_forall_eq_nat] at h7
        exact hz (h7 _ (List.mem_mapIdx.2 ⟨i, (List.getElem?_eq_some_iff.1 hi).1, by
          rw [(List.getElem?_eq_some_iff.1 hi).2]⟩))
      exact ⟨by rw [ho]; simp [Tour.out, h7], m', hm', some_ m' hm' i hz⟩
  · right
    exact ⟨by rw [ho]; simp [Tour.out, h3], m, hm, some_ m hm i hi⟩

omit [DecidableEq K] in
theorem stats_range (t : Tour K V) (f : Conc.State K V → Nat) (ht : ∀ st : Conc.State K V, t.read st.shard = .ok (f st))
    {N : Nat} {x : Conc.Cache K V} (hN : x.shards.length = N) :
    (x.shards.map f).sum = ((List.range N).map (fun i => readAt t i x)).sum := by
  subst hN
  congr 1
  apply List.ext_getElem
  · simp
  · intro i h1 h2
    have h3 : i < x.shards.length := by simpa using h1
    simp [readAt, h3, ht]

omit [DecidableEq K] in
theorem sumOver_range {f : Nat → Conc.Cache K V → Nat} {g1 g2 : Nat → Nat} {seen : List (Conc.Cache K V)}
    (hf : ∀ i m, seen[i]? = some m → g1 i ≤ f i m ∧ f i m ≤ g2 i) :
    ((List.range seen.length).map g1).sum ≤ sumOver f seen ∧ sumOver f seen ≤ ((List.range seen.length).map g2).sum := by
  induction seen using List.reverseRecOn with
  | nil => exact ⟨Nat.le_refl _, Nat.le_refl _⟩
  | append_singleton l z ih =>
    have h1 := ih fun i m hi => hf i m (by
      rw [List.getElem?_append_left (List.getElem?_eq_some_iff.1 hi).1]; exact hi)
    have h2 := hf l.length z (by simp)
    rw [sumOver_concat, List.length_append, List.length_singleton, List.range_succ]
    simp only [List.map_append, List.sum_append, List.map_cons, List.map_nil, List.sum_cons, List.sum_nil]
    omega

/-- What a call that reads a counter which never decreases returns. -/
theorem stats_between (hb : SyncCache.withOptions o = .ok s0) (hq : c.ptrEq = true) {t : Tour K V} {f : Conc.State K V → Nat}
    {p : Conc.Ev K V → Bool} (ht : ∀ st : Conc.State K V, t.read st.shard = .ok (f st)) (hop : t.op = none) (hne : t ≠ .isEmpty)
    (hout : ∀ n, t.out n = .num n)
    (hp : ∀ {target cap gcap tr} {st : Conc.State K V}, Conc.Run c (State.new (Shard.new target cap gcap)) tr st →
      f st = tr.countP p)
    (hr : Sweep.Run c (Sweep.start s0) (h1 ++ ⟨[.called a t], x⟩ :: h2 ++ [⟨[.returned a out], y⟩]) s) :
    ∃ n, out = .num n ∧ (x.shards.map f).sum ≤ n ∧ n ≤ (y.shards.map f).sum := by
  obtain ⟨hy, w, hw, hn, ho⟩ := hr.returned (sweptStart hb) hq
  rcases hw.reads hop with ⟨seen, h3, h4, h5, h6⟩ | ⟨h3, -⟩
  · rw [hout, h5] at ho
    refine ⟨_, ho, ?_⟩
    have hlen : ∀ m ∈ (h1 ++ ⟨[.called a t], x⟩ :: h2 ++ [⟨[.returned a out], y⟩] : List (Sweep.Moment K V)),
        m.cache.shards.length = s0.numShards := by
      intro m hm
      obtain ⟨tr, h8⟩ := sweptAt hb hr hq hm
      exact h8.len
    have hx := hlen ⟨[.called a t], x⟩ (by simp)
    have hy' := hlen ⟨[.returned a out], y⟩ (by simp)
    rw [stats_range t f ht hx, stats_range t f ht hy', ← hn, ← h4]
    apply sumOver_range
    intro i m hi
    have cnt : ∀ {u v : List (Sweep.Moment K V)} {m : Sweep.Moment K V},
        h1 ++ ⟨[.called a t], x⟩ :: h2 ++ [⟨[.returned a out], y⟩] = u ++ m :: v → i < s0.numShards →
        readAt t i m.cache = (onShard i (onShards (u ++ [m]))).countP p := by
      intro u v m he hi
      obtain ⟨s1, h7, h8⟩ := hr.at he
      have h9 := swept hb h7 hq
      rw [h8] at h9
      have hl : i < m.cache.shards.length := by rw [h9.len]; exact hi
      have h10 := hp (h9.run i _ (List.getElem?_eq_getElem hl))
      simp only [readAt, List.getElem?_eq_getElem hl, ht]
      exact h10
    have mono : ∀ {u v : List (Sweep.Moment K V)}, (onShard i (onShards u)).countP p ≤ (onShard i (onShards (u ++ v))).countP p := by
      intro u v
      rw [onShards_append, onShard, onShard, List.filterMap_append, List.countP_append]
      exact Nat.le_add_right _ _
    have hi' : i < s0.numShards := by rw [← hn, ← h4]; exact (List.getElem?_eq_some_iff.1 hi).1
    obtain ⟨m', hm', rfl⟩ := List.mem_map.1 (h3.subset (List.mem_of_getElem? hi))
    obtain ⟨u, v, rfl⟩ := List.mem_iff_append.1 hm'
    have e1 := cnt (u := h1) (m := ⟨[.called a t], x⟩) (v := (u ++ m' :: v) ++ [⟨[.returned a out], y⟩]) (by simp) hi'
    have e2 := cnt (u := h1 ++ ⟨[.called a t], x⟩ :: u) (m := m') (v := v ++ [⟨[.returned a out], y⟩]) (by simp) hi'
    have e3 := cnt (u := h1 ++ ⟨[.called a t], x⟩ :: (u ++ m' :: v)) (m := ⟨[.returned a out], y⟩) (v := []) (by simp) hi'
    simp only at e1 e3
    rw [e1, e2, e3]
    constructor
    · have := mono (u := h1 ++ [⟨[.called a t], x⟩]) (v := u ++ [m'])
      simpa using this
    · have := mono (u := h1 ++ ⟨[.called a t], x⟩ :: u ++ [m']) (v := v ++ [⟨[.returned a out], y⟩])
      simpa using this
  · exact absurd h3 hne

/-- `hits()` returns a number between those of the moments when it was called and when it returned. -/
theorem C80_hits (hb : SyncCache.withOptions o = .ok s0) (hq : c.ptrEq = true)
    (hr : Sweep.Run c (Sweep.start s0) (h1 ++ ⟨[.called a .hits], x⟩ :: h2 ++ [⟨[.returned a out], y⟩]) s) :
    ∃ n, out = .num n ∧ x.still.hits ≤ n ∧ n ≤ y.still.hits := by
  have := stats_between hb hq (f := fun st => st.shard.hits) (p := countsHit) (fun _ => rfl) rfl (by simp) (fun _ => rfl)
    (fun hr => (hr.stats hq).1) hr
  simpa [SyncCache.hits, Conc.Cache.still, Function.comp_def] using this

/-- `misses()` likewise. -/
theorem C80_misses (hb : SyncCache.withOptions o = .ok s0) (hq : c.ptrEq = true)
    (hr : Sweep.Run c (Sweep.start s0) (h1 ++ ⟨[.called a .misses], x⟩ :: h2 ++ [⟨[.returned a out], y⟩]) s) :
    ∃ n, out = .num n ∧ x.still.misses ≤ n ∧ n ≤ y.still.misses := by
  have := stats_between hb hq (f := fun st => st.shard.misses) (p := countsMiss) (fun _ => rfl) rfl (by simp) (fun _ => rfl)
    (fun hr => (hr.stats hq).2) hr
  simpa [SyncCache.misses, Conc.Cache.still, Function.comp_def] using this

/-! ### What the calls do -/

/-- A visit of a shard removes exactly what the call is meant to remove from the shard: the items that do not satisfy `f` in the case
of `retain(f)`, all in the case of `clear()`, none otherwise. -/
theorem C80_visit {t : Tour K V} (hb : SyncCache.withOptions o = .ok s0) (hq : c.ptrEq = true)
    (hr : Sweep.Run c (Sweep.start s0) (h1 ++ ⟨[.called a t], x⟩ :: h2) s) {s' : Sweep.State K V} {evs : List (Sweep.Ev K V)}
    (hs : Sweep.exec c s (.visit a) = some (.ok (s', evs))) :
    ∃ i, ∀ k v, (k, v) ∈ items s'.cache ↔ (k, v) ∈ items s.cache ∧ (s0.shardFor c k = some i → KeptBy t k v) := by
  have hsw := swept hb hr hq
  cases exec_eff hs with
  | @write _ w op y evs hw hop h =>
    refine ⟨w.next, fun k v => ?_⟩
    have ht := ((hr.walks (sweptStart hb) hq).seen a w hw _ _ _ _ rfl).tour
    rw [ht] at hop
    have h3 := (C41_contents hb (hr.act hs).sharded hq k v)
    have h4 := (C41_contents hb hr.sharded hq k v)
    simp only at h3
    rw [h3, h4, onShards_append, onShards_one, shardCalls_append', shardPlay, shardPlay, List.foldl_append]
    have hcalls : shardCalls (evs.map (fun e => (w.next, e))) = [(w.next, ⟨op, .unit, []⟩)] := by
      have h5 : shardCalls (evs.map (fun e => (w.next, e))) = (calls evs).map (fun x => (w.next, x)) := by
        simp only [shardCalls, calls, List.filterMap_map, Function.comp_def, List.map_filterMap]
      rw [h5, (sweep_call hsw hq hop h).1]
      rfl
    rw [hcalls, List.foldl_cons, List.foldl_nil]
    generalize List.foldl _ _ _ = m
    have hk : s0.shardFor c k = some w.next ↔ (Conc.Cache.start s0).home c k = w.next := by
      have h2 := home_lt (c := c) hb k
      unfold SyncCache.shardFor
      rw [if_pos (show shardIdx s0.mask (c.hash k) < s0.shards.length from h2), Option.some.injEq]
      rfl
    rw [hk]
    have hcase : (∃ f, t = .retain f ∧ op = .retain f) ∨ (t = .clear ∧ op = .clear) ∨ (t = .reserve ∧ op = .reserve) := by
      cases t <;> cases hop <;> simp
    by_cases hh : (Conc.Cache.start s0).home c k = w.next
    · rcases hcase with ⟨f, rfl, rfl⟩ | ⟨rfl, rfl⟩ | ⟨rfl, rfl⟩
      · simp only [onHome, Op.key, hh, if_true, play, KeptBy, true_imp_iff]
        exact Option.filter_eq_some_iff
      · simp [onHome, Op.key, hh, play, KeptBy]
      · simp [onHome, Op.key, hh, play, KeptBy]
    · rcases hcase with ⟨f, rfl, rfl⟩ | ⟨rfl, rfl⟩ | ⟨rfl, rfl⟩ <;> simp [onHome, Op.key, hh]
  | read hw hop hst hl e1 e2 =>
    have ht := ((hr.walks (sweptStart hb) hq).seen a _ hw _ _ _ _ rfl).tour
    rw [ht] at hop
    refine ⟨0, fun k v => ?_⟩
    have : KeptBy t k v := by cases t <;> trivial
    simp [this]

/-- When `clear()` returns, every item in the cache was stored during the call: the value last stored for its key during the call
is there. -/
theorem C80_clear (hb : SyncCache.withOptions o = .ok s0) (hq : c.ptrEq = true)
    (hr : Sweep.Run c (Sweep.start s0) (h1 ++ ⟨[.called a .clear], x⟩ :: h2 ++ [⟨[.returned a out], y⟩]) s) {k : K} {v : V}
    (hm : (k, v) ∈ items y) : shardLast ((Conc.Cache.start s0).home c) k (shardCalls (onShards h2)) = some v := by
  obtain ⟨rfl, w, hw, hn, ho⟩ := hr.returned (sweptStart hb) hq
  have h3 := C41_latest hb hr.sharded hq hm
  have h4 := hw.writes .clear rfl ((Conc.Cache.start s0).home c k) (by rw [hn]; exact home_lt hb k)
  obtain ⟨u, v', h5⟩ := List.mem_iff_append.1 h4
  have e : ∀ (z : List (Sweep.Moment K V)), onShards ([⟨[.returned a out], s.cache⟩] : List (Sweep.Moment K V)) = [] := fun _ => rfl
  have e1 : onShards ([⟨[.called a .clear], x⟩] : List (Sweep.Moment K V)) = [] := rfl
  rw [onShards_append, e h1, List.append_nil, ← List.singleton_append, onShards_append, onShards_append, e1, List.nil_append,
    shardCalls_append', h5] at h3
  rw [h5]
  unfold shardLast at h3 ⊢
  simp only [List.foldl_append, List.foldl_cons, Op.key, ne_eq, not_true_eq_false, and_false, if_false, afterCall] at h3 ⊢
  exact h3

theorem replay_other {k : K} : ∀ {log : List (Event K V)} {m : K → Option V}, (∀ e ∈ log, eventKey e ≠ k) →
    replay m log k = m k := by
  intro log
  induction log with
  | nil => intro m _; rfl
  | cons e log ih =>
    intro m hl
    have h1 := hl e (by simp)
    cases e with
    | beforeEvict k' v v' =>
      rw [replay, ih (fun e he => hl e (by simp [he]))]
      exact if_neg (fun h => h1 h.symm)
    | onEvict k' v =>
      rw [replay, ih (fun e he => hl e (by simp [he]))]
      exact if_neg (fun h => h1 h.symm)

theorem playStore_other {k k' : K} {v : V} {log : List (Event K V)} {m : K → Option V} (hk : k' ≠ k)
    (hl : ∀ e ∈ log, eventKey e ≠ k) : playStore m k' v log k = m k := by
  unfold playStore
  rw [replay_other]
  · exact if_neg (fun h => hk h.symm)
  · split
    · exact fun e he => hl e (List.mem_of_mem_eraseP he)
    · exact hl

/-- A call that does not stir `k` leaves what is stored for `k`, or removes it. -/
theorem play_calm {m : K → Option V} {k : K} {z : Call K V} (hz : ¬ Stirs k z) : play m z k = m k ∨ play m z k = none := by
  obtain ⟨op, out, log⟩ := z
  have hl : ∀ e ∈ log, eventKey e ≠ k := fun e he h => hz (.inr ⟨e, he, h⟩)
  have hd : ∀ k', del m k' k = m k ∨ del m k' k = none := by
    intro k'
    unfold del
    split
    · exact .inr rfl
    · exact .inl rfl
  have ha : ∀ {k'} {f : V → V} {m : K → Option V}, k' ≠ k → alter m k' f k = m k := by
    intro k' f m h
    exact if_neg (fun h' => h h'.symm)
  have hst : ∀ {k'} {v : V}, k' ≠ k → playStore m k' v log k = m k := fun h => playStore_other h hl
  have hk : ∀ k', op.key = some k' → (∀ k, op ≠ .get k ∧ op ≠ .peek k ∧ op ≠ .containsKey k ∧ op ≠ .remove k) → k' ≠ k := by
    intro k' h1 h2 h3
    exact hz (.inl ⟨by rw [← h3]; exact h1, h2 k⟩)
  clear hz hl
  cases op with
  | insert k' v => exact .inl (hst (hk k' rfl (by simp)))
  | replace k' v soft =>
    have h := hk k' rfl (by simp)
    rcases out with _ | _ | _ | _ | (_ | _) | _ | _ | _ <;> first | exact .inl (hst h) | exact hd k'
  | remove k' => exact hd k'
  | get | peek | containsKey | reserve => exact .inl rfl
  | getMut k' f | peekMut k' f => exact .inl (ha (hk k' rfl (by simp)))
  | clear | drain => exact .inr rfl
  | retain f =>
    change (m k).filter (f k) = m k ∨ (m k).filter (f k) = none
    cases m k with
    | none => exact .inl rfl
    | some v =>
      rw [Option.filter_some]
      split
      · exact .inl rfl
      · exact .inr rfl
  | getOrInsertWith k' load =>
    have h := hk k' rfl (by simp)
    rcases out with _ | _ | _ | _ | _ | _ | ⟨_ | _, _⟩ | _ <;> cases load <;> first | exact .inl rfl | exact .inl (hst h)
  | getMutOrInsertWith k' load f =>
    have h := hk k' rfl (by simp)
    rcases out with _ | _ | _ | _ | _ | _ | ⟨_ | _, _⟩ | _ <;> cases load <;>
      first | exact .inl rfl | exact .inl (ha h) | exact .inl ((ha h).trans (hst h))
  | getRefOrGuard k' use =>
    have h := hk k' rfl (by simp)
    rcases out with _ | _ | _ | _ | _ | _ | _ | (_ | _) <;> cases use <;> first | exact .inl rfl | exact .inl (hst h)
  | getMutOrGuard k' f use =>
    have h := hk k' rfl (by simp)
    rcases out with _ | _ | _ | _ | _ | _ | _ | (_ | _) <;> cases use <;>
      first | exact .inl rfl | exact .inl (ha h) | exact .inl (hst h)

theorem foldl_calm {home : K → Nat} {k : K} {v : V} : ∀ {h : List (Nat × Call K V)} {m : K → Option V},
    (∀ z ∈ h, ¬ Stirs k z.2) → h.foldl (fun m x => onHome home x.1 x.2.op m (play m x.2)) m k = some v → m k = some v := by
  intro h
  induction h with
  | nil => intro m _ h; exact h
  | cons z h ih =>
    intro m hz hf
    have h1 := ih (fun z hz' => hz z (by simp [hz'])) hf
    have h3 : onHome home z.1 z.2.op m (play m z.2) k = play m z.2 k ∨ onHome home z.1 z.2.op m (play m z.2) k = m k := by
      unfold onHome
      cases z.2.op.key with
      | some _ => exact .inl rfl
      | none =>
        by_cases h : home k = z.1
        · exact .inl (if_pos h)
        · exact .inr (if_neg h)
    rcases h3 with h3 | h3
    · rcases play_calm (m := m) (hz z (by simp)) with h2 | h2
      · exact h2 ▸ h3 ▸ h1
      · have := h3.symm.trans h1
        rw [h2] at this
        cases this
    · exact h3.symm.trans h1

/-- When `retain(f)` returns, every item in the cache satisfies `f`, unless its key was stored or written to, or the lifecycle was
asked about it, during the call. -/
theorem C80_retain {f : K → V → Bool} (hb : SyncCache.withOptions o = .ok s0) (hq : c.ptrEq = true)
    (hr : Sweep.Run c (Sweep.start s0) (h1 ++ ⟨[.called a (.retain f)], x⟩ :: h2 ++ [⟨[.returned a out], y⟩]) s) {k : K} {v : V}
    (hm : (k, v) ∈ items y) : f k v = true ∨ ∃ i z, (i, z) ∈ shardCalls (onShards h2) ∧ Stirs k z := by
  obtain ⟨rfl, w, hw, hn, ho⟩ := hr.returned (sweptStart hb) hq
  have h3 := (C41_contents hb hr.sharded hq k v).1 hm
  have h4 := hw.writes (.retain f) rfl ((Conc.Cache.start s0).home c k) (by rw [hn]; exact home_lt hb k)
  by_cases hs : ∃ i z, (i, z) ∈ shardCalls (onShards h2) ∧ Stirs k z
  · exact .inr hs
  left
  obtain ⟨u, v', h5⟩ := List.mem_iff_append.1 h4
  have e : onShards ([⟨[.returned a out], s.cache⟩] : List (Sweep.Moment K V)) = [] := rfl
  have e1 : onShards ([⟨[.called a (.retain f)], x⟩] : List (Sweep.Moment K V)) = [] := rfl
  rw [onShards_append, e, List.append_nil, ← List.singleton_append, onShards_append, onShards_append, e1, List.nil_append,
    shardCalls_append', h5] at h3
  unfold shardPlay at h3
  simp only [List.foldl_append, List.foldl_cons] at h3
  generalize hA : List.foldl (fun m (x : Nat × Call K V) => onHome ((Conc.Cache.start s0).home c) x.1 x.2.op m (play m x.2))
    (List.foldl (fun m (x : Nat × Call K V) => onHome ((Conc.Cache.start s0).home c) x.1 x.2.op m (play m x.2))
      (fun _ => none) (shardCalls (onShards h1))) u = A at h3
  have hv : ∀ z ∈ v', ¬ Stirs k z.2 := fun z hz h => hs ⟨z.1, z.2, by rw [h5]; simp [hz], h⟩
  have h6 := foldl_calm hv h3
  simp only [onHome, Op.key, if_true, play] at h6
  rw [Option.filter_eq_some_iff] at h6
  exact h6.2

/-! ### Panics and waiting -/

omit [DecidableEq K] in
theorem total_shares {tr : List (Nat × Conc.Ev K V)} {st : Conc.State K V} [DecidableEq K] {target cap gcap n : Nat}
    {mask : UInt64} (h : Cache.SInv c n mask target cap gcap tr x) (hq : c.ptrEq = true) {i : Nat}
    (hi : x.shards[i]? = some st) : total c.weight (shardItems i x) = st.shard.weightHot + st.shard.weightCold := by
  unfold shardItems
  rw [hi]
  exact (h.reach hq hi).inv.shard.toInv0.total_iter

/-- Of these calls only `weight()` can panic, and only if what it sees weighs `2^64` or more in total. -/
theorem C80_panics {t : Tour K V} (hb : SyncCache.withOptions o = .ok s0) (hw : o.weight < 2 ^ 64) (hq : c.ptrEq = true)
    (hr : Sweep.Run c (Sweep.start s0) (h1 ++ ⟨[.called a t], x⟩ :: h2) s) {e : Panic}
    (hs : Sweep.exec c s (.visit a) = some (.error e)) :
    e = .overflow ∧ t = .weight ∧ ∃ seen : List (Conc.Cache K V), (seen ++ [s.cache]).Sublist (h2.map Sweep.Moment.cache ++ [s.cache]) ∧
      seen.length < s0.numShards ∧ 2 ^ 64 ≤ sumOver (fun i m => total c.weight (shardItems i m)) (seen ++ [s.cache]) := by
  simp only [Sweep.exec] at hs
  split at hs
  · cases hs
  rename_i w ha
  have hsw := swept hb hr hq
  have hw' := (hr.walks (sweptStart hb) hq).seen a w ha _ _ _ _ rfl
  unfold visit at hs
  rw [hw'.tour] at hs
  split at hs
  · rename_i op hop
    exfalso
    split at hs
    · cases hs
    rename_i r hr'
    cases r with
    | ok r => cases hs
    | error e' =>
      have hcase : (∃ f, op = .retain f) ∨ op = .clear ∨ op = .reserve := by
        cases t <;> cases hop <;> simp
      rcases Cache.exec_error hr' with ⟨st, hst, he⟩ | ⟨k, hk, -⟩
      · rcases Conc.exec_sat (hsw.reach hq hst).inv hq he with ⟨y, hy, -⟩ | ⟨e'', he'', hE⟩
        · cases hy
        · rcases hcase with ⟨f, rfl⟩ | rfl | rfl <;> rcases hE with ⟨-, w, hA, -⟩ | ⟨-, hG, -⟩ <;> first | cases hA | cases hG
      · rcases hcase with ⟨f, rfl⟩ | rfl | rfl <;> cases hk
  · rename_i hop
    split at hs
    · cases hs
    rename_i st hst
    split at hs
    · have hlt : w.next < s0.numShards := by
        rw [← hsw.len]; exact (List.getElem?_eq_some_iff.1 hst).1
      simp only [Option.some.injEq] at hs
      have hreads := hw'.reads hop
      cases t with
      | weight =>
        rcases hreads with ⟨seen, h3, h4, h5, h6⟩ | ⟨h3, -⟩
        · have h7 : sumOver (fun i m => total c.weight (shardItems i m)) seen = w.acc := by
            rw [h5]
            refine sumOver_congr fun i m hi => ?_
            obtain ⟨st, n, h7, h9⟩ := h6 i m hi
            obtain ⟨m', hm', rfl⟩ := List.mem_map.1 (h3.subset (List.mem_of_getElem? hi))
            obtain ⟨tr, h8⟩ := sweptAt hb hr hq (m := m') (by simp [hm'])
            rw [total_shares h8 hq h7]
            simp only [readAt, h7]
            rw [h9]
            simp only [Tour.read, Shard.weight, cadd] at h9
            split at h9 <;> cases h9
            rfl
          have h8 := total_shares hsw hq hst
          have h11 : sumOver (fun i m => total c.weight (shardItems i m)) (seen ++ [s.cache]) =
              w.acc + (st.shard.weightHot + st.shard.weightCold) := by rw [sumOver_concat, h7, h4, h8]
          simp only [Tour.read, Tour.add, Shard.weight, cadd] at hs
          by_cases h9 : st.shard.weightHot + st.shard.weightCold < 2 ^ 64
          · rw [if_pos h9] at hs
            by_cases h10 : w.acc + (st.shard.weightHot + st.shard.weightCold) < 2 ^ 64
            · simp only [Res.ok_bind, if_pos h10] at hs; cases hs
            · simp only [Res.ok_bind, if_neg h10] at hs; cases hs
              exact ⟨rfl, rfl, seen, h3.append_right _, by omega, by omega⟩
          · rw [if_neg h9] at hs; cases hs
            exact ⟨rfl, rfl, seen, h3.append_right _, by omega, by omega⟩
        · cases h3
      | capacity =>
        exfalso
        rcases hreads with ⟨seen, h3, h4, h5, h6⟩ | ⟨h3, -⟩
        · have h7 : w.acc = seen.length * share o.weight s0.numShards := by
            rw [h5]
            refine sumOver_const fun i m hi => ?_
            obtain ⟨st, n, h7, h9⟩ := h6 i m hi
            obtain ⟨m', hm', rfl⟩ := List.mem_map.1 (h3.subset (List.mem_of_getElem? hi))
            obtain ⟨tr, h8⟩ := sweptAt hb hr hq (m := m') (by simp [hm'])
            simp only [readAt, h7, Tour.read, Shard.capacity]
            exact (h8.reach hq h7).reach.capacity
          obtain ⟨j, hj, -, hnj, -⟩ := built hb
          have h8 : s0.numShards * share o.weight s0.numShards < 2 ^ 64 := by
            have hpos := Nat.two_pow_pos j
            rw [hnj]
            rcases Nat.lt_or_ge (2 ^ 64) (o.weight + 2 ^ j) with h2 | h2
            · exact (share_bounds_sat hpos hw h2).1
            · have := (share_bounds hpos h2).2; omega
          have h9 : (w.next + 1) * share o.weight s0.numShards ≤ s0.numShards * share o.weight s0.numShards :=
            Nat.mul_le_mul_right _ hlt
          rw [Nat.add_mul, Nat.one_mul] at h9
          have h10 : w.acc + st.shard.weightCapacity < 2 ^ 64 := by
            have : st.shard.weightCapacity = share o.weight s0.numShards := (hsw.reach hq hst).reach.capacity
            rw [this, h7, h4]
            omega
          simp only [Tour.read, Tour.add, Shard.capacity, cadd, Res.ok_bind, if_pos h10] at hs
          cases hs
        · cases h3
      | _ => cases hs
    · cases hs

/-- They wait only for locks: as long as a call has shards to visit, it can visit the next one (or panic, see above), unless that
shard is locked by somebody; afterwards it can return. -/
theorem C80_waits {t : Tour K V} (hb : SyncCache.withOptions o = .ok s0) (hq : c.ptrEq = true)
    (hr : Sweep.Run c (Sweep.start s0) (h1 ++ ⟨[.called a t], x⟩ :: h2) s) (hn : ∀ m ∈ h2, ∀ out, .returned a out ∉ m.evs) :
    (Sweep.exec c s (.finish a)).isSome ∨ (Sweep.exec c s (.visit a)).isSome ∨ ∃ st ∈ s.cache.shards, st.unlocked = false := by
  obtain ⟨w, ha⟩ := hr.open rfl hn
  have hsw := swept hb hr hq
  have hw := (hr.walks (sweptStart hb) hq).seen a w ha _ _ _ _ rfl
  by_cases hlt : s.cache.shards.length ≤ w.next
  · left
    simp [Sweep.exec, ha, hlt]
  right
  have hst : s.cache.shards[w.next]? = some s.cache.shards[w.next] := List.getElem?_eq_getElem (by omega)
  generalize s.cache.shards[w.next] = st at hst
  by_cases hu : st.unlocked = true
  · left
    simp only [Sweep.exec, ha, visit]
    split
    · rename_i op hop
      have hcase : (∃ f, op = .retain f) ∨ op = .clear ∨ op = .reserve := by
        rw [hw.tour] at hop
        cases t <;> cases hop <;> simp
      have : (s.cache.exec c w.next (.call op)).isSome := by
        have hkey : (Conc.Act.call op).key = none := by rcases hcase with ⟨f, rfl⟩ | rfl | rfl <;> rfl
        simp only [Cache.exec, Cache.routes, hkey, hst, if_true]
        rcases hcase with ⟨f, rfl⟩ | rfl | rfl <;> simp [Conc.exec, Conc.call, lockMode, hu]
      split
      · rename_i hnone; rw [hnone] at this; cases this
      · rfl
    · rw [hst]
      have : st.writer.isNone = true := by
        unfold State.unlocked at hu
        rw [Bool.and_eq_true] at hu
        exact hu.1
      simp [this]
  · right
    exact ⟨st, List.mem_of_getElem? hst, by simpa using hu⟩

/-- They visit no more than all shards. -/
theorem C80_finite {acts : List (Sweep.Act K V)}
    (hr : Performs c (Sweep.start s0) acts s) (a : Nat) : acts.countP (isVisit a) ≤ s0.numShards := by
  have h1 := performs_bound hr (fun _ => rfl)
  have h2 := (h1.2 a).1
  rw [h1.1] at h2
  simpa [Sweep.start, Conc.Cache.start, SyncCache.numShards] using h2

/-! ### Examples -/

/-- Performing a list of actions, all of which must be possible. -/
def runSweep (c : Cfg K V RS) (s : Sweep.State K V) : List (Sweep.Act K V) → Option (Sweep.State K V × List (Sweep.Moment K V))
  | [] => some (s, [])
  | act :: acts =>
    match Sweep.exec c s act with
    | some (.ok (s1, e1)) =>
      match runSweep c s1 acts with
      | some (s2, e2) => some (s2, ⟨e1, s1.cache⟩ :: e2)
      | none => none
    | _ => none

theorem runSweep_run {s0 s' : Sweep.State K V} :
    ∀ {acts : List (Sweep.Act K V)} {s : Sweep.State K V} {t t' : List (Sweep.Moment K V)}, Sweep.Run c s0 t s →
      runSweep c s acts = some (s', t') → Sweep.Run c s0 (t ++ t') s' := by
  intro acts
  induction acts with
  | nil =>
    intro s t t' hr hs
    cases hs
    simpa using hr
  | cons x acts ih =>
    intro s t t' hr hs
    unfold runSweep at hs
    split at hs
    · rename_i s1 e1 h1
      split at hs
      · rename_i s2 e2 h2
        cases hs
        have := ih (.act hr h1) h2
        simpa using this
      · cases hs
    · cases hs

/-- The example after the given actions, on the cache of `Props/Sharded.lean` (even keys are in shard 0, odd ones in shard 1). -/
def swRun (acts : List (Sweep.Act Nat Nat)) : Sweep.State Nat Nat × List (Sweep.Moment Nat Nat) :=
  (runSweep sxCfg (Sweep.start sxNew) acts).getD (Sweep.start sxNew, [])

/-- All actions of the list are possible. -/
def swFine (acts : List (Sweep.Act Nat Nat)) : Bool := (runSweep sxCfg (Sweep.start sxNew) acts).isSome

theorem swRun_run {acts : List (Sweep.Act Nat Nat)} (h : swFine acts = true) :
    Sweep.Run sxCfg (Sweep.start sxNew) (swRun acts).2 (swRun acts).1 := by
  unfold swFine at h
  unfold swRun
  rcases hr : runSweep sxCfg (Sweep.start sxNew) acts with _ | ⟨s, t⟩
  · rw [hr] at h; cases h
  · have := runSweep_run (c := sxCfg) (s0 := Sweep.start sxNew) .start hr
    rw [List.nil_append] at this
    exact this

theorem runSweep_performs {s0 s' : Sweep.State K V} :
    ∀ {acts acts0 : List (Sweep.Act K V)} {s : Sweep.State K V} {t : List (Sweep.Moment K V)}, Performs c s0 acts0 s →
      runSweep c s acts = some (s', t) → Performs c s0 (acts0 ++ acts) s' := by
  intro acts
  induction acts with
  | nil =>
    intro acts0 s t hr hs
    cases hs
    simpa using hr
  | cons x acts ih =>
    intro acts0 s t hr hs
    unfold runSweep at hs
    split at hs
    · rename_i s1 e1 h1
      split at hs
      · rename_i s2 e2 h2
        cases hs
        have := ih (.act hr h1) h2
        simpa using this
      · cases hs
    · cases hs

theorem swRun_performs {acts : List (Sweep.Act Nat Nat)} (h : swFine acts = true) :
    Performs sxCfg (Sweep.start sxNew) acts (swRun acts).1 := by
  unfold swFine at h
  unfold swRun
  rcases hr : runSweep sxCfg (Sweep.start sxNew) acts with _ | ⟨s, t⟩
  · rw [hr] at h; cases h
  · have := runSweep_performs (c := sxCfg) (s0 := Sweep.start sxNew) .start hr
    rw [List.nil_append] at this
    exact this

/-- What the calls returned. -/
def swOuts (acts : List (Sweep.Act Nat Nat)) : List (Nat × TOut) :=
  (swRun acts).2.flatMap (fun m => m.evs.filterMap (fun e => match e with
    | .returned a out => some (a, out)
    | _ => none))

/-- The items at all moments. -/
def swItems (acts : List (Sweep.Act Nat Nat)) : List (List (Nat × Nat)) := (swRun acts).2.map (fun m => items m.cache)

/-- Between the visits of `is_empty()` to the two shards, an item is inserted into the first, then the one of the second is
removed. -/
def swEmpty : List (Sweep.Act Nat Nat) := [.shard 1 (.call (.insert 1 14)), .call .isEmpty, .visit 0, .shard 0 (.call (.insert 2 13)),
  .shard 1 (.call (.remove 1)), .visit 0, .finish 0]

/-- The call returns true, though at no moment the cache is empty. -/
example : swFine swEmpty = true ∧ swOuts swEmpty = [(0, .bool true)] ∧
    swItems swEmpty = [[(1, 14)], [(1, 14)], [(1, 14)], [(2, 13), (1, 14)], [(2, 13)], [(2, 13)], [(2, 13)]] := by decide +kernel

/-- An item of the first shard is removed after the visit, then one is inserted into the second. -/
def swLen : List (Sweep.Act Nat Nat) := [.shard 0 (.call (.insert 2 13)), .call .len, .visit 0, .shard 0 (.call (.remove 2)),
  .shard 1 (.call (.insert 1 14)), .visit 0, .finish 0]

/-- `len()` returns 2, though there is never more than one item. -/
example : swFine swLen = true ∧ swOuts swLen = [(0, .num 2)] ∧
    swItems swLen = [[(2, 13)], [(2, 13)], [(2, 13)], [], [(1, 14)], [(1, 14)], [(1, 14)]] := by decide +kernel

/-- The hypotheses of the theorems about `len()` and of `C80_finite` are met. -/
example : ∃ h1 x h2 y, Sweep.Run sxCfg (Sweep.start sxNew)
      (h1 ++ ⟨[.called 0 .len], x⟩ :: h2 ++ [⟨[.returned 0 (.num 2)], y⟩]) (swRun swLen).1 ∧ h2.length = 4 ∧
    Performs sxCfg (Sweep.start sxNew) swLen (swRun swLen).1 ∧ swLen.countP (isVisit 0) = 2 := by
  have h : swFine swLen = true := by decide +kernel
  have h1 : (match (swRun swLen).2 with
    | [_, ⟨[.called 0 .len], _⟩, _, _, _, _, ⟨[.returned 0 (.num 2)], _⟩] => true
    | _ => false) = true := by decide +kernel
  have hr := swRun_run h
  generalize (swRun swLen).2 = l at hr h1
  split at h1
  · exact ⟨[_], _, [_, _, _, _], _, hr, rfl, swRun_performs h, by decide⟩
  · cases h1

/-- Insertions while `clear()` is between the two shards, and a `retain` at the same time. -/
def swClear : List (Sweep.Act Nat Nat) := [.shard 0 (.call (.insert 2 13)), .shard 1 (.call (.insert 1 14)), .call .clear,
  .call (.retain (fun _ v => decide (v < 20))), .visit 0, .shard 0 (.call (.insert 4 15)), .shard 0 (.call (.insert 6 33)), .visit 1,
  .shard 0 (.call (.insert 8 31)), .shard 1 (.call (.insert 3 12)), .visit 0, .visit 1, .finish 0, .finish 1]

/-- The items inserted into the first shard remain, except for the one removed by `retain`. -/
example : swFine swClear = true ∧ swOuts swClear = [(0, .unit), (1, .unit)] ∧
    items (swRun swClear).1.cache = [(4, 15), (8, 31)] := by decide +kernel

/-- All other calls, with a lookup and a load in between. -/
def swStats : List (Sweep.Act Nat Nat) := [.shard 0 (.call (.insert 2 13)), .call .hits, .call .misses, .call .weight, .call .capacity,
  .call .reserve, .visit 0, .visit 1, .visit 2, .visit 3, .visit 4] ++ (cxAsk 0 (.thread 0 false) 1).map (.shard 1) ++
  [.shard 1 (.startLoading 0), .visit 4, .visit 0, .visit 1, .visit 2, .visit 3, .finish 0, .finish 1, .finish 2, .finish 3, .finish 4]

/-- What they return. -/
example : swFine swStats = true ∧ swOuts swStats = [(0, .num 0), (1, .num 2), (2, .num 3), (3, .num 20), (4, .unit)] := by
  decide +kernel

/-- Before, they wait while the shard is locked by the thread that sets up the load. -/
example : swFine (swStats.take 16) = true ∧ swFine (swStats.take 16 ++ [.visit 0]) = false ∧
    swFine (swStats.take 16 ++ [.visit 4]) = false ∧ (swRun (swStats.take 16)).1.cache.shards.map (·.unlocked) = [true, false] := by
  decide +kernel

end QuickCache.Props
