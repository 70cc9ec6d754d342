import Verif.Proofs.Sharded
import Verif.Props.Conc
import Verif.Props.Options

/-!
# Property C41: sharding is transparent

`Cache.Run c (Cache.start s0) tr s`: `s0` is a cache just built by `with_options`, used by any number of threads; `s` is the
state after some interleaving of their atomic actions, and `tr` is everything that happened, each event with the shard where
it happened. `(Cache.start s0).home c k` is the shard selected by the hash of `k`.
-/

namespace QuickCache.Props
variable {K V RS : Type} [DecidableEq K] {c : Cfg K V RS} {o : Options} {s0 : SyncCache K V} {s s' : Conc.Cache K V}
  {tr t1 t2 : List (Nat × Conc.Ev K V)} {evs : List (Conc.Ev K V)} {i : Nat} {act : Conc.Act K V}
open Unsync Spec Conc

/-- The hot target of each shard. -/
def hotTarget (o : Options) (s0 : SyncCache K V) : Nat := fracOf (share o.weight s0.numShards) o.hot

omit [DecidableEq K] in
/-- What `with_options` builds. -/
theorem built (hb : SyncCache.withOptions o = .ok s0) : ∃ j, j ≤ 63 ∧ o.shards ≤ 2 ^ 63 ∧ s0.numShards = 2 ^ j ∧
    s0 = ⟨List.replicate (2 ^ j) (Shard.new (hotTarget o s0) (share o.weight (2 ^ j)) (fracOf (share o.items (2 ^ j)) o.ghost)),
      UInt64.ofNat (2 ^ j - 1)⟩ := by
  have hs : o.shards ≤ 2 ^ 63 := by
    by_contra hs
    have h1 : QuickCache.numShards o = .error .overflow := by
      have : ¬ 2 ^ Nat.clog 2 o.shards < 2 ^ 64 := by
        have h2 : 63 < Nat.clog 2 o.shards := by
          by_contra h3
          exact hs ((Nat.clog_le_iff_le_pow (by norm_num)).mp (by omega))
        have := Nat.pow_le_pow_right (n := 2) (by norm_num) (show 64 ≤ Nat.clog 2 o.shards by omega)
        omega
      unfold QuickCache.numShards nextPow2
      rw [if_neg this, Res.error_bind]
    simp only [SyncCache.withOptions, h1, Res.error_bind] at hb
    cases hb
  obtain ⟨j, hj, h1, -⟩ := numShards_spec o hs
  simp only [SyncCache.withOptions, h1, Res.ok_bind] at hb
  cases hb
  refine ⟨j, hj, hs, by simp [SyncCache.numShards], ?_⟩
  simp [hotTarget, SyncCache.numShards, Shard.fromOptions]

theorem runs (hb : SyncCache.withOptions o = .ok s0) (hr : Cache.Run c (Cache.start s0) tr s) (hq : c.ptrEq = true) :
    Cache.SInv c s0.numShards s0.mask (hotTarget o s0) (share o.weight s0.numShards)
      (fracOf (share o.items s0.numShards) o.ghost) tr s := by
  obtain ⟨j, -, -, hn, hs0⟩ := built hb
  rw [hn]
  refine hr.sinv hq ?_
  generalize hotTarget o s0 = T at hs0 ⊢
  subst hs0
  exact .new ..

omit [DecidableEq K] in
theorem home_lt (hb : SyncCache.withOptions o = .ok s0) (k : K) : (Cache.start s0).home c k < s0.numShards := by
  obtain ⟨j, hj, -, hn, hs0⟩ := built hb
  rw [hn]
  generalize hotTarget o s0 = T at hs0
  subst hs0
  exact shardIdx_lt hj _

/-! ### Routing -/

/-- Everything that happens about a key (calls, lifecycle calls, loads, waiting) happens on the one shard selected by its
hash. -/
theorem C41_route (hb : SyncCache.withOptions o = .ok s0) (hr : Cache.Run c (Cache.start s0) tr s) (hq : c.ptrEq = true)
    {e : Ev K V} (he : (i, e) ∈ tr) {k : K} (hk : k ∈ evKeys e) : s0.shardFor c k = some i := by
  have h1 := (runs hb hr hq).keys _ he k hk
  have h2 := home_lt (c := c) hb k
  unfold SyncCache.shardFor
  rw [if_pos (show shardIdx s0.mask (c.hash k) < s0.shards.length from h2)]
  exact congrArg some h1

/-- An action changes the one shard it is on, and depends on no other. -/
theorem C41_local (hs : s.exec c i act = some (.ok (s', evs))) :
    (∀ j, j ≠ i → s'.shards[j]? = s.shards[j]?) ∧ s'.mask = s.mask ∧
      ∀ s1 : Cache K V, s1.mask = s.mask → s1.shards[i]? = s.shards[i]? →
        ∃ s1', s1.exec c i act = some (.ok (s1', evs)) ∧ s1'.shards[i]? = s'.shards[i]? := by
  obtain ⟨-, st, st', hst, hex, rfl⟩ := Cache.exec_some hs
  refine ⟨fun j hj => List.getElem?_set_ne (Ne.symm hj), rfl, ?_⟩
  intro s1 hm h1
  refine ⟨{ s1 with shards := s1.shards.set i st' }, ?_, ?_⟩
  · unfold Cache.exec at hs ⊢
    have : s1.routes c i act = s.routes c i act := by unfold Cache.routes Cache.home; rw [hm]
    rw [this, h1]
    split
    · rw [hst]
      simp only [hex]
      rfl
    · rename_i hno
      rw [if_neg hno] at hs
      cases hs
  · have hl1 : i < s1.shards.length := (List.getElem?_eq_some_iff.1 (h1.trans hst)).1
    have hl : i < s.shards.length := (List.getElem?_eq_some_iff.1 hst).1
    simp only [List.getElem?_set_self hl1, List.getElem?_set_self hl]

/-- No action panics, except that a shard may be too large: its weight would reach `2^64`, or it has no more slots. In
particular `shard_for` always finds a shard. -/
theorem C41_panics (hb : SyncCache.withOptions o = .ok s0) (hr : Cache.Run c (Cache.start s0) tr s) (hq : c.ptrEq = true)
    {e : Panic} (hs : s.exec c i act = some (.error e)) : ∃ st, s.shards[i]? = some st ∧
      ((e = .overflow ∧ ∃ k v, 2 ^ 64 ≤ total c.weight st.shard.iter + enterWeight c (hotTarget o s0) k v) ∨
      (e = .slabFull ∧ st.shard.entries.entries.length = 2 ^ 32 - 2)) := by
  have h := runs hb hr hq
  rcases Cache.exec_error hs with ⟨st, hst, he⟩ | ⟨k, -, hk, hn⟩
  · exact ⟨st, hst, C49_asserts (h.run i st hst) hq he⟩
  · exfalso
    have h1 := home_lt (c := c) hb k
    have h2 : (Cache.start s0).home c k = i := by
      rw [← hk]
      unfold Cache.home
      rw [h.const]
      rfl
    rw [h2, ← h.len] at h1
    rw [List.getElem?_eq_none_iff] at hn
    omega

/-- Each shard by itself is a cache of one shard, of the share of the capacity: everything proved about those (C44 – C55)
holds of it. The number of shards never changes. -/
theorem C41_shard (hb : SyncCache.withOptions o = .ok s0) (hr : Cache.Run c (Cache.start s0) tr s) (hq : c.ptrEq = true) :
    s.shards.length = s0.numShards ∧ ∀ i st, s.shards[i]? = some st →
      Conc.Run c (State.new (Shard.new (hotTarget o s0) (share o.weight s0.numShards)
        (fracOf (share o.items s0.numShards) o.ghost))) (onShard i tr) st :=
  ⟨(runs hb hr hq).len, (runs hb hr hq).run⟩

/-! ### One map -/

/-- The items of all shards make up one map (no key occurs twice), and the whole history is a possible behaviour of that
map: every call about a key acts on it as specified for a cache without shards. -/
theorem C41_refines (hb : SyncCache.withOptions o = .ok s0) (hr : Cache.Run c (Cache.start s0) tr s) (hq : c.ptrEq = true) :
    ∃ m, ShardReplays c (hotTarget o s0) ((Cache.start s0).home c) (shardCalls tr) m ∧ Lists (items s) m :=
  ⟨_, (runs hb hr hq).replays, (runs hb hr hq).lists hq⟩

/-- C02 for the whole: the contents are those of a plain map to which the calls and lifecycle calls were applied. -/
theorem C41_contents (hb : SyncCache.withOptions o = .ok s0) (hr : Cache.Run c (Cache.start s0) tr s) (hq : c.ptrEq = true)
    (k : K) (v : V) : (k, v) ∈ items s ↔ shardPlay ((Cache.start s0).home c) (shardCalls tr) k = some v := by
  obtain ⟨m, h1, h2⟩ := C41_refines hb hr hq
  rw [h2.2 k v, h1.play]

/-- C01 for the whole, items: the value stored is the one last stored for the key. -/
theorem C41_latest (hb : SyncCache.withOptions o = .ok s0) (hr : Cache.Run c (Cache.start s0) tr s) (hq : c.ptrEq = true)
    {k : K} {v : V} (hm : (k, v) ∈ items s) : shardLast ((Cache.start s0).home c) k (shardCalls tr) = some v := by
  obtain ⟨m, h1, h2⟩ := C41_refines hb hr hq
  exact h1.latest k v ((h2.2 k v).1 hm)

/-- C01 for the whole, lookups: a call that returns an item it found returns the value last stored for its key. -/
theorem C41_lookup (hb : SyncCache.withOptions o = .ok s0) (hr : Cache.Run c (Cache.start s0) tr s) (hq : c.ptrEq = true)
    {h1 h2 : List (Nat × Call K V)} {x : Call K V} (ht : shardCalls tr = h1 ++ (i, x) :: h2) {k : K} {v : V}
    (hy : (x.op = .get k ∨ x.op = .peek k) ∧ x.out = .value (some v) ∨ x.op = .remove k ∧ x.out = .removed (some (k, v))) :
    shardLast ((Cache.start s0).home c) k h1 = some v := by
  obtain ⟨m, hm, -⟩ := C41_refines hb hr hq
  obtain ⟨m1, m2, h3, h4, -⟩ := hm.split ht
  apply h3.latest k v
  obtain ⟨op, out, log⟩ := x
  simp only at hy h4
  rcases hy with ⟨rfl | rfl, rfl⟩ | ⟨rfl, rfl⟩
  · obtain ⟨h, -, -⟩ := h4
    rw [Out.value.injEq] at h
    exact h.symm
  · obtain ⟨h, -, -⟩ := h4
    rw [Out.value.injEq] at h
    exact h.symm
  · obtain ⟨h, -, -⟩ := h4
    rw [Out.removed.injEq] at h
    cases hm1 : m1 k with
    | none => rw [hm1] at h; cases h
    | some w => rw [hm1] at h; cases h; rfl

/-- `peek` and `contains_key` see the whole map. -/
theorem C41_agree (hb : SyncCache.withOptions o = .ok s0) (hr : Cache.Run c (Cache.start s0) tr s) (hq : c.ptrEq = true)
    (k : K) :
    (s.exec c i (.call (.peek k)) = some (.ok (s', evs)) →
      ∃ r, evs = [.sect (.call (.peek k)) (.call (.value r)) []] ∧ ∀ v, r = some v ↔ (k, v) ∈ items s) ∧
    (s.exec c i (.call (.containsKey k)) = some (.ok (s', evs)) →
      ∃ b, evs = [.sect (.call (.containsKey k)) (.call (.bool b)) []] ∧ (b = true ↔ ∃ v, (k, v) ∈ items s)) := by
  have h := runs hb hr hq
  have hl := h.lists hq
  have at_ : ∀ {st : State K V}, s.shards[i]? = some st → s.home c k = i → ∀ v, (k, v) ∈ items s ↔ st.shard.contents k = some v := by
    intro st hst hk v
    rw [hl.2 k v]
    unfold Cache.whole
    unfold Cache.home at hk
    rw [h.const] at hk
    simp only [hk, hst]
  constructor
  · intro hs
    obtain ⟨hk, st, st', hst, hex, -⟩ := Cache.exec_some hs
    have hre := h.reach hq hst
    have he := hre.inv.eff hq hex
    have hh := he.history hre.inv
    cases he with
    | write hop => cases hop
    | @read _ out hop he =>
      rcases hh with ⟨h1, -⟩ | ⟨x, h1, h2⟩
      · cases h1
      · cases h1
        obtain ⟨h3, -, -⟩ := h2
        cases h3
        exact ⟨_, rfl, fun v => (at_ hst (hk k rfl) v).symm⟩
  · intro hs
    obtain ⟨hk, st, st', hst, hex, -⟩ := Cache.exec_some hs
    have hre := h.reach hq hst
    have he := hre.inv.eff hq hex
    have hh := he.history hre.inv
    cases he with
    | write hop => cases hop
    | @read _ out hop he =>
      rcases hh with ⟨h1, -⟩ | ⟨x, h1, h2⟩
      · cases h1
      · cases h1
        obtain ⟨h3, -, -⟩ := h2
        cases h3
        refine ⟨_, rfl, ?_⟩
        rw [Option.isSome_iff_exists]
        exact exists_congr fun v => (at_ hst (hk k rfl) v).symm

/-- Visiting the shards in `order`, each at most once, applies the call to the keys of those shards. -/
theorem sweep {home : K → Nat} {op : Op K V} (hop : op.key = none) (hd : op ≠ .drain) {order : List Nat} (hn : order.Nodup)
    (m : K → Option V) (k : K) :
    (order.map (fun i => (i, (⟨op, .unit, []⟩ : Call K V)))).foldl (fun m x => onHome home x.1 x.2.op m (play m x.2)) m k =
      if home k ∈ order then play m ⟨op, .unit, []⟩ k else m k := by
  obtain ⟨g, hg⟩ : ∃ g : K → Option V → Option V, ∀ m k, play m ⟨op, .unit, []⟩ k = g k (m k) := by
    cases op with
    | retain f => exact ⟨fun k r => r.filter (f k), fun _ _ => rfl⟩
    | clear => exact ⟨fun _ _ => none, fun _ _ => rfl⟩
    | reserve => exact ⟨fun _ r => r, fun _ _ => rfl⟩
    | drain => exact absurd rfl hd
    | _ => cases hop
  rw [hg]
  induction order generalizing m with
  | nil => rfl
  | cons i order ih =>
    rw [List.nodup_cons] at hn
    rw [List.map_cons, List.foldl_cons, ih hn.2]
    have e : onHome home i op m (play m ⟨op, .unit, []⟩) k = if home k = i then g k (m k) else m k := by
      unfold onHome
      rw [hop]
      simp only [hg]
    rw [e]
    by_cases hk : home k = i
    · rw [if_pos hk, if_neg (hk ▸ hn.1), if_pos (by simp [hk])]
    · by_cases hm : home k ∈ order
      · rw [if_pos hm, if_neg hk, if_pos (by simp [hm])]
      · rw [if_neg hm, if_neg hk, if_neg (by simp [hk, hm])]

/-- `retain(f)`, `clear()` and `reserve()` visit the shards one after the other. If nothing else happens meanwhile, they act
on the whole map as specified, in whatever order the shards are visited. -/
theorem C41_sweep (hb : SyncCache.withOptions o = .ok s0) (hr : Cache.Run c (Cache.start s0) (t1 ++ t2) s)
    (hq : c.ptrEq = true) {op : Op K V} (hop : op.key = none) (hd : op ≠ .drain) {order : List Nat}
    (ho : order.Perm (List.range s0.numShards)) (ht : shardCalls t2 = order.map (fun i => (i, ⟨op, .unit, []⟩))) (k : K) (v : V) :
    (k, v) ∈ items s ↔ play (shardPlay ((Cache.start s0).home c) (shardCalls t1)) ⟨op, .unit, []⟩ k = some v := by
  rw [C41_contents hb hr hq]
  have e : shardCalls (t1 ++ t2) = shardCalls t1 ++ shardCalls t2 := by unfold shardCalls; rw [List.filterMap_append]
  unfold shardPlay
  rw [e, List.foldl_append, ht, sweep hop hd (ho.nodup_iff.2 List.nodup_range), if_pos]
  rw [ho.mem_iff]
  exact List.mem_range.2 (home_lt hb k)

/-! ### Sums -/

/-- C05 for the whole: `len()` is the number of items, `is_empty()` says whether there are none. -/
theorem C41_len (hb : SyncCache.withOptions o = .ok s0) (hr : Cache.Run c (Cache.start s0) tr s) (hq : c.ptrEq = true) :
    s.still.len = (items s).length ∧ (s.still.isEmpty = true ↔ items s = []) :=
  ⟨(runs hb hr hq).len_items hq, (runs hb hr hq).empty_items hq⟩

/-- C04 for the whole: `weight()` is the total weight of the items, if that is below `2^64`; otherwise it panics. -/
theorem C41_weight (hb : SyncCache.withOptions o = .ok s0) (hr : Cache.Run c (Cache.start s0) tr s) (hq : c.ptrEq = true) :
    s.still.weight = if total c.weight (items s) < 2 ^ 64 then .ok (total c.weight (items s)) else .error .overflow :=
  (runs hb hr hq).weight_items hq

/-- `capacity()` never changes. -/
theorem C41_capacity (hb : SyncCache.withOptions o = .ok s0) (hw : o.weight < 2 ^ 64)
    (hr : Cache.Run c (Cache.start s0) tr s) (hq : c.ptrEq = true) : s.still.capacity = s0.capacity := by
  obtain ⟨j, hj, hs, hn, -⟩ := built hb
  obtain ⟨T, e, h1, h2, h3, h4, -⟩ := C39 o hw hb hs
  have h5 : share o.weight s0.numShards * s0.numShards < 2 ^ 64 := by
    have hpos := Nat.two_pow_pos j
    rw [hn]
    rcases Nat.lt_or_ge (2 ^ 64) (o.weight + 2 ^ j) with h2 | h2
    · have := (share_bounds_sat hpos hw h2).1; rw [Nat.mul_comm]; exact this
    · have := (share_bounds hpos h2).2; rw [Nat.mul_comm]; omega
  rw [Nat.mul_comm] at h5
  rw [(runs hb hr hq).capacity hq h5]
  have h6 : (Cache.start s0).still = s0 := by
    unfold Cache.still Cache.start
    rw [List.map_map]
    exact congrArg (SyncCache.mk · s0.mask) (List.map_id _)
  have h7 := (runs hb (.start (c := c)) hq).capacity hq h5
  rw [h6] at h7
  exact h7.symm

omit [DecidableEq K] in
theorem hotTarget_le (hb : SyncCache.withOptions o = .ok s0) (hw : o.weight ≤ 2 ^ 53) (h0 : 0 ≤ o.hot) (h1 : o.hot ≤ 1) :
    hotTarget o s0 ≤ share o.weight s0.numShards := by
  obtain ⟨j, -, -, hn, -⟩ := built hb
  have hpos : 0 < s0.numShards := by rw [hn]; exact Nat.two_pow_pos j
  refine fracOf_le h0 h1 (Nat.le_trans ?_ hw)
  unfold share satAdd
  rw [Nat.div_le_iff_le_mul_add_pred hpos]
  have := Nat.le_mul_of_pos_left o.weight hpos
  omega

/-- C03 for the whole: the items that are not pinned weigh at most the capacity, for capacities up to `2^53`; if nothing
is pinned, `weight()` is at most `capacity()`. -/
theorem C41_bound (hb : SyncCache.withOptions o = .ok s0) (hw : o.weight ≤ 2 ^ 53) (h0 : 0 ≤ o.hot) (h1 : o.hot ≤ 1)
    (hr : Cache.Run c (Cache.start s0) tr s) (hq : c.ptrEq = true) {cap : Nat} (hc : s.still.capacity = .ok cap) :
    total (evictable c) (items s) ≤ cap ∧
      ((∀ k v, (k, v) ∈ items s → c.pinned k v = false) → ∃ w, s.still.weight = .ok w ∧ w ≤ cap) := by
  have h := runs hb hr hq
  have hw' : o.weight < 2 ^ 64 := Nat.lt_of_le_of_lt hw (by norm_num)
  obtain ⟨j, hj, hs, hn, -⟩ := built hb
  have hpos : 0 < s0.numShards := by rw [hn]; exact Nat.two_pow_pos j
  have h5 : s0.numShards * share o.weight s0.numShards < 2 ^ 64 := by
    have := (share_bounds hpos (show o.weight + s0.numShards ≤ 2 ^ 64 by
      have := Nat.pow_le_pow_right (n := 2) (by norm_num) hj
      rw [hn]
      omega)).2
    have := Nat.pow_le_pow_right (n := 2) (by norm_num) hj
    omega
  rw [h.capacity hq h5] at hc
  cases hc
  have ht := hotTarget_le hb hw h0 h1
  have h6 := h.evictable_le hq ht
  refine ⟨h6, fun hp => ?_⟩
  have h7 : total c.weight (items s) = total (evictable c) (items s) := by
    unfold total
    congr 1
    apply List.map_congr_left
    rintro ⟨k, v⟩ hm
    simp [evictable, hp k v hm]
  refine ⟨_, ?_, Nat.le_trans (Nat.le_of_eq h7) h6⟩
  rw [h.weight_items hq, if_pos (by omega)]

/-! ### An example -/

/-- Performing a list of actions on shards, all of which must be possible. -/
def runShards (c : Cfg K V RS) (s : Conc.Cache K V) :
    List (Nat × Act K V) → Option (Conc.Cache K V × List (Nat × Ev K V))
  | [] => some (s, [])
  | (i, act) :: acts =>
    match s.exec c i act with
    | some (.ok (s1, e1)) =>
      match runShards c s1 acts with
      | some (s2, e2) => some (s2, e1.map (fun e => (i, e)) ++ e2)
      | none => none
    | _ => none

theorem runShards_run {s0 s' : Conc.Cache K V} :
    ∀ {acts : List (Nat × Act K V)} {s : Conc.Cache K V} {t t' : List (Nat × Ev K V)}, Cache.Run c s0 t s →
      runShards c s acts = some (s', t') → Cache.Run c s0 (t ++ t') s' := by
  intro acts
  induction acts with
  | nil =>
    intro s t t' hr hs
    cases hs
    simpa using hr
  | cons x acts ih =>
    obtain ⟨i, act⟩ := x
    intro s t t' hr hs
    unfold runShards at hs
    split at hs
    · rename_i s1 e1 h1
      split at hs
      · rename_i s2 e2 h2
        cases hs
        have := ih (.act hr h1) h2
        simpa using this
      · cases hs
    · cases hs

/-- The example cache; the hash leads key `k` to shard `k % 2`. -/
def sxCfg : Cfg Nat Nat (List Nat) := { cxCfg with hash := fun k => UInt64.ofNat (k % 2 * 2 ^ 32 + k % 3) }

/-- Two shards, each of capacity 10. -/
def sxOptions : Options := { shards := 2, hot := 4 / 5, ghost := 1 / 2, items := 64, weight := 20 }

/-- The cache built from these options. -/
def sxNew : SyncCache Nat Nat := ⟨List.replicate 2 (Shard.fromOptions (4 / 5) (1 / 2) 32 10), 1⟩

theorem sxBuilt : SyncCache.withOptions sxOptions = .ok sxNew := by
  have : QuickCache.numShards sxOptions = .ok 2 := by decide +kernel
  simp only [SyncCache.withOptions, this, Res.ok_bind]
  rfl

/-- Insertions into both shards, with evictions in shard 1; a load on shard 0 while shard 1 is used; `retain` of the items
with value below 50, shard by shard. -/
def sxActs : List (Nat × Act Nat Nat) :=
  [(0, .call (.insert 2 13)), (1, .call (.insert 1 14)), (1, .call (.insert 3 25)), (1, .call (.insert 5 33))] ++
  ((cxAsk 0 (.thread 0 false) 4).map (fun a => (0, a))) ++ [(0, .startLoading 0), (1, .call (.insert 7 68)), (0, .publish 0 52),
    (0, .store 0), (1, .call (.remove 1)), (1, .call (.retain (fun _ v => decide (v < 50)))), (0, .call (.retain (fun _ v => decide (v < 50))))]

/-- The example after the given actions. -/
def sxRun (acts : List (Nat × Act Nat Nat)) : Conc.Cache Nat Nat × List (Nat × Ev Nat Nat) :=
  (runShards sxCfg (Cache.start sxNew) acts).getD (Cache.start sxNew, [])

/-- All actions of the list are possible. -/
def sxFine (acts : List (Nat × Act Nat Nat)) : Bool := (runShards sxCfg (Cache.start sxNew) acts).isSome

theorem sxRun_run {acts : List (Nat × Act Nat Nat)} (h : sxFine acts = true) :
    Cache.Run sxCfg (Cache.start sxNew) (sxRun acts).2 (sxRun acts).1 := by
  unfold sxFine at h
  unfold sxRun
  rcases hr : runShards sxCfg (Cache.start sxNew) acts with _ | ⟨s, t⟩
  · rw [hr] at h; cases h
  · have := runShards_run (c := sxCfg) (s0 := Cache.start sxNew) .start hr
    rw [List.nil_append] at this
    exact this

/-- Before `retain` there are items in both shards, two items of shard 1 have been evicted (3) or removed (1). -/
example : sxFine (sxActs.dropLast.dropLast) = true ∧ items (sxRun sxActs.dropLast.dropLast).1 = [(2, 13), (4, 52), (7, 68)] ∧
    (sxRun sxActs.dropLast.dropLast).1.still.len = 3 ∧ (sxRun sxActs.dropLast.dropLast).1.still.weight = .ok 13 ∧
    (sxRun sxActs.dropLast.dropLast).1.still.capacity = .ok 20 := by decide +kernel

/-- The hypotheses of the theorems are met by the whole example. -/
example : SyncCache.withOptions sxOptions = .ok sxNew ∧ Cache.Run sxCfg (Cache.start sxNew) (sxRun sxActs).2 (sxRun sxActs).1 ∧
    sxCfg.ptrEq = true ∧ sxNew.numShards = 2 ∧ items (sxRun sxActs).1 = [(2, 13)] :=
  ⟨sxBuilt, sxRun_run (by decide +kernel), rfl, rfl, by decide +kernel⟩

/-- Its last two events are a sweep of `retain` (C41_sweep) in the order 1, 0. -/
example : (shardCalls ((sxRun sxActs).2.drop (sxRun sxActs.dropLast.dropLast).2.length)).map (fun x => (x.1, match x.2 with
    | ⟨.retain f, .unit, []⟩ => [f 0 49, f 0 50]
    | _ => [])) = [(1, [true, false]), (0, [true, false])] := by decide +kernel

end QuickCache.Props
