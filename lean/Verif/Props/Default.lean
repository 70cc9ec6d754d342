import Verif.Proofs.ClockConc
import Verif.Proofs.Default
import Verif.Props.Calls
import Verif.Props.Eviction
import Verif.Props.Sharded
import Verif.Props.Weight

/-!
# Property C63: what `Cache::new(n)` builds (and C21 for the concurrent cache)

The caches most users have: `UnitWeighter` (every item weighs 1) and the `DefaultLifecycle` of the module. The hash function
is arbitrary.
-/

namespace QuickCache.Props
open Unsync Spec

/-! ### `unsync::Cache::new` -/

section
variable {K V : Type _} [DecidableEq K] {hash : K → UInt64} {par n : Nat} {h : List (Unsync.Call K V)} {s0 s s' : Shard K V}

omit [DecidableEq K] in
theorem plain_new (hn : Unsync.new par n = .ok s0) :
    s0 = Shard.new (fracOf n defaultHot) n (fracOf n defaultGhost) := by cases hn; rfl

omit [DecidableEq K] in
theorem total_unit (l : List (K × V)) : total unitWeight l = l.length := by
  unfold total
  induction l with
  | nil => rfl
  | cons x l ih => rw [List.map_cons, List.sum_cons, ih, List.length_cons]; unfold unitWeight; omega

omit [DecidableEq K] in
theorem evictable_plain : evictable (Cfg.plain hash : Cfg K V Unit) = unitWeight := by
  funext k v; simp [evictable, Cfg.plain, neverPinned]

omit [DecidableEq K] in
theorem calm_plain (x : Unsync.Call K V) : Calm (Cfg.plain hash) x := by
  unfold Calm
  rw [evictable_plain]
  split <;> trivial

/-- C63: `Cache::new(n)` succeeds; whatever is done with the cache, it never holds more than `n` items, its capacity is `n`
and its weight is the number of its items. -/
theorem C63_bound (hn : Unsync.new par n = .ok s0) (h64 : n < 2 ^ 64) (hr : Run (.plain hash) s0 h s) :
    s.len ≤ n ∧ s.iter.length = s.len ∧ s.capacity = n ∧ s.weight = .ok s.len := by
  rw [plain_new hn] at hr
  have h1 := C03_evictable hr (fracOf_default_le n).1 (fun x _ => calm_plain x)
  have h2 := C37_capacity hr
  have h3 := (C05_len hr).1
  rw [evictable_plain, total_unit, h2, ← h3] at h1
  refine ⟨h1, h3.symm, h2, ?_⟩
  have h4 : total (Cfg.plain hash : Cfg K V Unit).weight s.iter = s.len := by rw [h3]; exact total_unit _
  have := C04_returns hr (by rw [h4]; omega)
  rwa [h4] at this

omit [DecidableEq K] in
/-- The constructor never fails. -/
theorem C63_new (par n : Nat) : ∃ s : Shard K V, Unsync.new par n = .ok s := ⟨_, rfl⟩

omit [DecidableEq K] in
theorem inadmissible_plain {k : K} {v : V} : ¬ Admissible (Cfg.plain hash) 0 k v := by
  rintro (h | h)
  · cases h
  · simp [enterWeight, Cfg.plain, keepAsIs, unitWeight] at h

/-- A cache built for one item, or for none, never holds an item: a share of 97 % of it rounds down to nothing, so every item
counts as too heavy. -/
theorem C63_nothing (hn : Unsync.new par n = .ok s0) (h1 : n ≤ 1) (hr : Run (.plain hash) s0 h s) : s.iter = [] := by
  rw [plain_new hn, fracOf_default_zero h1] at hr
  suffices H : ∀ k, s.contents k = none by
    cases hi : s.iter with
    | nil => rfl
    | cons x l =>
      have := (hr.lists.2 x.1 x.2).mp (by rw [hi]; exact List.mem_cons_self)
      rw [H] at this; cases this
  generalize h0 : Shard.new 0 n (fracOf n defaultGhost) = s0 at hr
  induction hr with
  | start => subst h0; intro k; rfl
  | layout m p hr hm hp ih => exact ih
  | @call h s s' op out q hr hs ih =>
    subst h0
    have ho := hr.opSpec hs
    have hst : ∀ {k : K} {v : V} {L : List (Event K V)} {m' : K → Option V},
        Store (Cfg.plain hash) 0 s.contents k v L m' → ∀ x, m' x = none := by
      intro k v L m' h x
      cases h with
      | rejected => unfold del; split <;> simp [ih]
      | overwritten enter fits => exact absurd (admissible_of_admitted enter fits) inadmissible_plain
      | added enter fits => exact absurd (admissible_of_admitted enter fits) inadmissible_plain
    have hal : ∀ (m : K → Option V) (k : K) (f : V → V), (∀ x, m x = none) → ∀ x, alter m k f x = none := by
      intro m k f hm x; unfold alter; split <;> simp [hm]
    cases op with
    | insert k v => exact hst ho.2
    | replace k v soft =>
      obtain ⟨r, -, h1⟩ := ho
      generalize s'.contents = m' at h1 ⊢
      generalize q.log = L at h1
      cases h1 with
      | absent enter absent => exact ih
      | rejected enter asked heavy here => rw [ih] at here; cases here
      | overwritten enter fits here => rw [ih] at here; cases here
    | remove k => rw [ho.2.2]; intro x; unfold del; split <;> simp [ih]
    | get k => rw [ho.2.2]; exact ih
    | peek k => rw [ho.2.2]; exact ih
    | containsKey k => rw [ho.2.2]; exact ih
    | getMut k f => rw [ho.2.2]; exact hal _ _ _ ih
    | peekMut k f => rw [ho.2.2]; exact hal _ _ _ ih
    | retain f => rw [ho.2.2]; intro x; simp [ih]
    | clear => rw [ho.2.2]; intro x; rfl
    | drain => rw [ho.2.2]; intro x; rfl
    | reserve => rw [ho.2.2]; exact ih
    | getOrInsertWith k load =>
      simp only [OpSpec, ih] at ho
      cases load with
      | none => rw [ho.2.2]; exact ih
      | some v => exact hst ho.1
    | getMutOrInsertWith k load f =>
      simp only [OpSpec, ih] at ho
      cases load with
      | none => rw [ho.2.2]; exact ih
      | some v =>
        obtain ⟨m1, h2, -, h3⟩ := ho
        rw [h3]; exact hal _ _ _ (hst h2)
    | getRefOrGuard k use =>
      simp only [OpSpec, ih] at ho
      cases use with
      | insert v => exact hst ho.2
      | drop => rw [ho.2.2]; exact ih
      | forget => rw [ho.2.2]; exact ih
    | getMutOrGuard k f use =>
      simp only [OpSpec, ih] at ho
      cases use with
      | insert v => exact hst ho.2
      | drop => rw [ho.2.2]; exact ih
      | forget => rw [ho.2.2]; exact ih

/-- A cache built for at least two items: storing an item of a key that is present, or while there are fewer than `n`
items, stores it and evicts no other item; an old value of the key is dropped. -/
theorem C63_room (hn : Unsync.new par n = .ok s0) (h2 : 2 ≤ n) (hr : Run (.plain hash) s0 h s) {op : Op K V} {out : Out K V}
    {q : Req K V Unit} (hs : step (.plain hash) s op = .ok (s', out, q)) {k : K} {v : V} {f : V → V}
    (hst : StoresThen s.contents op out k v f) (room : s.len < n ∨ s.contents k ≠ none) :
    s'.contents = put s.contents k (f v) ∧ q.log = (s.contents k).toList.map (.onEvict k) := by
  have hbound := fun h64 => (C63_bound (hash := hash) hn h64 hr).1
  rw [plain_new hn] at hr
  have ht := fracOf_default_pos h2
  have hnot : ¬ (fracOf n defaultHot < (Cfg.plain hash : Cfg K V Unit).weight k v ∧
      (Cfg.plain hash : Cfg K V Unit).pinned k v = false) := by
    rintro ⟨h, -⟩
    simp only [Cfg.plain, unitWeight] at h
    omega
  have hw : enterWeight (Cfg.plain hash : Cfg K V Unit) (fracOf n defaultHot) k v = 1 := by
    unfold enterWeight; rw [if_neg hnot]; rfl
  have hv : enterValue (Cfg.plain hash : Cfg K V Unit) (fracOf n defaultHot) k v = v := by
    unfold enterValue; rw [if_neg hnot]
  have htot : total (Cfg.plain hash : Cfg K V Unit).weight s.iter = s.len := by
    rw [(C05_len hr).1]; exact total_unit _
  have hev : s.len ≤ n := by
    have h1 := C03_evictable hr (fracOf_default_le n).1 (fun x _ => calm_plain x)
    rwa [evictable_plain, total_unit, C37_capacity hr, ← (C05_len hr).1] at h1
  obtain ⟨g1, -, g3⟩ := C17_fits hr hs hst (Or.inr (by rw [hw]; exact ht)) (by
    rw [htot, hw]
    unfold weightAt
    cases hk : s.contents k with
    | none =>
      rcases room with h | h
      · simp only; omega
      · exact absurd hk h
    | some v0 => simp only [Cfg.plain, unitWeight]; omega)
  rw [hv] at g3
  refine ⟨g3, g1.trans ?_⟩
  unfold preamble
  rw [if_neg hnot]; rfl

end

/-! ### `sync::Cache::new` -/

section
variable {K V : Type} [DecidableEq K] {hash : K → UInt64} {par n : Nat} {s0 : SyncCache K V} {s : Conc.Cache K V}
  {tr : List (Nat × Conc.Ev K V)}
open Conc

omit [DecidableEq K] in
theorem shared_new (hn : SyncCache.new par n = .ok (.ok s0)) : SyncCache.withOptions (.ofNew par n) = .ok s0 := by
  unfold SyncCache.new at hn
  rw [ofCapacities_new] at hn
  injection hn

omit [DecidableEq K] in
theorem evictable_shared : evictable (Cfg.shared hash : Cfg K V (Option (K × V))) = unitWeight := by
  funext k v; simp [evictable, Cfg.shared, neverPinned]

omit [DecidableEq K] in
/-- `Cache::new(n)` succeeds (on a machine with fewer than `2^61` processors). -/
theorem C63_new_shared (hp : par * 4 ≤ 2 ^ 63) (n : Nat) : ∃ s : SyncCache K V, SyncCache.new par n = .ok (.ok s) := by
  obtain ⟨s, h, -⟩ := C38 (K := K) (V := V) (.ofNew par n) hp
  refine ⟨s, ?_⟩
  unfold SyncCache.new
  rw [ofCapacities_new]
  exact congrArg Except.ok h

/-- Whatever any number of threads do with a cache built by `sync::Cache::new(n)`: the number of its items is at most the
total capacity, which is `n` rounded up to a multiple of the number of shards; each shard holds at most its own part of
that; and up to 62 items there is one shard, so that `n` is the limit. -/
theorem C63_bound_shared (hn : SyncCache.new par n = .ok (.ok s0)) (h64 : n + s0.numShards ≤ 2 ^ 64)
    (hr : Cache.Run (.shared hash) (Cache.start s0) tr s) :
    ∃ cap each, s.still.capacity = .ok cap ∧ cap = s0.numShards * each ∧ (items s).length ≤ cap ∧ n ≤ cap ∧
      cap < n + s0.numShards ∧ s.still.len = (items s).length ∧ s.still.weight = .ok (items s).length ∧
      (∀ (i : Nat) (st : State K V), s.shards[i]? = some st → st.shard.len ≤ each) ∧ (n ≤ 62 → cap = n) := by
  have hb := shared_new hn
  have h := runs hb hr rfl
  obtain ⟨j, hj, hs, hns, -⟩ := built hb
  have hpos : 0 < s0.numShards := by rw [hns]; exact Nat.two_pow_pos j
  have hsh : n ≤ s0.numShards * share n s0.numShards ∧ s0.numShards * share n s0.numShards < n + s0.numShards :=
    share_bounds hpos h64
  have ht : hotTarget (.ofNew par n) s0 ≤ share n s0.numShards := (fracOf_default_le _).1
  have h6 : (items s).length ≤ s0.numShards * share n s0.numShards := by
    have := h.evictable_le rfl ht
    rwa [evictable_shared, total_unit] at this
  have h5 : s0.numShards * share n s0.numShards < 2 ^ 64 := by omega
  refine ⟨_, _, h.capacity rfl h5, rfl, h6, hsh.1, hsh.2, h.len_items rfl, ?_, ?_, ?_⟩
  · have h7 : total (Cfg.shared hash : Cfg K V (Option (K × V))).weight (items s) = (items s).length := total_unit _
    have := h.weight_items rfl
    rw [h7, if_pos (by omega)] at this
    exact this
  · intro i st hst
    have h7 := (h.run i st hst).evW_le rfl ht
    rw [evW_iter, evictable_shared, total_unit] at h7
    rwa [((h.run i st hst).reach rfl (.new ..)).inv.shard.toInv0.len_iter] at h7
  · intro h62
    have h1 : s0.numShards = 1 := by
      obtain ⟨s', g1, -, -, g4, -⟩ := C38 (K := K) (V := V) (.ofNew par n) hs
      rw [hb] at g1; cases g1
      by_contra h8
      rcases g4 with g4 | g4
      · exact h8 g4
      · unfold itemsPerShard at g4
        rw [Nat.le_div_iff_mul_le hpos] at g4
        change _ ≤ min (n + _) _ at g4
        omega
    rw [h1, Nat.one_mul] at hsh
    rw [h1, Nat.one_mul]
    show share n 1 = n
    omega

end

/-! ### The request state -/

section
variable {K V RS : Type} [DecidableEq K] {c : Cfg K V RS} {target cap gcap : Nat} {s s' : Conc.State K V} {act : Conc.Act K V}
  {tr evs : List (Conc.Ev K V)} {sec : Section K V} {out : SOut K V} {log : List (Event K V)}
open Conc

theorem SecEff.threads {x : Shard K V × SOut K V × Req K V RS} {s : Shard K V} (hi : Inv0 c s) (h : SecEff c s sec x) :
    Threads c c.beginReq x.2.2.log x.2.2.st := by
  cases h with
  | call hop h plh np => exact h.threads hi
  | filled hl h plh np => exact h.threads hi
  | _ => exact .nil

/-- C21 for the concurrent cache: in every critical section the request state starts as returned by `begin_request`, and is
threaded through the lifecycle calls that the section makes, in the order of the log; the result is handed to
`end_request`, or to the caller. -/
theorem C21_shared (hr : Conc.Run c (State.new (Shard.new target cap gcap)) tr s) (hq : c.ptrEq = true)
    (hx : exec c s act = some (.ok (s', evs))) (he : .sect sec out log ∈ evs) :
    ∃ q, Sync.step c s.shard sec = .ok (s'.shard, out, q) ∧ q.log = log ∧ Threads c c.beginReq log q.st := by
  have hi := (hr.reach hq (.new ..)).inv
  rcases exec_sect hi hq hx with ⟨-, h⟩ | ⟨sec', out', q, rest, rfl, h1, h2, h3, -⟩
  · have := h _ he; cases this
  · rcases List.mem_cons.mp he with h | h
    · cases h
      refine ⟨q, h2, rfl, ?_⟩
      rcases sec_sat hi.shard hq h3 with ⟨x, hx, hS⟩ | ⟨e, hx, -⟩
      · rw [h2] at hx; cases hx
        exact SecEff.threads hi.shard.toInv0 hS
      · rw [h2] at hx; cases hx
    · have := h1 _ h; cases this

/-- The item a lifecycle call hands over to `on_evict`. -/
def handedOver : Event K V → Option (K × V)
  | .onEvict k v => some (k, v)
  | .beforeEvict _ _ _ => none

omit [DecidableEq K] in
theorem stash {hash : K → UInt64} {st st' : Option (K × V)} {L : List (Event K V)} (h : Threads (.shared hash) st L st') :
    st' = (L.filterMap handedOver).getLast?.or st := by
  induction h with
  | nil => rfl
  | before call rest ih =>
    cases call
    exact ih
  | @on st st' k v log rest ih =>
    rw [ih]
    simp only [handedOver, List.filterMap_cons, List.getLast?_cons]
    cases (log.filterMap handedOver).getLast? <;> rfl

/-- C63: with `sync::DefaultLifecycle` the request state that a critical section leaves, and that is dropped outside the lock,
is the item evicted last, if any. (All items evicted before it are dropped while the lock is held.) -/
theorem C63_stash {hash : K → UInt64} (hr : Conc.Run (.shared hash) (State.new (Shard.new target cap gcap)) tr s)
    (hx : exec (.shared hash) s act = some (.ok (s', evs))) (he : .sect sec out log ∈ evs) :
    ∃ q, Sync.step (.shared hash) s.shard sec = .ok (s'.shard, out, q) ∧ q.log = log ∧
      q.st = (log.filterMap handedOver).getLast? := by
  obtain ⟨q, h1, h2, h3⟩ := C21_shared hr rfl hx he
  refine ⟨q, h1, h2, ?_⟩
  rw [stash h3]
  cases (log.filterMap handedOver).getLast? <;> rfl

end

/-- `Cache::new(34)`: filled, then one item more; nothing is lost on the way to 34 items. -/
def dxOps : List (Op Nat Nat) := (List.range 34).map (fun i => .insert i (i * i))

/-- The example cache; the hash has many collisions. -/
def dxCfg : Cfg Nat Nat Unit := .plain (fun k => UInt64.ofNat (k % 5))

example : (Unsync.new 4 34 : Except BuildError (Shard Nat Nat)).toOption.map (fun s => (s.weightTargetHot, s.capacity)) =
    some (32, 34) := by decide +kernel

/-- The cache is full after these calls; overwriting key 7 keeps everything; key 40 needs an eviction. -/
example : checkThen dxCfg (Shard.new 32 34 17) dxOps (.insert 7 7)
    (fun s _ log => s.len = 34 ∧ log = [.onEvict 7 49] ∧ (7, 7) ∈ s.iter) = true ∧
    checkThen dxCfg (Shard.new 32 34 17) dxOps (.insert 40 40)
    (fun s _ log => s.len = 34 ∧ log.length = 2 ∧ (40, 40) ∈ s.iter) = true := by decide +kernel

/-- `Cache::new(1)` does not keep the item it is given. -/
example : (Unsync.new 4 1 : Except BuildError (Shard Nat Nat)).toOption.map (fun s =>
    checkThen dxCfg s [.insert 1 1] (.get 1) (fun s out _ => s.len = 0 ∧ out = .value none)) = some true := by decide +kernel

/-- `sync::Cache::new(100)` on a machine with 4 processors: two shards for 50 items each. -/
example : (SyncCache.new 4 100 : Except BuildError (Res (SyncCache Nat Nat))).toOption.map (fun r =>
    r.map (fun s => (s.numShards, s.shards.map (·.capacity)))) = some (.ok (2, [50, 50])) := by decide +kernel

/-- Filling a concurrent cache so that the next insertion evicts two items. -/
def dxActs : List (Conc.Act Nat Nat) :=
  [1, 2, 3, 4, 5, 3, 5].map (fun k => .call (.insert k (10 * k)))

/-- The parameters of the concurrent example. -/
def dxShared : Cfg Nat Nat (Option (Nat × Nat)) := .shared (fun k => UInt64.ofNat (k % 5))

/-- One critical section hands over two items; the second one is left in the request state. -/
example : (runActs dxShared (Conc.State.new (Shard.new 2 4 2)) dxActs).map (fun r =>
    (Sync.step dxShared r.1.shard (.call (.insert 6 60))).toOption.map (fun x =>
      (x.2.2.st, x.2.2.log.filterMap handedOver))) =
    some (some (some (2, 20), [(1, 10), (2, 20)])) := by decide +kernel

end QuickCache.Props
