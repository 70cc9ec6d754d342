import Verif.Proofs.SoloSharded
import Verif.Proofs.SyncTests
import Verif.Props.DictConc
import Verif.Props.Solo

/-!
# Properties C92 and C93: a sharded cache with room, used by one caller at a time, is a dictionary; the crate's unit tests of `sync::Cache` pass
-/

namespace QuickCache.Props
section
variable {K V RS : Type} [DecidableEq K] {c : Cfg K V RS} {o : Options} {s0 : SyncCache K V} {lay : Nat → Solo.Layout K V}
  {l : List (Solo.Call K V)}
open Spec Solo

/-! ### C92: as long as there is room, the cache is a dictionary -/

/-- If the shards have room for all that is stored in them (and there are fewer than about 2³²/13 calls), every call of a program
that makes one call at a time comes to its end without a panic, returns what it would return on a single dictionary without
a capacity, and tells the lifecycle of nothing but overwritten values; the items are those of the dictionary. -/
theorem C92_dictionary (hb : SyncCache.withOptions o = .ok s0) (hq : c.ptrEq = true) (hl : ∀ i, (lay i).Fair)
    (hk : ∀ x ∈ l, x.Known) (hlen : 13 * l.length < 2 ^ 32 - 2)
    (hroom : Dict.RoomyParts c (hotTarget o s0) (share o.weight s0.numShards) ((Whole.start s0).home c) [] (l.map Call.op)) :
    ∃ s h, Whole.run c lay l (.start s0) = .ok (s, h) ∧ List.Forall₂ SameCall (Dict.calls [] (l.map Call.op)) h ∧
      s.items.Perm (Dict.afterAll [] (l.map Call.op)) := by
  obtain ⟨s, h, h1, h2, h3⟩ := (Wide.start (c := c) hb).calls hq hl hk hroom (by omega)
  exact ⟨s, h, h1, h2, h3.items hq⟩

end

section
variable {K V : Type} [DecidableEq K] {hash : K → UInt64} {par n : Nat} {s0 : SyncCache K V} {lay : Nat → Solo.Layout K V}
  {l : List (Solo.Call K V)}
open Spec Solo

omit [DecidableEq K] in
/-- The capacity of a shard of `sync::Cache::new(n)`. -/
theorem each_new (hn : SyncCache.new par n = .ok (.ok s0)) (h2 : 2 ≤ n) {each : Nat} (hcap : s0.shardCapacity = .ok each) :
    each = share n s0.numShards ∧ 2 ≤ each := by
  have hb := shared_new hn
  obtain ⟨j, hj, hs, hns, hs0⟩ := built hb
  have : each = share n s0.numShards := by
    generalize hotTarget (.ofNew par n) s0 = T at hs0
    rw [hns]
    rw [hs0] at hcap
    unfold SyncCache.shardCapacity at hcap
    rw [List.getElem?_replicate, if_pos (Nat.two_pow_pos j)] at hcap
    cases hcap
    rfl
  refine ⟨this, ?_⟩
  rw [this]
  obtain ⟨s', g1, -, -, g4, -⟩ := C38 (K := K) (V := V) (.ofNew par n) hs
  rw [hb] at g1; cases g1
  rcases g4 with g4 | g4
  · rw [g4]
    show 2 ≤ min (n + 0) _ / 1
    rw [Nat.div_one]
    omega
  · have : 32 ≤ share n s0.numShards := g4
    exact Nat.le_trans (by decide) this

omit [DecidableEq K] in
theorem adds_unit {c : Cfg K V (Option (K × V))} (hw : c.weight = unitWeight) {T : Nat} {m : K → Option V} {op : Op K V} {w : Nat}
    (h : Adds c T m op w) : w ≤ 2 := by
  cases h <;> simp [hw, enterWeight, unitWeight]

theorem roomyParts_unit {c : Cfg K V (Option (K × V))} (hw : c.weight = unitWeight) {T C : Nat} (hT : 1 ≤ T) {home : K → Nat}
    {keys : List K} (hc : keys.length ≤ C) (h64 : keys.length < 2 ^ 64 - 2) : ∀ {ops : List (Op K V)} {d : Dict K V},
    Dict.Within keys d → (∀ op ∈ ops, ∀ k, op.key = some k → k ∈ keys) → Dict.RoomyParts c T C home d ops
  | [], _, _, _ => trivial
  | op :: ops, d, h, hk => by
    refine ⟨fun k ho => ⟨?_, fun w ha => ?_⟩, roomyParts_unit hw hT hc h64 (h.after (hk op (by simp))) fun o ho => hk o (by simp [ho])⟩
    · exact Dict.HasRoom.part ho (Dict.Within.roomy (ops := [op]) hw hT h
        (fun o hm => by rw [List.mem_singleton.1 hm]; exact hk op (by simp)) hc).1
    · have := adds_unit hw ha
      rw [hw, total_unit]
      have := (h.filter (fun p => decide (home p.1 = home k))).length
      unfold Dict.part
      omega

/-- `sync::Cache::new(n)`, `n ≥ 2`, used by one caller at a time: as long as no more different keys are used than
`shard_capacity()`, it is a dictionary. -/
theorem C92_new (hn : SyncCache.new par n = .ok (.ok s0)) (h2 : 2 ≤ n) {each : Nat} (hcap : s0.shardCapacity = .ok each)
    (hl : ∀ i, (lay i).Fair) (hk : ∀ x ∈ l, x.Known) (hlen : 13 * l.length < 2 ^ 32 - 2) {keys : List K}
    (hkl : keys.length ≤ each) (hkeys : ∀ x ∈ l, ∀ k, x.op.key = some k → k ∈ keys) :
    ∃ s h, Whole.run (.shared hash) lay l (.start s0) = .ok (s, h) ∧ List.Forall₂ SameCall (Dict.calls [] (l.map Call.op)) h ∧
      s.items.Perm (Dict.afterAll [] (l.map Call.op)) := by
  obtain ⟨h3, h4⟩ := each_new hn h2 hcap
  let used := (l.filterMap fun x => x.op.key).dedup
  have hu : used.length ≤ each := by
    refine Nat.le_trans ((List.nodup_dedup _).subperm (l₂ := keys) fun k hk' => ?_).length_le hkl
    obtain ⟨x, hx, h5⟩ := List.mem_filterMap.1 (List.mem_dedup.1 hk')
    exact hkeys x hx k h5
  have hu' : used.length ≤ l.length :=
    Nat.le_trans (List.dedup_sublist _).length_le (List.length_filterMap_le _ _)
  refine C92_dictionary (shared_new hn) rfl hl hk hlen (roomyParts_unit (keys := used) rfl (fracOf_default_pos ?_) ?_ ?_
    ⟨List.nodup_nil, fun _ hp => by cases hp⟩ ?_)
  · show 2 ≤ share n s0.numShards
    omega
  · show used.length ≤ share n s0.numShards
    omega
  · omega
  · intro op ho k hok
    obtain ⟨x, hx, rfl⟩ := List.mem_map.1 ho
    exact List.mem_dedup.2 (List.mem_filterMap.2 ⟨x, hx, hok⟩)

end

/-! ### C93: the unit tests of `sync::Cache` pass -/

section
variable {K V RS : Type} [DecidableEq K] {c : Cfg K V RS} {lay : Nat → Solo.Layout K V} {par : Nat}
open Spec Solo SyncTests

theorem syncTest_ok (hp : par * 4 ≤ 2 ^ 63) (hq : c.ptrEq = true) (hl : ∀ i, (lay i).Fair) {items weight T C : Nat}
    {test : List (Stmt K V)} (hbig : ∀ n, (n = 1 ∨ 32 ≤ share items n) → C ≤ share weight n ∧ T ≤ fracOf (share weight n) defaultHot)
    (ht : passes c.weight T C test [] = true) (hn : 13 * test.length < 2 ^ 32 - 2) : SyncTests.run c lay par items weight test = .ok () := by
  obtain ⟨o, h0, o1, o2, o3, o4⟩ : ∃ o : Options, Options.ofCapacities par items weight = .ok o ∧ o.shards = par * 4 ∧
    o.hot = defaultHot ∧ o.items = items ∧ o.weight = weight := ⟨_, rfl, rfl, rfl, rfl, rfl⟩
  obtain ⟨s, h1, -, -, h2, -⟩ := C38 (K := K) (V := V) o (o1 ▸ hp)
  rw [o3] at h2
  obtain ⟨h3, h4⟩ := hbig s.numShards h2
  rw [← o4] at h3 h4
  rw [← o2] at h4
  unfold SyncTests.run
  rw [h0]
  dsimp only
  rw [h1, Res.ok_bind]
  exact execAll_ok h4 h3 hq hl (Wide.start h1) ht (by omega)

theorem big_share {items weight n : Nat} (hi : 32 ≤ items) (hw : items ≤ weight) (h64 : weight < 2 ^ 64)
    (h : n = 1 ∨ 32 ≤ share items n) : 20 ≤ share weight n ∧ 20 ≤ fracOf (share weight n) defaultHot := by
  have h1 : 32 ≤ share weight n ∧ share weight n < 2 ^ 64 := by
    rcases h with rfl | h
    · unfold share satAdd
      rw [Nat.div_one]
      omega
    · refine ⟨Nat.le_trans h ?_, ?_⟩
      · unfold share satAdd
        exact Nat.div_le_div_right (by omega)
      · unfold share satAdd
        exact Nat.lt_of_le_of_lt (Nat.div_le_self _ _) (by omega)
  have := fracOf_default_lower (show 1 ≤ share weight n by omega) h1.2
  omega

omit [DecidableEq K] in
/-- `test_new` passes: `sync::Cache::new(n)` returns for all `n`. -/
theorem C93_new (hp : par * 4 ≤ 2 ^ 63) (n : Nat) : ∃ s : SyncCache K V, SyncCache.new par n = .ok (.ok s) := C63_new_shared hp n

/-- `test_custom_cost` passes, for every hash function, every layout of the hash tables and every number of processors. -/
theorem C93_custom_cost {hash : UInt64 → UInt64} {lay : Nat → Solo.Layout UInt64 String} (hl : ∀ i, (lay i).Fair)
    (hp : par * 4 ≤ 2 ^ 63) : SyncTests.run (lengthOfValue hash) lay par 100 100000 customCost = .ok () :=
  syncTest_ok hp rfl hl (T := 20) (C := 20) (fun _ h => big_share (by decide) (by decide) (by decide) h)
    (show passes (fun _ v => v.utf8ByteSize) 20 20 customCost [] = true by decide +kernel) (by decide)

/-- `test_borrow_keys` passes. -/
theorem C93_borrow_keys {hash : K → UInt64} {lay : Nat → Solo.Layout K UInt64} (hl : ∀ i, (lay i).Fair)
    (hp : par * 4 ≤ 2 ^ 63) (k : K) : SyncTests.run (.shared hash) lay par 0 0 (borrowKeys k) = .ok () :=
  syncTest_ok hp rfl hl (T := 0) (C := 0) (fun _ _ => ⟨Nat.zero_le _, Nat.zero_le _⟩) rfl (by show 13 * 1 < _; decide)

/-- `test_get_or_insert_sync` passes. -/
theorem C93_get_or_insert {hash : UInt64 → UInt64} {lay : Nat → Solo.Layout UInt64 UInt64} (hl : ∀ i, (lay i).Fair)
    (hp : par * 4 ≤ 2 ^ 63) : SyncTests.run (.shared hash) lay par 100 100 getOrInsert = .ok () :=
  syncTest_ok hp rfl hl (T := 20) (C := 20) (fun _ h => big_share (by decide) (by decide) (by decide) h)
    (show passes unitWeight 20 20 getOrInsert [] = true by decide +kernel) (by decide)

/-- `test_retain_sync` passes. -/
theorem C93_retain {hash : UInt64 → UInt64} {lay : Nat → Solo.Layout UInt64 UInt64} (hl : ∀ i, (lay i).Fair)
    (hp : par * 4 ≤ 2 ^ 63) : SyncTests.run (.shared hash) lay par 100 100 retains = .ok () :=
  syncTest_ok hp rfl hl (T := 20) (C := 20) (fun _ h => big_share (by decide) (by decide) (by decide) h)
    (show passes unitWeight 20 20 retains [] = true by decide +kernel) (by decide)

end

/-! ### Examples -/

section
open Spec Solo SyncTests

/-- On the cache of the example of C41, with two shards of capacity 10 and hot target 8 each: more than either shard could hold. -/
def ssCalls : List (Solo.Call Nat Nat) :=
  [.plain (.insert 1 15), .plain (.insert 2 26), .load (.thread 3 true) 3 (some 34), .get 1, .load .task 4 none, .get 4,
   .load .task 4 (some 43), .plain (.insert 1 12), .plain (.replace 2 21 false), .plain (.remove 3), .plain (.retain fun k _ => k ≠ 4),
   .load (.thread 3 false) 1 (some 99), .plain (.insert 3 38)]

/-- Each shard's hash table is turned over after every action. -/
def ssLay : Nat → Solo.Layout Nat Nat := fun _ => soLay

theorem inRange_of {c : Cfg Nat Nat (List Nat)} {T : Nat} {d : Dict Nat Nat} {op : Op Nat Nat} {B : Nat}
    (hw : ∀ k v, c.weight k v ≤ B) (hb : total c.weight d + 2 * B < 2 ^ 64) : Dict.InRange c T d op := by
  intro w ha
  have he : ∀ k v, enterWeight c T k v ≤ B := by intro k v; unfold enterWeight; split <;> exact hw _ _
  suffices w ≤ 2 * B by omega
  cases ha
  case insert => exact Nat.le_trans (he _ _) (by omega)
  case replace => exact Nat.le_trans (he _ _) (by omega)
  case getMut => exact Nat.le_trans (hw _ _) (by omega)
  case peekMut => exact Nat.le_trans (hw _ _) (by omega)
  case loadMutHit => exact Nat.le_trans (hw _ _) (by omega)
  case guardMutHit => exact Nat.le_trans (hw _ _) (by omega)
  case load => exact Nat.le_trans (he _ _) (by omega)
  case guard => exact Nat.le_trans (he _ _) (by omega)
  case guardMut => exact Nat.le_trans (he _ _) (by omega)
  case loadMut => exact Nat.le_trans (Nat.add_le_add (he _ _) (hw _ _)) (by omega)

/-- The condition of C92, to be computed. -/
def ssRoomy (home : Nat → Nat) (d : Dict Nat Nat) : List (Op Nat Nat) → Bool
  | [] => true
  | op :: ops => (match op.key with
    | some k => decide (Dict.HasRoom sxCfg 8 10 (d.part home (home k)) op) && decide (total sxCfg.weight (d.part home (home k)) + 2 * 9 < 2 ^ 64)
    | none => true) && ssRoomy home (Dict.after d op) ops

theorem ssRoomy_parts {home : Nat → Nat} : ∀ {ops : List (Op Nat Nat)} {d : Dict Nat Nat}, ssRoomy home d ops = true →
    Dict.RoomyParts sxCfg 8 10 home d ops
  | [], _, _ => trivial
  | op :: ops, d, h => by
    simp only [ssRoomy, Bool.and_eq_true] at h
    refine ⟨fun k hk => ?_, ssRoomy_parts h.2⟩
    have h1 := h.1
    rw [hk] at h1
    simp only [Bool.and_eq_true, decide_eq_true_eq] at h1
    exact ⟨h1.1, inRange_of (B := 9) (fun k v => Nat.le_of_lt_succ (Nat.mod_lt v (by decide))) h1.2⟩

example : SyncCache.withOptions sxOptions = .ok sxNew ∧ sxCfg.ptrEq = true ∧ (∀ i, (ssLay i).Fair) ∧ (∀ x ∈ ssCalls, x.Known) ∧
    Dict.RoomyParts sxCfg (hotTarget sxOptions sxNew) (share sxOptions.weight sxNew.numShards) ((Whole.start sxNew).home sxCfg) []
      (ssCalls.map Call.op) := by
  refine ⟨sxBuilt, rfl, fun _ => soLay_fair, by decide +kernel, ?_⟩
  rw [show hotTarget sxOptions sxNew = 8 by decide +kernel, show share sxOptions.weight sxNew.numShards = 10 by decide +kernel]
  exact ssRoomy_parts (by decide +kernel)

/-- What the calls return, and the items at the end; after three calls the items weigh more than a shard can hold. -/
example : (Dict.calls [] (ssCalls.map Call.op)).map (·.out) =
      [.unit, .unit, .orGuard none, .value (some 15), .orGuard none, .value none, .orGuard none, .unit, .replaced none,
        .removed (some (3, 34)), .unit, .orGuard (some 12), .unit] ∧
    Dict.afterAll [] (ssCalls.map Call.op) = [(3, 38), (2, 21), (1, 12)] ∧
    total sxCfg.weight (Dict.afterAll [] ((ssCalls.take 3).map Call.op)) = 15 := by decide +kernel

/-- A test with a wrong assertion fails. -/
example : SyncTests.run (.shared id) (fun _ _ s => s.relayout s.map (· == ·)) 1 100 100 [guards here (0 : UInt64) (0 : UInt64), gets 0 (some 1)] =
    .error .assertion := by decide +kernel

end

end QuickCache.Props
