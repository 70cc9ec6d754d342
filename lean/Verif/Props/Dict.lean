import Verif.Proofs.Dict
import Verif.Proofs.UnitTests
import Verif.Props.Example

/-!
# Properties C88 and C89: a cache with room is a dictionary; the crate's unit tests pass
-/

namespace QuickCache.Props
section
variable {K V RS : Type} [DecidableEq K] {c : Cfg K V RS} {target cap gcap : Nat} {h : List (Unsync.Call K V)}
  {s s0 s' : Shard K V} {hash : K → UInt64}
open Unsync Spec

/-! ### C88: as long as there is room, the cache is a dictionary -/

/-- If there is room for all that is stored, the calls return what they would return on a dictionary without a capacity (up to
the order of the items that `drain` yields), the lifecycle hears of nothing but overwritten values, and the items are those
of the dictionary. -/
theorem C88_dictionary (hr : Run c (Shard.new target cap gcap) h s) (hroom : Dict.Roomy c target cap [] (h.map (·.op))) :
    List.Forall₂ SameCall (Dict.calls [] (h.map (·.op))) h ∧ s.iter.Perm (Dict.afterAll [] (h.map (·.op))) :=
  ⟨(hr.dict hroom).1, hr.lists.perm (hr.dict hroom).2⟩

/-- And the next call returns, if the weights stay in the range of `u64`. -/
theorem C88_returns (hr : Run c (Shard.new target cap gcap) h s) (hroom : Dict.Roomy c target cap [] (h.map (·.op)))
    {op : Op K V} (hw : Dict.InRange c target (Dict.afterAll [] (h.map (·.op))) op) (hn : h.length < 2 ^ 32 - 2) :
    ∃ s' out q, step c s op = .ok (s', out, q) :=
  hr.dict_returns (hr.dict hroom).2 hw hn

/-- For `Cache::new(n)` with `n ≥ 2`: it is a dictionary as long as the dictionary never has more than `n` keys. -/
theorem C88_new {par n : Nat} {s0 s : Shard K V} (hn : Unsync.new par n = .ok s0) (h2 : 2 ≤ n) (hr : Run (.plain hash) s0 h s)
    (hsize : ∀ ops, ops <+: h.map (·.op) → (Dict.afterAll [] ops).length ≤ n) :
    List.Forall₂ SameCall (Dict.calls [] (h.map (·.op))) h ∧ s.iter.Perm (Dict.afterAll [] (h.map (·.op))) := by
  rw [plain_new hn] at hr
  refine C88_dictionary hr ?_
  have ht := fracOf_default_pos h2
  suffices H : ∀ (ops : List (Op K V)) (d : Dict K V), (∀ l, l <+: ops → (Dict.afterAll d l).length ≤ n) →
      Dict.Roomy (.plain hash) (fracOf n defaultHot) n d ops from H _ _ hsize
  intro ops
  induction ops with
  | nil => intros; trivial
  | cons op ops ih =>
    intro d hd
    refine ⟨⟨fun p hp => ⟨.inl ht, ?_⟩, fun _ _ _ _ => .inl ht⟩, ih _ fun l hl => ?_⟩
    · have h1 := hd [op] (List.prefix_cons_inj op |>.2 (List.nil_prefix))
      have h2 : (Dict.after d op).length = (Dict.store d p.1 p.2).length := by
        obtain ⟨k, v⟩ := p
        cases op with
        | insert k' v' => cases hp; rfl
        | replace k' v' soft =>
          simp only [Dict.stored] at hp
          split at hp
          · cases hp; simp only [Dict.after]; rw [if_pos ‹_›]
          · cases hp
        | getOrInsertWith k' load =>
          cases load with
          | none => cases hp
          | some v' =>
            simp only [Dict.stored] at hp
            split at hp
            · cases hp
            · rename_i hk
              cases hp
              simp only [Dict.after]
              rw [Option.not_isSome_iff_eq_none.1 hk]
        | getMutOrInsertWith k' load f =>
          cases load with
          | none => cases hp
          | some v' =>
            simp only [Dict.stored] at hp
            split at hp
            · cases hp
            · rename_i hk
              cases hp
              simp only [Dict.after]
              rw [Option.not_isSome_iff_eq_none.1 hk]
              rfl
        | getRefOrGuard k' use =>
          cases use with
          | drop | forget => cases hp
          | insert v' =>
            simp only [Dict.stored] at hp
            split at hp
            · cases hp
            · rename_i hk
              cases hp
              simp only [Dict.after]
              rw [Option.not_isSome_iff_eq_none.1 hk]
        | getMutOrGuard k' f use =>
          cases use with
          | drop | forget => cases hp
          | insert v' =>
            simp only [Dict.stored] at hp
            split at hp
            · cases hp
            · rename_i hk
              cases hp
              simp only [Dict.after]
              rw [Option.not_isSome_iff_eq_none.1 hk]
        | _ => cases hp
      rw [show (Cfg.plain hash : Cfg K V Unit).weight = unitWeight from rfl, total_unit, ← h2]
      exact h1
    · exact hd (op :: l) (List.prefix_cons_inj op |>.2 hl)

end

section
open Unsync Spec

theorem runOps_dictOps {K V RS : Type} [DecidableEq K] {c : Cfg K V RS} :
    ∀ {ops : List (Op K V)} {s s' : Shard K V} {h : List (Unsync.Call K V)}, runOps c s ops = .ok (s', h) → h.map (·.op) = ops := by
  intro ops
  induction ops with
  | nil => intro s s' h hs; cases hs; rfl
  | cons op ops ih =>
    intro s s' h hs
    unfold runOps at hs
    rcases hstep : step c s op with p | ⟨s1, out, q⟩
    · rw [hstep] at hs; cases hs
    · rw [hstep] at hs
      simp only [Res.ok_bind] at hs
      rcases hrest : runOps c s1 ops with p | ⟨s2, h2⟩
      · rw [hrest] at hs; cases hs
      · rw [hrest] at hs
        cases hs
        rw [List.map_cons, ih hrest]

theorem exRun_dictOps {ops : List (Op Nat Nat)} (h : exFine ops = true) : (exRun ops).2.map (·.op) = ops := by
  unfold exFine at h
  unfold exRun
  rcases hr : runOps exCfg exNew ops with p | ⟨s, h'⟩
  · rw [hr] at h; cases h
  · exact runOps_dictOps hr

/-- A history that stores, overwrites, replaces, loads, writes, filters and drains, in a cache of capacity 10 with hot target 8
(the weight of a value is its last digit; values from 100 on are pinned, so the last one is not too heavy). -/
def dictOps : List (Op Nat Nat) :=
  [.insert 1 13, .insert 2 14, .get 1, .insert 1 12, .replace 2 23 false, .replace 3 33 true, .getOrInsertWith 4 (some 42),
    .getMutOrInsertWith 5 (some 61) (· + 1), .remove 2, .retain (fun k _ => k ≠ 4), .getRefOrGuard 6 .drop,
    .insert 6 105, .getMut 6 (fun _ => 104), .drain, .insert 7 109]

theorem dictRoomy : Dict.Roomy exCfg 8 10 [] dictOps := by
  unfold dictOps
  repeat' (first
    | exact trivial
    | refine ⟨⟨by decide, by (intro k v soft h; cases h <;> decide)⟩, ?_⟩)

/-- What its calls return, and the items at two points. -/
example : exFine dictOps = true ∧ (Dict.calls [] dictOps).map (·.out) =
    [.unit, .unit, .value (some 13), .unit, .replaced none, .replaced (some (3, 33)), .loaded true (some (some 42)),
      .loaded true (some (some 61)), .removed (some (2, 23)), .unit, .orGuard none, .unit, .value (some 105),
      .items [(6, 104), (5, 62), (1, 12)], .unit] ∧
    ((Dict.calls [] dictOps).map (·.log)).flatten = [.onEvict 1 13, .onEvict 2 14] ∧
    (exRun (dictOps.take 13)).1.iter = [(1, 12), (6, 104), (5, 62)] ∧ (exRun dictOps).1.iter = [(7, 109)] ∧
    (exRun dictOps).1.iter.Perm (Dict.afterAll [] dictOps) := by
  have h : exFine dictOps = true := by decide +kernel
  refine ⟨h, by decide +kernel, by decide +kernel, by decide +kernel, by decide +kernel, ?_⟩
  have := (C88_dictionary (exRun_run h) (by rw [exRun_dictOps h]; exact dictRoomy)).2
  rwa [exRun_dictOps h] at this

/-- Without room it is no dictionary: the third item of weight 4 drives out another one. -/
example : exFine [.insert 1 14, .insert 2 24, .insert 3 34, .get 1, .get 2, .get 3] = true ∧
    (exRun [.insert 1 14, .insert 2 24, .insert 3 34, .get 1, .get 2, .get 3]).2.map (·.out) = [.unit, .unit, .unit, .value none, .value (some 24), .value (some 34)] ∧
    (Dict.calls ([] : Dict Nat Nat) [.insert 1 14, .insert 2 24, .insert 3 34, .get 1, .get 2, .get 3]).map (·.out) =
      [.unit, .unit, .unit, .value (some 14), .value (some 24), .value (some 34)] := by decide +kernel

end

/-! ### C89: the unit tests pass -/

section
open UnitTests

/-- A layout of the table that is left as it is. -/
def asIs : Layout UInt32 UInt32 := fun _ s => s.relayout s.map (fun a b => a == b)

/-- One execution of the test, with one hash function and one layout of the table. `C89_zero_weights` concludes from it to all
others. -/
theorem zeroWeights_reference : execAll (weightOfValue UInt32.toUInt64) asIs zeroWeights ⟨Shard.new (fracOf 100 defaultHot) 100 (fracOf 100 defaultGhost), 0, 0⟩ = .ok () := by
  have h : (execAll (weightOfValue UInt32.toUInt64) asIs zeroWeights ⟨Shard.new (fracOf 100 defaultHot) 100 (fracOf 100 defaultGhost), 0, 0⟩).isOk = true := by
    decide +kernel
  generalize execAll (weightOfValue UInt32.toUInt64) asIs zeroWeights ⟨Shard.new (fracOf 100 defaultHot) 100 (fracOf 100 defaultGhost), 0, 0⟩ = r at h
  cases r with
  | ok u => rfl
  | error p => cases h

/-- `test_zero_weights` passes, whatever the layout of the hash table, for any hash function that does not collide on the keys
of the test. -/
theorem C89_zero_weights {hash : UInt32 → UInt64} (hd : ∀ a b : UInt32, a < 100 → b < 100 → hash a = hash b → a = b)
    {lay : Layout UInt32 UInt32} (hl : lay.Fair) (par : Nat) :
    run (weightOfValue hash) lay par 100 100 zeroWeights = .ok () := by
  rw [run_eq]
  have hw : ∀ k v, (weightOfValue UInt32.toUInt64).weight k v ≤ 2 ^ 32 := fun k v => Nat.le_of_lt v.toNat_lt
  exact rehashed (c := weightOfValue UInt32.toUInt64) (hash' := hash) (lay := asIs) (S := (· < 100))
    (fun _ s => ⟨_, _, rfl, .refl _, fun x => beq_self_eq_true x⟩) hl hw
    (fun a b _ _ h => UInt32.toUInt64_inj.1 h) hd (w := ⟨Shard.new (fracOf 100 defaultHot) 100 (fracOf 100 defaultGhost), 0, 0⟩) .start .start rfl rfl
    (fun _ h => nomatch h) (by decide +kernel) (by decide +kernel) (by decide +kernel) (by decide +kernel)
    zeroWeights_reference

/-- `test_change_get_mut_change_weight` passes for every hash function. -/
theorem C89_change_weight (hash : UInt64 → UInt64) {lay : Layout UInt64 String} (hl : lay.Fair) (par : Nat) :
    run (lengthOfValue hash) lay par 100 100000 changeWeight = .ok () :=
  run_ok hl (show passes (fun (_ : UInt64) (v : String) => v.utf8ByteSize) _ _ _ _ _ = true by decide +kernel) (by decide)

/-- `test_equivalent` passes for every hash function. -/
theorem C89_equivalent (hash : String × Int → UInt64) {lay : Layout (String × Int) String} (hl : lay.Fair) (par : Nat) :
    run (.plain hash) lay par 5 5 equivalent = .ok () :=
  run_ok hl (show passes unitWeight _ _ _ _ _ = true by decide +kernel) (by decide)

/-- `test_get_or_insert_unsync` passes for every hash function. -/
theorem C89_get_or_insert (hash : UInt64 → UInt64) {lay : Layout UInt64 UInt64} (hl : lay.Fair) (par : Nat) :
    run (.plain hash) lay par 100 100 getOrInsert = .ok () :=
  run_ok hl (show passes unitWeight _ _ _ _ _ = true by decide +kernel) (by decide)

/-- `test_retain_unsync` passes for every hash function. -/
theorem C89_retain (hash : UInt64 → UInt64) {lay : Layout UInt64 UInt64} (hl : lay.Fair) (par : Nat) :
    run (.plain hash) lay par 100 100 retain = .ok () :=
  run_ok hl (show passes unitWeight _ _ _ _ _ = true by decide +kernel) (by decide)

/-- The layouts the theorems speak of: for instance, each call turns the order of the table around and has every later probe
meet all slots. -/
example : Layout.Fair (fun _ (s : Shard UInt64 UInt64) => s.relayout s.map.reverse (fun _ _ => true)) :=
  fun _ s => ⟨_, _, rfl, s.map.reverse_perm, fun _ => rfl⟩

/-- A hash function without collisions of the keys of `test_zero_weights`. -/
example : ∀ a b : UInt32, a < 100 → b < 100 → (a ^^^ 0x9e3779b9).toUInt64 = (b ^^^ 0x9e3779b9).toUInt64 → a = b := by
  intro a b _ _ h
  exact (UInt32.xor_left_inj _).1 (UInt32.toUInt64_inj.1 h)

/-- Tests can fail: after `retain` with the wrong bound, and on a weight that is not the one of the items. -/
example : (execAll (.plain (fun k => k)) (fun _ s => s) ([.just (.insert 3 3), .just (.retain (fun k _ => 2 < k))] ++
      expectKept (fun i => 3 < i)) ⟨.new 97 100 50, 0, 0⟩ = .error .assertion) ∧
    (execAll (.plain (fun k => k)) (fun _ s => s) [.just (.insert 3 (3 : UInt64)), .weighs (fun _ => 2)] ⟨.new 97 100 50, 0, 0⟩ =
      .error .assertion) := by decide +kernel

end
end QuickCache.Props
