import Verif.Proofs.DictConc
import Verif.Props.Dict
import Verif.Props.Default

/-!
# Property C90: a concurrent cache with room is a dictionary
-/

namespace QuickCache.Props
section
variable {K V RS : Type} [DecidableEq K] {c : Cfg K V RS} {o : Options} {s0 : SyncCache K V} {s : Conc.Cache K V}
  {tr : List (Nat × Conc.Ev K V)} {i : Nat} {st : Conc.State K V}
open Unsync Spec Conc

/-- What happened on shard `i`, as calls of a dictionary: calls made of one section as they are, an insertion through a guard
as an `insert`, the lookup of a caller that returns as a `get`. -/
def onDict (i : Nat) (tr : List (Nat × Ev K V)) : List (Unsync.Call K V) := calls (onShard i tr)

/-- C90: whatever any number of threads do with the cache: if a shard has room for all that is stored in it, it is a dictionary
without a capacity, on which the calls happen one after the other. Each call returns what it returns on the dictionary, the
lifecycle hears of nothing but overwritten values, and the items are those of the dictionary. -/
theorem C90_dictionary (hb : SyncCache.withOptions o = .ok s0) (hr : Cache.Run c (Cache.start s0) tr s) (hq : c.ptrEq = true)
    (hroom : Dict.Roomy c (hotTarget o s0) (share o.weight s0.numShards) [] ((onDict i tr).map (·.op)))
    (hi : s.shards[i]? = some st) :
    List.Forall₂ SameCall (Dict.calls [] ((onDict i tr).map (·.op))) (onDict i tr) ∧
      st.shard.iter.Perm (Dict.afterAll [] ((onDict i tr).map (·.op))) := by
  have hrun := (C41_shard hb hr hq).2 i st hi
  obtain ⟨h1, h2⟩ := hrun.dict hq hroom
  exact ⟨h1, (lists_iter (hrun.reach hq (.new ..)).inv.shard.toInv0).perm h2⟩

end

section
variable {K V : Type} [DecidableEq K]
open Unsync Spec Conc

variable {hash : K → UInt64} {par n : Nat} {s0 : SyncCache K V} {s : Conc.Cache K V} {tr : List (Nat × Conc.Ev K V)} {i : Nat}
  {st : Conc.State K V}

/-- `sync::Cache::new(n)`, `n ≥ 2`: if no more different keys are used than `shard_capacity()`, nothing is ever evicted, and each
shard is a dictionary on which the calls happen one after the other. -/
theorem C90_new (hn : SyncCache.new par n = .ok (.ok s0)) (h2 : 2 ≤ n) {each : Nat} (hcap : s0.shardCapacity = .ok each)
    (hr : Cache.Run (.shared hash) (Cache.start s0) tr s) {keys : List K} (hlen : keys.length ≤ each)
    (hkeys : ∀ e ∈ tr, ∀ k ∈ evKeys e.2, k ∈ keys) (hi : s.shards[i]? = some st) :
    List.Forall₂ SameCall (Dict.calls [] ((onDict i tr).map (·.op))) (onDict i tr) ∧
      st.shard.iter.Perm (Dict.afterAll [] ((onDict i tr).map (·.op))) := by
  have hb := shared_new hn
  obtain ⟨j, hj, hs, hns, hs0⟩ := built hb
  have hpos : 0 < s0.numShards := by rw [hns]; exact Nat.two_pow_pos j
  refine C90_dictionary hb hr rfl (Dict.Within.roomy (keys := keys) (d := []) rfl (fracOf_default_pos ?_)
    ⟨List.nodup_nil, fun _ hp => by cases hp⟩ ?_ ?_) hi
  · obtain ⟨s', g1, -, -, g4, -⟩ := C38 (K := K) (V := V) (.ofNew par n) hs
    rw [hb] at g1; cases g1
    rcases g4 with g4 | g4
    · rw [g4]
      show 2 ≤ min (n + 0) _ / 1
      rw [Nat.div_one]
      omega
    · have : 32 ≤ share n s0.numShards := g4
      exact Nat.le_trans (by decide) this
  · intro op hop k hk
    obtain ⟨x, hx, rfl⟩ := List.mem_map.1 hop
    unfold onDict at hx
    obtain ⟨e, he, hx⟩ := List.mem_filterMap.1 hx
    obtain ⟨e', he', h3⟩ := List.mem_filterMap.1 he
    split at h3
    · cases h3
      refine hkeys e' he' k ?_
      exact asCall_key hx hk
    · cases h3
  · have : each = share n s0.numShards := by
      generalize hotTarget (.ofNew par n) s0 = T at hs0
      rw [hns]
      rw [hs0] at hcap
      unfold SyncCache.shardCapacity at hcap
      rw [List.getElem?_replicate, if_pos (Nat.two_pow_pos j)] at hcap
      cases hcap
      rfl
    exact this ▸ hlen

end

/-! ### Examples -/

section
open Unsync Spec Conc

/-- There is room for a rejected item of `replace`. -/
def lightEnough (op : Op Nat Nat) : Bool :=
  match op with
  | .replace k v _ => decide (sxCfg.weight k v ≤ 8 ∨ sxCfg.pinned k v = true)
  | _ => true

instance (d : Dict Nat Nat) (op : Op Nat Nat) : Decidable (Dict.HasRoom sxCfg 8 10 d op) :=
  decidable_of_iff ((∀ p ∈ Dict.stored d op, (sxCfg.weight p.1 p.2 ≤ 8 ∨ sxCfg.pinned p.1 p.2 = true) ∧
    total sxCfg.weight (Dict.store d p.1 p.2) ≤ 10) ∧ lightEnough op = true) (by
      unfold Dict.HasRoom
      refine and_congr_right fun _ => ⟨fun h k v soft e => ?_, fun h => ?_⟩
      · subst e; exact of_decide_eq_true h
      · cases op <;> first | rfl | exact decide_eq_true (h _ _ _ rfl))

instance roomyDec : (d : Dict Nat Nat) → (ops : List (Op Nat Nat)) → Decidable (Dict.Roomy sxCfg 8 10 d ops)
  | _, [] => .isTrue trivial
  | d, op :: ops => @instDecidableAnd _ _ _ (roomyDec (Dict.after d op) ops)

/-- The example of C41: the even shard always has room, the odd one does not. -/
example : SyncCache.withOptions sxOptions = .ok sxNew ∧ Cache.Run sxCfg (Cache.start sxNew) (sxRun sxActs).2 (sxRun sxActs).1 ∧
    sxCfg.ptrEq = true ∧ hotTarget sxOptions sxNew = 8 ∧ share sxOptions.weight sxNew.numShards = 10 ∧
    Dict.Roomy sxCfg 8 10 [] ((onDict 0 (sxRun sxActs).2).map (·.op)) ∧
    ¬ Dict.Roomy sxCfg 8 10 [] ((onDict 1 (sxRun sxActs).2).map (·.op)) :=
  ⟨sxBuilt, sxRun_run (by decide +kernel), rfl, by decide +kernel, by decide +kernel, by decide +kernel, by decide +kernel⟩

/-- What happened there: an insertion, the end of a load of key 4, `retain`. -/
example : (onDict 0 (sxRun sxActs).2).map (fun x => (x.op.key, x.out)) =
      [(some 2, .unit), (some 4, .unit), (none, .unit)] ∧
    (sxRun sxActs).1.shards.map (fun st => st.shard.iter) = [[(2, 13)], []] ∧
    Dict.afterAll [] ((onDict 0 (sxRun sxActs).2).map (·.op)) = [(2, 13)] := by decide +kernel

/-- `sync::Cache::new(100)` on a machine with 4 processors is a dictionary for up to 50 keys. -/
example : ∃ s0 : SyncCache Nat Nat, SyncCache.new 4 100 = .ok (.ok s0) ∧ s0.shardCapacity = .ok 50 := by
  have h : (SyncCache.new 4 100 : Except BuildError (Res (SyncCache Nat Nat))).toOption.map (fun r =>
    r.toOption.map (fun s => s.shardCapacity)) = some (some (.ok 50)) := by decide +kernel
  obtain ⟨s0, h0⟩ := C63_new_shared (K := Nat) (V := Nat) (par := 4) (by decide) 100
  rw [h0] at h
  simp only [Except.toOption, Option.map_some, Option.some.injEq] at h
  exact ⟨s0, h0, h⟩

end
end QuickCache.Props
