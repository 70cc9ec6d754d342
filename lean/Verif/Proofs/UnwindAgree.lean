import Verif.Model.Unwind

/-!
# Without a panic nothing changes

The functions of `Verif.Model.Unwind` compute what those of `Verif.Model.Shard` and `Verif.Model.Unsync` compute.
-/

namespace QuickCache
variable {K V RS : Type}

namespace U
variable {α β : Type}

@[simp] theorem run_bind (x : U K V α) (f : α → U K V β) : (x >>= f).run = x.run >>= fun a => (f a).run := by
  change (U.bind x f).run = _
  unfold U.bind
  cases h : x.run <;> rfl

@[simp] theorem run_pure (a : α) : (pure a : U K V α).run = .ok a := rfl
@[simp] theorem run_lift (x : Res α) : (lift x : U K V α).run = x := rfl
@[simp] theorem run_user (i : Site) (s : Shard K V) : (user i s).run = .ok PUnit.unit := rfl
@[simp] theorem run_dropping (f : Shard K V → Res (Shard K V)) (x : U K V α) : (dropping f x).run = x.run := rfl

@[simp] theorem run_ite (p : Prop) [Decidable p] (x y : U K V α) :
    (if p then x else y).run = if p then x.run else y.run := by split <;> rfl

@[simp] theorem ok_bind (a : α) (f : α → Res β) : ((Except.ok a : Res α) >>= f) = f a := rfl
@[simp] theorem err_bind (p : Panic) (f : α → Res β) : ((Except.error p : Res α) >>= f) = .error p := rfl
@[simp] theorem pure_ok (a : α) : (pure a : Res α) = .ok a := rfl

end U

namespace Unwind
open U

@[simp] theorem run_searchLoop (s : Shard K V) (h : UInt64) (eqv : K → Bool) (l : List Nat) (m : Option Nat) :
    (searchLoop s h eqv l m).run = Shard.searchLoop s.entries h eqv l m := by
  induction l generalizing m with
  | nil => rfl
  | cons i l ih =>
    unfold searchLoop Shard.searchLoop
    split <;> simp_all

@[simp] theorem run_search (s : Shard K V) (h : UInt64) (eqv : K → Bool) : (search s h eqv).run = s.search h eqv := by
  simp [search, Shard.search]

@[simp] theorem run_searchResidentLoop (s : Shard K V) (eqv : K → Bool) (l : List Nat) :
    (searchResidentLoop s eqv l).run = Shard.searchResidentLoop s.entries eqv l := by
  induction l with
  | nil => rfl
  | cons i l ih =>
    unfold searchResidentLoop Shard.searchResidentLoop
    split <;> simp_all

@[simp] theorem run_searchResident (s : Shard K V) (h : UInt64) (eqv : K → Bool) :
    (searchResident s h eqv).run = s.searchResident h eqv := by
  simp [searchResident, Shard.searchResident]

@[simp] theorem run_rehash (c : Cfg K V RS) (s : Shard K V) (m : List (UInt64 × Nat)) :
    (rehash c s m).run = Shard.rehash c s.entries m := by
  induction m with
  | nil => rfl
  | cons b m ih =>
    obtain ⟨h, t⟩ := b
    unfold rehash Shard.rehash
    split <;> simp_all [Shard.hashOf]

@[simp] theorem run_mapInsert (c : Cfg K V RS) (s : Shard K V) (h : UInt64) (i : Nat) :
    (mapInsert c s h i).run = s.mapInsert c h i := by
  simp [mapInsert, Shard.mapInsert]

@[simp] theorem run_reserve (c : Cfg K V RS) (s : Shard K V) : (reserve c s).run = s.reserve c := by
  simp [reserve, Shard.reserve]

@[simp] theorem run_get (s : Shard K V) (h : UInt64) (eqv : K → Bool) : (get s h eqv).run = s.get h eqv := by
  simp only [get, Shard.get, run_bind, run_searchResident]
  congr 1; funext r
  cases r <;> rfl

@[simp] theorem run_peekTokenMut (c : Cfg K V RS) (s : Shard K V) (t : Nat) :
    (peekTokenMut c s t).run = .ok (s.peekTokenMut c t) := by
  unfold peekTokenMut Shard.peekTokenMut
  rcases h : s.entries.get t with _ | ⟨⟨r⟩ | g | p, n⟩ <;> simp

@[simp] theorem run_peekMut (c : Cfg K V RS) (s : Shard K V) (h : UInt64) (eqv : K → Bool) :
    (peekMut c s h eqv).run = s.peekMut c h eqv := by
  simp only [peekMut, Shard.peekMut, run_bind, run_searchResident]
  congr 1; funext r
  cases r <;> simp

@[simp] theorem run_getMut (c : Cfg K V RS) (s : Shard K V) (h : UInt64) (eqv : K → Bool) :
    (getMut c s h eqv).run = s.getMut c h eqv := by
  simp only [getMut, Shard.getMut, run_bind, run_searchResident]
  congr 1; funext r
  cases r with
  | none => rfl
  | some r =>
    obtain ⟨i, r0⟩ := r
    simp only
    rcases hi : s.entries.get i with _ | ⟨⟨r⟩ | g | p, n⟩ <;> simp

@[simp] theorem run_refMutWrite (c : Cfg K V RS) (s : Shard K V) (i w : Nat) (f : V → V) :
    (refMutWrite c s i w f).run = s.refMutWrite c i w f := by
  unfold refMutWrite Shard.refMutWrite
  rcases h : s.entries.get i with _ | ⟨⟨r⟩ | g | p, n⟩ <;> simp

@[simp] theorem run_removeInternal (c : Cfg K V RS) (s : Shard K V) (h : UInt64) (i : Nat) :
    (removeInternal c s h i).run = s.removeInternal c h i := by
  simp only [removeInternal, Shard.removeInternal, run_bind, run_lift]
  congr 1; funext s1
  congr 1; funext x
  obtain ⟨e, _ | ⟨⟨r⟩ | g | p, n⟩⟩ := x <;> simp

@[simp] theorem run_remove (c : Cfg K V RS) (s : Shard K V) (h : UInt64) (eqv : K → Bool) :
    (remove c s h eqv).run = s.remove c h eqv := by
  simp only [remove, Shard.remove, run_bind, run_search]
  congr 1; funext r
  cases r <;> simp

@[simp] theorem run_retainTokens (c : Cfg K V RS) (s : Shard K V) (f : K → V → Bool) (m : List (UInt64 × Nat)) :
    (retainTokens c s f m).run = .ok (Shard.retainTokens c s.entries f m) := by
  induction m with
  | nil => rfl
  | cons b m ih =>
    unfold Shard.retainTokens at *
    unfold retainTokens
    rw [List.filterMap_cons]
    rcases h : s.entries.get b.2 with _ | ⟨⟨r⟩ | g | p, n⟩
    · simpa [h] using ih
    · by_cases hf : f r.key r.value <;> simp [hf, ih]
    · simpa [h] using ih
    · simpa [h] using ih

@[simp] theorem run_retainLoop (c : Cfg K V RS) (l : List (Nat × UInt64)) (s : Shard K V) :
    (retainLoop c l s).run = Shard.retainLoop c l s := by
  induction l generalizing s with
  | nil => rfl
  | cons b l ih => simp [retainLoop, Shard.retainLoop, ih]

@[simp] theorem run_retain (c : Cfg K V RS) (s : Shard K V) (f : K → V → Bool) :
    (retain c s f).run = s.retain c f := by
  simp [retain, Shard.retain]

@[simp] theorem run_hotVictim (c : Cfg K V RS) (s : Shard K V) (q : Req K V RS) (i : Nat) (r : Resident K V) :
    (hotVictim c s q i r).run = s.hotVictim c q i r := by
  simp only [hotVictim, Shard.hotVictim, run_bind, run_lift, run_user, ok_bind, run_ite, run_pure]
  congr 1; funext w
  split
  · rfl
  · congr 1; funext n
    congr 1; funext x
    obtain ⟨e, _ | ⟨⟨r⟩ | g | p, m⟩⟩ := x <;> simp

@[simp] theorem run_advanceHotLoop (c : Cfg K V RS) (n : Nat) (s : Shard K V) (q : Req K V RS) (i u : Nat) :
    (advanceHotLoop c n s q i u).run = Shard.advanceHotLoop c n s q i u := by
  induction n generalizing s i u with
  | zero => rfl
  | succ n ih =>
    unfold advanceHotLoop Shard.advanceHotLoop
    rcases h : s.entries.get i with _ | ⟨⟨r⟩ | g | p, nx⟩ <;> simp [ih]

@[simp] theorem run_advanceHot (c : Cfg K V RS) (s : Shard K V) (q : Req K V RS) :
    (advanceHot c s q).run = s.advanceHot c q := by
  unfold advanceHot Shard.advanceHot
  cases s.hotHead <;> simp

@[simp] theorem run_evictHotLoop (c : Cfg K V RS) (n : Nat) (s : Shard K V) (q : Req K V RS) :
    (evictHotLoop c n s q).run = Shard.evictHotLoop c n s q := by
  induction n generalizing s q with
  | zero => rfl
  | succ n ih => simp [evictHotLoop, Shard.evictHotLoop, ih]

@[simp] theorem run_coldPromote (c : Cfg K V RS) (s : Shard K V) (q : Req K V RS) (i : Nat) (r : Resident K V) :
    (coldPromote c s q i r).run = s.coldPromote c q i r := by
  simp [coldPromote, Shard.coldPromote]

@[simp] theorem run_coldVictim (c : Cfg K V RS) (s : Shard K V) (q : Req K V RS) (i : Nat) (r : Resident K V) :
    (coldVictim c s q i r).run = s.coldVictim c q i r := by
  simp only [coldVictim, Shard.coldVictim, run_bind, run_lift, run_user, ok_bind, run_ite, run_pure]
  congr 1; funext w
  split
  · rfl
  · congr 1; funext s3
    congr 1; funext s4
    congr 1; funext nc
    split <;> rfl

@[simp] theorem run_advanceColdLoop (c : Cfg K V RS) (n : Nat) (s : Shard K V) (q : Req K V RS) (i : Nat) :
    (advanceColdLoop c n s q i).run = Shard.advanceColdLoop c n s q i := by
  induction n generalizing i with
  | zero => rfl
  | succ n ih =>
    unfold advanceColdLoop Shard.advanceColdLoop
    rcases h : s.entries.get i with _ | ⟨⟨r⟩ | g | p, nx⟩ <;> simp [ih]

@[simp] theorem run_advanceCold (c : Cfg K V RS) (s : Shard K V) (q : Req K V RS) :
    (advanceCold c s q).run = s.advanceCold c q := by
  unfold advanceCold Shard.advanceCold
  cases s.coldHead <;> simp

@[simp] theorem run_evictLoop (c : Cfg K V RS) (x n : Nat) (s : Shard K V) (q : Req K V RS) :
    (evictLoop c x n s q).run = Shard.evictLoop c x n s q := by
  induction n generalizing s q with
  | zero => rfl
  | succ n ih => simp [evictLoop, Shard.evictLoop, ih]

@[simp] theorem run_insertExisting (c : Cfg K V RS) (s : Shard K V) (q : Req K V RS) (i : Nat) (k : K) (v : V) (w : Nat)
    (st : Strategy) : (insertExisting c s q i k v w st).run = s.insertExisting c q i k v w st := by
  unfold insertExisting Shard.insertExisting
  rcases h : s.entries.get i with _ | ⟨⟨r⟩ | g | p, n⟩ <;> cases st <;> simp

@[simp] theorem run_handleInsertOverweight [DecidableEq K] (c : Cfg K V RS) (s : Shard K V) (q : Req K V RS) (h : UInt64)
    (k : K) (v : V) (st : Strategy) :
    (handleInsertOverweight c s q h k v st).run = s.handleInsertOverweight c q h k v st := by
  simp only [handleInsertOverweight, Shard.handleInsertOverweight, run_bind, run_searchResident]
  congr 1; funext r
  rcases r with _ | ⟨i, r⟩
  · cases st <;> rfl
  · simp only [run_bind, run_removeInternal]
    cases s.removeInternal c h i with
    | error p => rfl
    | ok x => obtain ⟨s1, _ | ⟨a, b⟩⟩ := x <;> cases st <;> rfl

@[simp] theorem run_insertNew (c : Cfg K V RS) (s : Shard K V) (q : Req K V RS) (h : UInt64) (k : K) (v : V) (w : Nat) :
    (insertNew c s q h k v w).run = s.insertNew c q h k v w := by
  simp [insertNew, Shard.insertNew]

@[simp] theorem run_insertAdmitted [DecidableEq K] (c : Cfg K V RS) (s : Shard K V) (q : Req K V RS) (h : UInt64) (k : K)
    (v : V) (w : Nat) (st : Strategy) : (insertAdmitted c s q h k v w st).run = s.insertAdmitted c q h k v w st := by
  simp only [insertAdmitted, Shard.insertAdmitted, run_bind, run_search]
  congr 1; funext r
  cases r <;> cases st <;> simp

@[simp] theorem run_insert [DecidableEq K] (c : Cfg K V RS) (s : Shard K V) (q : Req K V RS) (h : UInt64) (k : K)
    (v : V) (st : Strategy) : (insert c s q h k v st).run = s.insert c q h k v st := by
  simp only [insert, Shard.insert, run_bind, run_user, ok_bind, run_ite, run_insertAdmitted, run_handleInsertOverweight]
  by_cases h1 : s.weightTargetHot < c.weight k v <;> by_cases h2 : c.pinned k v = false <;> simp [h1, h2]

@[simp] theorem run_handleOverweightReplacePlaceholder (c : Cfg K V RS) (s : Shard K V) (q : Req K V RS) (p : Plh) (k : K)
    (v : V) : (handleOverweightReplacePlaceholder c s q p k v).run = s.handleOverweightReplacePlaceholder c q p k v := by
  simp [handleOverweightReplacePlaceholder, Shard.handleOverweightReplacePlaceholder]

@[simp] theorem run_replacePlaceholderAdmit (c : Cfg K V RS) (s : Shard K V) (q : Req K V RS) (p : Plh) (k : K) (st : St)
    (b : Bool) (v : V) (w : Nat) :
    (replacePlaceholderAdmit c s q p k st b v w).run = s.replacePlaceholderAdmit c q p k st b v w := by
  simp [replacePlaceholderAdmit, Shard.replacePlaceholderAdmit]

@[simp] theorem run_replacePlaceholder (c : Cfg K V RS) (s : Shard K V) (q : Req K V RS) (p : Plh) (b : Bool) (v : V) :
    (replacePlaceholder c s q p b v).run = s.replacePlaceholder c q p b v := by
  unfold replacePlaceholder Shard.replacePlaceholder
  rcases h : s.entries.get p.idx with _ | ⟨⟨r⟩ | ph | g, n⟩
  · rfl
  · rfl
  · by_cases h0 : c.sameAs ph.shared p <;> simp [h0]
    by_cases h1 : s.weightTargetHot < c.weight ph.key v <;> by_cases h2 : c.pinned ph.key v = false <;>
      simp [h2]
  · rfl

@[simp] theorem run_upsertPlaceholder (c : Cfg K V RS) (s : Shard K V) (h : UInt64) (eqv : K → Bool) (k : K) :
    (upsertPlaceholder c s h eqv k).run = s.upsertPlaceholder c h eqv k := by
  simp only [upsertPlaceholder, Shard.upsertPlaceholder, run_bind, run_search]
  congr 1; funext r
  cases r with
  | none => simp
  | some i =>
    simp only
    rcases h : s.entries.get i with _ | ⟨⟨r⟩ | g | ph, n⟩ <;> simp

@[simp] theorem run_cacheInsert [DecidableEq K] (c : Cfg K V RS) (s : Shard K V) (k : K) (v : V) :
    (cacheInsert c s k v).run = Unsync.insert c s k v := by
  simp [cacheInsert, Unsync.insert]

@[simp] theorem run_cacheReplace [DecidableEq K] (c : Cfg K V RS) (s : Shard K V) (k : K) (v : V) (soft : Bool) :
    (cacheReplace c s k v soft).run = Unsync.replace c s k v soft := by
  simp only [cacheReplace, Unsync.replace, run_bind, run_user, ok_bind, run_insert, run_ite, run_pure]
  congr 1; funext x
  obtain ⟨s1, q, _ | r⟩ := x <;> rfl

@[simp] theorem run_writeRef (c : Cfg K V RS) (s : Shard K V) (f : V → V) (r : Option (Nat × Nat)) :
    (writeRef c s f r).run = Unsync.writeRef c s f r := by
  rcases r with _ | ⟨i, w⟩ <;> simp [writeRef, Unsync.writeRef]

@[simp] theorem run_fill (c : Cfg K V RS) (s : Shard K V) (p : Plh) (v : V) :
    (fill c s p v).run = Unsync.fill c s p v := by
  simp [fill, Unsync.fill]

@[simp] theorem run_getOrInsertToken [DecidableEq K] (c : Cfg K V RS) (s : Shard K V) (k : K) (load : Option V) :
    (getOrInsertToken c s k load).run = Unsync.getOrInsertToken c s k load := by
  simp only [getOrInsertToken, Unsync.getOrInsertToken, run_bind, run_user, ok_bind, run_upsertPlaceholder]
  congr 1; funext x
  obtain ⟨s1, _ | _⟩ := x <;> cases load <;> simp

@[simp] theorem run_getOrInsertWith [DecidableEq K] (c : Cfg K V RS) (s : Shard K V) (k : K) (load : Option V) :
    (getOrInsertWith c s k load).run = Unsync.getOrInsertWith c s k load := by
  simp [getOrInsertWith, Unsync.getOrInsertWith]

@[simp] theorem run_getMutOrInsertWith [DecidableEq K] (c : Cfg K V RS) (s : Shard K V) (k : K) (load : Option V)
    (f : V → V) : (getMutOrInsertWith c s k load f).run = Unsync.getMutOrInsertWith c s k load f := by
  simp only [getMutOrInsertWith, Unsync.getMutOrInsertWith, run_bind, run_getOrInsertToken]
  congr 1; funext x
  obtain ⟨s1, q, b, _ | i⟩ := x <;> simp

@[simp] theorem run_useGuard (c : Cfg K V RS) (s : Shard K V) (p : Plh) (use : GuardUse V) :
    (useGuard c s p use).run = Unsync.useGuard c s p use := by
  cases use with
  | insert v =>
    simp only [useGuard, Unsync.useGuard, run_bind, run_dropping, run_user, ok_bind, run_fill, run_pure]
    cases Unsync.fill c s p v <;> rfl
  | drop => simp [useGuard, Unsync.useGuard]
  | forget => rfl

@[simp] theorem run_getRefOrGuard [DecidableEq K] (c : Cfg K V RS) (s : Shard K V) (k : K) (use : GuardUse V) :
    (getRefOrGuard c s k use).run = Unsync.getRefOrGuard c s k use := by
  simp only [getRefOrGuard, Unsync.getRefOrGuard, run_bind, run_user, ok_bind, run_upsertPlaceholder]
  congr 1; funext x
  obtain ⟨s1, _ | _⟩ := x <;> simp

@[simp] theorem run_getMutOrGuard [DecidableEq K] (c : Cfg K V RS) (s : Shard K V) (k : K) (f : V → V)
    (use : GuardUse V) : (getMutOrGuard c s k f use).run = Unsync.getMutOrGuard c s k f use := by
  simp only [getMutOrGuard, Unsync.getMutOrGuard, run_bind, run_user, ok_bind, run_upsertPlaceholder]
  congr 1; funext x
  obtain ⟨s1, _ | _⟩ := x <;> simp

theorem run_step [DecidableEq K] (c : Cfg K V RS) (s : Shard K V) (op : Op K V) :
    (step c s op).run = Unsync.step c s op := by
  cases op with
  | peek k =>
    simp only [step, Unsync.step, Shard.peek, run_bind, run_user, ok_bind, run_searchResident]
    cases s.searchResident (c.hash k) (fun x => x == k) with
    | error p => rfl
    | ok r => cases r <;> rfl
  | _ => simp [step, Unsync.step, Shard.contains]

end Unwind
end QuickCache
