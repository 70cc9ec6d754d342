import Verif.Spec.Release
import Verif.Proofs.Slab

/-!
# The debug build against the release build
-/

namespace QuickCache
variable {K V RS T α β : Type _}
open Spec

theorem Spec.Agree.rfl {x : Res α} : Agree x x := Or.inl _root_.rfl

theorem Spec.Agree.dbg {p : Panic} (h : DebugOnly p) {y : Res α} : Agree (.error p) y := Or.inr ⟨p, h, _root_.rfl⟩

theorem Spec.Agree.bind {x y : Res α} {f g : α → Res β} (h : Agree x y) (hf : ∀ a, Agree (f a) (g a)) :
    Agree (x >>= f) (y >>= g) := by
  rcases h with rfl | ⟨p, hp, rfl⟩
  · cases x with
    | error e => exact Or.inl _root_.rfl
    | ok a => exact hf a
  · exact Or.inr ⟨p, hp, _root_.rfl⟩

theorem Spec.Agree.ite {P : Prop} [Decidable P] {x y x' y' : Res α} (h1 : P → Agree x y) (h2 : ¬P → Agree x' y') :
    Agree (if P then x else x') (if P then y else y') := by
  split
  · exact h1 ‹_›
  · exact h2 ‹_›

/-- A debug check in front of the rest. -/
theorem Spec.Agree.check {P : Prop} [Decidable P] {p : Panic} (hp : DebugOnly p) {x y : Res α} (h : ¬P → Agree x y) :
    Agree (if P then .error p else x) y := by
  split
  · exact .dbg hp
  · exact h ‹_›

theorem csub_agree (a b : Nat) : Agree (csub a b) (rsub a b) := by
  unfold csub rsub
  split
  · exact .rfl
  · exact .dbg (by trivial)

theorem cadd_agree (a b : Nat) : Agree (cadd a b) (radd a b) := by
  unfold cadd radd
  split
  · rename_i h; rw [Nat.mod_eq_of_lt h]; exact .rfl
  · exact .dbg (by trivial)

namespace Slab

theorem insert_agree (s : Slab T) (x : T) : Agree (s.insert x) (s.insertR x) := by
  unfold Slab.insert Slab.insertR
  dsimp only
  cases s.entries[s.nextFree]? with
  | none => exact .check (by trivial) (fun _ => .rfl)
  | some e => exact .check (by trivial) (fun _ => .rfl)

theorem linkSelf_agree (s : Slab T) (i p n : Nat) : Agree (s.linkSelf i p n) (s.linkSelfR i p n) := by
  unfold Slab.linkSelf Slab.linkSelfR
  cases s.entries[i]? with
  | none => exact .rfl
  | some e => exact .check (by trivial) (fun _ => .check (by trivial) (fun _ => .check (by trivial) (fun _ => .rfl)))

theorem link_agree (s : Slab T) (i : Nat) (h : Option Nat) : Agree (s.link i h) (s.linkR i h) := by
  unfold Slab.link Slab.linkR
  cases h with
  | none => exact linkSelf_agree ..
  | some h =>
    dsimp only
    cases s.entries[h]? with
    | none => exact .rfl
    | some e =>
      refine .check (by trivial) (fun _ => .ite (fun _ => linkSelf_agree ..) (fun _ => ?_))
      cases (s.mod h (fun e => { e with prev := i })).entries[e.prev]? with
      | none => exact .rfl
      | some b => exact .check (by trivial) (fun _ => .check (by trivial) (fun _ => linkSelf_agree ..))

theorem unlink_agree (s : Slab T) (i : Nat) : Agree (s.unlink i) (s.unlinkR i) := by
  unfold Slab.unlink Slab.unlinkR
  cases s.entries[i]? with
  | none => exact .rfl
  | some e =>
    refine .check (by trivial) (fun _ => ?_)
    dsimp only
    refine .ite (fun _ => .check (by trivial) (fun _ => .rfl)) (fun _ => ?_)
    cases (s.mod i (fun e => { e with prev := i, next := i })).entries[e.next]? with
    | none => exact .rfl
    | some n =>
      refine .check (by trivial) (fun _ => .check (by trivial) (fun _ => ?_))
      dsimp only
      cases ((s.mod i (fun e => { e with prev := i, next := i })).mod e.next
        (fun x => { x with prev := e.prev })).entries[e.prev]? with
      | none => exact .rfl
      | some p => exact .check (by trivial) (fun _ => .check (by trivial) (fun _ => .rfl))

theorem remove_agree (s : Slab T) (i : Nat) : Agree (s.remove i) (s.removeR i) :=
  .bind (unlink_agree s i) (fun _ => .rfl)

end Slab

namespace Shard
variable {c : Cfg K V RS}

theorem linkTo_agree (s : Shard K V) (i : RingId) (t : Nat) : Agree (s.linkTo i t) (s.linkToR i t) :=
  .bind (Slab.link_agree ..) (fun _ => .rfl)

theorem unlinkFrom_agree (s : Shard K V) (i : RingId) (t : Nat) : Agree (s.unlinkFrom i t) (s.unlinkFromR i t) :=
  .bind (Slab.unlink_agree ..) (fun _ => .rfl)

theorem relink_agree (s : Shard K V) (st : St) (t o n : Nat) : Agree (s.relink st t o n) (s.relinkR st t o n) :=
  .ite (fun _ => linkTo_agree ..) (fun _ => .ite (fun _ => unlinkFrom_agree ..) (fun _ => .rfl))

theorem linkNew_agree (s : Shard K V) (st : St) (t w : Nat) : Agree (s.linkNew st t w) (s.linkNewR st t w) :=
  .ite (fun _ => linkTo_agree ..) (fun _ => .rfl)

theorem unlinkGhost_agree (s : Shard K V) (t : Nat) : Agree (s.unlinkGhost t) (s.unlinkGhostR t) :=
  .bind (Slab.unlink_agree ..) (fun _ => .rfl)

theorem mapRemove_agree (s : Shard K V) (h : UInt64) (t : Nat) : Agree (s.mapRemove h t) (s.mapRemoveR h t) := by
  unfold mapRemove mapRemoveR
  split
  · exact .rfl
  · exact .dbg (by trivial)

theorem coldChangeWeight_agree (s : Shard K V) (t o n : Nat) :
    Agree (s.coldChangeWeight t o n) (s.coldChangeWeightR t o n) := by
  unfold coldChangeWeight coldChangeWeightR
  rcases s.entries.get t with _ | ⟨_ | _ | _, _⟩
  · exact .rfl
  · exact .bind (csub_agree ..) (fun _ => .bind (cadd_agree ..) (fun _ => relink_agree ..))
  · exact .rfl
  · exact .rfl

theorem get_setEntry {s : Shard K V} {t n : Nat} {e x : Entry K V} (h : s.entries.get t = some (e, n)) :
    (s.setEntry t x).entries.get t = some (x, n) := by
  unfold setEntry Slab.setItem Slab.mod
  unfold Slab.get at h ⊢
  simp only [List.getElem?_modify, if_true]
  cases h1 : s.entries.entries[t]? with
  | none => rw [h1] at h; cases h
  | some y =>
    rw [h1] at h
    obtain ⟨_ | _, _, _⟩ := y
    · cases h
    · cases h; rfl

theorem getUnchecked_eq (sl : Slab T) (t : Nat) :
    sl.getUnchecked t = match sl.get t with | some x => .ok x | none => .error .ub := by
  unfold Slab.getUnchecked Slab.get
  rcases sl.entries[t]? with _ | ⟨_ | _, _, _⟩ <;> rfl

theorem refMutPair_some {s : Shard K V} {t n : Nat} {r : Resident K V} (h : s.entries.get t = some (.resident r, n)) :
    s.refMutPair t = .ok r := by
  unfold refMutPair
  rw [getUnchecked_eq, h]
  rfl

theorem refMutWrite_agree (s : Shard K V) (t o : Nat) (f : V → V) :
    Agree (s.refMutWrite c t o f) (s.refMutWriteR c t o f) := by
  unfold refMutWrite refMutWriteR
  rcases h : s.entries.get t with _ | ⟨r | _ | _, n⟩
  · simp only [refMutPair, getUnchecked_eq, h]; exact .rfl
  · rw [refMutPair_some h]
    simp only [Res.ok_bind]
    rw [refMutPair_some (get_setEntry h)]
    simp only [Res.ok_bind]
    exact .ite (fun _ => coldChangeWeight_agree ..) (fun _ => .rfl)
  · simp only [refMutPair, getUnchecked_eq, h]; exact .rfl
  · simp only [refMutPair, getUnchecked_eq, h]; exact .rfl

theorem removeInternal_agree (s : Shard K V) (h : UInt64) (t : Nat) :
    Agree (s.removeInternal c h t) (s.removeInternalR c h t) := by
  unfold removeInternal removeInternalR
  refine .bind (mapRemove_agree ..) (fun s => .bind (Slab.remove_agree ..) (fun x => ?_))
  obtain ⟨e, _ | ⟨_ | _ | _, _⟩⟩ := x
  · exact .rfl
  · exact .bind (csub_agree ..) (fun _ => .bind (csub_agree ..) (fun _ => .rfl))
  · exact .rfl
  · exact .bind (csub_agree ..) (fun _ => .rfl)

theorem remove_agree (s : Shard K V) (h : UInt64) (eqv : K → Bool) : Agree (s.remove c h eqv) (s.removeR c h eqv) := by
  refine .bind .rfl (fun x => ?_)
  cases x with
  | none => exact .rfl
  | some t => exact removeInternal_agree ..

theorem retainLoop_agree (l : List (Nat × UInt64)) (s : Shard K V) : Agree (retainLoop c l s) (retainLoopR c l s) := by
  induction l generalizing s with
  | nil => exact .rfl
  | cons b l ih => exact .bind (removeInternal_agree ..) (fun _ => ih _)

theorem hotVictim_agree (s : Shard K V) (q : Req K V RS) (t : Nat) (r : Resident K V) :
    Agree (s.hotVictim c q t r) (s.hotVictimR c q t r) := by
  refine .bind (csub_agree ..) (fun w => ?_)
  dsimp only
  refine .ite (fun _ => .bind (unlinkFrom_agree ..) (fun _ => .rfl)) (fun _ => .bind (csub_agree ..) (fun n => ?_))
  refine .bind (Slab.remove_agree ..) (fun x => ?_)
  obtain ⟨e, _ | ⟨_ | _ | _, _⟩⟩ := x
  · exact .rfl
  · exact .bind (mapRemove_agree ..) (fun _ => .rfl)
  · exact .rfl
  · exact .rfl

theorem advanceHotLoop_agree (fuel : Nat) (s : Shard K V) (q : Req K V RS) (t u : Nat) :
    Agree (advanceHotLoop c fuel s q t u) (advanceHotLoopR c fuel s q t u) := by
  induction fuel generalizing s q t u with
  | zero => exact .rfl
  | succ fuel ih =>
    unfold advanceHotLoop advanceHotLoopR
    rcases s.entries.get t with _ | ⟨_ | _ | _, _⟩
    · exact .rfl
    · exact .check (by trivial) (fun _ => .ite (fun _ => .ite (fun _ => .rfl) (fun _ => ih ..))
        (fun _ => .ite (fun _ => ih ..) (fun _ => hotVictim_agree ..)))
    · exact .rfl
    · exact .rfl

theorem advanceHot_agree (s : Shard K V) (q : Req K V RS) : Agree (s.advanceHot c q) (s.advanceHotR .enough c q) := by
  unfold advanceHot advanceHotR
  cases s.hotHead with
  | none => exact .rfl
  | some t => exact advanceHotLoop_agree ..

theorem advanceGhost_agree (s : Shard K V) : Agree s.advanceGhost s.advanceGhostR := by
  unfold advanceGhost advanceGhostR
  refine .check (by trivial) (fun _ => ?_)
  cases s.ghostHead with
  | none => exact .rfl
  | some t =>
    dsimp only
    rcases s.entries.get t with _ | ⟨_ | _ | _, _⟩
    · exact .rfl
    · exact .rfl
    · exact .rfl
    · refine .bind (csub_agree ..) (fun n => .bind (mapRemove_agree ..)
        (fun s => .bind (Slab.remove_agree ..) (fun x => .rfl)))

theorem evictHotLoop_agree (fuel : Nat) (s : Shard K V) (q : Req K V RS) :
    Agree (evictHotLoop c fuel s q) (evictHotLoopR .enough c fuel s q) := by
  induction fuel generalizing s q with
  | zero => exact .rfl
  | succ fuel ih =>
    exact .ite (fun _ => .bind (advanceHot_agree ..) (fun _ => .ite (fun _ => ih ..) (fun _ => .rfl))) (fun _ => .rfl)

theorem coldPromote_agree (s : Shard K V) (q : Req K V RS) (t : Nat) (r : Resident K V) :
    Agree (s.coldPromote c q t r) (s.coldPromoteR .enough c q t r) :=
  .bind (cadd_agree ..) (fun _ => .bind (csub_agree ..) (fun _ => .bind (csub_agree ..) (fun _ =>
    .bind (unlinkFrom_agree ..) (fun _ => .bind (linkTo_agree ..) (fun _ =>
      .bind (evictHotLoop_agree ..) (fun _ => .rfl))))))

theorem coldVictim_agree {s : Shard K V} (q : Req K V RS) {t n : Nat} {e : Entry K V} (r : Resident K V)
    (h : s.entries.get t = some (e, n)) : Agree (s.coldVictim c q t r) (s.coldVictimR c q t r) := by
  refine .bind (csub_agree ..) (fun w => ?_)
  dsimp only
  refine .ite (fun _ => .bind (unlinkFrom_agree ..) (fun _ => .rfl)) (fun _ => ?_)
  rw [get_setEntry h]
  exact .bind (unlinkFrom_agree ..) (fun _ => .bind (linkTo_agree ..) (fun _ => .bind (csub_agree ..) (fun _ =>
    .ite (fun _ => .bind (advanceGhost_agree ..) (fun _ => .rfl)) (fun _ => .rfl))))

theorem advanceColdLoop_agree (fuel : Nat) (s : Shard K V) (q : Req K V RS) (t : Nat) :
    Agree (advanceColdLoop c fuel s q t) (advanceColdLoopR .enough c fuel s q t) := by
  induction fuel generalizing s q t with
  | zero => exact .rfl
  | succ fuel ih =>
    unfold advanceColdLoop advanceColdLoopR
    rcases h : s.entries.get t with _ | ⟨_ | _ | _, _⟩
    · exact .rfl
    · exact .check (by trivial) (fun _ => .ite (fun _ => coldPromote_agree ..) (fun _ => .ite
        (fun _ => .ite (fun _ => advanceHot_agree ..) (fun _ => ih ..)) (fun _ => coldVictim_agree _ _ h)))
    · exact .rfl
    · exact .rfl

theorem advanceCold_agree (s : Shard K V) (q : Req K V RS) : Agree (s.advanceCold c q) (s.advanceColdR .enough c q) := by
  unfold advanceCold advanceColdR
  cases s.coldHead with
  | none => exact advanceHot_agree ..
  | some t => exact advanceColdLoop_agree ..

theorem evictLoop_agree (extra fuel : Nat) (s : Shard K V) (q : Req K V RS) :
    Agree (evictLoop c extra fuel s q) (evictLoopR .enough c extra fuel s q) := by
  induction fuel generalizing s q with
  | zero => exact .rfl
  | succ fuel ih =>
    exact .bind (cadd_agree ..) (fun _ => .bind (cadd_agree ..) (fun _ =>
      .ite (fun _ => .bind (advanceCold_agree ..) (fun _ => .ite (fun _ => ih ..) (fun _ => .rfl))) (fun _ => .rfl)))

theorem insertExisting_agree (s : Shard K V) (q : Req K V RS) (t : Nat) (k : K) (v : V) (w : Nat) (str : Strategy) :
    Agree (s.insertExisting c q t k v w str) (s.insertExistingR .enough c q t k v w str) := by
  unfold insertExisting insertExistingR
  rcases s.entries.get t with _ | ⟨_ | _ | _, _⟩
  · exact .rfl
  · exact .bind (csub_agree ..) (fun _ => .bind (cadd_agree ..) (fun _ => .bind (relink_agree ..) (fun _ =>
      .bind (evictLoop_agree ..) (fun _ => .rfl))))
  · cases str with
    | replace _ => exact .rfl
    | insert => exact .bind (cadd_agree ..) (fun _ => .bind (linkNew_agree ..) (fun _ =>
        .bind (evictLoop_agree ..) (fun _ => .rfl)))
  · cases str with
    | replace _ => exact .rfl
    | insert => exact .bind (cadd_agree ..) (fun _ => .bind (csub_agree ..) (fun _ => .bind (unlinkGhost_agree ..)
        (fun _ => .bind (linkNew_agree ..) (fun _ => .bind (evictLoop_agree ..) (fun _ => .rfl)))))

theorem insertNew_agree (s : Shard K V) (q : Req K V RS) (h : UInt64) (k : K) (v : V) (w : Nat) :
    Agree (s.insertNew c q h k v w) (s.insertNewR .enough c q h k v w) :=
  .bind (cadd_agree ..) (fun _ => .bind (evictLoop_agree ..) (fun _ => .bind (cadd_agree ..) (fun _ =>
    .bind (Slab.insert_agree ..) (fun _ => .bind (linkNew_agree ..) (fun _ => .rfl)))))

theorem handleOverweight_agree (s : Shard K V) (q : Req K V RS) (p : Plh) (k : K) (v : V) :
    Agree (s.handleOverweightReplacePlaceholder c q p k v) (s.handleOverweightReplacePlaceholderR c q p k v) :=
  .bind (Slab.remove_agree ..) (fun _ => .bind (mapRemove_agree ..) (fun _ => .rfl))

theorem replacePlaceholderAdmit_agree (s : Shard K V) (q : Req K V RS) (p : Plh) (k : K) (st : St) (b : Bool) (v : V)
    (w : Nat) : Agree (s.replacePlaceholderAdmit c q p k st b v w) (s.replacePlaceholderAdmitR .enough c q p k st b v w) :=
  .bind (cadd_agree ..) (fun _ => .bind (cadd_agree ..) (fun _ => .bind (cadd_agree ..) (fun _ =>
    .ite (fun _ => .bind (linkTo_agree ..) (fun _ => evictLoop_agree ..)) (fun _ => .rfl))))

theorem replacePlaceholder_agree (s : Shard K V) (q : Req K V RS) (p : Plh) (b : Bool) (v : V) :
    Agree (s.replacePlaceholder c q p b v) (s.replacePlaceholderR .enough c q p b v) := by
  unfold replacePlaceholder replacePlaceholderR
  rcases s.entries.get p.idx with _ | ⟨_ | ph | _, _⟩
  · exact .rfl
  · exact .rfl
  · refine .ite (P := c.sameAs ph.shared p = true) (fun _ => ?_) (fun _ => .rfl)
    exact .ite (fun _ => .ite (fun _ => .bind (handleOverweight_agree ..) (fun _ => .rfl))
      (fun _ => .bind (replacePlaceholderAdmit_agree ..) (fun _ => .rfl)))
      (fun _ => .bind (replacePlaceholderAdmit_agree ..) (fun _ => .rfl))
  · exact .rfl

theorem insert_idx {s : Slab T} {x : T} {a : Slab T × Nat} (h : s.insertR x = .ok a) : a.2 = s.nextFree := by
  unfold Slab.insertR at h
  dsimp only at h
  cases h1 : s.entries[s.nextFree]? with
  | some e => rw [h1] at h; cases h; rfl
  | none =>
    rw [h1] at h
    dsimp only at h
    split at h
    · cases h
    · cases h; rfl

theorem upsertPlaceholder_agree (s : Shard K V) (h : UInt64) (eqv : K → Bool) (k : K) :
    Agree (s.upsertPlaceholder c h eqv k) (s.upsertPlaceholderR c h eqv k) := by
  refine .bind .rfl (fun x => ?_)
  cases x with
  | some t =>
    dsimp only
    rcases s.entries.get t with _ | ⟨_ | _ | _, _⟩
    · exact .rfl
    · exact .rfl
    · exact .rfl
    · exact .bind (csub_agree ..) (fun _ => .bind (unlinkGhost_agree ..) (fun _ => .rfl))
  | none => exact .bind (Slab.insert_agree ..) (fun _ => .check (by trivial) (fun _ => .rfl))

section
variable [DecidableEq K]

theorem handleInsertOverweight_agree (s : Shard K V) (q : Req K V RS) (h : UInt64) (k : K) (v : V) (str : Strategy) :
    Agree (s.handleInsertOverweight c q h k v str) (s.handleInsertOverweightR c q h k v str) := by
  refine .bind .rfl (fun x => ?_)
  dsimp only
  rcases x with _ | ⟨t, r⟩
  · exact .rfl
  · exact .bind (removeInternal_agree ..) (fun _ => .rfl)

theorem insertAdmitted_agree (s : Shard K V) (q : Req K V RS) (h : UInt64) (k : K) (v : V) (w : Nat) (str : Strategy) :
    Agree (s.insertAdmitted c q h k v w str) (s.insertAdmittedR .enough c q h k v w str) := by
  refine .bind .rfl (fun x => ?_)
  cases x with
  | some t => exact insertExisting_agree ..
  | none =>
    cases str with
    | replace _ => exact .rfl
    | insert => exact .bind (insertNew_agree ..) (fun _ => .rfl)

theorem insert_agree (s : Shard K V) (q : Req K V RS) (h : UInt64) (k : K) (v : V) (str : Strategy) :
    Agree (s.insert c q h k v str) (s.insertR .enough c q h k v str) :=
  .ite (fun _ => .ite (fun _ => handleInsertOverweight_agree ..) (fun _ => insertAdmitted_agree ..))
    (fun _ => insertAdmitted_agree ..)

end
end Shard

section
variable [DecidableEq K] {c : Cfg K V RS}
open Shard Unsync

omit [DecidableEq K] in
theorem writeRef_agree (s : Shard K V) (f : V → V) (r : Option (Nat × Nat)) :
    Agree (writeRef c s f r) (writeRefR c s f r) := by
  cases r with
  | none => exact .rfl
  | some x => exact refMutWrite_agree ..

omit [DecidableEq K] in
theorem fill_agree (s : Shard K V) (p : Plh) (v : V) : Agree (fill c s p v) (fillR .enough c s p v) :=
  .bind (replacePlaceholder_agree ..) (fun _ => .check (by trivial) (fun _ => .rfl))

theorem getOrInsertToken_agree (s : Shard K V) (k : K) (l : Option V) :
    Agree (getOrInsertToken c s k l) (getOrInsertTokenR .enough c s k l) := by
  refine .bind (upsertPlaceholder_agree ..) (fun x => ?_)
  obtain ⟨s1, _ | _⟩ := x
  · exact .rfl
  · cases l with
    | none => exact .rfl
    | some v => exact .bind (fill_agree ..) (fun _ => .rfl)

omit [DecidableEq K] in
theorem useGuard_agree (s : Shard K V) (p : Plh) (u : GuardUse V) : Agree (useGuard c s p u) (useGuardR .enough c s p u) := by
  cases u with
  | insert v => exact fill_agree ..
  | drop => exact .rfl
  | forget => exact .rfl

theorem step_agree (s : Shard K V) (op : Op K V) : Agree (step c s op) (stepR .enough c s op) := by
  cases op with
  | insert k v => exact .bind (.bind (insert_agree ..) (fun _ => .check (by trivial) (fun _ => .rfl))) (fun _ => .rfl)
  | replace k v soft => exact .bind (.bind (insert_agree ..) (fun _ => .rfl)) (fun _ => .rfl)
  | remove k => exact .bind (remove_agree ..) (fun _ => .rfl)
  | get k => exact .rfl
  | peek k => exact .rfl
  | containsKey k => exact .rfl
  | getMut k f => exact .bind .rfl (fun _ => .bind (writeRef_agree ..) (fun _ => .rfl))
  | peekMut k f => exact .bind .rfl (fun _ => .bind (writeRef_agree ..) (fun _ => .rfl))
  | retain f => exact .bind (retainLoop_agree ..) (fun _ => .rfl)
  | clear => exact .rfl
  | drain => exact .rfl
  | reserve => exact .rfl
  | getOrInsertWith k l => exact .bind (.bind (getOrInsertToken_agree ..) (fun _ => .rfl)) (fun _ => .rfl)
  | getMutOrInsertWith k l f =>
    refine .bind (.bind (getOrInsertToken_agree ..) (fun x => ?_)) (fun _ => .rfl)
    obtain ⟨_, _, _, _ | _⟩ := x
    · exact .rfl
    · exact .bind (writeRef_agree ..) (fun _ => .rfl)
  | getRefOrGuard k u =>
    refine .bind (.bind (upsertPlaceholder_agree ..) (fun x => ?_)) (fun _ => .rfl)
    obtain ⟨s1, _ | _⟩ := x
    · exact .rfl
    · exact .bind (useGuard_agree ..) (fun _ => .rfl)
  | getMutOrGuard k f u =>
    refine .bind (.bind (upsertPlaceholder_agree ..) (fun x => ?_)) (fun _ => .rfl)
    obtain ⟨s1, _ | _⟩ := x
    · exact .bind (writeRef_agree ..) (fun _ => .rfl)
    · exact .bind (useGuard_agree ..) (fun _ => .rfl)

theorem sect_agree (s : Shard K V) (sec : Section K V) : Agree (Sync.step c s sec) (Sync.stepR .enough c s sec) := by
  cases sec with
  | call op => exact .bind (step_agree ..) (fun _ => .rfl)
  | upsert k => exact .bind (upsertPlaceholder_agree ..) (fun _ => .rfl)
  | fill k p b v => exact .bind (replacePlaceholder_agree ..) (fun _ => .rfl)
  | abandon k p => exact .rfl
  | find k => exact .rfl
  | load k t => exact .rfl
  | bump k t => exact .rfl
  | count b => exact .rfl

end
end QuickCache
