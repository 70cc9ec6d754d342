import Verif.Proofs.Release

/-!
# The release build has no undefined behaviour in any state
-/

namespace QuickCache
variable {K V RS T α β : Type _}

/-- Not undefined behaviour. -/
structure NoUB (x : Res α) : Prop where
  ne : x ≠ .error .ub

theorem NoUB.ok {a : α} : NoUB (.ok a : Res α) := ⟨by intro h; cases h⟩

theorem NoUB.err {p : Panic} (h : p ≠ .ub) : NoUB (.error p : Res α) := ⟨by intro e; cases e; exact h rfl⟩

theorem NoUB.bind' {x : Res α} {f : α → Res β} (h : NoUB x) (hf : ∀ a, x = .ok a → NoUB (f a)) : NoUB (x >>= f) := by
  cases x with
  | ok a => exact hf a rfl
  | error p => exact .err (fun e => h.ne (by rw [e]))

theorem NoUB.bind {x : Res α} {f : α → Res β} (h : NoUB x) (hf : ∀ a, NoUB (f a)) : NoUB (x >>= f) :=
  h.bind' (fun a _ => hf a)

theorem NoUB.ite {P : Prop} [Decidable P] {x y : Res α} (h1 : P → NoUB x) (h2 : ¬P → NoUB y) :
    NoUB (if P then x else y) := by
  split
  · exact h1 ‹_›
  · exact h2 ‹_›

theorem rsub_safe (a b : Nat) : NoUB (rsub a b) := .ok

theorem radd_safe (a b : Nat) : NoUB (radd a b) := .ok

namespace Slab

theorem insertR_safe (s : Slab T) (x : T) : NoUB (s.insertR x) := by
  unfold insertR
  dsimp only
  cases s.entries[s.nextFree]? with
  | some e => exact .ok
  | none => exact .ite (fun _ => .err (by decide)) (fun _ => .ok)

theorem linkSelfR_safe (s : Slab T) (i p n : Nat) : NoUB (s.linkSelfR i p n) := by
  unfold linkSelfR
  cases s.entries[i]? with
  | none => exact .err (by decide)
  | some e => exact .ok

theorem linkR_safe (s : Slab T) (i : Nat) (h : Option Nat) : NoUB (s.linkR i h) := by
  unfold linkR
  cases h with
  | none => exact linkSelfR_safe ..
  | some h =>
    dsimp only
    cases s.entries[h]? with
    | none => exact .err (by decide)
    | some e =>
      refine .ite (fun _ => linkSelfR_safe ..) (fun _ => ?_)
      cases (s.mod h (fun e => { e with prev := i })).entries[e.prev]? with
      | none => exact .err (by decide)
      | some b => exact linkSelfR_safe ..

theorem unlinkR_safe (s : Slab T) (i : Nat) : NoUB (s.unlinkR i) := by
  unfold unlinkR
  cases s.entries[i]? with
  | none => exact .err (by decide)
  | some e =>
    dsimp only
    refine .ite (fun _ => .ok) (fun _ => ?_)
    cases (s.mod i (fun e => { e with prev := i, next := i })).entries[e.next]? with
    | none => exact .err (by decide)
    | some n =>
      dsimp only
      cases ((s.mod i (fun e => { e with prev := i, next := i })).mod e.next
        (fun x => { x with prev := e.prev })).entries[e.prev]? with
      | none => exact .err (by decide)
      | some p => exact .ok

theorem removeR_safe (s : Slab T) (i : Nat) : NoUB (s.removeR i) := by
  refine .bind (unlinkR_safe s i) (fun x => ?_)
  obtain ⟨s1, n⟩ := x
  dsimp only
  cases s1.entries[i]? with
  | none => exact .err (by decide)
  | some e =>
    dsimp only
    cases e.item with
    | none => exact .ok
    | some y => exact .ok

theorem item_mod (s : Slab T) (t u : Nat) {f : SEntry T → SEntry T} (hf : ∀ e, (f e).item = e.item) :
    (s.mod t f).item u = s.item u := by
  unfold item mod
  simp only [List.getElem?_modify]
  cases s.entries[u]? with
  | none => rfl
  | some e =>
    simp only [Option.bind_some]
    split
    · exact hf e
    · rfl

/-- `unlink` moves no item. -/
theorem unlinkR_item {s : Slab T} {i : Nat} {x : Slab T × Option Nat} (h : s.unlinkR i = .ok x) (u : Nat) :
    x.1.item u = s.item u := by
  unfold unlinkR at h
  cases h1 : s.entries[i]? with
  | none => rw [h1] at h; cases h
  | some e =>
    rw [h1] at h
    dsimp only at h
    split at h
    · cases h; rfl
    · split at h
      · cases h
      · split at h
        · cases h
        · cases h
          dsimp only
          rw [item_mod, item_mod, item_mod] <;> intro _ <;> rfl

/-- `remove` returns the item of the slot. -/
theorem removeR_item {s : Slab T} {i : Nat} {x : Slab T × Option (T × Option Nat)} (h : s.removeR i = .ok x) :
    x.2.map (·.1) = s.item i := by
  unfold removeR at h
  cases h1 : s.unlinkR i with
  | error p => rw [h1] at h; cases h
  | ok y =>
    rw [h1] at h
    rw [← unlinkR_item h1 i]
    obtain ⟨s1, n⟩ := y
    simp only [Res.ok_bind] at h
    unfold item
    cases h2 : s1.entries[i]? with
    | none => rw [h2] at h; cases h
    | some e =>
      rw [h2] at h
      dsimp only at h
      simp only [Option.bind_some]
      cases h3 : e.item with
      | none => rw [h3] at h; cases h; rfl
      | some z => rw [h3] at h; cases h; rfl

theorem item_of_get {s : Slab T} {t n : Nat} {x : T} (h : s.get t = some (x, n)) : s.item t = some x := by
  unfold get at h
  unfold item
  rcases h1 : s.entries[t]? with _ | ⟨_ | _, _, _⟩
  · rw [h1] at h; cases h
  · rw [h1] at h; cases h
  · rw [h1] at h; cases h; rfl

end Slab

namespace Shard
variable {c : Cfg K V RS} {fu : Fuel}

theorem linkToR_safe (s : Shard K V) (i : RingId) (t : Nat) : NoUB (s.linkToR i t) :=
  .bind (Slab.linkR_safe ..) (fun _ => .ok)

theorem unlinkFromR_safe (s : Shard K V) (i : RingId) (t : Nat) : NoUB (s.unlinkFromR i t) :=
  .bind (Slab.unlinkR_safe ..) (fun _ => .ok)

theorem relinkR_safe (s : Shard K V) (st : St) (t o n : Nat) : NoUB (s.relinkR st t o n) :=
  .ite (fun _ => linkToR_safe ..) (fun _ => .ite (fun _ => unlinkFromR_safe ..) (fun _ => .ok))

theorem linkNewR_safe (s : Shard K V) (st : St) (t w : Nat) : NoUB (s.linkNewR st t w) :=
  .ite (fun _ => linkToR_safe ..) (fun _ => .ok)

theorem unlinkGhostR_safe (s : Shard K V) (t : Nat) : NoUB (s.unlinkGhostR t) :=
  .bind (Slab.unlinkR_safe ..) (fun _ => .ok)

theorem mapRemoveR_safe (s : Shard K V) (h : UInt64) (t : Nat) : NoUB (s.mapRemoveR h t) := .ok

theorem rehash_safe (e : Slab (Entry K V)) (m : List (UInt64 × Nat)) : NoUB (rehash c e m) := by
  induction m with
  | nil => exact .ok
  | cons b m ih =>
    unfold rehash
    rcases e.get b.2 with _ | ⟨_, _⟩
    · exact .err (by decide)
    · exact .bind ih (fun _ => .ok)

theorem mapInsert_safe (s : Shard K V) (h : UInt64) (t : Nat) : NoUB (s.mapInsert c h t) :=
  .bind (rehash_safe ..) (fun _ => .ok)

theorem searchLoop_safe (e : Slab (Entry K V)) (h : UInt64) (eqv : K → Bool) (l : List Nat) (o : Option Nat) :
    NoUB (searchLoop e h eqv l o) := by
  induction l generalizing o with
  | nil => exact .ok
  | cons t l ih =>
    unfold searchLoop
    rcases e.get t with _ | ⟨_ | _ | _, _⟩
    · exact .err (by decide)
    · exact .ite (fun _ => .ok) (fun _ => ih _)
    · exact .ite (fun _ => .ok) (fun _ => ih _)
    · exact ih _

theorem search_safe (s : Shard K V) (h : UInt64) (eqv : K → Bool) : NoUB (s.search h eqv) := searchLoop_safe ..

theorem searchResident_safe (s : Shard K V) (h : UInt64) (eqv : K → Bool) : NoUB (s.searchResident h eqv) := by
  unfold searchResident
  induction s.iterHash h with
  | nil => exact .ok
  | cons t l ih =>
    unfold searchResidentLoop
    rcases s.entries.get t with _ | ⟨_ | _ | _, _⟩
    · exact .err (by decide)
    · exact .ite (fun _ => .ok) (fun _ => ih)
    · exact ih
    · exact ih

theorem get_safe (s : Shard K V) (h : UInt64) (eqv : K → Bool) : NoUB (s.get h eqv) := by
  refine .bind (searchResident_safe ..) (fun x => ?_)
  cases x with
  | none => exact .ok
  | some y => exact .ok

theorem peek_safe (s : Shard K V) (h : UInt64) (eqv : K → Bool) : NoUB (s.peek h eqv) := by
  refine .bind (searchResident_safe ..) (fun x => ?_)
  cases x with
  | none => exact .ok
  | some y => exact .ok

theorem contains_safe (s : Shard K V) (h : UInt64) (eqv : K → Bool) : NoUB (s.contains h eqv) :=
  .bind (searchResident_safe ..) (fun _ => .ok)

theorem removePlaceholder_safe (s : Shard K V) (p : Plh) : NoUB (s.removePlaceholder c p) :=
  .ite (fun _ => .err (by decide)) (fun _ => .ok)

theorem coldChangeWeightR_safe (s : Shard K V) (t o n : Nat) : NoUB (s.coldChangeWeightR t o n) := by
  unfold coldChangeWeightR
  rcases s.entries.get t with _ | ⟨_ | _ | _, _⟩
  · exact .err (by decide)
  · exact .bind (rsub_safe ..) (fun _ => .bind (radd_safe ..) (fun _ => relinkR_safe ..))
  · exact .err (by decide)
  · exact .err (by decide)

/-- A mutable reference that may be used: one to a resident. -/
def Refers (s : Shard K V) (t : Nat) : Prop := ∃ r n, s.entries.get t = some (.resident r, n)

theorem refMutWriteR_safe {s : Shard K V} {t : Nat} (h : s.Refers t) (o : Nat) (f : V → V) :
    NoUB (s.refMutWriteR c t o f) := by
  obtain ⟨r, n, h⟩ := h
  unfold refMutWriteR
  rw [refMutPair_some h]
  simp only [Res.ok_bind]
  rw [refMutPair_some (get_setEntry h)]
  simp only [Res.ok_bind]
  exact .ite (fun _ => coldChangeWeightR_safe ..) (fun _ => .ok)

theorem peekTokenMut_refers {s : Shard K V} {t : Nat} {x : Nat × Nat} (h : s.peekTokenMut c t = some x) :
    s.Refers x.1 := by
  unfold peekTokenMut at h
  rcases h1 : s.entries.get t with _ | ⟨_ | _ | _, _⟩ <;> rw [h1] at h <;> cases h
  exact ⟨_, _, h1⟩

theorem peekMut_safe (s : Shard K V) (h : UInt64) (eqv : K → Bool) : NoUB (s.peekMut c h eqv) := by
  refine .bind (searchResident_safe ..) (fun x => ?_)
  cases x with
  | none => exact .ok
  | some y => exact .ok

theorem peekMut_refers {s : Shard K V} {h : UInt64} {eqv : K → Bool} {x : Nat × Nat}
    (hp : s.peekMut c h eqv = .ok (some x)) : s.Refers x.1 := by
  unfold peekMut at hp
  cases h1 : s.searchResident h eqv with
  | error p => rw [h1] at hp; cases hp
  | ok y =>
    rw [h1] at hp
    cases y with
    | none => cases hp
    | some z => exact peekTokenMut_refers (c := c) (t := z.1) (Except.ok.inj hp)

theorem getMut_safe (s : Shard K V) (h : UInt64) (eqv : K → Bool) : NoUB (s.getMut c h eqv) := by
  refine .bind (searchResident_safe ..) (fun x => ?_)
  cases x with
  | none => exact .ok
  | some y =>
    dsimp only
    rcases s.entries.get y.1 with _ | ⟨_ | _ | _, _⟩
    · exact .err (by decide)
    · exact .ok
    · exact .err (by decide)
    · exact .err (by decide)

theorem getMut_refers {s : Shard K V} {h : UInt64} {eqv : K → Bool} {x : Shard K V × Option (Nat × Nat)}
    (hp : s.getMut c h eqv = .ok x) {y : Nat × Nat} (hy : x.2 = some y) : x.1.Refers y.1 := by
  unfold getMut at hp
  cases h1 : s.searchResident h eqv with
  | error p => rw [h1] at hp; cases hp
  | ok z =>
    rw [h1] at hp
    cases z with
    | none => cases hp; cases hy
    | some z =>
      simp only [Res.ok_bind] at hp
      rcases h2 : s.entries.get z.1 with _ | ⟨r | _ | _, n⟩ <;> rw [h2] at hp <;> cases hp
      cases hy
      dsimp only
      split
      · exact ⟨_, _, get_setEntry h2⟩
      · exact ⟨_, _, h2⟩

theorem removeInternalR_safe (s : Shard K V) (h : UInt64) (t : Nat) : NoUB (s.removeInternalR c h t) := by
  refine .bind (mapRemoveR_safe ..) (fun s => .bind (Slab.removeR_safe ..) (fun x => ?_))
  obtain ⟨e, _ | ⟨_ | _ | _, _⟩⟩ := x
  · exact .err (by decide)
  · exact .bind (rsub_safe ..) (fun _ => .bind (rsub_safe ..) (fun _ => .ok))
  · exact .ok
  · exact .bind (rsub_safe ..) (fun _ => .ok)

theorem removeR_safe (s : Shard K V) (h : UInt64) (eqv : K → Bool) : NoUB (s.removeR c h eqv) := by
  refine .bind (search_safe ..) (fun x => ?_)
  cases x with
  | none => exact .ok
  | some t => exact removeInternalR_safe ..

theorem retainLoopR_safe (l : List (Nat × UInt64)) (s : Shard K V) : NoUB (retainLoopR c l s) := by
  induction l generalizing s with
  | nil => exact .ok
  | cons b l ih => exact .bind (removeInternalR_safe ..) (fun _ => ih _)

theorem hotVictimR_safe {s : Shard K V} (q : Req K V RS) {t n : Nat} {e : Entry K V} (r : Resident K V)
    (hg : s.entries.get t = some (e, n)) : NoUB (s.hotVictimR c q t r) := by
  refine .bind (rsub_safe ..) (fun w => ?_)
  dsimp only
  refine .ite (fun _ => .bind (unlinkFromR_safe ..) (fun _ => .ok)) (fun _ => .bind (rsub_safe ..) (fun n => ?_))
  refine .bind' (Slab.removeR_safe ..) (fun x hx => ?_)
  have h1 := Slab.removeR_item hx
  rw [Slab.item_of_get (get_setEntry hg)] at h1
  obtain ⟨e, _ | ⟨y, _⟩⟩ := x
  · cases h1
  · cases h1
    exact .bind (mapRemoveR_safe ..) (fun _ => .ok)

theorem advanceHotLoopR_safe (fuel : Nat) (s : Shard K V) (q : Req K V RS) (t u : Nat) :
    NoUB (advanceHotLoopR c fuel s q t u) := by
  induction fuel generalizing s q t u with
  | zero => exact .err (by decide)
  | succ fuel ih =>
    unfold advanceHotLoopR
    rcases h : s.entries.get t with _ | ⟨_ | _ | _, _⟩
    · exact .err (by decide)
    · exact .ite (fun _ => .ite (fun _ => .ok) (fun _ => ih ..))
        (fun _ => .ite (fun _ => ih ..) (fun _ => hotVictimR_safe _ _ h))
    · exact .err (by decide)
    · exact .err (by decide)

theorem advanceHotR_safe (s : Shard K V) (q : Req K V RS) : NoUB (s.advanceHotR fu c q) := by
  unfold advanceHotR
  cases s.hotHead with
  | none => exact .ok
  | some t => exact advanceHotLoopR_safe ..

theorem advanceGhostR_safe (s : Shard K V) : NoUB s.advanceGhostR := by
  unfold advanceGhostR
  cases s.ghostHead with
  | none => exact .err (by decide)
  | some t =>
    dsimp only
    rcases s.entries.get t with _ | ⟨_ | _ | _, _⟩
    · exact .err (by decide)
    · exact .err (by decide)
    · exact .err (by decide)
    · refine .bind (rsub_safe ..) (fun n => .bind (mapRemoveR_safe ..)
        (fun s => .bind (Slab.removeR_safe ..) (fun x => ?_)))
      obtain ⟨e, _ | _⟩ := x
      · exact .err (by decide)
      · exact .ok

theorem evictHotLoopR_safe (fuel : Nat) (s : Shard K V) (q : Req K V RS) : NoUB (evictHotLoopR fu c fuel s q) := by
  induction fuel generalizing s q with
  | zero => exact .err (by decide)
  | succ fuel ih =>
    exact .ite (fun _ => .bind (advanceHotR_safe ..) (fun _ => .ite (fun _ => ih ..) (fun _ => .ok))) (fun _ => .ok)

theorem coldPromoteR_safe (s : Shard K V) (q : Req K V RS) (t : Nat) (r : Resident K V) :
    NoUB (s.coldPromoteR fu c q t r) :=
  .bind (radd_safe ..) (fun _ => .bind (rsub_safe ..) (fun _ => .bind (rsub_safe ..) (fun _ =>
    .bind (unlinkFromR_safe ..) (fun _ => .bind (linkToR_safe ..) (fun _ =>
      .bind (evictHotLoopR_safe ..) (fun _ => .ok))))))

theorem coldVictimR_safe {s : Shard K V} (q : Req K V RS) {t n : Nat} {e : Entry K V} (r : Resident K V)
    (h : s.entries.get t = some (e, n)) : NoUB (s.coldVictimR c q t r) := by
  refine .bind (rsub_safe ..) (fun w => ?_)
  dsimp only
  refine .ite (fun _ => .bind (unlinkFromR_safe ..) (fun _ => .ok)) (fun _ => ?_)
  rw [get_setEntry h]
  exact .bind (unlinkFromR_safe ..) (fun _ => .bind (linkToR_safe ..) (fun _ => .bind (rsub_safe ..) (fun _ =>
    .ite (fun _ => .bind (advanceGhostR_safe ..) (fun _ => .ok)) (fun _ => .ok))))

theorem advanceColdLoopR_safe (fuel : Nat) (s : Shard K V) (q : Req K V RS) (t : Nat) :
    NoUB (advanceColdLoopR fu c fuel s q t) := by
  induction fuel generalizing s q t with
  | zero => exact .err (by decide)
  | succ fuel ih =>
    unfold advanceColdLoopR
    rcases h : s.entries.get t with _ | ⟨_ | _ | _, _⟩
    · exact .err (by decide)
    · exact .ite (fun _ => coldPromoteR_safe ..) (fun _ => .ite
        (fun _ => .ite (fun _ => advanceHotR_safe ..) (fun _ => ih ..)) (fun _ => coldVictimR_safe _ _ h))
    · exact .err (by decide)
    · exact .err (by decide)

theorem advanceColdR_safe (s : Shard K V) (q : Req K V RS) : NoUB (s.advanceColdR fu c q) := by
  unfold advanceColdR
  cases s.coldHead with
  | none => exact advanceHotR_safe ..
  | some t => exact advanceColdLoopR_safe ..

theorem evictLoopR_safe (extra fuel : Nat) (s : Shard K V) (q : Req K V RS) :
    NoUB (evictLoopR fu c extra fuel s q) := by
  induction fuel generalizing s q with
  | zero => exact .err (by decide)
  | succ fuel ih =>
    exact .bind (radd_safe ..) (fun _ => .bind (radd_safe ..) (fun _ =>
      .ite (fun _ => .bind (advanceColdR_safe ..) (fun _ => .ite (fun _ => ih ..) (fun _ => .ok))) (fun _ => .ok)))

theorem insertExistingR_safe (s : Shard K V) (q : Req K V RS) (t : Nat) (k : K) (v : V) (w : Nat) (str : Strategy) :
    NoUB (s.insertExistingR fu c q t k v w str) := by
  unfold insertExistingR
  rcases s.entries.get t with _ | ⟨_ | _ | _, _⟩
  · exact .err (by decide)
  · exact .bind (rsub_safe ..) (fun _ => .bind (radd_safe ..) (fun _ => .bind (relinkR_safe ..) (fun _ =>
      .bind (evictLoopR_safe ..) (fun _ => .ok))))
  · cases str with
    | replace _ => exact .ok
    | insert => exact .bind (radd_safe ..) (fun _ => .bind (linkNewR_safe ..) (fun _ =>
        .bind (evictLoopR_safe ..) (fun _ => .ok)))
  · cases str with
    | replace _ => exact .ok
    | insert => exact .bind (radd_safe ..) (fun _ => .bind (rsub_safe ..) (fun _ => .bind (unlinkGhostR_safe ..)
        (fun _ => .bind (linkNewR_safe ..) (fun _ => .bind (evictLoopR_safe ..) (fun _ => .ok)))))

theorem insertNewR_safe (s : Shard K V) (q : Req K V RS) (h : UInt64) (k : K) (v : V) (w : Nat) :
    NoUB (s.insertNewR fu c q h k v w) :=
  .bind (radd_safe ..) (fun _ => .bind (evictLoopR_safe ..) (fun _ => .bind (radd_safe ..) (fun _ =>
    .bind (Slab.insertR_safe ..) (fun _ => .bind (linkNewR_safe ..) (fun _ => .bind (mapInsert_safe ..) (fun _ => .ok))))))

theorem handleOverweightR_safe (s : Shard K V) (q : Req K V RS) (p : Plh) (k : K) (v : V) :
    NoUB (s.handleOverweightReplacePlaceholderR c q p k v) :=
  .bind (Slab.removeR_safe ..) (fun _ => .bind (mapRemoveR_safe ..) (fun _ => .ok))

theorem replacePlaceholderAdmitR_safe (s : Shard K V) (q : Req K V RS) (p : Plh) (k : K) (st : St) (b : Bool) (v : V)
    (w : Nat) : NoUB (s.replacePlaceholderAdmitR fu c q p k st b v w) :=
  .bind (radd_safe ..) (fun _ => .bind (radd_safe ..) (fun _ => .bind (radd_safe ..) (fun _ =>
    .ite (fun _ => .bind (linkToR_safe ..) (fun _ => evictLoopR_safe ..)) (fun _ => .ok))))

theorem replacePlaceholderR_safe (s : Shard K V) (q : Req K V RS) (p : Plh) (b : Bool) (v : V) :
    NoUB (s.replacePlaceholderR fu c q p b v) := by
  unfold replacePlaceholderR
  rcases s.entries.get p.idx with _ | ⟨_ | ph | _, _⟩
  · exact .ok
  · exact .ok
  · refine .ite (fun _ => ?_) (fun _ => .ok)
    exact .ite (fun _ => .ite (fun _ => .bind (handleOverweightR_safe ..) (fun _ => .ok))
      (fun _ => .bind (replacePlaceholderAdmitR_safe ..) (fun _ => .ok)))
      (fun _ => .bind (replacePlaceholderAdmitR_safe ..) (fun _ => .ok))
  · exact .ok

theorem upsertPlaceholderR_safe (s : Shard K V) (h : UInt64) (eqv : K → Bool) (k : K) :
    NoUB (s.upsertPlaceholderR c h eqv k) := by
  refine .bind (search_safe ..) (fun x => ?_)
  cases x with
  | some t =>
    dsimp only
    rcases s.entries.get t with _ | ⟨_ | _ | _, _⟩
    · exact .err (by decide)
    · exact .ok
    · exact .ok
    · exact .bind (rsub_safe ..) (fun _ => .bind (unlinkGhostR_safe ..) (fun _ => .ok))
  | none => exact .bind (Slab.insertR_safe ..) (fun _ => .bind (mapInsert_safe ..) (fun _ => .ok))

section
variable [DecidableEq K]

theorem handleInsertOverweightR_safe (s : Shard K V) (q : Req K V RS) (h : UInt64) (k : K) (v : V) (str : Strategy) :
    NoUB (s.handleInsertOverweightR c q h k v str) := by
  refine .bind (searchResident_safe ..) (fun x => ?_)
  rcases x with _ | ⟨t, r⟩
  · cases str <;> exact .ok
  · refine .bind (removeInternalR_safe ..) (fun x => ?_)
    obtain ⟨s1, _ | _⟩ := x <;> cases str <;> exact .ok

theorem insertAdmittedR_safe (s : Shard K V) (q : Req K V RS) (h : UInt64) (k : K) (v : V) (w : Nat) (str : Strategy) :
    NoUB (s.insertAdmittedR fu c q h k v w str) := by
  refine .bind (search_safe ..) (fun x => ?_)
  cases x with
  | some t => exact insertExistingR_safe ..
  | none =>
    cases str with
    | replace _ => exact .ok
    | insert => exact .bind (insertNewR_safe ..) (fun _ => .ok)

theorem insertR_safe (s : Shard K V) (q : Req K V RS) (h : UInt64) (k : K) (v : V) (str : Strategy) :
    NoUB (s.insertR fu c q h k v str) :=
  .ite (fun _ => .ite (fun _ => handleInsertOverweightR_safe ..) (fun _ => insertAdmittedR_safe ..))
    (fun _ => insertAdmittedR_safe ..)

end
end Shard

section
variable {c : Cfg K V RS} {fu : Fuel}
open Shard Unsync

theorem writeRefR_safe {s : Shard K V} (f : V → V) {r : Option (Nat × Nat)} (h : ∀ x, r = some x → s.Refers x.1) :
    NoUB (writeRefR c s f r) := by
  cases r with
  | none => exact .ok
  | some x => exact refMutWriteR_safe (h x rfl) _ _

theorem fillR_safe (s : Shard K V) (p : Plh) (v : V) : NoUB (fillR fu c s p v) :=
  .bind (replacePlaceholderR_safe ..) (fun _ => .ok)

theorem useGuardR_safe (s : Shard K V) (p : Plh) (u : GuardUse V) : NoUB (useGuardR fu c s p u) := by
  cases u with
  | insert v => exact fillR_safe ..
  | drop => exact .bind (removePlaceholder_safe ..) (fun _ => .ok)
  | forget => exact .ok

variable [DecidableEq K]

theorem getOrInsertTokenR_safe (s : Shard K V) (k : K) (l : Option V) : NoUB (getOrInsertTokenR fu c s k l) := by
  refine .bind (upsertPlaceholderR_safe ..) (fun x => ?_)
  obtain ⟨s1, _ | _⟩ := x
  · exact .ok
  · cases l with
    | none => exact .ok
    | some v => exact .bind (fillR_safe ..) (fun _ => .ok)

theorem stepR_safe (s : Shard K V) (op : Op K V) : NoUB (stepR fu c s op) := by
  cases op with
  | insert k v => exact .bind (.bind (insertR_safe ..) (fun _ => .ok)) (fun _ => .ok)
  | replace k v soft => exact .bind (.bind (insertR_safe ..) (fun _ => .ok)) (fun _ => .ok)
  | remove k => exact .bind (removeR_safe ..) (fun _ => .ok)
  | get k => exact .bind (get_safe ..) (fun _ => .ok)
  | peek k => exact .bind (peek_safe ..) (fun _ => .ok)
  | containsKey k => exact .bind (contains_safe ..) (fun _ => .ok)
  | getMut k f =>
    exact .bind' (getMut_safe ..) (fun x hx => .bind (writeRefR_safe _ (fun y hy => getMut_refers hx hy)) (fun _ => .ok))
  | peekMut k f =>
    exact .bind' (peekMut_safe ..) (fun x hx => .bind (writeRefR_safe _ (fun y hy => peekMut_refers (hy ▸ hx)))
      (fun _ => .ok))
  | retain f => exact .bind (retainLoopR_safe ..) (fun _ => .ok)
  | clear => exact .ok
  | drain => exact .ok
  | reserve => exact .bind (.bind (rehash_safe ..) (fun _ => .ok)) (fun _ => .ok)
  | getOrInsertWith k l => exact .bind (.bind (getOrInsertTokenR_safe ..) (fun _ => .ok)) (fun _ => .ok)
  | getMutOrInsertWith k l f =>
    refine .bind (.bind (getOrInsertTokenR_safe ..) (fun x => ?_)) (fun _ => .ok)
    obtain ⟨_, _, _, _ | _⟩ := x
    · exact .ok
    · exact .bind (writeRefR_safe _ (fun y hy => peekTokenMut_refers hy)) (fun _ => .ok)
  | getRefOrGuard k u =>
    refine .bind (.bind (upsertPlaceholderR_safe ..) (fun x => ?_)) (fun _ => .ok)
    obtain ⟨s1, _ | _⟩ := x
    · exact .ok
    · exact .bind (useGuardR_safe ..) (fun _ => .ok)
  | getMutOrGuard k f u =>
    refine .bind (.bind (upsertPlaceholderR_safe ..) (fun x => ?_)) (fun _ => .ok)
    obtain ⟨s1, _ | _⟩ := x
    · exact .bind (writeRefR_safe _ (fun y hy => peekTokenMut_refers hy)) (fun _ => .ok)
    · exact .bind (useGuardR_safe ..) (fun _ => .ok)

theorem sectR_safe (s : Shard K V) (sec : Section K V) : NoUB (Sync.stepR fu c s sec) := by
  cases sec with
  | call op => exact .bind (stepR_safe ..) (fun _ => .ok)
  | upsert k =>
    refine .bind (upsertPlaceholderR_safe ..) (fun x => ?_)
    obtain ⟨s1, _ | _⟩ := x <;> exact .ok
  | fill k p b v => exact .bind (replacePlaceholderR_safe ..) (fun _ => .ok)
  | abandon k p => exact .bind (removePlaceholder_safe ..) (fun _ => .ok)
  | find k => exact .bind (searchResident_safe ..) (fun _ => .ok)
  | load k t =>
    simp only [Sync.stepR, Sync.step]
    rcases s.entries.get t with _ | ⟨_ | _ | _, _⟩
    · exact .err (by decide)
    · exact .ok
    · exact .err (by decide)
    · exact .err (by decide)
  | bump k t =>
    simp only [Sync.stepR, Sync.step]
    rcases s.entries.get t with _ | ⟨_ | _ | _, _⟩
    · exact .err (by decide)
    · exact .ok
    · exact .err (by decide)
    · exact .err (by decide)
  | count b => exact .ok

end
end QuickCache
