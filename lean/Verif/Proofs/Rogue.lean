import Verif.Model.Rogue
import Verif.Proofs.NoUB

/-!
# No undefined behaviour, whatever user code does
-/

namespace QuickCache
variable {W K V RS α β : Type}

namespace Wild

/-- Never undefined behaviour. -/
structure Safe (x : Wild W α) : Prop where
  ne : ∀ w, (x w).1 ≠ .error (.own .ub)

/-- `a` is a possible result. -/
def Can (x : Wild W α) (a : α) : Prop := ∃ w w', x w = (.ok a, w')

theorem Safe.pure {a : α} : Safe (W := W) (Pure.pure a) := ⟨fun _ h => by cases h⟩

theorem Safe.lift {x : Res α} (h : NoUB x) : Safe (W := W) (lift x) := by
  refine ⟨fun w e => ?_⟩
  unfold Wild.lift at e
  cases x with
  | ok a => cases e
  | error p => exact h.ne (by cases e; rfl)

theorem Safe.err {p : Panic} (h : p ≠ .ub) : Safe (α := α) (W := W) (Wild.lift (.error p)) := .lift (.err h)

theorem Safe.call (f : User W α) : Safe (call f) := by
  refine ⟨fun w e => ?_⟩
  unfold Wild.call at e
  rcases h : f w with ⟨_ | _, _⟩ <;> rw [h] at e <;> cases e

theorem Safe.bind' {x : Wild W α} {f : α → Wild W β} (h : Safe x) (hf : ∀ a, Can x a → Safe (f a)) : Safe (x >>= f) := by
  refine ⟨fun w e => ?_⟩
  simp only [Bind.bind, Wild.bind] at e
  rcases hx : x w with ⟨a | a, w1⟩
  · rw [hx] at e
    have h2 := h.ne w
    rw [hx] at h2
    dsimp only at e h2
    cases e
    exact h2 rfl
  · rw [hx] at e
    exact (hf a ⟨w, w1, hx⟩).ne w1 e

theorem Safe.bind {x : Wild W α} {f : α → Wild W β} (h : Safe x) (hf : ∀ a, Safe (f a)) : Safe (x >>= f) :=
  h.bind' (fun a _ => hf a)

theorem Safe.ite {P : Prop} [Decidable P] {x y : Wild W α} (h1 : P → Safe x) (h2 : ¬P → Safe y) :
    Safe (if P then x else y) := by
  split
  · exact h1 ‹_›
  · exact h2 ‹_›

theorem Can.pure {a b : α} (h : Can (W := W) (Pure.pure a) b) : b = a := by
  obtain ⟨w, w', h⟩ := h
  cases h
  rfl

theorem Can.lift {x : Res α} {a : α} (h : Can (W := W) (lift x) a) : x = .ok a := by
  obtain ⟨w, w', h⟩ := h
  unfold Wild.lift at h
  cases x <;> cases h
  rfl

theorem Can.bind {x : Wild W α} {f : α → Wild W β} {b : β} (h : Can (x >>= f) b) : ∃ a, Can x a ∧ Can (f a) b := by
  obtain ⟨w, w', h⟩ := h
  simp only [Bind.bind, Wild.bind] at h
  rcases hx : x w with ⟨a | a, w1⟩ <;> rw [hx] at h
  · cases h
  · exact ⟨a, ⟨w, w1, hx⟩, w1, w', h⟩

end Wild

namespace Rogue
open Wild Shard
variable {u : Rogue W K V RS} {fu : Fuel}

theorem before_safe (q : Req K V RS) (k : K) (v : V) : Safe (u.before q k v) := .bind (.call _) (fun _ => .pure)

theorem on_safe (q : Req K V RS) (k : K) (v : V) : Safe (u.on q k v) := .bind (.call _) (fun _ => .pure)

theorem begin_safe : Safe u.begin := .bind (.call _) (fun _ => .pure)

theorem hashOf_safe (e : Entry K V) : Safe (u.hashOf e) := by
  cases e with
  | resident r => exact .call _
  | placeholder p => exact .call _
  | ghost h => exact .pure

theorem rehash_safe (e : Slab (Entry K V)) (m : List (UInt64 × Nat)) : Safe (u.rehash e m) := by
  induction m with
  | nil => exact .pure
  | cons b m ih =>
    unfold rehash
    rcases e.get b.2 with _ | ⟨_, _⟩
    · exact .err (by decide)
    · exact .bind (hashOf_safe _) (fun _ => .bind ih (fun _ => .pure))

theorem mapInsert_safe (s : Shard K V) (h : UInt64) (t : Nat) : Safe (u.mapInsert s h t) :=
  .bind (rehash_safe ..) (fun _ => .pure)

theorem searchLoop_safe (e : Slab (Entry K V)) (h : UInt64) (k : K) (l : List Nat) (o : Option Nat) :
    Safe (u.searchLoop e h k l o) := by
  induction l generalizing o with
  | nil => exact .pure
  | cons t l ih =>
    unfold searchLoop
    rcases e.get t with _ | ⟨_ | _ | _, _⟩
    · exact .err (by decide)
    · exact .bind (.call _) (fun _ => .ite (fun _ => .pure) (fun _ => ih _))
    · exact .bind (.call _) (fun _ => .ite (fun _ => .pure) (fun _ => ih _))
    · exact ih _

theorem search_safe (s : Shard K V) (h : UInt64) (k : K) : Safe (u.search s h k) := searchLoop_safe ..

theorem residentClosure_safe (e : Slab (Entry K V)) (k : K) (x : Option (Resident K V)) (t : Nat) :
    Safe (u.residentClosure e k x t) := by
  unfold residentClosure
  rcases e.get t with _ | ⟨_ | _ | _, _⟩
  · exact .err (by decide)
  · exact .bind (.call _) (fun _ => .ite (fun _ => .pure) (fun _ => .pure))
  · exact .pure
  · exact .pure

theorem findResident_safe (e : Slab (Entry K V)) (k : K) (l : List Nat) (x : Option (Resident K V)) :
    Safe (u.findResident e k l x) := by
  induction l generalizing x with
  | nil => exact .pure
  | cons t l ih =>
    refine .bind (residentClosure_safe ..) (fun a => ?_)
    rcases a with ⟨x1, _ | _⟩
    · exact ih _
    · exact .pure

/-- The closure returns true only after writing the cell, with the resident of the slot. -/
theorem residentClosure_true {e : Slab (Entry K V)} {k : K} {x y : Option (Resident K V)} {t : Nat}
    (h : Can (u.residentClosure e k x t) (y, true)) : ∃ r n, y = some r ∧ e.get t = some (.resident r, n) := by
  unfold residentClosure at h
  rcases hg : e.get t with _ | ⟨r | _ | _, n⟩ <;> rw [hg] at h
  · cases h.lift
  · obtain ⟨b, -, h⟩ := h.bind
    cases b with
    | true => cases h.pure; exact ⟨r, n, rfl, rfl⟩
    | false => cases h.pure
  · cases h.pure
  · cases h.pure

theorem findResident_some {e : Slab (Entry K V)} {k : K} {l : List Nat} {x y : Option (Resident K V)} {t : Nat}
    (h : Can (u.findResident e k l x) (y, some t)) : ∃ r n, y = some r ∧ e.get t = some (.resident r, n) := by
  induction l generalizing x with
  | nil => cases h.pure
  | cons t' l ih =>
    obtain ⟨a, ha, h⟩ := h.bind
    rcases a with ⟨x1, _ | _⟩
    · exact ih h
    · cases h.pure
      exact residentClosure_true ha

theorem searchResident_safe (s : Shard K V) (h : UInt64) (k : K) : Safe (u.searchResident s h k) := by
  refine .bind' (findResident_safe ..) (fun a ha => ?_)
  rcases a with ⟨_ | r, _ | t⟩
  · exact .pure
  · obtain ⟨r, n, h, -⟩ := findResident_some ha
    cases h
  · exact .pure
  · exact .pure

theorem contains_safe (s : Shard K V) (h : UInt64) (k : K) : Safe (u.contains s h k) :=
  .bind (searchResident_safe ..) (fun _ => .pure)

theorem get_safe (s : Shard K V) (h : UInt64) (k : K) : Safe (u.get s h k) := by
  refine .bind (searchResident_safe ..) (fun x => ?_)
  cases x <;> exact .pure

theorem peek_safe (s : Shard K V) (h : UInt64) (k : K) : Safe (u.peek s h k) := by
  refine .bind (searchResident_safe ..) (fun x => ?_)
  cases x <;> exact .pure

theorem peekTokenMut_safe (s : Shard K V) (t : Nat) : Safe (u.peekTokenMut s t) := by
  unfold peekTokenMut
  rcases s.entries.get t with _ | ⟨_ | _ | _, _⟩
  · exact .pure
  · exact .bind (.call _) (fun _ => .pure)
  · exact .pure
  · exact .pure

theorem peekTokenMut_refers {s : Shard K V} {t : Nat} {x : Nat × Nat} (h : Can (u.peekTokenMut s t) (some x)) :
    s.Refers x.1 := by
  unfold peekTokenMut at h
  rcases h1 : s.entries.get t with _ | ⟨_ | _ | _, _⟩ <;> rw [h1] at h
  · cases h.pure
  · obtain ⟨w, -, h⟩ := h.bind
    cases h.pure
    exact ⟨_, _, h1⟩
  · cases h.pure
  · cases h.pure

theorem peekMut_safe (s : Shard K V) (h : UInt64) (k : K) : Safe (u.peekMut s h k) := by
  refine .bind (searchResident_safe ..) (fun x => ?_)
  cases x with
  | none => exact .pure
  | some y => exact peekTokenMut_safe ..

theorem peekMut_refers {s : Shard K V} {h : UInt64} {k : K} {x : Nat × Nat} (hp : Can (u.peekMut s h k) (some x)) :
    s.Refers x.1 := by
  obtain ⟨y, -, hp⟩ := hp.bind
  cases y with
  | none => cases hp.pure
  | some z => exact peekTokenMut_refers hp

theorem getMut_safe (s : Shard K V) (h : UInt64) (k : K) : Safe (u.getMut s h k) := by
  refine .bind (searchResident_safe ..) (fun x => ?_)
  cases x with
  | none => exact .pure
  | some y =>
    dsimp only
    rcases s.entries.get y.1 with _ | ⟨_ | _ | _, _⟩
    · exact .err (by decide)
    · exact .bind (.call _) (fun _ => .pure)
    · exact .err (by decide)
    · exact .err (by decide)

theorem getMut_refers {s : Shard K V} {h : UInt64} {k : K} {x : Shard K V × Option (Nat × Nat)}
    (hp : Can (u.getMut s h k) x) {y : Nat × Nat} (hy : x.2 = some y) : x.1.Refers y.1 := by
  obtain ⟨z, -, hp⟩ := hp.bind
  cases z with
  | none => cases hp.pure; cases hy
  | some z =>
    dsimp only at hp
    rcases h2 : s.entries.get z.1 with _ | ⟨r | _ | _, n⟩ <;> rw [h2] at hp
    · cases hp.lift
    · obtain ⟨w, -, hp⟩ := hp.bind
      cases hp.pure
      cases hy
      dsimp only
      split
      · exact ⟨_, _, get_setEntry h2⟩
      · exact ⟨_, _, h2⟩
    · cases hp.lift
    · cases hp.lift

theorem dropRef_safe {s : Shard K V} {t : Nat} (h : s.Refers t) (o : Nat) : Safe (u.dropRef s t o) := by
  obtain ⟨r, n, h⟩ := h
  unfold dropRef
  rw [refMutPair_some h]
  exact .bind (.lift .ok) (fun _ => .bind (.call _) (fun _ => .ite (fun _ => .lift (coldChangeWeightR_safe ..))
    (fun _ => .pure)))

theorem writes_safe {s : Shard K V} {t : Nat} (h : s.Refers t) (o : Nat)
    (fs : List (V → W → V × Option Unit × W)) : Safe (u.writes s t o fs) := by
  induction fs generalizing s with
  | nil => exact .pure
  | cons f fs ih =>
    obtain ⟨r, n, h⟩ := h
    unfold writes
    rw [refMutPair_some h]
    refine .bind (.lift .ok) (fun r' => ⟨fun w e => ?_⟩)
    have hr : ∀ v, (s.setEntry t (.resident { r' with value := v })).Refers t := fun v => ⟨_, _, get_setEntry h⟩
    rcases hf : f r'.value w with ⟨v, _ | _, w1⟩
    · rw [hf] at e
      dsimp only at e
      have hd := (dropRef_safe (u := u) (hr v) o).ne w1
      rcases hd1 : u.dropRef (s.setEntry t (.resident { r' with value := v })) t o w1 with ⟨e1 | _, w2⟩
      · rw [hd1] at e hd
        exact hd e
      · rw [hd1] at e
        cases e
    · rw [hf] at e
      exact (ih (hr v)).ne w1 e

theorem writes_refers {s s' : Shard K V} {t o : Nat} (h : s.Refers t) {fs : List (V → W → V × Option Unit × W)}
    (hc : Can (u.writes s t o fs) s') : s'.Refers t := by
  induction fs generalizing s with
  | nil => cases hc.pure; exact h
  | cons f fs ih =>
    obtain ⟨r, n, h⟩ := h
    unfold writes at hc
    rw [refMutPair_some h] at hc
    obtain ⟨r', -, w, w', hc⟩ := hc.bind
    have hr : ∀ v, (s.setEntry t (.resident { r' with value := v })).Refers t := fun v => ⟨_, _, get_setEntry h⟩
    dsimp only at hc
    rcases hf : f r'.value w with ⟨v, _ | _, w1⟩ <;> rw [hf] at hc
    · dsimp only at hc
      rcases hd1 : u.dropRef (s.setEntry t (.resident { r' with value := v })) t o w1 with ⟨e1 | _, w2⟩ <;>
        rw [hd1] at hc <;> cases hc
    · exact ih (hr v) ⟨w1, w', hc⟩

theorem useRef_safe {s : Shard K V} (x : RefUse W V) {r : Option (Nat × Nat)} (h : ∀ y, r = some y → s.Refers y.1) :
    Safe (u.useRef s x r) := by
  cases r with
  | none => exact .pure
  | some y =>
    exact .bind' (writes_safe (h y rfl) _ _) (fun s1 h1 => .ite (fun _ => .pure)
      (fun _ => dropRef_safe (writes_refers (h y rfl) h1) _))

theorem removeInternal_safe (s : Shard K V) (h : UInt64) (t : Nat) : Safe (u.removeInternal s h t) := by
  refine .bind (.lift (mapRemoveR_safe ..)) (fun s => .bind (.lift (Slab.removeR_safe ..)) (fun x => ?_))
  obtain ⟨e, _ | ⟨_ | _ | _, _⟩⟩ := x
  · exact .err (by decide)
  · exact .bind (.lift (rsub_safe ..)) (fun _ => .bind (.call _) (fun _ => .bind (.lift (rsub_safe ..)) (fun _ => .pure)))
  · exact .pure
  · exact .bind (.lift (rsub_safe ..)) (fun _ => .pure)

theorem remove_safe (s : Shard K V) (h : UInt64) (k : K) : Safe (u.remove s h k) := by
  refine .bind (search_safe ..) (fun x => ?_)
  cases x with
  | none => exact .pure
  | some t => exact removeInternal_safe ..

theorem retainTokens_safe (e : Slab (Entry K V)) (f : K → V → User W Bool) (m : List (UInt64 × Nat)) :
    Safe (u.retainTokens e f m) := by
  induction m with
  | nil => exact .pure
  | cons b m ih =>
    unfold retainTokens
    rcases e.get b.2 with _ | ⟨_ | _ | _, _⟩
    · exact ih
    · exact .bind (.call _) (fun _ => .ite (fun _ => ih) (fun _ => .bind (.call _) (fun _ => .bind ih (fun _ => .pure))))
    · exact ih
    · exact ih

theorem retainLoop_safe (l : List (Nat × UInt64)) (s : Shard K V) : Safe (u.retainLoop l s) := by
  induction l generalizing s with
  | nil => exact .pure
  | cons b l ih => exact .bind (removeInternal_safe ..) (fun _ => ih _)

theorem hotVictim_safe {s : Shard K V} (q : Req K V RS) {t n : Nat} {e : Entry K V} (r : Resident K V)
    (hg : s.entries.get t = some (e, n)) : Safe (u.hotVictim s q t r) := by
  refine .bind (.call _) (fun w0 => .bind (.lift (rsub_safe ..)) (fun w => .bind (before_safe ..) (fun y =>
    .bind (.call _) (fun w1 => ?_))))
  refine .ite (fun _ => .bind (.lift (unlinkFromR_safe ..)) (fun _ => .pure)) (fun _ =>
    .bind (.lift (rsub_safe ..)) (fun n => .bind (.call _) (fun h => ?_)))
  refine .bind' (.lift (Slab.removeR_safe ..)) (fun x hx => ?_)
  have h1 := Slab.removeR_item hx.lift
  rw [Slab.item_of_get (get_setEntry hg)] at h1
  obtain ⟨e, _ | ⟨z, _⟩⟩ := x
  · cases h1
  · cases h1
    exact .bind (on_safe ..) (fun _ => .bind (.lift (mapRemoveR_safe ..)) (fun _ => .pure))

theorem advanceHotLoop_safe (fuel : Nat) (s : Shard K V) (q : Req K V RS) (t n : Nat) :
    Safe (u.advanceHotLoop fuel s q t n) := by
  induction fuel generalizing s q t n with
  | zero => exact .err (by decide)
  | succ fuel ih =>
    unfold advanceHotLoop
    rcases h : s.entries.get t with _ | ⟨_ | _ | _, _⟩
    · exact .err (by decide)
    · exact .bind (.call _) (fun _ => .ite (fun _ => .ite (fun _ => .pure) (fun _ => ih ..))
        (fun _ => .ite (fun _ => ih ..) (fun _ => hotVictim_safe _ _ h)))
    · exact .err (by decide)
    · exact .err (by decide)

theorem advanceHot_safe (s : Shard K V) (q : Req K V RS) : Safe (u.advanceHot fu s q) := by
  unfold advanceHot
  cases s.hotHead with
  | none => exact .pure
  | some t => exact advanceHotLoop_safe ..

theorem evictHotLoop_safe (fuel : Nat) (s : Shard K V) (q : Req K V RS) : Safe (u.evictHotLoop fu fuel s q) := by
  induction fuel generalizing s q with
  | zero => exact .err (by decide)
  | succ fuel ih =>
    exact .ite (fun _ => .bind (advanceHot_safe ..) (fun _ => .ite (fun _ => ih ..) (fun _ => .pure))) (fun _ => .pure)

theorem coldPromote_safe (s : Shard K V) (q : Req K V RS) (t : Nat) (r : Resident K V) :
    Safe (u.coldPromote fu s q t r) :=
  .bind (.call _) (fun _ => .bind (.lift (radd_safe ..)) (fun _ => .bind (.lift (rsub_safe ..)) (fun _ =>
    .bind (.lift (rsub_safe ..)) (fun _ => .bind (.lift (unlinkFromR_safe ..)) (fun _ =>
      .bind (.lift (linkToR_safe ..)) (fun _ => .bind (evictHotLoop_safe ..) (fun _ => .pure)))))))

theorem coldVictim_safe {s : Shard K V} (q : Req K V RS) {t n : Nat} {e : Entry K V} (r : Resident K V)
    (h : s.entries.get t = some (e, n)) : Safe (u.coldVictim s q t r) := by
  refine .bind (.call _) (fun w0 => .bind (.lift (rsub_safe ..)) (fun w => .bind (before_safe ..) (fun y =>
    .bind (.call _) (fun w1 => ?_))))
  refine .ite (fun _ => .bind (.lift (unlinkFromR_safe ..)) (fun _ => .pure)) (fun _ => .bind (.call _) (fun g => ?_))
  dsimp only
  rw [get_setEntry h]
  refine .bind (.lift (unlinkFromR_safe ..)) (fun _ => .bind (.lift (linkToR_safe ..)) (fun _ =>
    .bind (.lift (rsub_safe ..)) (fun _ => .bind (.lift (.ite (fun _ => advanceGhostR_safe ..) (fun _ => .ok)))
      (fun _ => .bind (on_safe ..) (fun _ => .pure)))))

theorem advanceColdLoop_safe (fuel : Nat) (s : Shard K V) (q : Req K V RS) (t : Nat) :
    Safe (u.advanceColdLoop fu fuel s q t) := by
  induction fuel generalizing s q t with
  | zero => exact .err (by decide)
  | succ fuel ih =>
    unfold advanceColdLoop
    rcases h : s.entries.get t with _ | ⟨_ | _ | _, _⟩
    · exact .err (by decide)
    · exact .ite (fun _ => coldPromote_safe ..) (fun _ => .bind (.call _) (fun _ => .ite
        (fun _ => .ite (fun _ => advanceHot_safe ..) (fun _ => ih ..)) (fun _ => coldVictim_safe _ _ h)))
    · exact .err (by decide)
    · exact .err (by decide)

theorem advanceCold_safe (s : Shard K V) (q : Req K V RS) : Safe (u.advanceCold fu s q) := by
  unfold advanceCold
  cases s.coldHead with
  | none => exact advanceHot_safe ..
  | some t => exact advanceColdLoop_safe ..

theorem evictLoop_safe (extra fuel : Nat) (s : Shard K V) (q : Req K V RS) :
    Safe (u.evictLoop fu extra fuel s q) := by
  induction fuel generalizing s q with
  | zero => exact .err (by decide)
  | succ fuel ih =>
    exact .bind (.lift (radd_safe ..)) (fun _ => .bind (.lift (radd_safe ..)) (fun _ =>
      .ite (fun _ => .bind (advanceCold_safe ..) (fun _ => .ite (fun _ => ih ..) (fun _ => .pure))) (fun _ => .pure)))

theorem insertExisting_safe (s : Shard K V) (q : Req K V RS) (t : Nat) (k : K) (v : V) (w : Nat) (str : Strategy) :
    Safe (u.insertExisting fu s q t k v w str) := by
  unfold insertExisting
  rcases s.entries.get t with _ | ⟨_ | _ | _, _⟩
  · exact .err (by decide)
  · exact .bind (.call _) (fun _ => .bind (.lift (rsub_safe ..)) (fun _ => .bind (.lift (radd_safe ..)) (fun _ =>
      .bind (.lift (relinkR_safe ..)) (fun _ => .bind (on_safe ..) (fun _ =>
        .bind (evictLoop_safe ..) (fun _ => .pure))))))
  · cases str with
    | replace _ => exact .pure
    | insert => exact .bind (.lift (radd_safe ..)) (fun _ => .bind (.lift (linkNewR_safe ..)) (fun _ =>
        .bind (evictLoop_safe ..) (fun _ => .pure)))
  · cases str with
    | replace _ => exact .pure
    | insert => exact .bind (.lift (radd_safe ..)) (fun _ => .bind (.lift (rsub_safe ..)) (fun _ =>
        .bind (.lift (unlinkGhostR_safe ..)) (fun _ => .bind (.lift (linkNewR_safe ..)) (fun _ =>
          .bind (evictLoop_safe ..) (fun _ => .pure)))))

theorem insertNew_safe (s : Shard K V) (q : Req K V RS) (h : UInt64) (k : K) (v : V) (w : Nat) :
    Safe (u.insertNew fu s q h k v w) :=
  .bind (.lift (radd_safe ..)) (fun _ => .bind (evictLoop_safe ..) (fun _ => .bind (.lift (radd_safe ..)) (fun _ =>
    .bind (.lift (Slab.insertR_safe ..)) (fun _ => .bind (.lift (linkNewR_safe ..)) (fun _ =>
      .bind (mapInsert_safe ..) (fun _ => .pure))))))

theorem tooHeavy_safe (s : Shard K V) (w : Nat) (k : K) (v : V) : Safe (u.tooHeavy s w k v) :=
  .ite (fun _ => .bind (.call _) (fun _ => .pure)) (fun _ => .pure)

theorem removePlaceholder_safe (s : Shard K V) (p : Plh) : NoUB (u.removePlaceholder s p) :=
  .ite (fun _ => .err (by decide)) (fun _ => .ok)

theorem handleOverweight_safe (s : Shard K V) (q : Req K V RS) (p : Plh) (k : K) (v : V) :
    Safe (u.handleOverweightReplacePlaceholder s q p k v) :=
  .bind (.lift (Slab.removeR_safe ..)) (fun _ => .bind (.lift (mapRemoveR_safe ..)) (fun _ =>
    .bind (on_safe ..) (fun _ => .pure)))

theorem replacePlaceholderAdmit_safe (s : Shard K V) (q : Req K V RS) (p : Plh) (k : K) (st : St) (b : Bool) (v : V)
    (w : Nat) : Safe (u.replacePlaceholderAdmit fu s q p k st b v w) :=
  .bind (.lift (radd_safe ..)) (fun _ => .bind (.lift (radd_safe ..)) (fun _ => .bind (.lift (radd_safe ..)) (fun _ =>
    .ite (fun _ => .bind (.lift (linkToR_safe ..)) (fun _ => evictLoop_safe ..)) (fun _ => .pure))))

theorem replacePlaceholder_safe (s : Shard K V) (q : Req K V RS) (p : Plh) (b : Bool) (v : V) :
    Safe (u.replacePlaceholder fu s q p b v) := by
  unfold replacePlaceholder
  rcases s.entries.get p.idx with _ | ⟨_ | ph | _, _⟩
  · exact .pure
  · exact .pure
  · refine .ite (fun _ => ?_) (fun _ => .pure)
    exact .bind (.call _) (fun _ => .bind (tooHeavy_safe ..) (fun _ => .ite
      (fun _ => .bind (before_safe ..) (fun _ => .bind (.call _) (fun _ => .ite
        (fun _ => .bind (handleOverweight_safe ..) (fun _ => .pure))
        (fun _ => .bind (replacePlaceholderAdmit_safe ..) (fun _ => .pure)))))
      (fun _ => .bind (replacePlaceholderAdmit_safe ..) (fun _ => .pure))))
  · exact .pure

theorem upsertPlaceholder_safe (s : Shard K V) (h : UInt64) (k : K) : Safe (u.upsertPlaceholder s h k) := by
  refine .bind (search_safe ..) (fun x => ?_)
  cases x with
  | some t =>
    dsimp only
    rcases s.entries.get t with _ | ⟨_ | _ | _, _⟩
    · exact .err (by decide)
    · exact .pure
    · exact .pure
    · exact .bind (.call _) (fun _ => .bind (.lift (rsub_safe ..)) (fun _ =>
        .bind (.lift (unlinkGhostR_safe ..)) (fun _ => .pure)))
  | none => exact .bind (.call _) (fun _ => .bind (.lift (Slab.insertR_safe ..)) (fun _ =>
      .bind (mapInsert_safe ..) (fun _ => .pure)))

theorem evictOld_safe (s : Shard K V) (q : Req K V RS) (h : UInt64) (k : K) : Safe (u.evictOld s q h k) := by
  refine .bind (searchResident_safe ..) (fun x => ?_)
  rcases x with _ | ⟨t, r⟩
  · exact .pure
  · refine .bind (removeInternal_safe ..) (fun x => ?_)
    obtain ⟨s1, _ | _⟩ := x
    · exact .pure
    · exact .bind (on_safe ..) (fun _ => .pure)

theorem handleInsertOverweight_safe (s : Shard K V) (q : Req K V RS) (h : UInt64) (k : K) (v : V) (str : Strategy) :
    Safe (u.handleInsertOverweight s q h k v str) := by
  refine .bind (evictOld_safe ..) (fun x => ?_)
  cases str with
  | replace _ => exact .pure
  | insert => exact .bind (on_safe ..) (fun _ => .pure)

theorem insertAdmitted_safe (s : Shard K V) (q : Req K V RS) (h : UInt64) (k : K) (v : V) (w : Nat) (str : Strategy) :
    Safe (u.insertAdmitted fu s q h k v w str) := by
  refine .bind (search_safe ..) (fun x => ?_)
  cases x with
  | some t => exact insertExisting_safe ..
  | none =>
    cases str with
    | replace _ => exact .pure
    | insert => exact .bind (insertNew_safe ..) (fun _ => .pure)

theorem insert_safe (s : Shard K V) (q : Req K V RS) (h : UInt64) (k : K) (v : V) (str : Strategy) :
    Safe (u.insert fu s q h k v str) :=
  .bind (.call _) (fun _ => .bind (tooHeavy_safe ..) (fun _ => .ite
    (fun _ => .bind (before_safe ..) (fun _ => .bind (.call _) (fun _ => .ite
      (fun _ => handleInsertOverweight_safe ..) (fun _ => insertAdmitted_safe ..))))
    (fun _ => insertAdmitted_safe ..)))

theorem insertCall_safe (s : Shard K V) (k : K) (v : V) : Safe (u.insertCall fu s k v) :=
  .bind begin_safe (fun _ => .bind (.call _) (fun _ => .bind (insert_safe ..) (fun _ => .bind (.call _) (fun _ => .pure))))

theorem replaceCall_safe (s : Shard K V) (k : K) (v : V) (soft : Bool) : Safe (u.replaceCall fu s k v soft) := by
  refine .bind begin_safe (fun _ => .bind (.call _) (fun _ => .bind (insert_safe ..) (fun x => ?_)))
  obtain ⟨_, _, _ | _⟩ := x
  · exact .bind (.call _) (fun _ => .pure)
  · exact .pure

theorem fill_safe (s : Shard K V) (p : Plh) (v : V) : Safe (u.fill fu s p v) :=
  .bind begin_safe (fun _ => .bind (replacePlaceholder_safe ..) (fun _ => .bind (.call _) (fun _ => .pure)))

theorem getOrInsertToken_safe (s : Shard K V) (k : K) (l : User W (Option V)) : Safe (u.getOrInsertToken fu s k l) := by
  refine .bind (.call _) (fun _ => .bind (upsertPlaceholder_safe ..) (fun x => ?_))
  obtain ⟨s1, _ | _⟩ := x
  · exact .pure
  · refine .bind (.call _) (fun y => ?_)
    cases y with
    | none => exact .pure
    | some v => exact .bind (fill_safe ..) (fun _ => .pure)

theorem useGuard_safe (s : Shard K V) (p : Plh) (g : GuardUse V) : Safe (u.useGuard fu s p g) := by
  cases g with
  | insert v => exact .bind (fill_safe ..) (fun _ => .pure)
  | drop => exact .lift (removePlaceholder_safe ..)
  | forget => exact .pure

theorem step_safe (s : Shard K V) (op : RogueOp W K V) : Safe (u.step fu s op) := by
  cases op with
  | insert k v => exact .bind (insertCall_safe ..) (fun _ => .pure)
  | replace k v soft => exact .bind (replaceCall_safe ..) (fun _ => .pure)
  | remove k => exact .bind (.call _) (fun _ => .bind (remove_safe ..) (fun _ => .pure))
  | get k => exact .bind (.call _) (fun _ => .bind (get_safe ..) (fun _ => .pure))
  | peek k => exact .bind (.call _) (fun _ => .bind (peek_safe ..) (fun _ => .pure))
  | containsKey k => exact .bind (.call _) (fun _ => .bind (contains_safe ..) (fun _ => .pure))
  | getMut k x =>
    exact .bind (.call _) (fun _ => .bind' (getMut_safe ..) (fun y hy =>
      .bind (useRef_safe _ (fun z hz => getMut_refers hy hz)) (fun _ => .pure)))
  | peekMut k x =>
    exact .bind (.call _) (fun _ => .bind' (peekMut_safe ..) (fun y hy =>
      .bind (useRef_safe _ (fun z hz => peekMut_refers (hz ▸ hy))) (fun _ => .pure)))
  | retain f => exact .bind (.bind (retainTokens_safe ..) (fun _ => retainLoop_safe ..)) (fun _ => .pure)
  | clear => exact .pure
  | drain => exact .pure
  | reserve => exact .bind (.bind (rehash_safe ..) (fun _ => .pure)) (fun _ => .pure)
  | getOrInsertWith k l => exact .bind (getOrInsertToken_safe ..) (fun _ => .pure)
  | getMutOrInsertWith k l x =>
    refine .bind (getOrInsertToken_safe ..) (fun y => ?_)
    obtain ⟨_, _, _ | _⟩ := y
    · exact .pure
    · exact .bind' (peekTokenMut_safe ..) (fun z hz => .bind (useRef_safe _ (fun a ha => peekTokenMut_refers (ha ▸ hz)))
        (fun _ => .pure))
  | getRefOrGuard k g =>
    refine .bind (.call _) (fun _ => .bind (upsertPlaceholder_safe ..) (fun y => ?_))
    obtain ⟨s1, _ | _⟩ := y
    · exact .pure
    · exact .bind (useGuard_safe ..) (fun _ => .pure)
  | getMutOrGuard k x g =>
    refine .bind (.call _) (fun _ => .bind (upsertPlaceholder_safe ..) (fun y => ?_))
    obtain ⟨s1, _ | _⟩ := y
    · exact .bind' (peekTokenMut_safe ..) (fun z hz => .bind (useRef_safe _ (fun a ha => peekTokenMut_refers (ha ▸ hz)))
        (fun _ => .pure))
    · exact .bind (useGuard_safe ..) (fun _ => .pure)

theorem sect_safe (s : Shard K V) (q : Req K V RS) (x : Sect W K V) : Safe (u.sect fu s q x) := by
  cases x with
  | call op => exact .bind (step_safe ..) (fun _ => .pure)
  | upsert k h =>
    refine .bind (upsertPlaceholder_safe ..) (fun x => ?_)
    obtain ⟨s1, _ | _⟩ := x <;> exact .pure
  | fill p b v => exact .bind (replacePlaceholder_safe ..) (fun _ => .pure)
  | abandon p => exact .bind (.lift (removePlaceholder_safe ..)) (fun _ => .pure)
  | find k h => exact .bind (searchResident_safe ..) (fun _ => .pure)
  | load t =>
    simp only [sect]
    rcases s.entries.get t with _ | ⟨_ | _ | _, _⟩
    · exact .err (by decide)
    · exact .pure
    · exact .err (by decide)
    · exact .err (by decide)
  | bump t =>
    simp only [sect]
    rcases s.entries.get t with _ | ⟨_ | _ | _, _⟩
    · exact .err (by decide)
    · exact .pure
    · exact .err (by decide)
    · exact .err (by decide)
  | count b => exact .pure

end Rogue
end QuickCache
