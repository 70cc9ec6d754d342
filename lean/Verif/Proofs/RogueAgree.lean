import Verif.Spec.Rogue
import Verif.Proofs.Rogue

/-!
# With well-behaved user code the functions of `Verif.Model.Rogue` are those of the release build
-/

namespace QuickCache
variable {W K V RS α β : Type}

namespace Wild

/-- Does what `y` does, leaving the world alone. -/
def Is (x : Wild W α) (y : Res α) : Prop := x = lift y

theorem Is.refl {y : Res α} : Is (W := W) (lift y) y := rfl

theorem Is.pure {a : α} : Is (W := W) (Pure.pure a) (.ok a) := rfl

theorem Is.bind {x : Wild W α} {y : Res α} {f : α → Wild W β} {g : α → Res β} (h : Is x y) (hf : ∀ a, Is (f a) (g a)) :
    Is (x >>= f) (y >>= g) := by
  unfold Is at h ⊢
  subst h
  cases y with
  | ok a => exact hf a
  | error p => rfl

/-- A step that does nothing but yield `a`. -/
theorem Is.val {x : Wild W α} {a : α} {f : α → Wild W β} {y : Res β} (h : Is x (.ok a)) (hf : Is (f a) y) :
    Is (x >>= f) y := by
  unfold Is at h
  subst h
  exact hf

theorem Is.call {a : α} : Is (W := W) (Wild.call (fun w => (some a, w))) (.ok a) := rfl

theorem Is.ite {P : Prop} [Decidable P] {x x' : Wild W α} {y y' : Res α} (h1 : P → Is x y) (h2 : ¬P → Is x' y') :
    Is (if P then x else x') (if P then y else y') := by
  split
  · exact h1 ‹_›
  · exact h2 ‹_›

end Wild

namespace Rogue
open Wild Shard Spec
variable [DecidableEq K] {c : Cfg K V RS} {fu : Fuel}

local notation "u" => (honest (W := W) c)

theorem before_is (q : Req K V RS) (k : K) (v : V) : Is (Rogue.before u q k v) (.ok (q.before c k v)) := rfl

theorem on_is (q : Req K V RS) (k : K) (v : V) : Is (Rogue.on u q k v) (.ok (q.on c k v)) := rfl

theorem begin_is : Is (Rogue.begin u) (.ok c.begin) := rfl

theorem hashOf_is (e : Entry K V) : Is (Rogue.hashOf u e) (.ok (Shard.hashOf c e)) := by
  cases e <;> rfl

theorem rehash_is (e : Slab (Entry K V)) (m : List (UInt64 × Nat)) : Is (Rogue.rehash u e m) (Shard.rehash c e m) := by
  induction m with
  | nil => exact .pure
  | cons b m ih =>
    unfold Rogue.rehash Shard.rehash
    rcases e.get b.2 with _ | ⟨_, _⟩
    · exact .refl
    · exact .val (hashOf_is _) (.bind ih (fun _ => .pure))

theorem mapInsert_is (s : Shard K V) (h : UInt64) (t : Nat) : Is (Rogue.mapInsert u s h t) (s.mapInsert c h t) :=
  .bind (rehash_is ..) (fun _ => .pure)

theorem searchLoop_is (e : Slab (Entry K V)) (h : UInt64) (k : K) (l : List Nat) (o : Option Nat) :
    Is (Rogue.searchLoop u e h k l o) (Shard.searchLoop e h (fun x => x == k) l o) := by
  induction l generalizing o with
  | nil => exact .pure
  | cons t l ih =>
    unfold Rogue.searchLoop Shard.searchLoop
    rcases e.get t with _ | ⟨_ | _ | _, _⟩
    · exact .refl
    · exact .val .call (.ite (fun _ => .pure) (fun _ => ih _))
    · exact .val .call (.ite (fun _ => .pure) (fun _ => ih _))
    · exact ih _

theorem search_is (s : Shard K V) (h : UInt64) (k : K) : Is (Rogue.search u s h k) (s.search h (fun x => x == k)) :=
  searchLoop_is ..

theorem findResident_is (e : Slab (Entry K V)) (k : K) (l : List Nat) :
    Is (Rogue.findResident u e k l none) (do
      match ← searchResidentLoop e (fun x => x == k) l with
      | none => .ok (none, none)
      | some (t, r) => .ok (some r, some t)) := by
  induction l with
  | nil => exact .pure
  | cons t l ih =>
    unfold Rogue.findResident Rogue.residentClosure searchResidentLoop
    rcases e.get t with _ | ⟨r | _ | _, _⟩
    · rfl
    · cases hb : r.key == k with
      | true => exact .val (a := (some r, true)) (.val .call (by rw [hb]; exact .pure)) (by
          dsimp only; rw [hb]; exact .pure)
      | false => exact .val (a := (none, false)) (.val .call (by rw [hb]; exact .pure)) (by
          dsimp only; rw [hb]; exact ih)
    · exact .val (a := (none, false)) .pure ih
    · exact .val (a := (none, false)) .pure ih

theorem searchResident_is (s : Shard K V) (h : UInt64) (k : K) :
    Is (Rogue.searchResident u s h k) (s.searchResident h (fun x => x == k)) := by
  have h1 := findResident_is (W := W) (c := c) s.entries k (s.iterHash h)
  unfold Rogue.searchResident Shard.searchResident
  unfold Is at h1
  rw [h1]
  cases searchResidentLoop s.entries (fun x => x == k) (s.iterHash h) with
  | error p => rfl
  | ok x => rcases x with _ | ⟨t, r⟩ <;> rfl

theorem contains_is (s : Shard K V) (h : UInt64) (k : K) : Is (Rogue.contains u s h k) (s.contains h (fun x => x == k)) :=
  .bind (searchResident_is ..) (fun _ => .pure)

theorem get_is (s : Shard K V) (h : UInt64) (k : K) : Is (Rogue.get u s h k) (s.get h (fun x => x == k)) := by
  refine .bind (searchResident_is ..) (fun x => ?_)
  cases x <;> exact .pure

theorem peek_is (s : Shard K V) (h : UInt64) (k : K) : Is (Rogue.peek u s h k) (s.peek h (fun x => x == k)) := by
  refine .bind (searchResident_is ..) (fun x => ?_)
  cases x <;> exact .pure

theorem peekTokenMut_is (s : Shard K V) (t : Nat) : Is (Rogue.peekTokenMut u s t) (.ok (s.peekTokenMut c t)) := by
  unfold Rogue.peekTokenMut Shard.peekTokenMut
  rcases s.entries.get t with _ | ⟨_ | _ | _, _⟩ <;> rfl

theorem peekMut_is (s : Shard K V) (h : UInt64) (k : K) : Is (Rogue.peekMut u s h k) (s.peekMut c h (fun x => x == k)) := by
  refine .bind (searchResident_is ..) (fun x => ?_)
  cases x with
  | none => exact .pure
  | some y => exact peekTokenMut_is ..

theorem getMut_is (s : Shard K V) (h : UInt64) (k : K) : Is (Rogue.getMut u s h k) (s.getMut c h (fun x => x == k)) := by
  refine .bind (searchResident_is ..) (fun x => ?_)
  cases x with
  | none => exact .pure
  | some y =>
    dsimp only
    rcases s.entries.get y.1 with _ | ⟨_ | _ | _, _⟩
    · exact .refl
    · exact .val .call .pure
    · exact .refl
    · exact .refl

theorem useRef_is (s : Shard K V) (f : V → V) (r : Option (Nat × Nat)) :
    Is (Rogue.useRef u s (honestUse f) r) (Unsync.writeRefR c s f r) := by
  cases r with
  | none => exact .pure
  | some y =>
    unfold Rogue.useRef honestUse Unsync.writeRefR refMutWriteR Rogue.writes
    dsimp only
    cases s.refMutPair y.1 with
    | error p => rfl
    | ok r =>
      simp only [Res.ok_bind]
      exact .val (a := s.setEntry y.1 (.resident { r with value := f r.value })) rfl
        (.bind .refl (fun _ => .val .call (.ite (fun _ => .refl) (fun _ => .pure))))

theorem removeInternal_is (s : Shard K V) (h : UInt64) (t : Nat) :
    Is (Rogue.removeInternal u s h t) (s.removeInternalR c h t) := by
  refine .bind .refl (fun s => .bind .refl (fun x => ?_))
  obtain ⟨e, _ | ⟨_ | _ | _, _⟩⟩ := x
  · exact .refl
  · exact .bind .refl (fun _ => .val .call (.bind .refl (fun _ => .pure)))
  · exact .pure
  · exact .bind .refl (fun _ => .pure)

theorem remove_is (s : Shard K V) (h : UInt64) (k : K) : Is (Rogue.remove u s h k) (s.removeR c h (fun x => x == k)) := by
  refine .bind (search_is ..) (fun x => ?_)
  cases x with
  | none => exact .pure
  | some t => exact removeInternal_is ..

theorem retainTokens_is (e : Slab (Entry K V)) (f : K → V → Bool) (m : List (UInt64 × Nat)) :
    Is (Rogue.retainTokens u e (fun k v w => (some (f k v), w)) m) (.ok (Shard.retainTokens c e f m)) := by
  induction m with
  | nil => exact .pure
  | cons b m ih =>
    unfold Rogue.retainTokens
    have h1 : Shard.retainTokens c e f (b :: m) = (match e.get b.2 with
        | some (.resident r, _) => if f r.key r.value then Shard.retainTokens c e f m
          else (b.2, c.hash r.key) :: Shard.retainTokens c e f m
        | _ => Shard.retainTokens c e f m) := by
      unfold Shard.retainTokens
      rw [List.filterMap_cons]
      rcases e.get b.2 with _ | ⟨_ | _ | _, _⟩
      · rfl
      · dsimp only; split <;> split <;> simp_all
      · rfl
      · rfl
    rw [h1]
    rcases e.get b.2 with _ | ⟨r | _ | _, _⟩
    · exact ih
    · refine .val .call ?_
      dsimp only
      split
      · exact ih
      · exact .val .call (.val ih .pure)
    · exact ih
    · exact ih

theorem retainLoop_is (l : List (Nat × UInt64)) (s : Shard K V) : Is (Rogue.retainLoop u l s) (retainLoopR c l s) := by
  induction l generalizing s with
  | nil => exact .pure
  | cons b l ih => exact .bind (removeInternal_is ..) (fun _ => ih _)

theorem hotVictim_is (s : Shard K V) (q : Req K V RS) (t : Nat) (r : Resident K V) :
    Is (Rogue.hotVictim u s q t r) (s.hotVictimR c q t r) := by
  refine .val .call (.bind .refl (fun w => .val (before_is ..) ?_))
  rcases q.before c r.key r.value with ⟨q1, v1⟩
  refine .val .call (.ite (fun _ => .bind .refl (fun _ => .pure)) (fun _ => .bind .refl (fun n => .val .call
    (.bind .refl (fun x => ?_)))))
  obtain ⟨e, _ | ⟨_ | _ | _, _⟩⟩ := x
  · exact .refl
  · exact .val (on_is ..) (.bind .refl (fun _ => .pure))
  · exact .refl
  · exact .refl

theorem advanceHotLoop_is (fuel : Nat) (s : Shard K V) (q : Req K V RS) (t n : Nat) :
    Is (Rogue.advanceHotLoop u fuel s q t n) (advanceHotLoopR c fuel s q t n) := by
  induction fuel generalizing s q t n with
  | zero => exact .refl
  | succ fuel ih =>
    unfold Rogue.advanceHotLoop advanceHotLoopR
    rcases s.entries.get t with _ | ⟨_ | _ | _, _⟩
    · exact .refl
    · exact .val .call (.ite (fun _ => .ite (fun _ => .pure) (fun _ => ih ..))
        (fun _ => .ite (fun _ => ih ..) (fun _ => hotVictim_is ..)))
    · exact .refl
    · exact .refl

theorem advanceHot_is (s : Shard K V) (q : Req K V RS) : Is (Rogue.advanceHot u fu s q) (s.advanceHotR fu c q) := by
  unfold Rogue.advanceHot advanceHotR
  cases s.hotHead with
  | none => exact .pure
  | some t => exact advanceHotLoop_is ..

theorem evictHotLoop_is (fuel : Nat) (s : Shard K V) (q : Req K V RS) :
    Is (Rogue.evictHotLoop u fu fuel s q) (evictHotLoopR fu c fuel s q) := by
  induction fuel generalizing s q with
  | zero => exact .refl
  | succ fuel ih =>
    exact .ite (fun _ => .bind (advanceHot_is ..) (fun _ => .ite (fun _ => ih ..) (fun _ => .pure))) (fun _ => .pure)

theorem coldPromote_is (s : Shard K V) (q : Req K V RS) (t : Nat) (r : Resident K V) :
    Is (Rogue.coldPromote u fu s q t r) (s.coldPromoteR fu c q t r) :=
  .val .call (.bind .refl (fun _ => .bind .refl (fun _ => .bind .refl (fun _ => .bind .refl (fun _ => .bind .refl (fun _ =>
    .bind (evictHotLoop_is ..) (fun _ => .pure)))))))

theorem coldVictim_is (s : Shard K V) (q : Req K V RS) (t : Nat) (r : Resident K V) :
    Is (Rogue.coldVictim u s q t r) (s.coldVictimR c q t r) := by
  refine .val .call (.bind .refl (fun w => .val (before_is ..) ?_))
  rcases q.before c r.key r.value with ⟨q1, v1⟩
  refine .val .call (.ite (fun _ => .bind .refl (fun _ => .pure)) (fun _ => .val .call ?_))
  dsimp only
  rcases (s.setEntry t (.resident { r with value := v1 })).entries.get t with _ | ⟨_ | _ | _, _⟩
  · exact .refl
  · refine .bind .refl (fun _ => .bind .refl (fun _ => .bind .refl (fun _ => ?_)))
    split <;> exact .bind .refl (fun _ => .val rfl .pure)
  · exact .refl
  · exact .refl

theorem advanceColdLoop_is (fuel : Nat) (s : Shard K V) (q : Req K V RS) (t : Nat) :
    Is (Rogue.advanceColdLoop u fu fuel s q t) (advanceColdLoopR fu c fuel s q t) := by
  induction fuel generalizing s q t with
  | zero => exact .refl
  | succ fuel ih =>
    unfold Rogue.advanceColdLoop advanceColdLoopR
    rcases s.entries.get t with _ | ⟨_ | _ | _, _⟩
    · exact .refl
    · exact .ite (fun _ => coldPromote_is ..) (fun _ => .val .call (.ite
        (fun _ => .ite (fun _ => advanceHot_is ..) (fun _ => ih ..)) (fun _ => coldVictim_is ..)))
    · exact .refl
    · exact .refl

theorem advanceCold_is (s : Shard K V) (q : Req K V RS) : Is (Rogue.advanceCold u fu s q) (s.advanceColdR fu c q) := by
  unfold Rogue.advanceCold advanceColdR
  cases s.coldHead with
  | none => exact advanceHot_is ..
  | some t => exact advanceColdLoop_is ..

theorem evictLoop_is (extra fuel : Nat) (s : Shard K V) (q : Req K V RS) :
    Is (Rogue.evictLoop u fu extra fuel s q) (evictLoopR fu c extra fuel s q) := by
  induction fuel generalizing s q with
  | zero => exact .refl
  | succ fuel ih =>
    exact .bind .refl (fun _ => .bind .refl (fun _ =>
      .ite (fun _ => .bind (advanceCold_is ..) (fun _ => .ite (fun _ => ih ..) (fun _ => .pure))) (fun _ => .pure)))

theorem insertExisting_is (s : Shard K V) (q : Req K V RS) (t : Nat) (k : K) (v : V) (w : Nat) (str : Strategy) :
    Is (Rogue.insertExisting u fu s q t k v w str) (s.insertExistingR fu c q t k v w str) := by
  unfold Rogue.insertExisting insertExistingR
  rcases s.entries.get t with _ | ⟨_ | _ | _, _⟩
  · exact .refl
  · exact .val .call (.bind .refl (fun _ => .bind .refl (fun _ => .bind .refl (fun _ => .val (on_is ..)
      (.bind (evictLoop_is ..) (fun _ => .pure))))))
  · cases str with
    | replace _ => exact .pure
    | insert => exact .bind .refl (fun _ => .bind .refl (fun _ => .bind (evictLoop_is ..) (fun _ => .pure)))
  · cases str with
    | replace _ => exact .pure
    | insert => exact .bind .refl (fun _ => .bind .refl (fun _ => .bind .refl (fun _ => .bind .refl (fun _ =>
        .bind (evictLoop_is ..) (fun _ => .pure)))))

theorem insertNew_is (s : Shard K V) (q : Req K V RS) (h : UInt64) (k : K) (v : V) (w : Nat) :
    Is (Rogue.insertNew u fu s q h k v w) (s.insertNewR fu c q h k v w) :=
  .bind .refl (fun _ => .bind (evictLoop_is ..) (fun _ => .bind .refl (fun _ => .bind .refl (fun _ => .bind .refl (fun _ =>
    .bind (mapInsert_is ..) (fun _ => .pure))))))

theorem tooHeavy_is (s : Shard K V) (w : Nat) (k : K) (v : V) :
    Is (Rogue.tooHeavy u s w k v) (.ok (decide (s.weightTargetHot < w ∧ c.pinned k v = false))) := by
  unfold tooHeavy
  by_cases h : s.weightTargetHot < w
  · rw [if_pos h]
    cases hp : c.pinned k v <;> simp only [h, true_and, honest, hp] <;> rfl
  · rw [if_neg h]
    simp only [h, false_and]
    rfl

theorem removePlaceholder_is (s : Shard K V) (p : Plh) : Rogue.removePlaceholder u s p = s.removePlaceholder c p := rfl

theorem handleOverweight_is (s : Shard K V) (q : Req K V RS) (p : Plh) (k : K) (v : V) :
    Is (Rogue.handleOverweightReplacePlaceholder u s q p k v) (s.handleOverweightReplacePlaceholderR c q p k v) :=
  .bind .refl (fun _ => .bind .refl (fun _ => .val (on_is ..) .pure))

theorem replacePlaceholderAdmit_is (s : Shard K V) (q : Req K V RS) (p : Plh) (k : K) (st : St) (b : Bool) (v : V)
    (w : Nat) : Is (Rogue.replacePlaceholderAdmit u fu s q p k st b v w)
      (s.replacePlaceholderAdmitR fu c q p k st b v w) :=
  .bind .refl (fun _ => .bind .refl (fun _ => .bind .refl (fun _ =>
    .ite (fun _ => .bind .refl (fun _ => evictLoop_is ..)) (fun _ => .pure))))

/-- The condition of an `if` as a truth value. -/
theorem Is.ite_decide {P : Prop} [Decidable P] {x x' : Wild W α} {y y' : Res α} (h1 : Is x y) (h2 : Is x' y') :
    Is (if decide P = true then x else x') (if P then y else y') := by
  by_cases h : P
  · rw [if_pos (by simpa using h), if_pos h]; exact h1
  · rw [if_neg (by simpa using h), if_neg h]; exact h2

theorem replacePlaceholder_is (s : Shard K V) (q : Req K V RS) (p : Plh) (b : Bool) (v : V) :
    Is (Rogue.replacePlaceholder u fu s q p b v) (s.replacePlaceholderR fu c q p b v) := by
  unfold Rogue.replacePlaceholder replacePlaceholderR
  rcases s.entries.get p.idx with _ | ⟨_ | ph | _, _⟩
  · exact .pure
  · exact .pure
  · refine .ite (P := (Shard.isPlaceholder c p (.placeholder ph : Entry K V)) = true) (fun _ => ?_) (fun _ => .pure)
    refine .val .call (.val (tooHeavy_is ..) (Is.ite_decide (.val (before_is ..) ?_)
      (.bind (replacePlaceholderAdmit_is ..) (fun _ => .pure))))
    rcases q.before c ph.key v with ⟨q1, v1⟩
    exact .val .call (.ite (fun _ => .bind (handleOverweight_is ..) (fun _ => .pure))
        (fun _ => .bind (replacePlaceholderAdmit_is ..) (fun _ => .pure)))
  · exact .pure

theorem upsertPlaceholder_is (s : Shard K V) (h : UInt64) (k : K) :
    Is (Rogue.upsertPlaceholder u s h k) (s.upsertPlaceholderR c h (fun x => x == k) k) := by
  refine .bind (search_is ..) (fun x => ?_)
  cases x with
  | some t =>
    dsimp only
    rcases s.entries.get t with _ | ⟨_ | _ | _, _⟩
    · exact .refl
    · exact .pure
    · exact .pure
    · exact .val .call (.bind .refl (fun _ => .bind .refl (fun _ => .pure)))
  | none => exact .val .call (.bind .refl (fun _ => .bind (mapInsert_is ..) (fun _ => .pure)))

theorem handleInsertOverweight_is (s : Shard K V) (q : Req K V RS) (h : UInt64) (k : K) (v : V) (str : Strategy) :
    Is (Rogue.handleInsertOverweight u s q h k v str) (s.handleInsertOverweightR c q h k v str) := by
  unfold Rogue.handleInsertOverweight Rogue.evictOld handleInsertOverweightR
  have h1 := searchResident_is (W := W) (c := c) s h k
  unfold Is at h1
  rw [h1]
  cases s.searchResident h (fun x => x == k) with
  | error p => rfl
  | ok x =>
    rcases x with _ | ⟨t, r⟩
    · cases str <;> rfl
    · have h2 := removeInternal_is (W := W) (c := c) s h t
      unfold Is at h2 ⊢
      simp only [Res.ok_bind]
      change (Wild.bind (Rogue.removeInternal u s h t) _ >>= _) = _
      rw [h2]
      cases s.removeInternalR c h t with
      | error p => rfl
      | ok y => obtain ⟨s1, _ | _⟩ := y <;> cases str <;> rfl

theorem insertAdmitted_is (s : Shard K V) (q : Req K V RS) (h : UInt64) (k : K) (v : V) (w : Nat) (str : Strategy) :
    Is (Rogue.insertAdmitted u fu s q h k v w str) (s.insertAdmittedR fu c q h k v w str) := by
  refine .bind (search_is ..) (fun x => ?_)
  cases x with
  | some t => exact insertExisting_is ..
  | none =>
    cases str with
    | replace _ => exact .pure
    | insert => exact .bind (insertNew_is ..) (fun _ => .pure)

theorem insert_is (s : Shard K V) (q : Req K V RS) (h : UInt64) (k : K) (v : V) (str : Strategy) :
    Is (Rogue.insert u fu s q h k v str) (s.insertR fu c q h k v str) := by
  unfold Rogue.insert Shard.insertR
  refine .val .call (.val (tooHeavy_is ..) (Is.ite_decide (.val (before_is ..) ?_) (insertAdmitted_is ..)))
  generalize q.before c k v = x
  obtain ⟨q1, v1⟩ := x
  exact .val .call (.ite (fun _ => handleInsertOverweight_is ..) (fun _ => insertAdmitted_is ..))

theorem insertCall_is (s : Shard K V) (k : K) (v : V) : Is (Rogue.insertCall u fu s k v) (Unsync.insertR fu c s k v) :=
  .val begin_is (.val .call (.bind (insert_is ..) (fun _ => .val .call .pure)))

theorem replaceCall_is (s : Shard K V) (k : K) (v : V) (soft : Bool) :
    Is (Rogue.replaceCall u fu s k v soft) (Unsync.replaceR fu c s k v soft) := by
  refine .val begin_is (.val .call (.bind (insert_is ..) (fun x => ?_)))
  obtain ⟨_, _, _ | _⟩ := x
  · exact .val .call .pure
  · exact .pure

theorem fill_is (s : Shard K V) (p : Plh) (v : V) : Is (Rogue.fill u fu s p v) (Unsync.fillR fu c s p v) :=
  .val begin_is (.bind (replacePlaceholder_is ..) (fun _ => .val .call .pure))

/-- Forgetting part of the result. -/
theorem Is.map {x : Wild W α} {y : Res β} {f : β → α} (h : Is x (y.map f)) {γ δ : Type} {g : α → Wild W γ} {k : β → Res δ}
    {e : δ → γ} (hg : ∀ b, Is (g (f b)) ((k b).map e)) : Is (x >>= g) ((y >>= k).map e) := by
  unfold Is at h
  subst h
  cases y with
  | error p => rfl
  | ok b => exact hg b

theorem Is.bindMap {x : Wild W α} {y : Res α} (h : Is x y) {γ δ : Type} {g : α → Wild W γ} {k : α → Res δ}
    {e : δ → γ} (hg : ∀ a, Is (g a) ((k a).map e)) : Is (x >>= g) ((y >>= k).map e) := by
  unfold Is at h
  subst h
  cases y with
  | error p => rfl
  | ok b => exact hg b

theorem getOrInsertToken_is (s : Shard K V) (k : K) (l : Option V) :
    Is (Rogue.getOrInsertToken u fu s k (fun w => (some l, w)))
      ((Unsync.getOrInsertTokenR fu c s k l).map (fun x => (x.1, x.2.2.1, x.2.2.2))) := by
  refine .val .call (Is.bindMap (upsertPlaceholder_is ..) (fun x => ?_))
  obtain ⟨s1, _ | _⟩ := x
  · exact .pure
  · refine .val .call ?_
    cases l with
    | none => exact .pure
    | some v => exact Is.bindMap (fill_is ..) (fun _ => .pure)

theorem useGuard_is (s : Shard K V) (p : Plh) (g : GuardUse V) :
    Is (Rogue.useGuard u fu s p g) ((Unsync.useGuardR fu c s p g).map (fun x => x.1)) := by
  cases g with
  | insert v =>
    have h := fill_is (W := W) (c := c) (fu := fu) s p v
    unfold Is at h ⊢
    simp only [Rogue.useGuard, Unsync.useGuardR]
    rw [h]
    cases Unsync.fillR fu c s p v with
    | error p => rfl
    | ok x => rfl
  | drop =>
    simp only [Rogue.useGuard, Unsync.useGuardR]
    rw [removePlaceholder_is]
    cases s.removePlaceholder c p with
    | error p => rfl
    | ok x => rfl
  | forget => rfl

theorem step_is (s : Shard K V) (op : Op K V) :
    Is (Rogue.step u fu s (honestOp op)) ((Unsync.stepR fu c s op).map (fun x => (x.1, x.2.1))) := by
  cases op with
  | insert k v => exact Is.bindMap (insertCall_is ..) (fun _ => .pure)
  | replace k v soft => exact Is.bindMap (replaceCall_is ..) (fun _ => .pure)
  | remove k => exact .val .call (Is.bindMap (remove_is ..) (fun _ => .pure))
  | get k => exact .val .call (Is.bindMap (get_is ..) (fun _ => .pure))
  | peek k => exact .val .call (Is.bindMap (peek_is ..) (fun _ => .pure))
  | containsKey k => exact .val .call (Is.bindMap (contains_is ..) (fun _ => .pure))
  | getMut k f => exact .val .call (Is.bindMap (getMut_is ..) (fun _ => Is.bindMap (useRef_is ..) (fun _ => .pure)))
  | peekMut k f => exact .val .call (Is.bindMap (peekMut_is ..) (fun _ => Is.bindMap (useRef_is ..) (fun _ => .pure)))
  | retain f =>
    exact Is.bindMap (y := s.retainR c f) (.val (retainTokens_is ..) (retainLoop_is ..)) (fun _ => .pure)
  | clear => exact .pure
  | drain => exact .pure
  | reserve => exact Is.bindMap (y := s.reserve c) (.bind (rehash_is ..) (fun _ => .pure)) (fun _ => .pure)
  | getOrInsertWith k l =>
    have h := getOrInsertToken_is (W := W) (c := c) (fu := fu) s k l
    unfold Is at h ⊢
    simp only [honestOp, Rogue.step, Unsync.stepR, Unsync.getOrInsertWithR]
    rw [h]
    cases Unsync.getOrInsertTokenR fu c s k l with
    | error p => rfl
    | ok x => rfl
  | getMutOrInsertWith k l f =>
    have h := getOrInsertToken_is (W := W) (c := c) (fu := fu) s k l
    unfold Is at h ⊢
    simp only [honestOp, Rogue.step, Unsync.stepR, Unsync.getMutOrInsertWithR]
    rw [h]
    cases Unsync.getOrInsertTokenR fu c s k l with
    | error p => rfl
    | ok x =>
      obtain ⟨s1, q, b, _ | t⟩ := x
      · rfl
      · simp only [Res.ok_bind]
        refine Is.val .pure (Is.val (peekTokenMut_is ..) ?_)
        rw [bind_assoc]
        exact Is.bindMap (useRef_is ..) (fun _ => .pure)
  | getRefOrGuard k g =>
    refine .val .call ?_
    simp only [Unsync.stepR, Unsync.getRefOrGuardR]
    rw [bind_assoc]
    refine Is.bindMap (upsertPlaceholder_is ..) (fun x => ?_)
    obtain ⟨s1, _ | _⟩ := x
    · exact .pure
    · dsimp only
      rw [bind_assoc]
      exact Is.map (useGuard_is ..) (fun _ => .pure)
  | getMutOrGuard k f g =>
    refine .val .call ?_
    simp only [Unsync.stepR, Unsync.getMutOrGuardR]
    rw [bind_assoc]
    refine Is.bindMap (upsertPlaceholder_is ..) (fun x => ?_)
    obtain ⟨s1, _ | _⟩ := x
    · refine .val (peekTokenMut_is ..) ?_
      dsimp only
      rw [bind_assoc]
      exact Is.bindMap (useRef_is ..) (fun _ => .pure)
    · dsimp only
      rw [bind_assoc]
      exact Is.map (useGuard_is ..) (fun _ => .pure)

end Rogue
end QuickCache
