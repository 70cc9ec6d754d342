import Verif.Proofs.NoUB

/-!
# More iterations change nothing once the loops have ended
-/

namespace QuickCache
variable {K V RS T α β : Type _}
open Spec

/-- The result with more fuel is the same, unless there was too little. -/
def More (x y : Res α) : Prop := x = y ∨ x = .error .outOfFuel

theorem More.rfl {x : Res α} : More x x := Or.inl _root_.rfl

theorem More.bind {x y : Res α} {f g : α → Res β} (h : More x y) (hf : ∀ a, More (f a) (g a)) :
    More (x >>= f) (y >>= g) := by
  rcases h with rfl | rfl
  · cases x with
    | error e => exact Or.inl _root_.rfl
    | ok a => exact hf a
  · exact Or.inr _root_.rfl

theorem More.ite {P : Prop} [Decidable P] {x y x' y' : Res α} (h1 : P → More x y) (h2 : ¬P → More x' y') :
    More (if P then x else x') (if P then y else y') := by
  split
  · exact h1 ‹_›
  · exact h2 ‹_›

namespace Shard
variable {c : Cfg K V RS} {fu fv : Fuel}

theorem advanceHotLoopR_more {m n : Nat} (hm : m ≤ n) (s : Shard K V) (q : Req K V RS) (t u : Nat) :
    More (advanceHotLoopR c m s q t u) (advanceHotLoopR c n s q t u) := by
  induction m generalizing n s q t u with
  | zero => exact Or.inr rfl
  | succ m ih =>
    obtain ⟨n, rfl⟩ : ∃ n', n = n' + 1 := ⟨n - 1, by omega⟩
    have hm : m ≤ n := by omega
    unfold advanceHotLoopR
    rcases s.entries.get t with _ | ⟨_ | _ | _, _⟩
    · exact .rfl
    · exact .ite (fun _ => .ite (fun _ => .rfl) (fun _ => ih hm ..))
        (fun _ => .ite (fun _ => ih hm ..) (fun _ => .rfl))
    · exact .rfl
    · exact .rfl

theorem advanceHotR_more (hf : fu.le fv) (s : Shard K V) (q : Req K V RS) :
    More (s.advanceHotR fu c q) (s.advanceHotR fv c q) := by
  unfold advanceHotR
  cases s.hotHead with
  | none => exact .rfl
  | some t => exact advanceHotLoopR_more (hf.hot _) ..

theorem evictHotLoopR_more (hf : fu.le fv) {m n : Nat} (hm : m ≤ n) (s : Shard K V) (q : Req K V RS) :
    More (evictHotLoopR fu c m s q) (evictHotLoopR fv c n s q) := by
  induction m generalizing n s q with
  | zero => exact Or.inr rfl
  | succ m ih =>
    obtain ⟨n, rfl⟩ : ∃ n', n = n' + 1 := ⟨n - 1, by omega⟩
    have hm : m ≤ n := by omega
    exact .ite (fun _ => .bind (advanceHotR_more hf ..) (fun _ => .ite (fun _ => ih hm ..) (fun _ => .rfl)))
      (fun _ => .rfl)

theorem coldPromoteR_more (hf : fu.le fv) (s : Shard K V) (q : Req K V RS) (t : Nat) (r : Resident K V) :
    More (s.coldPromoteR fu c q t r) (s.coldPromoteR fv c q t r) :=
  .bind .rfl (fun _ => .bind .rfl (fun _ => .bind .rfl (fun _ => .bind .rfl (fun _ => .bind .rfl (fun _ =>
    .bind (evictHotLoopR_more hf (hf.evict _) ..) (fun _ => .rfl))))))

theorem advanceColdLoopR_more (hf : fu.le fv) {m n : Nat} (hm : m ≤ n) (s : Shard K V) (q : Req K V RS) (t : Nat) :
    More (advanceColdLoopR fu c m s q t) (advanceColdLoopR fv c n s q t) := by
  induction m generalizing n s q t with
  | zero => exact Or.inr rfl
  | succ m ih =>
    obtain ⟨n, rfl⟩ : ∃ n', n = n' + 1 := ⟨n - 1, by omega⟩
    have hm : m ≤ n := by omega
    unfold advanceColdLoopR
    rcases s.entries.get t with _ | ⟨_ | _ | _, _⟩
    · exact .rfl
    · exact .ite (fun _ => coldPromoteR_more hf ..) (fun _ => .ite
        (fun _ => .ite (fun _ => advanceHotR_more hf ..) (fun _ => ih hm ..)) (fun _ => .rfl))
    · exact .rfl
    · exact .rfl

theorem advanceColdR_more (hf : fu.le fv) (s : Shard K V) (q : Req K V RS) :
    More (s.advanceColdR fu c q) (s.advanceColdR fv c q) := by
  unfold advanceColdR
  cases s.coldHead with
  | none => exact advanceHotR_more hf ..
  | some t => exact advanceColdLoopR_more hf (hf.cold _) ..

theorem evictLoopR_more (hf : fu.le fv) (extra : Nat) {m n : Nat} (hm : m ≤ n) (s : Shard K V) (q : Req K V RS) :
    More (evictLoopR fu c extra m s q) (evictLoopR fv c extra n s q) := by
  induction m generalizing n s q with
  | zero => exact Or.inr rfl
  | succ m ih =>
    obtain ⟨n, rfl⟩ : ∃ n', n = n' + 1 := ⟨n - 1, by omega⟩
    have hm : m ≤ n := by omega
    exact .bind .rfl (fun _ => .bind .rfl (fun _ =>
      .ite (fun _ => .bind (advanceColdR_more hf ..) (fun _ => .ite (fun _ => ih hm ..) (fun _ => .rfl))) (fun _ => .rfl)))

theorem insertExistingR_more (hf : fu.le fv) (s : Shard K V) (q : Req K V RS) (t : Nat) (k : K) (v : V) (w : Nat)
    (str : Strategy) : More (s.insertExistingR fu c q t k v w str) (s.insertExistingR fv c q t k v w str) := by
  unfold insertExistingR
  rcases s.entries.get t with _ | ⟨_ | _ | _, _⟩
  · exact .rfl
  · exact .bind .rfl (fun _ => .bind .rfl (fun _ => .bind .rfl (fun _ =>
      .bind (evictLoopR_more hf _ (hf.evict _) ..) (fun _ => .rfl))))
  · cases str with
    | replace _ => exact .rfl
    | insert => exact .bind .rfl (fun _ => .bind .rfl (fun _ =>
        .bind (evictLoopR_more hf _ (hf.evict _) ..) (fun _ => .rfl)))
  · cases str with
    | replace _ => exact .rfl
    | insert => exact .bind .rfl (fun _ => .bind .rfl (fun _ => .bind .rfl
        (fun _ => .bind .rfl (fun _ => .bind (evictLoopR_more hf _ (hf.evict _) ..) (fun _ => .rfl)))))

theorem insertNewR_more (hf : fu.le fv) (s : Shard K V) (q : Req K V RS) (h : UInt64) (k : K) (v : V) (w : Nat) :
    More (s.insertNewR fu c q h k v w) (s.insertNewR fv c q h k v w) :=
  .bind .rfl (fun _ => .bind (evictLoopR_more hf _ (hf.evict _) ..) (fun _ => .rfl))

theorem replacePlaceholderAdmitR_more (hf : fu.le fv) (s : Shard K V) (q : Req K V RS) (p : Plh) (k : K) (st : St)
    (b : Bool) (v : V) (w : Nat) :
    More (s.replacePlaceholderAdmitR fu c q p k st b v w) (s.replacePlaceholderAdmitR fv c q p k st b v w) :=
  .bind .rfl (fun _ => .bind .rfl (fun _ => .bind .rfl (fun _ =>
    .ite (fun _ => .bind .rfl (fun _ => evictLoopR_more hf _ (hf.evict _) ..)) (fun _ => .rfl))))

theorem replacePlaceholderR_more (hf : fu.le fv) (s : Shard K V) (q : Req K V RS) (p : Plh) (b : Bool) (v : V) :
    More (s.replacePlaceholderR fu c q p b v) (s.replacePlaceholderR fv c q p b v) := by
  unfold replacePlaceholderR
  rcases s.entries.get p.idx with _ | ⟨_ | ph | _, _⟩
  · exact .rfl
  · exact .rfl
  · refine .ite (fun _ => ?_) (fun _ => .rfl)
    exact .ite (fun _ => .ite (fun _ => .rfl) (fun _ => .bind (replacePlaceholderAdmitR_more hf ..) (fun _ => .rfl)))
      (fun _ => .bind (replacePlaceholderAdmitR_more hf ..) (fun _ => .rfl))
  · exact .rfl

section
variable [DecidableEq K]

theorem insertAdmittedR_more (hf : fu.le fv) (s : Shard K V) (q : Req K V RS) (h : UInt64) (k : K) (v : V) (w : Nat)
    (str : Strategy) : More (s.insertAdmittedR fu c q h k v w str) (s.insertAdmittedR fv c q h k v w str) := by
  refine .bind .rfl (fun x => ?_)
  cases x with
  | some t => exact insertExistingR_more hf ..
  | none =>
    cases str with
    | replace _ => exact .rfl
    | insert => exact .bind (insertNewR_more hf ..) (fun _ => .rfl)

theorem insertR_more (hf : fu.le fv) (s : Shard K V) (q : Req K V RS) (h : UInt64) (k : K) (v : V) (str : Strategy) :
    More (s.insertR fu c q h k v str) (s.insertR fv c q h k v str) :=
  .ite (fun _ => .ite (fun _ => .rfl) (fun _ => insertAdmittedR_more hf ..)) (fun _ => insertAdmittedR_more hf ..)

end
end Shard

section
variable {c : Cfg K V RS} {fu fv : Fuel}
open Shard Unsync

theorem fillR_more (hf : fu.le fv) (s : Shard K V) (p : Plh) (v : V) : More (fillR fu c s p v) (fillR fv c s p v) :=
  .bind (replacePlaceholderR_more hf ..) (fun _ => .rfl)

theorem useGuardR_more (hf : fu.le fv) (s : Shard K V) (p : Plh) (u : GuardUse V) :
    More (useGuardR fu c s p u) (useGuardR fv c s p u) := by
  cases u with
  | insert v => exact fillR_more hf ..
  | drop => exact .rfl
  | forget => exact .rfl

variable [DecidableEq K]

theorem getOrInsertTokenR_more (hf : fu.le fv) (s : Shard K V) (k : K) (l : Option V) :
    More (getOrInsertTokenR fu c s k l) (getOrInsertTokenR fv c s k l) := by
  refine .bind .rfl (fun x => ?_)
  obtain ⟨s1, _ | _⟩ := x
  · exact .rfl
  · cases l with
    | none => exact .rfl
    | some v => exact .bind (fillR_more hf ..) (fun _ => .rfl)

theorem stepR_more (hf : fu.le fv) (s : Shard K V) (op : Op K V) : More (stepR fu c s op) (stepR fv c s op) := by
  cases op with
  | insert k v => exact .bind (.bind (insertR_more hf ..) (fun _ => .rfl)) (fun _ => .rfl)
  | replace k v soft => exact .bind (.bind (insertR_more hf ..) (fun _ => .rfl)) (fun _ => .rfl)
  | getOrInsertWith k l => exact .bind (.bind (getOrInsertTokenR_more hf ..) (fun _ => .rfl)) (fun _ => .rfl)
  | getMutOrInsertWith k l f => exact .bind (.bind (getOrInsertTokenR_more hf ..) (fun _ => .rfl)) (fun _ => .rfl)
  | getRefOrGuard k u =>
    refine .bind (.bind .rfl (fun x => ?_)) (fun _ => .rfl)
    obtain ⟨s1, _ | _⟩ := x
    · exact .rfl
    · exact .bind (useGuardR_more hf ..) (fun _ => .rfl)
  | getMutOrGuard k f u =>
    refine .bind (.bind .rfl (fun x => ?_)) (fun _ => .rfl)
    obtain ⟨s1, _ | _⟩ := x
    · exact .rfl
    · exact .bind (useGuardR_more hf ..) (fun _ => .rfl)
  | _ => exact .rfl

theorem sectR_more (hf : fu.le fv) (s : Shard K V) (sec : Section K V) :
    More (Sync.stepR fu c s sec) (Sync.stepR fv c s sec) := by
  cases sec with
  | call op => exact .bind (stepR_more hf ..) (fun _ => .rfl)
  | fill k p b v => exact .bind (replacePlaceholderR_more hf ..) (fun _ => .rfl)
  | _ => exact .rfl

theorem Spec.Agree.ok {x y : Res α} {a : α} (h : Agree x y) (hx : x = .ok a) : y = .ok a := by
  rcases h with rfl | ⟨p, -, rfl⟩
  · exact hx
  · cases hx

theorem More.ok {x y : Res α} {a : α} (h : More x y) (hx : x = .ok a) : y = .ok a := by
  rcases h with rfl | rfl
  · exact hx
  · cases hx

end
end QuickCache
