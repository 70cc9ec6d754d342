import Verif.Model.Request
import Verif.Proofs.Sections

/-!
# Requests: agreement with the model without `begin_request` and `end_request`
-/

namespace QuickCache
variable {K V RS : Type _}

/-- The lifecycle calls of a call, from what it returns and its callbacks. -/
def lcOf (keep : Bool) : Op K V → Out K V → Req K V RS → Lc K V RS
  | .insert _ _, _, q => .finish keep q
  | .replace _ _ _, .replaced (some _), q => .abort q
  | .replace _ _ _, _, q => .finish keep q
  | .getOrInsertWith _ _, .loaded true (some _), q => .finish false q
  | .getMutOrInsertWith _ _ _, .loaded true (some _), q => .finish false q
  | .getRefOrGuard _ (.insert _), .orGuard none, q => .finish keep q
  | .getMutOrGuard _ _ (.insert _), .orGuard none, q => .finish keep q
  | _, _, _ => .none

theorem Except.bind_ok' {α β ε : Type _} (x : α) (f : α → Except ε β) : (Except.ok x >>= f) = f x := rfl
theorem Except.bind_error' {α β ε : Type _} (e : ε) (f : α → Except ε β) : (Except.error e >>= f) = .error e := rfl

open Unsync in
theorem Unsync.stepL_eq [DecidableEq K] (c : Cfg K V RS) (keep : Bool) (s : Shard K V) (op : Op K V) :
    stepL c keep s op = step c s op >>= fun x => .ok (x.1, x.2.1, lcOf keep op x.2.1 x.2.2) := by
  have fill_eq : ∀ (keep : Bool) s p v, fillL c keep s p v = fill c s p v >>= fun x => .ok (x.1, .finish keep x.2) := by
    intro keep s p v
    unfold fillL fill
    rcases s.replacePlaceholder c c.begin p false v with e | ⟨s1, q, r⟩
    · rfl
    · cases r <;> rfl
  have tok_eq : ∀ (s : Shard K V) k load, getOrInsertTokenL c s k load = getOrInsertToken c s k load >>= fun x =>
      .ok (x.1, (match x.2.2.1, x.2.2.2 with | true, some _ => .finish false x.2.1 | _, _ => .none), x.2.2.1, x.2.2.2) := by
    intro s k load
    unfold getOrInsertTokenL getOrInsertToken
    rcases s.upsertPlaceholder c (c.hash k) (fun x => x == k) k with e | ⟨s1, r⟩
    · rfl
    · cases r with
      | found idx v => rfl
      | pending p new =>
        cases load with
        | none => rfl
        | some v =>
          simp only [Except.bind_ok', fill_eq]
          rcases fill c s1 p v with e | ⟨s2, q⟩ <;> rfl
  cases op with
  | insert k v =>
    simp only [stepL, step, insertL, Unsync.insert]
    rcases s.insert c c.begin (c.hash k) k v .insert with e | ⟨s1, q, r⟩
    · rfl
    · cases r <;> rfl
  | replace k v soft =>
    simp only [stepL, step, replaceL, Unsync.replace]
    rcases s.insert c c.begin (c.hash k) k v (.replace soft) with e | ⟨s1, q, r⟩
    · rfl
    · cases r <;> rfl
  | getOrInsertWith k load =>
    simp only [stepL, step, getOrInsertWith, tok_eq]
    rcases getOrInsertToken c s k load with e | ⟨s1, q, called, t⟩
    · rfl
    · cases called <;> cases t <;> rfl
  | getMutOrInsertWith k load f =>
    simp only [stepL, step, getMutOrInsertWith, tok_eq]
    rcases getOrInsertToken c s k load with e | ⟨s1, q, called, t⟩
    · rfl
    · cases t with
      | none => cases called <;> rfl
      | some idx =>
        simp only [Except.bind_ok']
        rcases writeRef c s1 f (s1.peekTokenMut c idx) with e | s2
        · rfl
        · cases called <;> rfl
  | getRefOrGuard k use =>
    simp only [stepL, step, getRefOrGuard]
    rcases s.upsertPlaceholder c (c.hash k) (fun x => x == k) k with e | ⟨s1, r⟩
    · rfl
    · cases r with
      | found idx v => cases use <;> rfl
      | pending p new =>
        cases use with
        | insert v =>
          simp only [Except.bind_ok', useGuardL, useGuard, fill_eq]
          rcases fill c s1 p v with e | ⟨s2, q⟩ <;> rfl
        | drop =>
          simp only [Except.bind_ok', useGuardL, useGuard]
          rcases s1.removePlaceholder c p with e | s2 <;> rfl
        | forget => rfl
  | getMutOrGuard k f use =>
    simp only [stepL, step, getMutOrGuard]
    rcases s.upsertPlaceholder c (c.hash k) (fun x => x == k) k with e | ⟨s1, r⟩
    · rfl
    · cases r with
      | found idx v =>
        simp only [Except.bind_ok']
        rcases writeRef c s1 f (s1.peekTokenMut c idx) with e | s2
        · rfl
        · cases use <;> rfl
      | pending p new =>
        cases use with
        | insert v =>
          simp only [Except.bind_ok', useGuardL, useGuard, fill_eq]
          rcases fill c s1 p v with e | ⟨s2, q⟩ <;> rfl
        | drop =>
          simp only [Except.bind_ok', useGuardL, useGuard]
          rcases s1.removePlaceholder c p with e | s2 <;> rfl
        | forget => rfl
  | _ => rfl

/-- The lifecycle calls of a critical section, from what it yields and its callbacks. -/
def secLcOf (keep : Bool) : Section K V → SOut K V → Req K V RS → Lc K V RS
  | .call (.insert _ _), _, q => .finish keep q
  | .call (.replace _ _ _), .call (.replaced (some _)), q => .abort q
  | .call (.replace _ _ _), _, q => .finish keep q
  | .fill _ _ _ _, .filled (some _), q => .abort q
  | .fill _ _ _ _, _, q => .finish keep q
  | _, _, _ => .none

theorem Sync.stepL_eq [DecidableEq K] (c : Cfg K V RS) (keep : Bool) (s : Shard K V) (sec : Section K V) :
    Sync.stepL c keep s sec = Sync.step c s sec >>= fun x => .ok (x.1, x.2.1, secLcOf keep sec x.2.1 x.2.2) := by
  cases sec with
  | call op =>
    cases op with
    | insert k v =>
      simp only [Sync.stepL, Sync.step, Unsync.step, Unsync.insert]
      rcases s.insert c c.begin (c.hash k) k v .insert with e | ⟨s1, q, r⟩
      · rfl
      · cases r <;> rfl
    | replace k v soft =>
      simp only [Sync.stepL, Sync.step, Unsync.step, Unsync.replace]
      rcases s.insert c c.begin (c.hash k) k v (.replace soft) with e | ⟨s1, q, r⟩
      · rfl
      · cases r <;> rfl
    | _ => rfl
  | fill k p referenced v =>
    simp only [Sync.stepL, Sync.step]
    rcases s.replacePlaceholder c c.begin p referenced v with e | ⟨s1, q, r⟩
    · rfl
    · cases r <;> rfl
  | _ => rfl

/-- Only `replace` returns `Err`. -/
theorem Spec.OpSpec.replaced [DecidableEq K] {c : Cfg K V RS} {target : Nat} {m m' : K → Option V} {op : Op K V}
    {log : List (Event K V)} {r : Option (K × V)} (h : Spec.OpSpec c target m op (.replaced r) log m') :
    ∃ k v soft, op = .replace k v soft := by
  cases op with
  | replace k v soft => exact ⟨k, v, soft, rfl⟩
  | drain => obtain ⟨⟨_, h1, _⟩, _⟩ := h; cases h1
  | getOrInsertWith k load =>
    simp only [Spec.OpSpec] at h
    cases hm : m k with
    | some w => rw [hm] at h; cases h.1
    | none =>
      cases load with
      | none => rw [hm] at h; cases h.1
      | some v => rw [hm] at h; cases h.2
  | getMutOrInsertWith k load f =>
    simp only [Spec.OpSpec] at h
    cases hm : m k with
    | some w => rw [hm] at h; cases h.1
    | none =>
      cases load with
      | none => rw [hm] at h; cases h.1
      | some v => rw [hm] at h; obtain ⟨_, _, h1, _⟩ := h; cases h1
  | getRefOrGuard k use =>
    simp only [Spec.OpSpec] at h
    cases hm : m k with
    | some w => rw [hm] at h; cases h.1
    | none => cases use <;> rw [hm] at h <;> cases h.1
  | getMutOrGuard k f use =>
    simp only [Spec.OpSpec] at h
    cases hm : m k with
    | some w => rw [hm] at h; cases h.1
    | none => cases use <;> rw [hm] at h <;> cases h.1
  | _ => cases h.1

end QuickCache
