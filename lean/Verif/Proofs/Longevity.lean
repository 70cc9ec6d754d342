import Verif.Proofs.FuzzSync
import Verif.Spec.Longevity

/-!
# How long a shared cache lasts: proof
-/

namespace QuickCache.Conc
variable {K V RS : Type} [DecidableEq K] {c : Cfg K V RS}
open Spec

/-- Whether a section may take a slot. -/
def secTakes : Section K V → Nat
  | .call (.insert _ _) | .call (.replace _ _ _) | .upsert _ => 1
  | _ => 0

theorem len_section (s : Shard K V) {sec : Section K V} {s' : Shard K V} {out : SOut K V} {q : Req K V RS}
    (hs : Sync.step c s sec = .ok (s', out, q)) (hok : ∀ op, sec = .call op → lockMode op ≠ none) :
    s'.entries.entries.length ≤ s.entries.entries.length + secTakes sec := by
  have key : On (fun x => x.1.entries.entries.length ≤ s.entries.entries.length + secTakes sec) (Sync.step c s sec) := by
    cases sec with
    | call op =>
      have gr := Unsync.gr_step c s op
      cases op with
      | insert k v => exact .bind' gr (fun a ha => .ok ha.1)
      | replace k v b => exact .bind' gr (fun a ha => .ok ha.1)
      | remove k =>
        refine .bind' (P := fun x => x.1.entries.entries.length ≤ s.entries.entries.length) ?_ (fun a ha => .ok ha)
        exact .bind' (Shard.kp_remove _ _ _ _) (fun a ha => .ok (Nat.le_of_eq ha.1))
      | peek k =>
        refine .bind' (P := fun x => x.1.entries.entries.length ≤ s.entries.entries.length) ?_ (fun a ha => .ok ha)
        exact .bind (fun a => .ok (Nat.le_refl _))
      | containsKey k =>
        refine .bind' (P := fun x => x.1.entries.entries.length ≤ s.entries.entries.length) ?_ (fun a ha => .ok ha)
        exact .bind (fun a => .ok (Nat.le_refl _))
      | get k =>
        refine .bind' (P := fun x => x.1.entries.entries.length ≤ s.entries.entries.length) ?_ (fun a ha => .ok ha)
        exact .bind' (Shard.kp_get _ _ _) (fun a ha => .ok (Nat.le_of_eq ha.1))
      | retain f =>
        refine .bind' (P := fun x => x.1.entries.entries.length ≤ s.entries.entries.length) ?_ (fun a ha => .ok ha)
        exact .bind' (Shard.kp_retainLoop _ _ _) (fun a ha => .ok (Nat.le_of_eq ha.1))
      | clear => exact .bind' (P := fun x => x.1.entries.entries.length ≤ s.entries.entries.length) (.ok (Nat.zero_le _)) (fun a ha => .ok ha)
      | reserve =>
        refine .bind' (P := fun x => x.1.entries.entries.length ≤ s.entries.entries.length) ?_ (fun a ha => .ok ha)
        exact .bind' (Shard.kp_reserve _ _) (fun a ha => .ok (Nat.le_of_eq ha.1))
      | _ => exact absurd rfl (hok _ rfl)
    | upsert k => exact FuzzSync.len_sec c s (.upsert k)
    | fill k p r v => exact FuzzSync.len_sec c s (.fill k p r v)
    | abandon k p => exact FuzzSync.len_sec c s (.abandon k p)
    | find k => exact FuzzSync.len_sec c s (.find k)
    | load k t => exact FuzzSync.len_sec c s (.load k t)
    | bump k t => exact FuzzSync.len_sec c s (.bump k t)
    | count hit => exact FuzzSync.len_sec c s (.count hit)
  exact key.res _ hs

theorem Run.slots {target cap gcap : Nat} {tr : List (Ev K V)} {s : State K V}
    (hr : Run c (State.new (Shard.new target cap gcap)) tr s) (hq : c.ptrEq = true) :
    s.shard.entries.entries.length ≤ tr.countP takesSlot := by
  induction hr with
  | start => exact Nat.zero_le _
  | layout m p hr hm hp ih => exact ih
  | @act tr s s' act evs hr hs ih =>
    have hi := (hr.reach hq (CReach.new c target cap gcap)).inv
    rw [List.countP_append]
    rcases exec_sect hi hq hs with ⟨h1, -⟩ | ⟨sec, out, q, rest, h1, h2, h3, -⟩
    · rw [h1]; omega
    · have h4 := len_section s.shard h3 (fun op ho => by
        subst ho
        obtain ⟨b, hb⟩ := (hi.eff hq hs).lockMode (by rw [h1]; exact List.mem_cons_self)
        rw [hb]; simp)
      have h5 : secTakes sec ≤ evs.countP takesSlot := by
        rw [h1, List.countP_cons]
        refine Nat.le_trans ?_ (Nat.le_add_left _ _)
        cases sec with
        | call op => cases op <;> exact Nat.le_refl _
        | _ => exact Nat.le_refl _
      omega

end QuickCache.Conc
