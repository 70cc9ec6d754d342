import Verif.Proofs.Sections
import Verif.Model.Conc

/-!
# Consequences of the effect of a section

Every section keeps the invariants; the sections under the read lock change nothing but counters; what every section does
to the contents.
-/

namespace QuickCache
variable {K V RS : Type}
open Shard Unsync Spec

section
variable [DecidableEq K] {c : Cfg K V RS} {s s' : Shard K V}

theorem SecEff.keeps {sec : Section K V} {x : Shard K V × SOut K V × Req K V RS} (h : SecEff c s sec x) (hi : Inv c s) :
    Inv c x.1 ∧ Const s x.1 := by
  cases h with
  | call hop h => exact h.keeps hi
  | found t r hk wrote =>
    exact ⟨wrote.full hi (Nat.le_refl _), wrote.const⟩
  | created hp => exact ⟨hp.full hi, hp.const⟩
  | joined hp => exact ⟨hp.full hi, hp.const⟩
  | gone => exact ⟨hi, .refl _⟩
  | filled hl h => exact ⟨h.full hi, h.same.const⟩
  | abandoned inv same entries wgt num ghosts => exact ⟨⟨inv, by rw [ghosts, same.ghostCap]; exact hi.ghosts⟩, same.const⟩
  | located => exact ⟨hi, .refl _⟩
  | absent => exact ⟨hi, .refl _⟩
  | loaded => exact ⟨hi, .refl _⟩
  | bumped r hk wrote => exact ⟨wrote.full hi (Nat.le_refl _), wrote.const⟩
  | counted hit =>
    cases hit
    · exact ⟨⟨⟨hi.str, hi.idx, ⟨hi.cnt.1, hi.cnt.2, hi.cnt.3⟩⟩, hi.ghosts⟩, ⟨rfl, rfl, rfl⟩⟩
    · exact ⟨⟨⟨hi.str, hi.idx, ⟨hi.cnt.1, hi.cnt.2, hi.cnt.3⟩⟩, hi.ghosts⟩, ⟨rfl, rfl, rfl⟩⟩

/-- The effect of a section under the read lock. -/
structure ReadEff (c : Cfg K V RS) (s s' : Shard K V) : Prop where
  res : ∀ t r, s.entries.item t = some (.resident r) → ∃ n, s'.entries.item t = some (.resident { r with referenced := n })
  contents : s'.contents = s.contents
  plh : PEff c s s' (PLive c s) (fun _ => False)
  np : s'.nextPlh = s.nextPlh

omit [DecidableEq K] in
theorem PEff.refl (c : Cfg K V RS) (s : Shard K V) : PEff c s s (PLive c s) (fun _ => False) :=
  ⟨fun _ _ => Iff.rfl, fun k p h => by
    by_cases hl : PLive c s k p
    · exact Or.inl hl
    · exact Or.inr (Or.inl ⟨h, hl⟩)⟩

theorem ReadEff.refl (c : Cfg K V RS) (s : Shard K V) : ReadEff c s s :=
  ⟨fun _ r h => ⟨r.referenced, h⟩, rfl, .refl c s, rfl⟩

/-- The sections that happen under the read lock. -/
def Section.reads : Section K V → Prop
  | .call (.peek _) | .call (.containsKey _) | .find _ | .load _ _ | .bump _ _ | .count _ => True
  | _ => False

theorem Wrote.reads (hi : Inv c s) {t n : Nat} {r : Resident K V}
    (h : Wrote c s s' t (some (.resident r)) (some (.resident { r with referenced := n }))) :
    (∀ t r, s.entries.item t = some (.resident r) → ∃ n, s'.entries.item t = some (.resident { r with referenced := n })) ∧
      s'.contents = s.contents := by
  refine ⟨fun u r' hu => ?_, ?_⟩
  · by_cases ht : u = t
    · subst ht
      rw [h.upd.before] at hu
      cases hu
      exact ⟨n, h.upd.after⟩
    · exact ⟨r'.referenced, by rw [h.upd.other ht]; exact hu⟩
  · have := wrote_value (v := r.value) hi.toInv0 h
    rw [this, put_self _ (contents_at hi.toInv0 h.upd.before rfl)]

theorem SecEff.read {sec : Section K V} {x : Shard K V × SOut K V × Req K V RS} (h : SecEff c s sec x) (hi : Inv c s)
    (hr : sec.reads) : ReadEff c s x.1 := by
  cases h with
  | call hop h =>
    rename_i op s' out q plh np
    have : s' = s := by
      cases op <;> try exact hr.elim
      · cases h with
        | hit hop' => cases hop'
        | miss hop' => cases hop'; rfl
        | peek => rfl
        | leave hop' => cases hop'
        | drop hop' => cases hop'
        | fill hop' => cases hop'
      · cases h with
        | hit hop' => cases hop'
        | miss hop' => cases hop'; rfl
        | contains => rfl
        | leave hop' => cases hop'
        | drop hop' => cases hop'
        | fill hop' => cases hop'
    subst this
    exact .refl c _
  | located => exact .refl c s
  | absent => exact .refl c s
  | loaded => exact .refl c s
  | bumped r hk wrote plh same =>
    obtain ⟨h1, h2⟩ := wrote.reads hi
    exact ⟨h1, h2, plh, same.nextPlh⟩
  | counted hit =>
    have hp : ∀ {s1 : Shard K V}, s1.entries = s.entries → s1.map = s.map → PEff c s s1 (PLive c s) (fun _ => False) := by
      intro s1 h1 h2
      have hs : ∀ k p, PSlot s1 k p ↔ PSlot s k p := by intro k p; unfold PSlot; rw [h1]
      refine ⟨fun k p => by unfold PLive; rw [hs, h2], fun k p h => ?_⟩
      exact (PEff.refl c s).orphan k p ((hs k p).mp h)
    cases hit
    · exact ⟨fun _ r h => ⟨r.referenced, h⟩, rfl, hp rfl rfl, rfl⟩
    · exact ⟨fun _ r h => ⟨r.referenced, h⟩, rfl, hp rfl rfl, rfl⟩
  | found => exact hr.elim
  | created => exact hr.elim
  | joined => exact hr.elim
  | gone => exact hr.elim
  | filled => exact hr.elim
  | abandoned => exact hr.elim

/-- The section as a call of the cache that changes the contents, if it is one. -/
def Section.asCall : Section K V → SOut K V → List (Event K V) → Option (Call K V)
  | .call op, .call out, log => some ⟨op, out, log⟩
  | .fill k _ _ v, .filled none, log => some ⟨.insert k v, .unit, log⟩
  | _, _, _ => none

/-- What a section does to the contents. -/
theorem SecEff.contents {sec : Section K V} {s' : Shard K V} {out : SOut K V} {q : Req K V RS}
    (h : SecEff c s sec (s', out, q)) (hi : Inv c s) :
    match sec.asCall out q.log with
    | some x => OpSpec c s.weightTargetHot s.contents x.op x.out x.log s'.contents
    | none => s'.contents = s.contents ∧ q.log = [] := by
  generalize hx : (s', out, q) = x at h
  cases h with
  | call hop h => cases hx; exact h.opSpec hi.toInv0
  | found t r hk wrote => cases hx; exact ⟨(wrote.reads hi).2, rfl⟩
  | created hp => cases hx; exact ⟨hp.contents hi.toInv0, rfl⟩
  | joined hp => cases hx; exact ⟨hp.contents hi.toInv0, rfl⟩
  | gone => cases hx; exact ⟨rfl, rfl⟩
  | filled hl h => cases hx; exact ⟨rfl, h.store hi.toInv0⟩
  | abandoned inv same entries =>
    cases hx
    refine ⟨?_, rfl⟩
    funext k
    have h1 : ∀ (v : V), s'.contents k = some v ↔ s.contents k = some v := by
      intro v
      rw [inv.contents_slot, hi.contents_slot, entries]
    cases hk : s.contents k with
    | some v => rw [(h1 v).mpr hk]
    | none =>
      cases hk' : s'.contents k with
      | none => rfl
      | some v => rw [(h1 v).mp hk'] at hk; cases hk
  | located => cases hx; exact ⟨rfl, rfl⟩
  | absent => cases hx; exact ⟨rfl, rfl⟩
  | loaded => cases hx; exact ⟨rfl, rfl⟩
  | bumped r hk wrote => cases hx; exact ⟨(wrote.reads hi).2, rfl⟩
  | counted hit => cases hx; cases hit <;> exact ⟨rfl, rfl⟩

end
end QuickCache
