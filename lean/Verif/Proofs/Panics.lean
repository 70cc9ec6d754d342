import Verif.Proofs.ConcFacts
import Verif.Spec.Panics

/-!
# Which actions may make a shared cache too large: proof
-/

namespace QuickCache.Conc
variable {K V RS : Type} [DecidableEq K] {c : Cfg K V RS} {s : State K V}
open Spec

theorem CReach.panics {target cap gcap : Nat} (hre : CReach c target cap gcap s) (hq : c.ptrEq = true) {act : Act K V}
    {e : Panic} (hs : exec c s act = some (.error e)) :
    (e = .overflow ∧ ∃ w, MayAdd c target s act w ∧ 2 ^ 64 ≤ total c.weight s.shard.iter + w) ∨
    (e = .slabFull ∧ MayGrow s act ∧ s.shard.entries.entries.length = 2 ^ 32 - 2) := by
  have hi := hre.inv
  have ht := hre.reach.target
  have absent : ∀ {k}, s.shard.contents k = none → ∀ w, (k, w) ∉ s.shard.iter := by
    intro k hk w hw
    have := ((lists_iter hi.shard.toInv0).2 k w).mp hw
    rw [hk] at this
    cases this
  rcases exec_sat hi hq hs with ⟨x, hx, -⟩ | ⟨e', he', hE⟩
  · cases hx
  · cases he'
    rw [hi.shard.toInv0.total_iter]
    cases act with
    | upsert a =>
      obtain ⟨k, hc, rfl, hk, h⟩ := hE
      exact Or.inr ⟨rfl, .reserve hc (absent hk), by omega⟩
    | store a =>
      obtain ⟨k, q, v, b, hc, rfl, h⟩ := hE
      rw [ht] at h
      exact Or.inl ⟨rfl, _, .store hc, h⟩
    | call op =>
      have hop : ∃ b, lockMode op = some b := by
        simp only [exec, Conc.call] at hs
        cases hl : lockMode op with
        | none => rw [hl] at hs; simp at hs
        | some b => exact ⟨b, rfl⟩
      obtain ⟨b, hop⟩ := hop
      rcases hE with ⟨rfl, w, hw, h⟩ | ⟨rfl, hg, h⟩
      · rw [ht] at hw
        refine Or.inl ⟨rfl, w, ?_, h⟩
        cases hw with
        | insert k v => exact .insert k v
        | replace k v soft => exact .replace k v soft
        | _ => cases hop
      · refine Or.inr ⟨rfl, ?_, by omega⟩
        cases hg with
        | insert v hk => exact .insert v (absent hk)
        | _ => cases hop
    | _ => exact hE.elim

end QuickCache.Conc
