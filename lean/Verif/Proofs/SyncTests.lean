import Verif.Model.SyncTests
import Verif.Proofs.SoloSharded
import Verif.Proofs.UnitTests

/-!
# The unit tests of `sync::Cache` never fail: proof
-/

namespace QuickCache.Spec
variable {K V RS : Type} [DecidableEq K] {c : Cfg K V RS} {T C T' C' : Nat} {d : Dict K V} {home : K → Nat} {op : Op K V}

omit [DecidableEq K] in
theorem total_filter_le (w : K → V → Nat) (f : K × V → Bool) : ∀ d : List (K × V), total w (d.filter f) ≤ total w d
  | [] => Nat.le_refl _
  | p :: d => by
    have := total_filter_le w f d
    rw [List.filter_cons]
    unfold total at this ⊢
    split <;> simp only [List.map_cons, List.sum_cons] <;> omega

/-- If the whole dictionary fits into one shard, so do its parts. -/
theorem Dict.HasRoom.part {k : K} (hk : op.key = some k) (h : Dict.HasRoom c T C d op) :
    Dict.HasRoom c T C (d.part home (home k)) op := by
  refine ⟨fun p hp => ?_, h.2⟩
  have hs : Dict.stored (d.part home (home k)) op = Dict.stored d op := by
    have hlk : List.lookup k (d.part home (home k)) = List.lookup k d := Dict.part_lookup rfl
    generalize d.part home (home k) = d' at hlk
    cases op with
    | replace => cases hk; simp only [Dict.stored, hlk]
    | getOrInsertWith _ o | getMutOrInsertWith _ o _ | getRefOrGuard _ o | getMutOrGuard _ _ o =>
      cases hk; cases o <;> simp only [Dict.stored, hlk]
    | _ => rfl
  rw [hs] at hp
  have hpk : p.1 = k := by
    have := Dict.stored_key hp
    rw [hk] at this
    exact (Option.some.inj this).symm
  obtain ⟨h1, h2⟩ := h.1 p hp
  refine ⟨h1, ?_⟩
  rw [hpk] at h2 ⊢
  rw [← Dict.part_store rfl]
  exact Nat.le_trans (total_filter_le _ _ _) h2

omit [DecidableEq K] in
theorem Adds.congr {m m' : K → Option V} {w k} (ha : Adds c T m op w) (hk : op.key = some k) (hm : m k = m' k) :
    Adds c T m' op w := by
  cases ha <;> cases hk
  case insert => exact .insert ..
  case replace => exact .replace ..
  case getMut here => exact .getMut _ (hm ▸ here)
  case peekMut here => exact .peekMut _ (hm ▸ here)
  case loadMutHit here => exact .loadMutHit _ _ (hm ▸ here)
  case guardMutHit here => exact .guardMutHit _ _ (hm ▸ here)
  case load absent => exact .load _ (hm ▸ absent)
  case guard absent => exact .guard _ (hm ▸ absent)
  case guardMut absent => exact .guardMut _ _ (hm ▸ absent)
  case loadMut absent => exact .loadMut _ _ _ (hm ▸ absent)

theorem Dict.InRange.part {k : K} (hk : op.key = some k) (h : Dict.InRange c T d op) :
    Dict.InRange c T (d.part home (home k)) op := by
  intro w hw
  have := h w (hw.congr hk (Dict.part_lookup rfl))
  have := total_filter_le c.weight (fun p => decide (home p.1 = home k)) d
  unfold Dict.part
  omega

end QuickCache.Spec

namespace QuickCache.SyncTests
open Spec Solo Props
variable {K V RS : Type} [DecidableEq K] {c : Cfg K V RS} {lay : Nat → Layout K V} {T C G n : Nat}

theorem safe_mono {w : K → V → Nat} {T C T' C' : Nat} {d : Dict K V} {op : Op K V} (hT : T ≤ T') (hC : C ≤ C')
    (h : UnitTests.safe w T C d op = true) : UnitTests.safe w T' C' d op = true := by
  have hf : ∀ {k : K} {v : V}, UnitTests.safe.fits w T C d k v = true → UnitTests.safe.fits w T' C' d k v = true := by
    intro k v h
    simp only [UnitTests.safe.fits, Bool.and_eq_true, decide_eq_true_eq] at h ⊢
    omega
  cases op with
  | insert => exact hf h
  | getOrInsertWith k load =>
    cases load with
    | none => rfl
    | some v =>
      simp only [UnitTests.safe, Bool.or_eq_true] at h ⊢
      exact h.imp_right hf
  | getRefOrGuard k use =>
    cases use with
    | insert v =>
      simp only [UnitTests.safe, Bool.or_eq_true] at h ⊢
      exact h.imp_right hf
    | drop | forget => rfl
  | getMutOrGuard k f use =>
    cases use with
    | insert v =>
      simp only [UnitTests.safe, Bool.and_eq_true, Bool.or_eq_true] at h ⊢
      exact h.imp_right fun h => h.imp_right hf
    | drop | forget => exact h
  | _ => exact h

/-- The test passes on a dictionary, which always fits into one shard. -/
def passes (w : K → V → Nat) (T C : Nat) : List (Stmt K V) → Dict K V → Bool
  | [], _ => true
  | st :: rest, d =>
    UnitTests.safe w T C d st.call.op && decide st.call.Known && st.check (Dict.answer d st.call.op) &&
      passes w T C rest (Dict.after d st.call.op)

theorem execAll_ok {home : K → Nat} {T' C' : Nat} (hT : T' ≤ T) (hC : C' ≤ C) (hq : c.ptrEq = true) (hl : ∀ i, (lay i).Fair) :
    ∀ {test : List (Stmt K V)} {N : Nat} {s : Whole K V} {d : Dict K V}, Wide c T C G n N home s d →
    passes c.weight T' C' test d = true → N + 13 * test.length < 2 ^ 32 - 2 → execAll c lay test s = .ok ()
  | [], _, _, _, _, _, _ => rfl
  | st :: rest, N, s, d, h, hp, hN => by
    simp only [passes, Bool.and_eq_true, decide_eq_true_eq] at hp
    obtain ⟨⟨⟨h1, h2⟩, h3⟩, h4⟩ := hp
    obtain ⟨r1, r2, r3⟩ := UnitTests.safe_room (safe_mono hT hC h1)
    rw [List.length_cons] at hN
    obtain ⟨s', y, g1, g2, g3⟩ := h.perform (x := st.call) hq hl h2 (fun k hk => ⟨r1.part hk, r2.part hk⟩) (by omega)
    rw [execAll, g1, Res.ok_bind]
    dsimp only
    have hy : Dict.answer d st.call.op = y.out := UnitTests.sameOut_eq g2.out (UnitTests.answer_items r3)
    rw [← hy, UnitTests.assert_ok h3, Res.ok_bind]
    exact execAll_ok hT hC hq hl g3 h4 (by omega)

end QuickCache.SyncTests
