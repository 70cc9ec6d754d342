import Verif.Model.FuzzUnsync
import Verif.Proofs.Slots
import Verif.Proofs.Validate
import Verif.Proofs.Options
import Verif.Props.Weight
import Verif.Props.Eviction
import Verif.Props.Contents
import Verif.Props.Safety
import Mathlib.Data.List.Perm.Subperm

/-!
# The fuzz target for `unsync::Cache` never fails: proof
-/

namespace QuickCache.FuzzUnsync
open Spec Unsync

/-! ### What is handed to `on_evict` -/

theorem handed_append (a b : List (Event UInt16 Value)) : handed (a ++ b) = handed a ++ handed b := by
  induction a with
  | nil => rfl
  | cons e a ih => cases e <;> simp [handed, ih]

variable {hash : UInt16 → UInt64} {ptr : Bool}

/-- The request state collects them. -/
theorem threads_handed {st st' : List (UInt16 × Value)} {log : List (Event UInt16 Value)}
    (h : Threads (cfg hash ptr) st log st') : st' = st ++ handed log := by
  induction h with
  | nil => simp [handed]
  | before hc _ ih =>
    cases hc
    exact ih
  | on _ ih => rw [ih]; simp [handed, cfg]

theorem weight_pos {k : UInt16} {v : Value} (h : (cfg hash ptr).weight k v ≠ 0) : v.current ≠ 0 := by
  rintro h0
  exact h (by simp [cfg, h0])

theorem before_eq {st st1 : List (UInt16 × Value)} {k : UInt16} {v v' : Value} (h : (cfg hash ptr).beforeEvict st k v = (st1, v')) :
    v'.original = v.original ∧ v'.pinned = v.pinned ∧ v'.current ≤ v.current := by
  simp only [cfg, Prod.mk.injEq] at h
  rw [← h.2]
  split
  · exact ⟨rfl, rfl, UInt16.le_iff_toNat_le.mpr (by simp)⟩
  · exact ⟨rfl, rfl, UInt16.le_refl _⟩

/-- A phase of evictions hands out unpinned items with weight, each key at most once, all from the map before and none
still there; the items that stay keep their first component. -/
theorem evicts_handed {m m' : UInt16 → Option Value} {st st' : List (UInt16 × Value)} {log : List (Event UInt16 Value)}
    (h : Evicts (cfg hash ptr) m st log m' st') :
    (∀ p ∈ handed log, p.2.current ≠ 0 ∧ p.2.pinned = false ∧ m p.1 ≠ none ∧ m' p.1 = none) ∧
      ((handed log).map (·.1)).Nodup ∧
      (∀ k v', m' k = some v' → ∃ v, m k = some v ∧ v'.original = v.original) := by
  induction h with
  | nil => exact ⟨by simp [handed], by simp [handed], fun k v' h => ⟨v', h, rfl⟩⟩
  | @spare m m' st st1 st' k v v' log here heavy free before light rest ih =>
    obtain ⟨h1, h2, h3⟩ := ih
    refine ⟨fun p hp => ?_, h2, fun x y hy => ?_⟩
    · obtain ⟨a, b, c, d⟩ := h1 p hp
      refine ⟨a, b, ?_, d⟩
      unfold put at c
      split at c
      · rename_i hk; rw [hk, here]; simp
      · exact c
    · obtain ⟨z, hz, e⟩ := h3 x y hy
      unfold put at hz
      split at hz
      · rename_i hk
        cases hz
        exact ⟨v, by rw [hk, here], e.trans (before_eq before).1⟩
      · exact ⟨z, hz, e⟩
  | @evict m m' st st1 st' k v v' log here heavy free before still rest ih =>
    obtain ⟨h1, h2, h3⟩ := ih
    have gone : m' k = none := by
      cases hm : m' k with
      | none => rfl
      | some y =>
        obtain ⟨z, hz, -⟩ := h3 k y hm
        simp [del] at hz
    refine ⟨fun p hp => ?_, ?_, fun x y hy => ?_⟩
    · simp only [handed, List.mem_cons] at hp
      rcases hp with rfl | hp
      · exact ⟨weight_pos still, (before_eq before).2.1.trans free, by simp [here], gone⟩
      · obtain ⟨a, b, c, d⟩ := h1 p hp
        refine ⟨a, b, ?_, d⟩
        unfold del at c
        split at c
        · exact absurd rfl c
        · exact c
    · simp only [handed, List.map_cons, List.nodup_cons]
      refine ⟨fun hk => ?_, h2⟩
      obtain ⟨p, hp, e⟩ := List.mem_map.mp hk
      have := (h1 p hp).2.2.1
      rw [e] at this
      simp [del] at this
    · obtain ⟨z, hz, e⟩ := h3 x y hy
      unfold del at hz
      split at hz
      · cases hz
      · exact ⟨z, hz, e⟩

/-! ### `check_evicted` -/

theorem assert_ok {p : Prop} [Decidable p] (h : p) : Shard.assert p = .ok () := by
  unfold Shard.assert; rw [if_pos h]

theorem checkEvicted_ok {key : UInt16} {get : Option Value} : ∀ (l : List (UInt16 × Value)) (seen : List UInt16),
    (∀ p ∈ l, p.1 = key ∨ (p.2.current ≠ 0 ∧ p.2.pinned = false)) →
    (get = none ∨ ((l.map (·.1)).Nodup ∧ ∀ p ∈ l, p.1 ∉ seen)) →
    ((l.map (·.1)).filter (· ≠ key)).Nodup → (∀ p ∈ l, p.1 ≠ key → p.1 ∉ seen) → checkEvicted key get seen l = .ok () := by
  intro l
  induction l with
  | nil => intros; rfl
  | cons p l ih =>
    intro seen h1 h2 h3 h4
    obtain ⟨ek, ev⟩ := p
    unfold checkEvicted
    have e1 := h1 (ek, ev) (by simp)
    rw [assert_ok (by rcases e1 with h | h; exacts [Or.inr h, Or.inl h.1]), Res.ok_bind,
      assert_ok (by rcases e1 with h | h; exacts [Or.inr h, Or.inl h.2]), Res.ok_bind, assert_ok, Res.ok_bind]
    · refine ih _ (fun p hp => h1 p (by simp [hp])) ?_ ?_ ?_
      · rcases h2 with h | ⟨h, h'⟩
        · exact Or.inl h
        · simp only [List.map_cons, List.nodup_cons] at h
          refine Or.inr ⟨h.2, fun p hp hm => ?_⟩
          rcases List.mem_cons.mp hm with e | e
          · exact h.1 (List.mem_map.mpr ⟨p, hp, e⟩)
          · exact h' p (by simp [hp]) e
      · rw [List.map_cons, List.filter_cons] at h3
        split at h3
        · exact (List.nodup_cons.mp h3).2
        · exact h3
      · intro p hp hne hm
        rcases List.mem_cons.mp hm with e | e
        · rw [List.map_cons, List.filter_cons, if_pos (by simpa using fun hk => hne (e.trans hk))] at h3
          exact (List.nodup_cons.mp h3).1 (List.mem_filter.mpr ⟨List.mem_map.mpr ⟨p, hp, e⟩, by simpa using fun hk => hne (e.trans hk)⟩)
        · exact h4 p (by simp [hp]) hne e
    · rcases h2 with h | ⟨-, h⟩
      · by_cases hk : ek = key
        · exact Or.inr ⟨hk, h⟩
        · exact Or.inl (h4 (ek, ev) (by simp) hk)
      · exact Or.inl (h (ek, ev) (by simp))

theorem nodup_filter_ne {l : List (UInt16 × Value)} {key : UInt16} (h : (l.map (·.1)).Nodup) :
    ((l.map (·.1)).filter (· ≠ key)).Nodup := h.sublist List.filter_sublist

/-- After any overwriting: the old value of the key and then a phase of evictions. -/
theorem over_checks {m' m0 : UInt16 → Option Value} {k : UInt16} {old : Value} {st st' : List (UInt16 × Value)}
    {L : List (Event UInt16 Value)} (h : Evicts (cfg hash ptr) m0 st L m' st') :
    checkEvicted k (m' k) [] ((k, old) :: handed L) = .ok () := by
  obtain ⟨h1, h2, -⟩ := evicts_handed h
  refine checkEvicted_ok _ _ ?_ ?_ ?_ (by simp)
  · intro p hp
    rcases List.mem_cons.mp hp with rfl | hp
    · exact Or.inl rfl
    · exact Or.inr ⟨(h1 p hp).1, (h1 p hp).2.1⟩
  · cases hm : m' k with
    | none => exact Or.inl rfl
    | some y =>
      refine Or.inr ⟨?_, by simp⟩
      simp only [List.map_cons, List.nodup_cons]
      refine ⟨fun hk => ?_, h2⟩
      obtain ⟨p, hp, e⟩ := List.mem_map.mp hk
      have := (h1 p hp).2.2.2
      rw [e, hm] at this
      cases this
  · rw [List.map_cons, List.filter_cons, if_neg (by simp)]
    exact nodup_filter_ne h2

theorem enter_orig {target : Nat} {k : UInt16} {v v1 : Value} {st : List (UInt16 × Value)} {pre : List (Event UInt16 Value)}
    (h : Enter (cfg hash ptr) target k v st pre v1) : v1.original = v.original ∧ handed pre = [] := by
  cases h with
  | direct => exact ⟨rfl, rfl⟩
  | rewritten heavy free before => exact ⟨(before_eq before).1, rfl⟩

theorem put_orig {m m' : UInt16 → Option Value} {k : UInt16} {v1 : Value} {st st' : List (UInt16 × Value)}
    {L : List (Event UInt16 Value)} (h : Evicts (cfg hash ptr) (put m k v1) st L m' st') :
    m' k = none ∨ ∃ x, m' k = some x ∧ x.original = v1.original := by
  cases hm : m' k with
  | none => exact Or.inl rfl
  | some y =>
    obtain ⟨z, hz, e⟩ := (evicts_handed h).2.2 k y hm
    simp only [put, if_pos] at hz
    cases hz
    exact Or.inr ⟨y, rfl, e⟩

theorem store_checks {target : Nat} {m m' : UInt16 → Option Value} {k : UInt16} {v : Value} {log : List (Event UInt16 Value)}
    (h : Store (cfg hash ptr) target m k v log m') :
    (m' k = none ∨ ∃ x, m' k = some x ∧ x.original = v.original) ∧ checkEvicted k (m' k) [] (handed log) = .ok () := by
  cases h with
  | @rejected st v1 pre enter asked heavy =>
    refine ⟨Or.inl (by simp [del]), checkEvicted_ok _ _ ?_ (Or.inl (by simp [del])) ?_ (by simp)⟩
    · intro p hp
      left
      rw [handed_append, handed_append, (enter_orig enter).2] at hp
      cases hm : m k <;> rw [hm] at hp <;> simp [handed] at hp
      · rw [hp]
      · rcases hp with hp | hp <;> rw [hp]
    · rw [handed_append, handed_append, (enter_orig enter).2]
      cases hm : m k <;> simp [handed]
  | @overwritten st st' v1 old pre L m' enter fits here after =>
    refine ⟨?_, ?_⟩
    · rw [← (enter_orig enter).1]; exact put_orig after
    · rw [handed_append, (enter_orig enter).2]
      exact over_checks after
  | @added st st1 st2 v1 pre L1 L2 m1 m' enter fits absent first after either =>
    refine ⟨?_, ?_⟩
    · rw [← (enter_orig enter).1]; exact put_orig after
    · rw [handed_append, handed_append, (enter_orig enter).2]
      obtain ⟨a1, a2, -⟩ := evicts_handed first
      obtain ⟨b1, b2, -⟩ := evicts_handed after
      rcases either with rfl | rfl
      · simp only [handed, List.nil_append]
        refine checkEvicted_ok _ _ (fun p hp => Or.inr ⟨(b1 p hp).1, (b1 p hp).2.1⟩) ?_ (nodup_filter_ne b2) (by simp)
        exact Or.inr ⟨b2, by simp⟩
      · simp only [handed, List.nil_append, List.append_nil]
        refine checkEvicted_ok _ _ (fun p hp => Or.inr ⟨(a1 p hp).1, (a1 p hp).2.1⟩) ?_ (nodup_filter_ne a2) (by simp)
        exact Or.inr ⟨a2, by simp⟩

theorem replace_checks {target : Nat} {m m' : UInt16 → Option Value} {k : UInt16} {v : Value} {log : List (Event UInt16 Value)}
    {r : Option Value} (h : Replace (cfg hash ptr) target m k v log m' r) :
    (r ≠ none → m' k = none) ∧ (r = none → (m' k = none ∨ ∃ x, m' k = some x ∧ x.original = v.original) ∧
      checkEvicted k (m' k) [] (handed log) = .ok ()) := by
  cases h with
  | absent enter absent => exact ⟨fun _ => absent, by simp⟩
  | rejected => exact ⟨fun _ => by simp [del], by simp⟩
  | @overwritten st st' v1 old pre L m' enter fits here after =>
    refine ⟨by simp, fun _ => ⟨?_, ?_⟩⟩
    · rw [← (enter_orig enter).1]; exact put_orig after
    · rw [handed_append, (enter_orig enter).2]
      exact over_checks after

/-! ### Weights -/

theorem keys_le {l : List (UInt16 × Value)} (h : (l.map (·.1)).Nodup) : l.length ≤ 65536 := by
  have h1 : ((l.map (·.1)).map UInt16.toNat).Nodup := h.map (fun a b e => UInt16.toNat_inj.mp e)
  have h2 : (l.map (·.1)).map UInt16.toNat ⊆ List.range 65536 := by
    intro x hx
    obtain ⟨y, -, rfl⟩ := List.mem_map.mp hx
    exact List.mem_range.mpr (UInt16.toNat_lt y)
  have := (List.subperm_of_subset h1 h2).length_le
  simpa using this

theorem weight_lt (k : UInt16) (v : Value) : (cfg hash ptr).weight k v < 65536 := UInt16.toNat_lt v.current

theorem total_lt (l : List (UInt16 × Value)) : total (cfg hash ptr).weight l ≤ l.length * 65536 := by
  unfold total
  induction l with
  | nil => simp
  | cons p l ih =>
    have := weight_lt (hash := hash) (ptr := ptr) p.1 p.2
    simp only [List.map_cons, List.sum_cons, List.length_cons]
    omega

theorem enterWeight_lt (target : Nat) (k : UInt16) (v : Value) : enterWeight (cfg hash ptr) target k v < 65536 := by
  unfold enterWeight
  split <;> exact weight_lt ..

theorem adds_lt {target : Nat} {m : UInt16 → Option Value} {op : Op UInt16 Value} {w : Nat} (h : Adds (cfg hash ptr) target m op w) :
    w < 2 * 65536 := by
  cases h <;> first
    | exact Nat.lt_trans (weight_lt (hash := hash) (ptr := ptr) _ _) (by omega)
    | exact Nat.lt_trans (enterWeight_lt ..) (by omega)
    | (rename_i v w f absent
       have h1 := enterWeight_lt (hash := hash) (ptr := ptr) target ‹_› v
       have h2 := weight_lt (hash := hash) (ptr := ptr) ‹_› (f w)
       omega)

/-! ### The program -/

/-- The state of the program between two calls. -/
structure Good (hash : UInt16 → UInt64) (target cap gcap : Nat) (w : World) (flag : Bool) : Prop where
  run : ∃ h, Run (cfg hash) (Shard.new target cap gcap) h w.shard ∧ h.length ≤ w.calls
  calm : flag = false → total (evictable (cfg hash)) w.shard.iter ≤ cap

section
variable {lay : Layout} {target cap gcap : Nat} {w : World} {flag : Bool}

theorem Good.loosen (h : Good hash target cap gcap w flag) {flag' : Bool} (hf : flag' = false → flag = false) :
    Good hash target cap gcap w flag' := ⟨h.run, fun e => h.calm (hf e)⟩

theorem Good.light (h : Good hash target cap gcap w flag) : total (cfg hash).weight w.shard.iter ≤ 65536 * 65536 := by
  obtain ⟨hh, hr, -⟩ := h.run
  exact Nat.le_trans (total_lt _) (Nat.mul_le_mul_right _ (keys_le hr.lists.1))

theorem Good.validates (h : Good hash target cap gcap w flag) : w.shard.validate (cfg hash) flag = .ok () := by
  have hl := h.light
  obtain ⟨hh, hr, -⟩ := h.run
  have hi := hr.reach_new.inv
  rw [hi.toInv0.total_iter] at hl
  refine hi.validate (by omega) (fun hf => ?_)
  have := h.calm hf
  rw [← evW_iter] at this
  rw [hr.reach_new.capacity]
  exact this

/-- Any call returns, does what is specified, and leaves a good state, provided it is not an update that makes a difference
to the weight. -/
theorem Good.call (h : Good hash target cap gcap w flag) (hl : lay.Fair) (ht : target ≤ cap) (hn : w.calls < 2 ^ 32 - 2)
    (op : Op UInt16 Value) : ∃ w' out st log, call hash lay w op = .ok (w', out, st) ∧
      OpSpec (cfg hash) target w.shard.contents op out log w'.shard.contents ∧ st = handed log ∧ w'.calls = w.calls + 1 ∧
      (∀ flag', (flag' = false → flag = false ∧ Calm (cfg hash) ⟨op, out, log⟩) → Good hash target cap gcap w' flag') ∧
      (op = .insert 0 ⟨0, 0, false⟩ → Good hash target cap gcap w' false) := by
  obtain ⟨hh, hr, hlen⟩ := h.run
  have hslots := hr.slots_le
  have hz : (Shard.new target cap gcap : Shard UInt16 Value).entries.entries.length = 0 := rfl
  have hlight := h.light
  obtain ⟨s', out, q, hs⟩ := Props.C06_returns hr op (fun wt ha => by have := adds_lt ha; omega) (by omega)
  obtain ⟨m, p, h1, h2, h3⟩ := hl w.calls s'
  have hre := hr.reach_new
  have hrun : Run (cfg hash) (Shard.new target cap gcap) (hh ++ [⟨op, out, q.log⟩]) (lay w.calls s') := by
    rw [h1]; exact .layout m p (.call hr hs) h2 h3
  have hiter : (lay w.calls s').iter = s'.iter := by rw [h1]; rfl
  refine ⟨⟨lay w.calls s', w.calls + 1⟩, out, q.st, q.log, ?_, ?_, ?_, rfl, fun flag' hf => ⟨⟨_, hrun, by simpa using hlen⟩, ?_⟩,
    fun ho => ⟨⟨_, hrun, by simpa using hlen⟩, fun _ => ?_⟩⟩
  · unfold FuzzUnsync.call; rw [hs]; rfl
  · have := hr.opSpec hs
    rw [h1]
    exact this
  · have := threads_handed (Props.C21_threads hr hs)
    simpa [cfg] using this
  · intro e
    obtain ⟨f1, f2⟩ := hf e
    have h4 := step_calm hre.inv.toInv0 (step_eff hre.inv hs) (by rw [hre.target, hre.capacity]; exact ht) f2
    have h5 := h.calm f1
    dsimp only at h4 ⊢
    rw [hiter, ← evW_iter]
    rw [← evW_iter] at h5
    rw [hre.capacity] at h4
    omega
  · subst ho
    have := Props.C29_weightless hr ht hs (Or.inl rfl) (Or.inr (by simp [enterWeight, cfg]))
    rw [show s'.capacity = cap from (Run.call hr hs).reach_new.capacity] at this
    dsimp only
    rw [hiter]
    exact this

theorem Good.peek (h : Good hash target cap gcap w flag) (hl : lay.Fair) (ht : target ≤ cap) (hn : w.calls < 2 ^ 32 - 2) (k : UInt16) :
    ∃ w', FuzzUnsync.peek hash lay w k = .ok (w', w.shard.contents k) ∧ w'.calls = w.calls + 1 ∧ Good hash target cap gcap w' flag := by
  obtain ⟨w', out, st, log, h1, ⟨h2, -⟩, -, h4, h5, -⟩ := h.call hl ht hn (.peek k)
  refine ⟨w', ?_, h4, h5 flag (fun e => ⟨e, trivial⟩)⟩
  unfold FuzzUnsync.peek
  rw [h1, h2]
  rfl

theorem Good.checkStored (h : Good hash target cap gcap w flag) (hl : lay.Fair) (ht : target ≤ cap) (hn : w.calls < 2 ^ 32 - 2)
    {k v : UInt16} {ev : List (UInt16 × Value)}
    (h1 : w.shard.contents k = none ∨ ∃ x, w.shard.contents k = some x ∧ x.original = v)
    (h2 : checkEvicted k (w.shard.contents k) [] ev = .ok ()) :
    ∃ w', FuzzUnsync.checkStored hash lay w k v ev = .ok w' ∧ w'.calls = w.calls + 1 ∧ Good hash target cap gcap w' flag := by
  obtain ⟨w', g1, g2, g3⟩ := h.peek hl ht hn k
  refine ⟨w', ?_, g2, g3⟩
  unfold FuzzUnsync.checkStored
  rw [g1, Res.ok_bind]
  dsimp only
  rw [assert_ok (by rcases h1 with h | ⟨x, h, e⟩ <;> rw [h] <;> simp [*]), Res.ok_bind, h2]
  rfl

theorem Good.oneOp (h : Good hash target cap gcap w flag) (hl : lay.Fair) (ht : target ≤ cap) (hn : w.calls + 2 < 2 ^ 32 - 2)
    (op : FOp) : ∃ w' flag', FuzzUnsync.oneOp hash lay w flag op = .ok (w', flag') ∧ w'.calls ≤ w.calls + 2 ∧
      Good hash target cap gcap w' flag' := by
  cases op with
  | insert k v pinned =>
    obtain ⟨w1, out, st, log, h1, ⟨h2, h3⟩, rfl, h4, h5, -⟩ := h.call hl ht (by omega) (.insert k (fresh v pinned))
    obtain ⟨g1, g2⟩ := store_checks h3
    obtain ⟨w2, e1, e2, e3⟩ := (h5 flag (fun e => ⟨e, trivial⟩)).checkStored hl ht (by omega) g1 g2
    refine ⟨w2, flag, ?_, by omega, e3⟩
    simp only [FuzzUnsync.oneOp]
    rw [h1, Res.ok_bind]
    dsimp only
    rw [show (fresh v pinned).original = v from rfl] at e1
    rw [e1]
    rfl
  | replace k v pinned =>
    obtain ⟨w1, out, st, log, h1, ⟨r, h2, h3⟩, rfl, h4, h5, -⟩ := h.call hl ht (by omega) (.replace k (fresh v pinned) false)
    obtain ⟨g0, g1⟩ := replace_checks h3
    have hg := h5 flag (fun e => ⟨e, trivial⟩)
    simp only [FuzzUnsync.oneOp]
    rw [h1, Res.ok_bind, h2]
    cases r with
    | none =>
      obtain ⟨w2, e1, e2, e3⟩ := hg.checkStored hl ht (by omega) (g1 rfl).1 (g1 rfl).2
      refine ⟨w2, flag, ?_, by omega, e3⟩
      rw [show (fresh v pinned).original = v from rfl] at e1
      dsimp only [Option.map]
      rw [e1]
      rfl
    | some x =>
      obtain ⟨w2, e1, e2, e3⟩ := hg.peek hl ht (by omega) k
      refine ⟨w2, flag, ?_, by omega, e3⟩
      dsimp only [Option.map]
      rw [e1, Res.ok_bind]
      dsimp only
      rw [assert_ok (g0 (by simp))]
      rfl
  | placeholder k o =>
    cases o with
    | none =>
      obtain ⟨w1, out, st, log, h1, h2, rfl, h4, h5, -⟩ := h.call hl ht (by omega) (.getRefOrGuard k .drop)
      refine ⟨w1, flag, ?_, by omega, h5 flag (fun e => ⟨e, trivial⟩)⟩
      simp only [FuzzUnsync.oneOp]
      rw [h1]
      rfl
    | some p =>
      obtain ⟨v, pinned⟩ := p
      obtain ⟨w1, out, st, log, h1, h2, rfl, h4, h5, -⟩ := h.call hl ht (by omega) (.getRefOrGuard k (.insert (fresh v pinned)))
      have hg := h5 flag (fun e => ⟨e, trivial⟩)
      simp only [FuzzUnsync.oneOp]
      rw [h1, Res.ok_bind]
      simp only [OpSpec] at h2
      cases hm : w.shard.contents k with
      | some y =>
        rw [hm] at h2
        obtain ⟨rfl, -⟩ := h2
        exact ⟨w1, flag, rfl, by omega, hg⟩
      | none =>
        rw [hm] at h2
        obtain ⟨rfl, h3⟩ := h2
        obtain ⟨g1, g2⟩ := store_checks h3
        obtain ⟨w2, e1, e2, e3⟩ := hg.checkStored hl ht (by omega) g1 g2
        refine ⟨w2, flag, ?_, by omega, e3⟩
        dsimp only
        rw [show (fresh v pinned).original = v from rfl] at e1
        rw [e1]
        rfl
  | update k v pinned =>
    obtain ⟨w1, out, st, log, h1, ⟨rfl, h3, -⟩, rfl, h4, h5, -⟩ := h.call hl ht (by omega) (.getMut k (fun _ => fresh v pinned))
    simp only [FuzzUnsync.oneOp]
    rw [h1, Res.ok_bind]
    cases hm : w.shard.contents k with
    | none =>
      refine ⟨w1, flag, rfl, by omega, h5 flag (fun e => ⟨e, ?_⟩)⟩
      rw [hm]
      trivial
    | some old =>
      refine ⟨w1, _, rfl, by omega, h5 _ (fun e => ?_)⟩
      simp only [Bool.or_eq_false_iff, decide_eq_false_iff_not, Bool.and_eq_false_iff, Bool.not_eq_false'] at e
      refine ⟨e.1, ?_⟩
      rw [hm]
      show evictable (cfg hash) k (fresh v pinned) ≤ evictable (cfg hash) k old
      have hle : v.toNat ≤ old.current.toNat := by
        have := e.2.1
        rw [UInt16.lt_iff_toNat_lt] at this
        omega
      have h6 : ∀ x : Value, evictable (cfg hash) k x = if x.pinned = true then 0 else x.current.toNat := fun _ => rfl
      rw [h6, h6]
      rcases e.2.2 with e | e
      · rw [e]
        cases pinned <;> simp [hle, fresh]
      · simp [e, fresh]
  | remove k =>
    obtain ⟨w1, out, st, log, h1, ⟨rfl, h2, h3⟩, rfl, h4, h5, -⟩ := h.call hl ht (by omega) (.remove k)
    obtain ⟨w2, e1, e2, e3⟩ := (h5 flag (fun e => ⟨e, trivial⟩)).peek hl ht (by omega) k
    refine ⟨w2, flag, ?_, by omega, e3⟩
    simp only [FuzzUnsync.oneOp]
    rw [h1, Res.ok_bind]
    dsimp only
    rw [assert_ok (by intro x hx; cases hm : w.shard.contents k <;> rw [hm] at hx <;> simp at hx; rw [← hx]), Res.ok_bind, e1,
      Res.ok_bind]
    dsimp only
    rw [assert_ok (by rw [h3]; simp [del])]
    rfl

theorem Good.loop (hl : lay.Fair) (ht : target ≤ cap) : ∀ (ops : List FOp) (w : World) (flag : Bool),
    Good hash target cap gcap w flag → w.calls + 2 * ops.length + 1 < 2 ^ 32 - 2 →
    ∃ w' flag', FuzzUnsync.loop hash lay ops w flag = .ok (w', flag') ∧ w'.calls < 2 ^ 32 - 2 ∧
      Good hash target cap gcap w' flag' := by
  intro ops
  induction ops with
  | nil => intro w flag h hn; exact ⟨w, flag, rfl, by omega, h⟩
  | cons op ops ih =>
    intro w flag h hn
    simp only [List.length_cons] at hn
    obtain ⟨w1, flag1, h1, h2, h3⟩ := h.oneOp hl ht (by omega) op
    obtain ⟨w2, flag2, h4, h5, h6⟩ := ih w1 flag1 h3 (by omega)
    refine ⟨w2, flag2, ?_, h5, h6⟩
    unfold FuzzUnsync.loop
    rw [h1, Res.ok_bind]
    dsimp only
    rw [h3.validates, Res.ok_bind, h4]

end

theorem ratio_unit (n : UInt8) : ∃ q, ratio n = .fin q ∧ 0 ≤ q ∧ q ≤ 1 := by
  have h : n.toNat ≤ 255 := Nat.le_of_lt_succ n.toNat_lt
  have h0 : (0 : ℚ) ≤ (n.toNat : ℚ) / 255 := by positivity
  have h1 : (n.toNat : ℚ) / 255 ≤ (1 : Nat) := by
    rw [div_le_iff₀ (by norm_num)]
    have : (n.toNat : ℚ) ≤ 255 := by exact_mod_cast h
    simpa using this
  refine ⟨_, rfl, rnd_nonneg h0, ?_⟩
  have := rnd_le h0 h1 (by norm_num)
  simpa using this

theorem inUnit_ratio (n : UInt8) : ∃ q, Builder.inUnit (ratio n) = some q ∧ 0 ≤ q ∧ q ≤ 1 := by
  obtain ⟨q, h1, h2, h3⟩ := ratio_unit n
  refine ⟨q, ?_, h2, h3⟩
  rw [h1]
  unfold Builder.inUnit
  dsimp only
  rw [if_pos (by rw [min_eq_left h3, max_eq_right h2])]

theorem options_ok (i : Input) : ∃ hot ghost, options i = .ok ⟨1, hot, ghost, i.items.toNat, i.weight.toNat⟩ ∧ 0 ≤ hot ∧ hot ≤ 1 := by
  obtain ⟨a, h1, h2, h3⟩ := inUnit_ratio i.hot
  obtain ⟨b, h4, -⟩ := inUnit_ratio i.ghost
  refine ⟨a, b, ?_, h2, h3⟩
  simp only [options, Builder.set, Res.ok_bind, h1, h4, Builder.build, Builder.new, Option.getD]

/-- The fuzz target returns. -/
theorem run_ok (lay : Layout) (hl : lay.Fair) (i : Input) (hn : i.ops.length < 2 ^ 31 - 2) : run hash lay i = .ok () := by
  obtain ⟨hot, ghost, h1, h2, h3⟩ := options_ok i
  have hw : i.weight.toNat < 2 ^ 32 := i.weight.toNat_lt
  have ht : fracOf i.weight.toNat hot ≤ i.weight.toNat := fracOf_le h2 h3 (by omega)
  obtain ⟨w, flag, h4, h5, h6⟩ := Good.loop (hash := hash) (lay := lay) (gcap := fracOf i.items.toNat ghost) hl ht i.ops
    ⟨(⟨1, hot, ghost, i.items.toNat, i.weight.toNat⟩ : Options).unsync, 0⟩ false
    ⟨⟨[], .start, Nat.le_refl _⟩, fun _ => Nat.zero_le _⟩ (by simp only; omega)
  unfold run
  rw [h1, Res.ok_bind, h4, Res.ok_bind]
  dsimp only
  cases flag with
  | false => exact h6.validates
  | true =>
    obtain ⟨w', out, st, log, g1, -, -, -, -, g5⟩ := h6.call hl ht h5 (.insert 0 ⟨0, 0, false⟩)
    rw [if_pos rfl, g1, Res.ok_bind]
    exact (g5 rfl).validates

end QuickCache.FuzzUnsync
