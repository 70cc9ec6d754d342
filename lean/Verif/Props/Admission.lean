import Verif.Proofs.Calls
import Verif.Props.Example

/-!
# Properties C14, C15: whether an inserted item is there
-/

namespace QuickCache
variable {K V RS : Type _} [DecidableEq K] {c : Cfg K V RS}

namespace Props
variable {target cap gcap : Nat} {h : List (Unsync.Call K V)} {s s' : Shard K V}
open Unsync Spec

/-- The cache keeps nothing about `k`: neither an item nor a pending load of the key, nor the hash of an evicted item
equal to its hash. -/
structure NoTrace (c : Cfg K V RS) (s : Shard K V) (k : K) : Prop where
  noItem : ∀ r, .resident r ∈ s.entries.iter → r.key ≠ k
  noLoad : ∀ t ph hh, s.entries.item t = some (.placeholder ph) → (hh, t) ∈ s.map → ph.key ≠ k
  noGhost : .ghost (c.hash k) ∉ s.entries.iter

/-! ### C14: a fresh insert is admitted and readable -/

theorem C14_state (hr : Run c (Shard.new target cap gcap) h s) {k : K} (hk : NoTrace c s k) {v : V} {out : Out K V}
    {q : Req K V RS} (hs : step c s (.insert k v) = .ok (s', out, q)) (hadm : Admissible c target k v) :
    (k, enterValue c target k v) ∈ s'.iter := by
  have hre := hr.reach_new
  rw [(Run.call hr hs).lists.2]
  have heff := step_eff hre.inv hs
  generalize hx : (s', out, q) = x at heff
  cases heff with
  | insert h =>
    cases hx
    obtain ⟨q1, v1, he, adm, hp⟩ := h.admissible hre.target hadm
    rw [(he.value hre.target).1]
    refine hp.contents_fresh ?_ ?_
    · intro h' t hm hkey
      unfold keyAt at hkey
      cases hi : s.entries.item t with
      | none => rw [hi] at hkey; cases hkey
      | some e =>
        rw [hi] at hkey
        cases e with
        | resident r => exact hk.noItem r (Slab.mem_iter.mpr ⟨t, hi⟩) (by simpa [keyOf] using hkey)
        | placeholder ph => exact hk.noLoad t ph h' hi hm (by simpa [keyOf] using hkey)
        | ghost g => simp [keyOf] at hkey
    · intro t ht
      exact hk.noGhost (Slab.mem_iter.mpr ⟨t, ht⟩)
  | hit hop => cases hop
  | miss hop => cases hop
  | leave hop => cases hop
  | drop hop => cases hop
  | fill hop => cases hop

/-- From outside: nothing of `k` is kept if it is absent, no load of it failed and no guard for it was leaked, and no item
of equal hash was evicted, all since the last `clear` or `drain`. -/
theorem C14_noTrace (hr : Run c (Shard.new target cap gcap) h s) {k : K} (hk : ∀ v, (k, v) ∉ s.iter)
    (hload : ∀ x ∈ sinceClear h, ¬ Unfinished k x)
    (hghost : ∀ x ∈ sinceClear h, ∀ k' v', .onEvict k' v' ∈ x.log → c.hash k' ≠ c.hash k) : NoTrace c s k where
  noItem r hm hkey := by
    refine hk r.value ?_
    rw [Shard.iter, List.mem_filterMap]
    exact ⟨_, hm, by rw [← hkey]; rfl⟩
  noLoad t ph hh ht hm hkey := by
    obtain ⟨x, hx, hu⟩ := hr.prov.plh k ⟨t, ph, hh, ht, hkey, hm⟩
    exact hload x hx hu
  noGhost hm := by
    obtain ⟨t, ht⟩ := Slab.mem_iter.mp hm
    obtain ⟨x, hx, k', v', he, heq⟩ := hr.prov.gho t _ ht
    exact hghost x hx k' v' he heq

theorem C14_fresh (hr : Run c (Shard.new target cap gcap) h s) {k : K} (hk : ∀ v, (k, v) ∉ s.iter)
    (hload : ∀ x ∈ sinceClear h, ¬ Unfinished k x)
    (hghost : ∀ x ∈ sinceClear h, ∀ k' v', .onEvict k' v' ∈ x.log → c.hash k' ≠ c.hash k) {v : V} {out : Out K V}
    {q : Req K V RS} (hs : step c s (.insert k v) = .ok (s', out, q))
    (hfit : c.weight k v ≤ target ∨ c.pinned k v = true) : (k, v) ∈ s'.iter := by
  have hno : ¬ (target < c.weight k v ∧ c.pinned k v = false) := by
    rintro ⟨h1, h2⟩
    rcases hfit with h | h
    · omega
    · rw [h] at h2; cases h2
  have := C14_state hr (C14_noTrace hr hk hload hghost) hs
    (hfit.elim (fun h => Or.inr (by unfold enterWeight; rw [if_neg hno]; exact h)) Or.inl)
  unfold enterValue at this
  rwa [if_neg hno] at this

/-- Inserting key 5 (hash 2) makes room by evicting key 3 (hash 0) and is there afterwards. -/
example : exNextFine [.insert 3 14, .insert 1 14, .insert 6 12] (.insert 5 23) = true ∧
    (exNext [.insert 3 14, .insert 1 14, .insert 6 12] (.insert 5 23)).2.2.log ≠ [] ∧
    (exNext [.insert 3 14, .insert 1 14, .insert 6 12] (.insert 5 23)).1.contents 5 = some 23 ∧
    sinceClear (exRun [.insert 3 14, .insert 1 14, .insert 6 12]).2 =
      [⟨.insert 3 14, .unit, []⟩, ⟨.insert 1 14, .unit, []⟩, ⟨.insert 6 12, .unit, []⟩] := by
  refine ⟨by decide, by decide, by decide, by rfl⟩

/-! ### C15: `insert` of a fitting item is always readable afterwards

False in general: an item whose hash is remembered as evicted enters the hot queue with reference counter 0, and making
room for it may then choose it as victim at once. -/

/-- The default weighter and lifecycle, keys hashed injectively. -/
def unitCfg : Cfg Nat Nat Unit where
  hash k := UInt64.ofNat k
  weight _ _ := 1
  pinned _ _ := false
  beginReq := ()
  beforeEvict _ _ v := ((), v)
  onEvict _ _ _ := ()
  ptrEq := false

/-- A cache of capacity 2 with default options (hot target `0.97 * 2`, that is 1; one remembered hash): the final `insert`
returns normally, but the item is not there. -/
theorem C15_false : ∃ (h : List (Call Nat Nat)) (s s' : Shard Nat Nat) (q : Req Nat Nat Unit),
    Run unitCfg (Shard.new 1 2 1) h s ∧ unitCfg.weight 2 2 ≤ 1 ∧ step unitCfg s (.insert 2 2) = .ok (s', .unit, q) ∧
      ∀ v, (2, v) ∉ s'.iter := by
  obtain ⟨s, h, s', out, q, h1, h2, h3⟩ := runThen (c := unitCfg) (s0 := Shard.new 1 2 1)
    (ops := [.insert 1 1, .insert 2 2, .insert 3 3, .get 1, .get 3]) (op := .insert 2 2)
    (P := fun s' out _ => 2 ∉ s'.iter.map (·.1) ∧ out = .unit) (by decide)
  obtain ⟨h3, rfl⟩ := h3
  exact ⟨h, s, s', q, h1, by decide, h2, fun v hv => h3 (List.mem_map.mpr ⟨_, hv, rfl⟩)⟩

/-- What does hold: an admissible item is there after `insert` if the cache keeps nothing else about its key, or
everything fits, or the item is pinned or weightless; and whenever it is not there, the log shows that it was chosen as
victim after the admission check. Missing to the full statement: that it is not chosen. -/
theorem C15_partial (hr : Run c (Shard.new target cap gcap) h s) {k : K} {v : V} {out : Out K V}
    {q : Req K V RS} (hs : step c s (.insert k v) = .ok (s', out, q)) (hadm : Admissible c target k v) :
    (NoTrace c s k ∨ total c.weight s.iter + enterWeight c target k v ≤ cap + weightAt c s.contents k ∨
      c.pinned k (enterValue c target k v) = true ∨ c.weight k (enterValue c target k v) = 0 →
        (k, enterValue c target k v) ∈ s'.iter) ∧
    ((k, enterValue c target k v) ∈ s'.iter ∨ ∃ w L, q.log = preamble c target s.contents k v ++ L ∧
      .beforeEvict k (enterValue c target k v) w ∈ L) := by
  have hre := hr.reach_new
  have hl := (Run.call hr hs).lists.2 k (enterValue c target k v)
  obtain ⟨s1, s2, str, hi1, hcon, hinfo, htot, he, hc, -, -⟩ :=
    (step_eff hre.inv hs).storesThen hre.inv.toInv0 (.plain (.insert k v out))
  have hcont : s1.contents = s.contents := by funext x; simp only [Shard.contents_eq, hinfo]
  obtain ⟨st, L, h1, h2, h3, h4⟩ := he.whole hi1 (hcon.target.trans hre.target) hadm
  rw [hcont] at h1 h2 h3 h4
  have hid : s'.contents = s2.contents := by
    simp only at hc
    rw [hc]
    funext x
    unfold alter
    by_cases hx : x = k <;> simp [hx]
  have hkept := h3.announced (k := k) (v := enterValue c target k v) (by simp [put])
  rw [← hid] at hkept h3
  refine ⟨?_, ?_⟩
  · rintro (h5 | h5 | h5 | h5)
    · exact C14_state hr h5 hs hadm
    · have := h4 (by rw [htot, hcon.capacity, hre.capacity, ← hre.inv.toInv0.total_iter]; exact h5)
      subst this
      rw [hl]
      rcases hkept with h | ⟨w, h⟩
      · exact h
      · cases h
    · rw [hl]
      rcases hkept with h | ⟨w, h⟩
      · exact h
      · have := (h3.free _ h).1
        rw [h5] at this; cases this
    · rw [hl]
      rcases hkept with h | ⟨w, h⟩
      · exact h
      · exact absurd h5 (h3.free _ h).2
  · rw [hl]
    rcases hkept with h | ⟨w, h⟩
    · exact Or.inl h
    · exact Or.inr ⟨w, L, h1, h⟩

end Props
end QuickCache
