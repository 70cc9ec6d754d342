import Verif.Proofs.ClockFit
import Verif.Proofs.ClockConc
import Verif.Props.Default

/-!
# Property C64: how far an insertion thins out the cache
-/

namespace QuickCache.Props
open Unsync Spec

section
variable {K V RS : Type} [DecidableEq K] {c : Cfg K V RS} {target cap gcap : Nat} {h : List (Unsync.Call K V)}
  {s s' : Shard K V}

/-- C64: what storing an admissible item does to the items. It joins those of other keys (the first lifecycle calls, about the
item itself and the previous value of its key, are `preamble`); then victims are chosen one after the other, and each of them
while the items present weigh more than the hot target or more than the capacity. In the end `f` is written through the
reference, if one is returned. -/
theorem C64_victims (hr : Run c (Shard.new target cap gcap) h s) {op : Op K V} {out : Out K V} {q : Req K V RS}
    (hs : step c s op = .ok (s', out, q)) {k : K} {v : V} {f : V → V} (hst : StoresThen s.contents op out k v f)
    (hadm : Admissible c target k v) :
    ∃ L bag, q.log = preamble c target s.contents k v ++ L ∧
      Thins c.weight (min target cap) ((k, enterValue c target k v) :: s.iter.filter (fun p => p.1 ≠ k)) L bag ∧
      s'.iter.Perm (bag.map fun p => if p.1 = k then (p.1, f p.2) else p) := by
  obtain ⟨m, -, R, F, h2, rfl⟩ := hr.clock_new
  have hi := hr.reach_new.inv.toInv0
  obtain ⟨m', h3, h4⟩ := (step_sim hi h2 op).of_ok hs
  have hv : (s.abs R).value = s.contents := Shard.abs_value s R
  have ht : (s.abs R).target = target := hr.reach_new.target
  have hc : (s.abs R).cap = cap := hr.reach_new.capacity
  obtain ⟨L, bag, e1, e2, e3⟩ := h4.thin (Shard.Implements.wf ⟨R, F, h2, rfl⟩ hi) (by rw [hv]; exact hst)
    (by rw [ht]; exact hadm) (by rw [hv]; exact hr.lists)
  rw [ht, hv] at e1
  rw [ht, hc] at e3
  refine ⟨L, bag, e1, e3, ?_⟩
  rw [h3.value] at e2
  exact (Run.call hr hs).lists.perm e2

/-- If every item weighs one, then either nothing is evicted, or at least as many items as the hot target (or the capacity, if
that is less) are left. -/
theorem C64_count (hr : Run c (Shard.new target cap gcap) h s) (hw : c.weight = fun _ _ => 1) {op : Op K V} {out : Out K V}
    {q : Req K V RS} (hs : step c s op = .ok (s', out, q)) {k : K} {v : V} {f : V → V}
    (hst : StoresThen s.contents op out k v f) (hadm : Admissible c target k v) :
    q.log = preamble c target s.contents k v ∨ min target cap ≤ s'.len := by
  obtain ⟨L, bag, h1, h2, h3⟩ := C64_victims hr hs hst hadm
  rw [hw] at h2
  rw [(C05_len (Run.call hr hs)).1, h3.length_eq, List.length_map]
  rcases h2.count with ⟨rfl, -⟩ | h
  · left; rw [h1, List.append_nil]
  · exact .inr h

end

section
variable {K V : Type} [DecidableEq K] {hash : K → UInt64} {par n : Nat} {h : List (Unsync.Call K V)} {s0 s s' : Shard K V}

/-- `Cache::new(n)`: a call that stores an item evicts others only if more than 96.9 % of `n`, rounded down, stay. -/
theorem C64_new (hn : Unsync.new par n = .ok s0) (h2 : 2 ≤ n) (h64 : n < 2 ^ 64) (hr : Run (.plain hash) s0 h s) {op : Op K V} {out : Out K V}
    {q : Req K V Unit} (hs : step (.plain hash) s op = .ok (s', out, q)) {k : K} {v : V} {f : V → V}
    (hst : StoresThen s.contents op out k v f) :
    q.log = (s.contents k).toList.map (.onEvict k) ∨ 969 * n < 1000 * (s'.len + 1) := by
  rw [plain_new hn] at hr
  have ht := fracOf_default_pos h2
  have hnot : ¬ (fracOf n defaultHot < (Cfg.plain hash : Cfg K V Unit).weight k v ∧
      (Cfg.plain hash : Cfg K V Unit).pinned k v = false) := by
    rintro ⟨h, -⟩
    simp only [Cfg.plain, unitWeight] at h
    omega
  have hw : enterWeight (Cfg.plain hash : Cfg K V Unit) (fracOf n defaultHot) k v = 1 := by
    unfold enterWeight; rw [if_neg hnot]; rfl
  rcases C64_count hr rfl hs hst (Or.inr (by rw [hw]; exact ht)) with h | h
  · left
    rw [h]; unfold preamble; rw [if_neg hnot]; rfl
  · right
    have h3 := fracOf_default_lower (show 1 ≤ n by omega) h64
    have h4 := (fracOf_default_le n).1
    rw [Nat.min_eq_left h4] at h
    omega

end

section
variable {K V RS : Type} [DecidableEq K] {c : Cfg K V RS} {target cap gcap : Nat} {s s' : Conc.State K V} {act : Conc.Act K V}
  {tr evs : List (Conc.Ev K V)} {sec : Section K V} {out : SOut K V} {log : List (Event K V)}
open Conc

/-- The critical sections that store an item: those of storing calls, and the successful end of a load. -/
inductive SectStores (m : K → Option V) : Section K V → SOut K V → K → V → Prop
  | call {op : Op K V} {out : Out K V} {k : K} {v : V} (h : Stores m op out k v) : SectStores m (.call op) (.call out) k v
  | fill (k : K) (p : Plh) (waited : Bool) (v : V) : SectStores m (.fill k p waited v) (.filled none) k v

/-- C64 for the concurrent cache: the same in every critical section that stores an item. -/
theorem C64_shared (hr : Conc.Run c (State.new (Shard.new target cap gcap)) tr s) (hq : c.ptrEq = true)
    (hx : exec c s act = some (.ok (s', evs))) (he : .sect sec out log ∈ evs) {k : K} {v : V}
    (hst : SectStores s.shard.contents sec out k v) (hadm : Admissible c target k v) :
    ∃ L, log = preamble c target s.shard.contents k v ++ L ∧
      Thins c.weight (min target cap) ((k, enterValue c target k v) :: s.shard.iter.filter (fun p => p.1 ≠ k)) L
        s'.shard.iter := by
  have hR := hr.reach hq (.new c target cap gcap)
  have hi := hR.inv
  obtain ⟨m, -, R, F, h2, rfl⟩ := hr.clock hq
  have hi0 := hi.shard.toInv0
  have hwf := Shard.Implements.wf ⟨R, F, h2, rfl⟩ hi0
  have hv : (s.shard.abs R).value = s.shard.contents := Shard.abs_value s.shard R
  have hb : Lists s.shard.iter (s.shard.abs R).value := by rw [hv]; exact lists_iter hi0
  have ht : (s.shard.abs R).target = target := hR.reach.target
  have hc : (s.shard.abs R).cap = cap := hR.reach.capacity
  have hi' : Inv0 c s'.shard := (hR.step (hi.eff hq hx)).inv.shard.toInv0
  rcases exec_sect hi hq hx with ⟨-, h⟩ | ⟨sec', out', q, rest, rfl, h1, h3, hok, hf, -⟩
  · have := h _ he; cases this
  rcases List.mem_cons.mp he with h | h
  swap
  · have := h1 _ h; cases this
  cases h
  obtain ⟨m', g1, g2⟩ := (sect_sim hi.shard h2 hq hok).of_ok h3
  have key : ∃ L bag, q.log = preamble c target s.shard.contents k v ++ L ∧ Lists bag m'.value ∧
      Thins c.weight (min target cap) ((k, enterValue c target k v) :: s.shard.iter.filter (fun p => p.1 ≠ k)) L bag := by
    cases hst with
    | call hst =>
      cases g2 with
      | call step =>
        obtain ⟨L, bag, e1, e2, e3⟩ := step.thin hwf (StoresThen.plain (by rw [hv]; exact hst)) (by rw [ht]; exact hadm) hb
        rw [ht, hv] at e1
        rw [ht, hc] at e3
        refine ⟨L, bag, e1, ?_, e3⟩
        rwa [List.map_congr_left (g := id) (fun p _ => by split <;> rfl), List.map_id] at e2
    | fill k p waited v =>
      cases g2 with
      | filled here fill =>
        have hl : PLive c s.shard k p := Classical.not_not.mp here
        have habs : (s.shard.abs R).items k = none := by
          cases hk : (s.shard.abs R).items k with
          | none => rfl
          | some i =>
            obtain ⟨t, r, a1, a2, -⟩ := Shard.abs_some hi0 hk
            exact absurd a2 (hl.noRes hi0 t r a1)
        obtain ⟨st, pre, v1, L, e1, e2, e3⟩ := fill.thin (T := min target cap) hwf habs (by rw [ht]; omega) (by rw [hc]; omega) hb
        rw [ht] at e1 e3
        rcases e3 with ⟨hp, hh⟩ | ⟨bag', e4, e5⟩
        · exact absurd hadm (e1.admissible hp hh)
        · obtain ⟨e6, e7⟩ := e1.is
          refine ⟨L, bag', ?_, e4, e6 ▸ e5⟩
          have : s.shard.contents k = none := by rw [← hv]; simp [Clock.value, habs]
          rw [e2, preamble, ← e7, this]; simp
  obtain ⟨L, bag, e1, e2, e3⟩ := key
  rw [g1.value] at e2
  exact ⟨L, e1, e3.perm_right (e2.perm (lists_iter hi'))⟩

end

/-! ### Examples -/

/-- Filling a cache for four items whose hot target is two; the hot list then holds more. -/
def txOps : List (Op Nat Nat) := [1, 2, 3, 4, 5, 3, 5].map (fun k => .insert k (10 * k))

/-- The bound cannot be the capacity alone: a call may evict more than needed to make room. Here a full cache for four items
loses two for one that is new. -/
theorem C64_false : ∃ (s : Shard Nat Nat) (h : List (Unsync.Call Nat Nat)) (s' : Shard Nat Nat) (out : Out Nat Nat)
    (q : Req Nat Nat Unit), Run dxCfg (Shard.new 2 4 2) h s ∧ step dxCfg s (.insert 6 60) = .ok (s', out, q) ∧
      s'.capacity = 4 ∧ s'.len = 3 ∧ q.log = [.beforeEvict 1 10 10, .onEvict 1 10, .beforeEvict 2 20 20, .onEvict 2 20] ∧
      (6, 60) ∈ s'.iter := by
  obtain ⟨s, h, s', out, q, h1, h2, h3⟩ := runThen (c := dxCfg) (s0 := Shard.new 2 4 2) (ops := txOps) (op := .insert 6 60)
    (P := fun s _ log => s.capacity = 4 ∧ s.len = 3 ∧
      log = [.beforeEvict 1 10 10, .onEvict 1 10, .beforeEvict 2 20 20, .onEvict 2 20] ∧ (6, 60) ∈ s.iter) (by decide +kernel)
  exact ⟨s, h, s', out, q, h1, h2, h3⟩

/-- The hypotheses of `C64_victims` and `C64_count` are met there: the item is admissible and each item weighs one. -/
example : Admissible dxCfg 2 6 60 ∧ dxCfg.weight = fun _ _ => 1 :=
  ⟨.inr (by decide), rfl⟩

/-- The lifecycle calls of the example, as `Thins` sees them: five items, a limit of two, three items left. -/
example : Thins dxCfg.weight 2 [(6, 60), (1, 10), (2, 20), (3, 30), (5, 50)]
    [.beforeEvict 1 10 10, .onEvict 1 10, .beforeEvict 2 20 20, .onEvict 2 20] [(3, 30), (5, 50), (6, 60)] := by
  refine .evict (rest := [(6, 60), (2, 20), (3, 30), (5, 50)]) (.swap ..) (by decide) (by decide)
    (.evict (rest := [(6, 60), (3, 30), (5, 50)]) (.swap ..) (by decide) (by decide) (.done ?_))
  exact (List.perm_append_comm (l₁ := [(6, 60)]) (l₂ := [(3, 30), (5, 50)]))

/-- `Cache::new(34)`, full: one item goes, and 34 stay. -/
example : (Unsync.new 4 34 : Except BuildError (Shard Nat Nat)).toOption.map (fun s =>
    checkThen dxCfg s dxOps (.insert 40 40) (fun s' _ log => s'.len = 34 ∧ log.length = 2)) = some true := by decide +kernel

/-- In the concurrent cache, too, the last insertion evicts two items. -/
example : (runActs dxShared (Conc.State.new (Shard.new 2 4 2)) (dxActs ++ [.call (.insert 6 60)])).map (fun r =>
    (r.1.shard.len, r.2.getLast?.map fun e =>
      match e with
      | .sect _ _ log => log
      | _ => [])) =
    some (3, some [.beforeEvict 1 10 10, .onEvict 1 10, .beforeEvict 2 20 20, .onEvict 2 20]) := by decide +kernel

end QuickCache.Props
