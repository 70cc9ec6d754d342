import Verif.Proofs.Calls
import Verif.Props.Example

/-!
# Properties C08, C09, C17, C21, C33, C34, C35: what is evicted, when and how
-/

namespace QuickCache.Props
variable {K V RS : Type _} [DecidableEq K] {c : Cfg K V RS} {target cap gcap : Nat} {h : List (Unsync.Call K V)}
  {s s' : Shard K V}
open Unsync Spec

/-! ### C08: pinned items are never evicted -/

/-- One call: a pinned item that is not explicitly stored, written, removed or filtered out stays with its value, and no
lifecycle call is made about its key. -/
theorem C08_call (hr : Run c (Shard.new target cap gcap) h s) {op : Op K V} {out : Out K V} {q : Req K V RS}
    (hs : step c s op = .ok (s', out, q)) {k : K} {v : V} (hm : (k, v) ∈ s.iter) (hp : c.pinned k v = true)
    (ht : ¬ Touches k v ⟨op, out, q.log⟩) : (k, v) ∈ s'.iter ∧ ∀ e ∈ q.log, eventKey e ≠ k := by
  obtain ⟨h1, h2⟩ := ((hr.opSpec hs).spared ((hr.lists.2 k v).mp hm) ht).safe (Or.inr hp)
  exact ⟨((Run.call hr hs).lists.2 k v).mpr h1, h2⟩

/-- Any number of calls: the same for a whole continuation `h'` of the history. -/
theorem C08_run (hr : Run c (Shard.new target cap gcap) h s) {k : K} {v : V} (hm : (k, v) ∈ s.iter)
    (hp : c.pinned k v = true) {h' : List (Call K V)} (hr' : Run c s h' s') (ht : ∀ x ∈ h', ¬ Touches k v x) :
    (k, v) ∈ s'.iter ∧ ∀ x ∈ h', ∀ e ∈ x.log, eventKey e ≠ k :=
  hr'.keeps hr (fun hr hs hm ht => C08_call hr hs hm hp ht) hm ht

/-- In particular an item passed to `before_evict` is never pinned at that moment. (If `before_evict` itself turns its
value into a pinned one, the code evicts the item nevertheless.) -/
theorem C08_victims (hr : Run c (Shard.new target cap gcap) h s) {op : Op K V} {out : Out K V} {q : Req K V RS}
    (hs : step c s op = .ok (s', out, q)) {k : K} {v v' : V} (he : .beforeEvict k v v' ∈ q.log) :
    c.pinned k v = false := ((hr.opSpec hs).free _ he).1

/-- The pinned item 7 of the example survives several evictions. -/
example : exFine exOps = true ∧ (7, 105) ∈ (exRun (exOps.take 5)).1.iter ∧
    (7, 105) ∈ (exRun (exOps.take 13)).1.iter ∧ exCfg.pinned 7 105 = true ∧
    4 ≤ ((exRun (exOps.take 13)).2.drop 5).foldl (fun n x => n + x.log.length) 0 := by decide

/-! ### C09: weightless items are never evicted -/

theorem C09_call (hr : Run c (Shard.new target cap gcap) h s) {op : Op K V} {out : Out K V} {q : Req K V RS}
    (hs : step c s op = .ok (s', out, q)) {k : K} {v : V} (hm : (k, v) ∈ s.iter) (hw : c.weight k v = 0)
    (ht : ¬ Touches k v ⟨op, out, q.log⟩) : (k, v) ∈ s'.iter ∧ ∀ e ∈ q.log, eventKey e ≠ k := by
  obtain ⟨h1, h2⟩ := ((hr.opSpec hs).spared ((hr.lists.2 k v).mp hm) ht).safe (Or.inl hw)
  exact ⟨((Run.call hr hs).lists.2 k v).mpr h1, h2⟩

theorem C09_run (hr : Run c (Shard.new target cap gcap) h s) {k : K} {v : V} (hm : (k, v) ∈ s.iter)
    (hw : c.weight k v = 0) {h' : List (Call K V)} (hr' : Run c s h' s') (ht : ∀ x ∈ h', ¬ Touches k v x) :
    (k, v) ∈ s'.iter ∧ ∀ x ∈ h', ∀ e ∈ x.log, eventKey e ≠ k :=
  hr'.keeps hr (fun hr hs hm ht => C09_call hr hs hm hw ht) hm ht

/-- An item passed to `before_evict` has weight at that moment. -/
theorem C09_victims (hr : Run c (Shard.new target cap gcap) h s) {op : Op K V} {out : Out K V} {q : Req K V RS}
    (hs : step c s op = .ok (s', out, q)) {k : K} {v v' : V} (he : .beforeEvict k v v' ∈ q.log) : c.weight k v ≠ 0 :=
  ((hr.opSpec hs).free _ he).2

/-- A weightless item survives three evictions. -/
example : exFine [.insert 1 10, .insert 2 15, .insert 3 25, .insert 4 35, .insert 5 45, .insert 6 65] = true ∧
    (exRun [.insert 1 10, .insert 2 15, .insert 3 25, .insert 4 35, .insert 5 45, .insert 6 65]).1.iter =
      [(1, 10), (2, 15), (6, 65)] := by decide

/-! ### C17: no needless eviction -/

/-- A storing call after which everything fits makes only the calls about its own item (the admission check, and
`on_evict` for the previous value), and every other item stays as it is. -/
theorem C17_fits (hr : Run c (Shard.new target cap gcap) h s) {op : Op K V} {out : Out K V} {q : Req K V RS}
    (hs : step c s op = .ok (s', out, q)) {k : K} {v : V} {f : V → V} (hst : StoresThen s.contents op out k v f)
    (hadm : Admissible c target k v)
    (hfit : total c.weight s.iter + enterWeight c target k v ≤ cap + weightAt c s.contents k) :
    q.log = preamble c target s.contents k v ∧ (∀ e ∈ q.log, eventKey e = k) ∧
      s'.contents = put s.contents k (f (enterValue c target k v)) := by
  have hre := hr.reach_new
  obtain ⟨s1, s2, str, hi1, hcon, hinfo, htot, he, hc, -, -⟩ := (step_eff hre.inv hs).storesThen hre.inv.toInv0 hst
  have hcont : s1.contents = s.contents := by funext x; simp only [Shard.contents_eq, hinfo]
  obtain ⟨st, L, h1, h2, h3, h4⟩ := he.whole hi1 (hcon.target.trans hre.target) hadm
  rw [hcont] at h1 h2 h3 h4
  have := h4 (by rw [htot, hcon.capacity, hre.capacity, ← hre.inv.toInv0.total_iter]; exact hfit)
  subst this
  simp only [List.append_nil] at h1
  refine ⟨h1, ?_, ?_⟩
  · rw [h1]
    exact preamble_key c target _ k v
  · simp only at hc
    rw [hc, h3.nil_eq]
    exact alter_put_same _ _ _ _

/-- Everything fits: overwriting key 1 in a cache holding 8 units hands out the old value only. -/
example : exNextFine [.insert 1 13, .insert 2 15] (.insert 1 25) = true ∧
    total exCfg.weight (exRun [.insert 1 13, .insert 2 15]).1.iter + enterWeight exCfg 8 1 25 ≤
      10 + weightAt exCfg (exRun [.insert 1 13, .insert 2 15]).1.contents 1 ∧
    (exNext [.insert 1 13, .insert 2 15] (.insert 1 25)).2.2.log = [.onEvict 1 13] := by decide

/-! ### C21: eviction protocol -/

/-- A storing call of an admissible item first makes the calls about its own item, and then evicts victims one by one
from the map that already holds the new item (if the new item is added only after the evictions, it is not among the
victims): each victim is passed to `before_evict` with its current value; if the value returned is weightless the item
stays with it, otherwise `on_evict` is the very next call, with exactly that value, and the item is gone
(`Spec.Evicts`). Finally a write through the returned reference takes place. -/
theorem C21_store (hr : Run c (Shard.new target cap gcap) h s) {op : Op K V} {out : Out K V} {q : Req K V RS}
    (hs : step c s op = .ok (s', out, q)) {k : K} {v : V} {f : V → V} (hst : StoresThen s.contents op out k v f)
    (hadm : Admissible c target k v) :
    ∃ st L m1, q.log = preamble c target s.contents k v ++ L ∧
      Threads c c.beginReq (preamble c target s.contents k v) st ∧
      Evicts c (put s.contents k (enterValue c target k v)) st L m1 q.st ∧ s'.contents = alter m1 k f := by
  have hre := hr.reach_new
  obtain ⟨s1, s2, str, hi1, hcon, hinfo, htot, he, hc, -, -⟩ := (step_eff hre.inv hs).storesThen hre.inv.toInv0 hst
  have hcont : s1.contents = s.contents := by funext x; simp only [Shard.contents_eq, hinfo]
  obtain ⟨st, L, h1, h2, h3, -⟩ := he.whole hi1 (hcon.target.trans hre.target) hadm
  rw [hcont] at h1 h2 h3
  exact ⟨st, L, s2.contents, h1, h2, h3, hc⟩

/-- The calls about the item of an inadmissible storing call: see C16. All other calls make no lifecycle calls. -/
theorem C21_silent (hr : Run c (Shard.new target cap gcap) h s) {op : Op K V} {out : Out K V} {q : Req K V RS}
    (hs : step c s op = .ok (s', out, q)) (hst : ∀ k v f, ¬ StoresThen s.contents op out k v f)
    (hrep : ∀ k v soft, op ≠ .replace k v soft) : q.log = [] :=
  (hr.opSpec hs).silent hst hrep

/-- The request state starts as returned by `begin_request`, is threaded through all callbacks of the call in the order
of the log, and ends as the state handed to `end_request`. -/
theorem C21_threads (hr : Run c (Shard.new target cap gcap) h s) {op : Op K V} {out : Out K V} {q : Req K V RS}
    (hs : step c s op = .ok (s', out, q)) : Threads c c.beginReq q.log q.st :=
  (step_eff hr.reach_new.inv hs).threads hr.reach_new.inv.toInv0

/-- One insertion that spares an item (key 2, rewritten to the weightless 50) and evicts another. -/
example : exNextFine [.insert 2 53, .insert 1 13, .insert 4 24] (.insert 3 36) = true ∧
    (exNext [.insert 2 53, .insert 1 13, .insert 4 24] (.insert 3 36)).2.2.log =
      [.beforeEvict 4 24 24, .onEvict 4 24, .beforeEvict 2 53 50] ∧
    (exNext [.insert 2 53, .insert 1 13, .insert 4 24] (.insert 3 36)).2.2.st = [4, 4, 2] ∧
    (exNext [.insert 2 53, .insert 1 13, .insert 4 24] (.insert 3 36)).1.contents 2 = some 50 := by decide

/-! ### C33: reference counters saturate -/

/-- In every state of every run the reference counter of every item is at most 2. -/
theorem C33_bound (hr : Run c (Shard.new target cap gcap) h s) {k : K} {r : Resident K V} (hk : s.info k = some r) :
    r.referenced ≤ 2 := by
  obtain ⟨-, t, ht⟩ := (hr.reach_new.inv.toInv0.rep k r).mp hk
  exact hr.refOK t r ht

/-- `get` of a present key raises its counter by one, up to 2, and changes nothing else about any item. -/
theorem C33_read (hr : Run c (Shard.new target cap gcap) h s) {k : K} {out : Out K V} {q : Req K V RS}
    (hs : step c s (.get k) = .ok (s', out, q)) {r : Resident K V} (hk : s.info k = some r) :
    s'.info = put s.info k { r with referenced := min (r.referenced + 1) 2 } := by
  have hb := C33_bound hr hk
  have := (step_eff hr.reach_new.inv hs).hit_info hr.reach_new.inv.toInv0 (.get k) hk
  rw [this]
  simp only [if_true, id]
  congr 2
  unfold Shard.bumpRef MAX_F
  split <;> omega

/-- A storing call comes across every unpinned item that it does not evict at most as often as its counter said, that is
at most twice: each time the counter goes down by one. -/
theorem C33_scan (hr : Run c (Shard.new target cap gcap) h s) {op : Op K V} {out : Out K V} {q : Req K V RS}
    (hs : step c s op = .ok (s', out, q)) {k : K} {v : V} {f : V → V} (hst : StoresThen s.contents op out k v f)
    (hadm : Admissible c target k v) :
    ∃ (tr : List (Visit K)) (L : List (Event K V)), q.log = preamble c target s.contents k v ++ L ∧
      (∀ e ∈ L, .victim (eventKey e) ∈ tr) ∧
      ∀ (k' : K) (r : Resident K V), k' ≠ k → s.info k' = some r → c.pinned k' r.value = false →
        (∀ e ∈ q.log, eventKey e ≠ k') →
        ∃ r', s'.info k' = some r' ∧ r'.value = r.value ∧
          r'.referenced + (tr.map Visit.key).count k' = r.referenced ∧ (tr.map Visit.key).count k' ≤ 2 := by
  have hre := hr.reach_new
  obtain ⟨s1, s2, str, hi1, hcon, hinfo, htot, he, -, hc, -⟩ := (step_eff hre.inv hs).storesThen hre.inv.toInv0 hst
  obtain ⟨st, r0, L, tr, h1, -, h3, h4, h5, h6, h7⟩ := he.scanned hi1 (hcon.target.trans hre.target) hadm
  have hcont : s1.contents = s.contents := by funext x; simp only [Shard.contents_eq, hinfo]
  simp only [hcont] at h1
  refine ⟨tr, L, h1, ?_, ?_⟩
  · rcases h7 with h7 | ⟨M, h7, -⟩ <;> exact h7.events
  intro k' r hne hk' hp hq
  have hb := C33_bound hr hk'
  have hq' : ∀ e ∈ L, eventKey e ≠ k' := fun e he => hq e (by rw [h1]; simp [he])
  rw [← hinfo] at hk'
  rcases h7 with h7 | ⟨M, h7, h8⟩
  · obtain ⟨r', g1, g2, g3⟩ := h7.decay (by rw [put_ne _ _ hne]; exact hk') hp hq' hb
    exact ⟨r', (hc k' hne).trans g1, g2, g3, by omega⟩
  · obtain ⟨r', g1, g2, g3⟩ := h7.decay hk' hp hq' hb
    exact ⟨r', (hc k' hne).trans (by rw [h8, put_ne _ _ hne]; exact g1), g2, g3, by omega⟩

/-- Key 1 read five times has counter 2 all the same. -/
example : exFine [.insert 1 13, .get 1, .get 1, .get 1, .get 1, .get 1] = true ∧
    ((exRun [.insert 1 13, .get 1, .get 1, .get 1, .get 1, .get 1]).1.info 1).map (·.referenced) = some 2 := by decide

/-! ### C34: eviction takes only unreferenced items -/

/-- What a storing call does to the items with queues and counters visible: it scans them as described by `Spec.Scans`,
where an item is taken as a victim only when its counter is zero, it is not pinned and not weightless, a referenced item
of the cold queue is promoted to the hot one, and a referenced or pinned item of the hot queue is passed over. -/
theorem C34_scan (hr : Run c (Shard.new target cap gcap) h s) {op : Op K V} {out : Out K V} {q : Req K V RS}
    (hs : step c s op = .ok (s', out, q)) {k : K} {v : V} {f : V → V} (hst : StoresThen s.contents op out k v f)
    (hadm : Admissible c target k v) :
    ∃ st r L tr M, q.log = preamble c target s.contents k v ++ L ∧ r.key = k ∧ r.value = enterValue c target k v ∧
      (Scans c (put s.info k r) st L tr M q.st ∧ (∀ k' ≠ k, s'.info k' = M k') ∨
        Scans c s.info st L tr M q.st ∧ ∀ k' ≠ k, s'.info k' = M k') := by
  have hre := hr.reach_new
  obtain ⟨s1, s2, str, hi1, hcon, hinfo, htot, he, -, hc, -⟩ := (step_eff hre.inv hs).storesThen hre.inv.toInv0 hst
  obtain ⟨st, r0, L, tr, h1, -, h3, h4, h5, h6, h7⟩ := he.scanned hi1 (hcon.target.trans hre.target) hadm
  have hcont : s1.contents = s.contents := by funext x; simp only [Shard.contents_eq, hinfo]
  simp only [hcont, hinfo] at h1 h7
  rcases h7 with h7 | ⟨M, h7, h8⟩
  · exact ⟨st, r0, L, tr, _, h1, h3, h4, Or.inl ⟨h7, hc⟩⟩
  · refine ⟨st, r0, L, tr, M, h1, h3, h4, Or.inr ⟨h7, fun k' hne => ?_⟩⟩
    rw [hc k' hne, h8, put_ne _ _ hne]

/-- An item of another key about which a lifecycle call is made was a victim: before that the scan had passed it as often
as its counter said. If it was in the cold queue and referenced, the scan promoted it when it first reached it. -/
theorem C34_victims (hr : Run c (Shard.new target cap gcap) h s) {op : Op K V} {out : Out K V} {q : Req K V RS}
    (hs : step c s op = .ok (s', out, q)) {k : K} {v : V} {f : V → V} (hst : StoresThen s.contents op out k v f)
    (hadm : Admissible c target k v) :
    ∃ tr : List (Visit K), ∀ (k' : K) (r : Resident K V), k' ≠ k → s.info k' = some r →
      ((∃ e ∈ q.log, eventKey e = k') → ∃ tr1 tr2, tr = tr1 ++ .victim k' :: tr2 ∧ .victim k' ∉ tr1 ∧
        r.referenced ≤ (tr1.map Visit.key).count k') ∧
      (r.state = .cold → r.referenced ≠ 0 → ∀ x, tr.find? (fun x => x.key = k') = some x → x = .promote k') := by
  obtain ⟨st, r0, L, tr, M, h1, h3, h4, h7⟩ := C34_scan hr hs hst hadm
  refine ⟨tr, fun k' r hne hk' => ?_⟩
  have hb := C33_bound hr hk'
  have hL : (∃ e ∈ q.log, eventKey e = k') → ∃ e ∈ L, eventKey e = k' := by
    rintro ⟨e, he, hek⟩
    rw [h1] at he
    rcases List.mem_append.mp he with he | he
    · exact absurd ((preamble_key c target _ k v e he).symm.trans hek) (Ne.symm hne)
    · exact ⟨e, he, hek⟩
  rcases h7 with ⟨h7, -⟩ | ⟨h7, -⟩
  · have hk0 : put s.info k r0 k' = some r := by rw [put_ne _ _ hne]; exact hk'
    refine ⟨fun he => ?_, fun hc hn x hx => h7.first hk0 hc hn hx⟩
    obtain ⟨tr1, tr2, g1, g2, g3⟩ := h7.due hk0 (hL he)
    exact ⟨tr1, tr2, g1, g2, by omega⟩
  · refine ⟨fun he => ?_, fun hc hn x hx => h7.first hk' hc hn hx⟩
    obtain ⟨tr1, tr2, g1, g2, g3⟩ := h7.due hk' (hL he)
    exact ⟨tr1, tr2, g1, g2, by omega⟩

/-- Keys 1 and 2 are in the cold queue, key 1 was read. Inserting key 3 promotes key 1 and then evicts key 5, which was not
read, from the hot queue, now too heavy. -/
example : exNextFine [.insert 5 18, .insert 1 11, .insert 2 21, .get 1] (.insert 3 31) = true ∧
    ((exRun [.insert 5 18, .insert 1 11, .insert 2 21, .get 1]).1.info 1).map (fun r => (r.state, r.referenced)) =
      some (.cold, 1) ∧
    (exNext [.insert 5 18, .insert 1 11, .insert 2 21, .get 1] (.insert 3 31)).2.2.log =
      [.beforeEvict 5 18 18, .onEvict 5 18] ∧
    ((exNext [.insert 5 18, .insert 1 11, .insert 2 21, .get 1] (.insert 3 31)).1.info 1).map
      (fun r => (r.state, r.referenced)) = some (.hot, 0) := by decide

/-! ### C35: soft replace keeps hotness -/

/-- A successful `replace` that fits keeps the item's queue, and its counter if it is soft; otherwise the counter goes up
by one, up to 2. No other item changes in value, queue or counter. -/
theorem C35_replace (hr : Run c (Shard.new target cap gcap) h s) {k : K} {v : V} {soft : Bool} {q : Req K V RS}
    (hs : step c s (.replace k v soft) = .ok (s', .replaced none, q)) (hadm : Admissible c target k v)
    (hfit : total c.weight s.iter + enterWeight c target k v ≤ cap + weightAt c s.contents k) :
    ∃ r, s.info k = some r ∧ s'.info = put s.info k { r with
      value := enterValue c target k v
      referenced := if soft then r.referenced else min (r.referenced + 1) 2 } := by
  have hre := hr.reach_new
  obtain ⟨s1, str, hi1, hcon, hinfo, htot, he, -, hstr, -⟩ :=
    (step_eff hre.inv hs).stores hre.inv.toInv0 (.replace k v soft)
  obtain ⟨rfl, rfl⟩ := hstr soft rfl
  obtain ⟨q1, v1, hen, -, hp⟩ := he.admissible hre.target hadm
  have hk : s1.info k ≠ none := by
    intro hn
    rcases hp.scans hi1 with ⟨r0, L, tr, h1, -⟩ | ⟨h1, hstr, -⟩
    · rw [hn] at h1; cases h1
    · cases hstr
  obtain ⟨r, hk⟩ := Option.ne_none_iff_exists'.mp hk
  have hb := C33_bound hr hk
  refine ⟨r, hk, ?_⟩
  rw [hp.info_fits hi1 (by
    rw [hre.capacity, ← hre.inv.toInv0.total_iter, ← hen.weight_value hre.target]; exact hfit) hk,
    (hen.value hre.target).1]
  congr 2
  unfold Shard.insRef MAX_F
  cases soft with
  | true => simp; omega
  | false => simp

/-- A soft and a hard replacement of a cold item. -/
example : exNextFine [.insert 5 15, .insert 1 12] (.replace 1 13 true) = true ∧
    exNextFine [.insert 5 15, .insert 1 12] (.replace 1 13 false) = true ∧
    ((exNext [.insert 5 15, .insert 1 12] (.replace 1 13 true)).1.info 1).map (fun r => (r.state, r.referenced)) =
      ((exRun [.insert 5 15, .insert 1 12]).1.info 1).map (fun r => (r.state, r.referenced)) ∧
    ((exNext [.insert 5 15, .insert 1 12] (.replace 1 13 false)).1.info 1).map (fun r => (r.state, r.referenced)) =
      ((exRun [.insert 5 15, .insert 1 12]).1.info 1).map (fun r => (r.state, r.referenced + 1)) := by decide

end QuickCache.Props
