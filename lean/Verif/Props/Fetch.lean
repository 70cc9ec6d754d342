import Verif.Proofs.FetchFacts
import Verif.Props.Conc

/-!
# Property C62: `get_or_insert_with` and `get_or_insert_async`

Any number of calls of both on one shard of `sync::Cache`, mixed with every other use of the shard. `Fetch.Run … tr s` says
that `s` is the state after some interleaving of actions and `tr` everything that happened. `E` is the type of the loaders'
errors.
-/

namespace QuickCache
open Fetch Conc

/-- Performing a list of actions, all of which must be possible. -/
def fxActs (s : Fetch.State Nat Nat Nat) :
    List (Fetch.Act Nat Nat Nat) → Option (Fetch.State Nat Nat Nat × List (Fetch.Ev Nat Nat Nat))
  | [] => some (s, [])
  | act :: acts =>
    match Fetch.exec cxCfg s act with
    | some (.ok (s1, e1)) =>
      match fxActs s1 acts with
      | some (s2, e2) => some (s2, e1 ++ e2)
      | none => none
    | _ => none

/-- The example cache. -/
def fxNew : Fetch.State Nat Nat Nat := Fetch.State.new (Shard.new 8 10 3)

theorem fxActs_run {s' : Fetch.State Nat Nat Nat} :
    ∀ {acts : List (Fetch.Act Nat Nat Nat)} {s : Fetch.State Nat Nat Nat} {t t' : List (Fetch.Ev Nat Nat Nat)},
      Fetch.Run cxCfg fxNew t s → fxActs s acts = some (s', t') → Fetch.Run cxCfg fxNew (t ++ t') s' := by
  intro acts
  induction acts with
  | nil =>
    intro s t t' hr hs
    cases hs
    simpa using hr
  | cons act acts ih =>
    intro s t t' hr hs
    unfold fxActs at hs
    split at hs
    · rename_i s1 e1 h1
      split at hs
      · rename_i s2 e2 h2
        cases hs
        have := ih (.act hr h1) h2
        simpa using this
      · cases hs
    · cases hs

/-- The example after a list of actions. -/
def fxRun (acts : List (Fetch.Act Nat Nat Nat)) : Fetch.State Nat Nat Nat × List (Fetch.Ev Nat Nat Nat) :=
  (fxActs fxNew acts).getD (fxNew, [])

/-- All actions of the list are possible. -/
def fxFine (acts : List (Fetch.Act Nat Nat Nat)) : Bool := (fxActs fxNew acts).isSome

theorem fxRun_run {acts : List (Fetch.Act Nat Nat Nat)} (h : fxFine acts = true) :
    Fetch.Run cxCfg (Fetch.State.new (Shard.new 8 10 3)) (fxRun acts).2 (fxRun acts).1 := by
  unfold fxFine at h
  unfold fxRun
  rcases hr : fxActs fxNew acts with _ | ⟨s, t⟩
  · rw [hr] at h; cases h
  · have := fxActs_run .start hr
    rw [List.nil_append] at this
    exact this

/-- The steps of a call until it has the shard's write lock. -/
def fxAsk (a : Nat) : List (Fetch.Act Nat Nat Nat) :=
  [.base (.enter a (10 * a)), .base (.find a), .base (.tally a), .base (.upsert a)]

/-- Call 0 (a thread) for key 7 runs its loader while call 1 (a future) and call 2 (a thread) for the same key wait. -/
def fxWait : List (Fetch.Act Nat Nat Nat) :=
  [.call 0 7] ++ fxAsk 0 ++ [.base (.startLoading 0), .load 0, .callAsync 7] ++ fxAsk 1 ++ [.base (.join 1), .call 2 7] ++
    fxAsk 2 ++ [.base (.join 2)]

/-- The loader of call 0 fails; call 2 gets the guard and its loader returns 12; call 1 receives 12, call 3 finds it. -/
def fxDone : List (Fetch.Act Nat Nat Nat) :=
  fxWait ++ [.finish 0 (some (.error 5)), .giveUp 0, .base (.lockDrop 0), .base (.finishDrop 0), .base (.wake 2),
    .base (.relock 2), .base (.rejoin 2), .base (.startLoading 2), .load 2, .finish 2 (some (.ok 12)), .insert 2,
    .base (.store 2), .base (.poll 1 13), .base (.relock 1), .base (.rejoin 1), .call 3 7, .base (.enter 3 0),
    .base (.find 3), .base (.load 3), .base (.bump 3), .base (.tally 3)]

namespace Props
variable {K V RS E : Type} [DecidableEq K] {c : Cfg K V RS} {target cap gcap : Nat} {tr t1 t2 evs : List (Fetch.Ev K V E)}
  {s s' : Fetch.State K V E}
open Spec

/-! ### C62: calls of `get_or_insert_with` and `get_or_insert_async` -/

/-- What happens to a call is the beginning of one of six stories: the value is found; it is received from someone else's
load; the call's own loader runs and its value is returned; the loader runs and its error is returned; the loader runs and
panics or is dropped; the call is dropped before. In particular the loader is run at most once, and not if the value is
found or received. -/
theorem C62_story (hr : Fetch.Run c (Fetch.State.new (Shard.new target cap gcap)) tr s) (hq : c.ptrEq = true) {a : Nat} {k : K}
    (ha : .called a k ∈ tr) : ∃ l, Told a k l ∧ story a tr <+: l :=
  ((hr.finv hq).place ha).upto

/-- Nothing else is ever told about loaders and results than by such calls. -/
theorem C62_only (hr : Fetch.Run c (Fetch.State.new (Shard.new target cap gcap)) tr s) (hq : c.ptrEq = true) {a : Nat}
    (ha : (∃ k, .loader a k ∈ tr) ∨ (∃ r, .loaded a r ∈ tr) ∨ ∃ r, .returned a r ∈ tr) : ∃ k, .called a k ∈ tr := by
  have hf := hr.finv hq
  have h0 : s.prog a ≠ .raw := by
    intro h0
    rcases ha with ⟨k, h⟩ | ⟨r, h⟩ | ⟨r, h⟩ <;>
    · obtain ⟨b, hb⟩ := hf.raw a h0 _ h (by simp [ofCall])
      cases hb
  obtain ⟨k, hk⟩ := hf.call a h0
  refine ⟨k, ?_⟩
  have : .called a k ∈ story a tr := by
    generalize story a tr = l at hk
    generalize s.prog a = x at hk
    generalize s.base.ctl a = y at hk
    cases hk with
    | done h ht => cases ht <;> simp
    | _ => simp
  exact (List.mem_filter.1 this).1

/-- A call that returned has a complete story. -/
theorem C62_returned (hr : Fetch.Run c (Fetch.State.new (Shard.new target cap gcap)) tr s) (hq : c.ptrEq = true) {a : Nat}
    {r : Except E V} (ha : .returned a r ∈ tr) : ∃ k, Told a k (story a tr) := by
  obtain ⟨k, hk⟩ := C62_only hr hq (a := a) (.inr (.inr ⟨r, ha⟩))
  refine ⟨k, ?_⟩
  have hp := (hr.finv hq).place hk
  have hm : .returned a r ∈ story a tr := List.mem_filter.2 ⟨ha, by simp [ofCall]⟩
  generalize story a tr = l at hp hm
  generalize s.prog a = x at hp
  generalize s.base.ctl a = y at hp
  cases hp with
  | done h ht => exact ht
  | _ => simp at hm

/-- The result of a call: a value found in the cache or received from another load, the loader not being run, or what the
loader returned. -/
theorem C62_result (hr : Fetch.Run c (Fetch.State.new (Shard.new target cap gcap)) tr s) (hq : c.ptrEq = true) {a : Nat}
    {r : Except E V} (ha : .returned a r ∈ tr) : ∃ k, .called a k ∈ tr ∧
      ((∃ v, r = .ok v ∧ (.base (.hit a k v) ∈ tr ∨ ∃ p, .base (.received a k p v) ∈ tr) ∧ ∀ k', .loader a k' ∉ tr) ∨
       (.loader a k ∈ tr ∧ .loaded a (some r) ∈ tr)) := by
  obtain ⟨k, hk⟩ := C62_returned hr hq ha
  have mem : ∀ e ∈ story a tr, e ∈ tr := fun e he => (List.mem_filter.1 he).1
  have hm : .returned a r ∈ story a tr := List.mem_filter.2 ⟨ha, by simp [ofCall]⟩
  have hl : ∀ k', .loader a k' ∈ tr → .loader a k' ∈ story a tr := fun k' h => List.mem_filter.2 ⟨h, by simp [ofCall]⟩
  generalize story a tr = l at hk hm mem hl
  refine ⟨k, ?_⟩
  cases hk with
  | found v =>
    simp at hm
    subst hm
    exact ⟨mem _ (by simp), .inl ⟨v, rfl, .inl (mem _ (by simp)), fun k' h => by simpa using hl k' h⟩⟩
  | received p v =>
    simp at hm
    subst hm
    exact ⟨mem _ (by simp), .inl ⟨v, rfl, .inr ⟨p, mem _ (by simp)⟩, fun k' h => by simpa using hl k' h⟩⟩
  | loaded v =>
    simp at hm
    subst hm
    exact ⟨mem _ (by simp), .inr ⟨mem _ (by simp), mem _ (by simp)⟩⟩
  | failed e =>
    simp at hm
    subst hm
    exact ⟨mem _ (by simp), .inr ⟨mem _ (by simp), mem _ (by simp)⟩⟩
  | broken => simp at hm
  | cancelled => simp at hm

/-- The four calls of the example: failed, received, loaded, found. -/
example : fxFine fxDone = true ∧
    story 0 (fxRun fxDone).2 = [.called 0 7, .loader 0 7, .loaded 0 (some (.error 5)), .returned 0 (.error 5)] ∧
    story 1 (fxRun fxDone).2 = [.called 1 7, .base (.received 1 7 (ld 0 0) 12), .returned 1 (.ok 12)] ∧
    story 2 (fxRun fxDone).2 = [.called 2 7, .loader 2 7, .loaded 2 (some (.ok 12)), .returned 2 (.ok 12)] ∧
    story 3 (fxRun fxDone).2 = [.called 3 7, .base (.hit 3 7 12), .returned 3 (.ok 12)] :=
  ⟨by decide +kernel, by rfl, by rfl, by rfl, by rfl⟩

/-- Two loaders of the same key run at the same time only if the key was removed, cleared or inserted since one of the two
loads began. -/
theorem C62_single (hr : Fetch.Run c (Fetch.State.new (Shard.new target cap gcap)) tr s) (hq : c.ptrEq = true) {a b : Nat}
    {k : K} (ha : Running tr a k) (hb : Running tr b k) (hab : a ≠ b) :
    ∃ p, (.base (.gotGuard a k p) ∈ tr ∨ .base (.gotGuard b k p) ∈ tr) ∧ Superseded c target (baseEvs tr) k p := by
  have hf := hr.finv hq
  have hT := hr.base.tinv hq
  obtain ⟨p, hp⟩ := hf.running ha
  obtain ⟨q, hq'⟩ := hf.running hb
  rcases C45_single hr.base hq (.guard hp) (.guard hq') hab with h | h
  · exact ⟨p, .inl (mem_baseEvs.1 (hT.grd _ _ _ hp)), h⟩
  · exact ⟨q, .inr (mem_baseEvs.1 (hT.grd _ _ _ hq')), h⟩

/-- A loader runs only for a key that is not in the cache, unless the key was removed, cleared or inserted since the load
began. -/
theorem C62_absent (hr : Fetch.Run c (Fetch.State.new (Shard.new target cap gcap)) tr s) (hq : c.ptrEq = true) {a : Nat}
    {k : K} (ha : Running tr a k) : (∀ v, (k, v) ∉ s.base.shard.iter) ∨
      ∃ p, .base (.gotGuard a k p) ∈ tr ∧ Superseded c target (baseEvs tr) k p := by
  obtain ⟨p, hp⟩ := (hr.finv hq).running ha
  have hi := (hr.base.reach hq (.new ..)).inv.shard.toInv0
  rcases hr.base.loads hq (.guard hp) with h | h
  · refine .inl (fun v hv => ?_)
    rw [(lists_iter hi).2, hi.contents_none.mpr (h.noRes hi)] at hv
    cases hv
  · exact .inr ⟨p, mem_baseEvs.1 ((hr.base.tinv hq).grd _ _ _ hp), h⟩

/-- Key 7 is absent while its loader runs; it is there if another thread inserts it meanwhile. -/
example : fxFine (fxWait ++ [.base (.call (.insert 7 3))]) = true ∧ (fxRun fxWait).1.base.shard.contents 7 = none ∧
    (fxRun (fxWait ++ [.base (.call (.insert 7 3))])).1.base.shard.contents 7 = some 3 ∧
    (fxRun (fxWait ++ [.base (.call (.insert 7 3))])).1.prog 0 = .loading :=
  ⟨by decide +kernel, by decide +kernel, by decide +kernel, by decide +kernel⟩

/-- While the loader of call 0 runs, those of the other calls do not; when the key is removed meanwhile, another one does. -/
example : fxFine fxWait = true ∧ (fxRun fxWait).1.prog 0 = .loading ∧ (fxRun fxWait).1.prog 1 = .asking ∧
    fxFine (fxWait ++ [.base (.call (.remove 7)), .call 3 7] ++ fxAsk 3 ++ [.base (.startLoading 3), .load 3]) = true :=
  ⟨by decide +kernel, by decide +kernel, by decide +kernel, by decide +kernel⟩

/-- A value received from someone else was inserted before through a guard of a load of the same key; if the one who
inserted it is a call of `get_or_insert_with` or `get_or_insert_async`, its loader for this key had returned the value. -/
theorem C62_source (hr : Fetch.Run c (Fetch.State.new (Shard.new target cap gcap)) tr s) (hq : c.ptrEq = true) {a : Nat}
    {k : K} {p : Plh} {v : V} (ha : .base (.received a k p v) ∈ tr) :
    ∃ b u1 u2, tr = u1 ++ .base (.published b p v) :: u2 ∧
      ((∃ k', .called b k' ∈ tr) → .loader b k ∈ u1 ∧ .loaded b (some (.ok v)) ∈ u1) := by
  have hb := hr.base
  obtain ⟨w1, w2, hw⟩ := List.append_of_mem (mem_baseEvs.2 ha)
  obtain ⟨⟨b, h1⟩, d, h2⟩ := hb.sourced hq w1 _ w2 hw
  have h3 : .base (.published b p v) ∈ tr := mem_baseEvs.1 (by rw [hw]; simp [h1])
  obtain ⟨u1, u2, hu⟩ := List.append_of_mem h3
  refine ⟨b, u1, u2, hu, ?_⟩
  rintro ⟨k', hc⟩
  obtain ⟨-, k1, ⟨d', h4⟩, h5⟩ := hr.sources hq u1 b p v u2 hu
  have hT := hb.tinv hq
  obtain ⟨l, h6⟩ := hT.beg d k p (by rw [hw]; simp [h2])
  obtain ⟨l', h7⟩ := hT.beg d' k1 p (mem_baseEvs.2 (by rw [hu]; simp [h4]))
  rw [h6] at h7
  cases h7
  rcases h5 with h5 | h5
  · obtain ⟨x, hx⟩ := (hr.finv hq).raw b h5 _ hc (by simp [ofCall])
    cases hx
  · exact h5

/-- No call panics, apart from its loader and the two reasons of C49: the total weight does not fit in 64 bits, or the slab
is full. In particular the `unreachable!()` for a timeout is not reached. -/
theorem C62_panics (hr : Fetch.Run c (Fetch.State.new (Shard.new target cap gcap)) tr s) (hq : c.ptrEq = true)
    {act : Fetch.Act K V E} {e : Panic} (hs : Fetch.exec c s act = some (.error e)) :
    (e = .overflow ∧ ∃ k v, 2 ^ 64 ≤ total c.weight s.base.shard.iter + enterWeight c target k v) ∨
    (e = .slabFull ∧ s.base.shard.entries.entries.length = 2 ^ 32 - 2) := by
  have hb := hr.base
  obtain ⟨bact, h⟩ := (hr.finv hq).error (hb.reach hq (.new ..)).inv hq hs
  exact C49_asserts hb hq h

/-- A thread with a timeout does time out, but it is not such a call. -/
example : fxFine (fxWait ++ [.base (.begin (.thread 3 true) 7)] ++ fxAsk 3 ++ [.base (.join 3), .base (.timeout 3)]) = true ∧
    fxFine (fxWait ++ [.base (.timeout 2)]) = false := ⟨by decide +kernel, by decide +kernel⟩

/-- Without new calls every execution is finite: at most 16 actions per caller (not counting polls of futures that were not
notified, and calls that do not wait). -/
theorem C62_finite (hr : Fetch.Run c (Fetch.State.new (Shard.new target cap gcap)) tr s) (hq : c.ptrEq = true) {n : Nat}
    (hs : FetchSteps c s n s') : n ≤ 16 * s.base.next := by
  have h1 := (hr.steps hq hs).2.2
  have h2 := work_le s.base
  have h3 := todos_le s
  omega

/-- When nothing that is due can be done (a running call's next action, a loader's return, what a guard holder does with
the guard), every call is complete: it has returned, unless its loader did not or its future was dropped. -/
theorem C62_end (hr : Fetch.Run c (Fetch.State.new (Shard.new target cap gcap)) tr s) (hq : c.ptrEq = true)
    (hd : ∀ act, FetchDue s act → Fetch.exec c s act = none) {a : Nat} {k : K} (ha : .called a k ∈ tr) :
    Told a k (story a tr) := by
  have hf := hr.finv hq
  have hi := (hr.base.reach hq (.new ..)).inv
  have hidle : s.base.ctl a = .idle := by
    by_contra hn
    obtain ⟨act, h1, h2⟩ := hf.progress hi hn
    exact h2 (hd act h1)
  have hp := hf.place ha
  rw [hidle] at hp
  generalize s.prog a = x at hp
  generalize story a tr = l at hp
  cases hp with
  | asking h _ => cases h
  | loaded h => rcases h with h | ⟨r, h⟩ <;> cases h
  | failed h => rcases h with h | h | h <;> cases h
  | done _ ht => exact ht

/-- In the example all calls finish. -/
example : fxFine fxDone = true ∧ (∀ a < 4, (fxRun fxDone).1.base.ctl a = .idle ∧ (fxRun fxDone).1.prog a = .done) ∧
    (fxRun fxWait).1.base.ctl 1 ≠ .idle := ⟨by decide +kernel, by decide +kernel, by decide +kernel⟩

end Props
end QuickCache
