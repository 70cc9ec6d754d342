import Verif.Proofs.Nest
import Verif.Props.Sharded

/-!
# Property C81: callers that use the cache while they load

`Nest.Run c P (Nest.start s0) tr s`: `s0` is a cache just built by `with_options`, used by any number of strands (threads, or
futures that await one thing after the other); a strand that has a guard may call the cache again before it uses the guard,
as a loader passed to `get_or_insert_with` does that asks the cache for something else. `s` is the state after some
interleaving of their atomic actions; each action satisfies `P`.
-/

namespace QuickCache.Props
variable {K V RS : Type} [DecidableEq K] {c : Cfg K V RS} {o : Options} {s0 : SyncCache K V} {s s' s1 : Nest.State K V}
  {tr tr' : List (Nat × Conc.Ev K V)} {evs : List (Nat × Conc.Ev K V)} {P : Nest.State K V → Nest.Act K V → Prop}
open Unsync Spec
open Conc (Cache)

theorem nest_sinv (hb : SyncCache.withOptions o = .ok s0) (hr : Nest.Run c P (Nest.start s0) tr s) (hq : c.ptrEq = true) :
    Cache.SInv c s0.numShards s0.mask (hotTarget o s0) (share o.weight s0.numShards)
      (fracOf (share o.items s0.numShards) o.ghost) tr s.cache := runs hb hr.cache hq

theorem nest_inv (hb : SyncCache.withOptions o = .ok s0) (hr : Nest.Run c P (Nest.start s0) tr s) (hq : c.ptrEq = true) :
    Nest.AllInv c s := fun _ _ hi => ((nest_sinv hb hr hq).reach hq hi).inv

omit [DecidableEq K] in
theorem start_idle {i : Nat} {st : Conc.State K V} (hi : (Nest.start s0).cache.shards[i]? = some st) (a : Nat) :
    st.ctl a = .idle := by
  simp only [Nest.start, Cache.start, List.getElem?_map, Option.map_eq_some_iff] at hi
  obtain ⟨x, -, rfl⟩ := hi
  rfl

theorem nest_single (hb : SyncCache.withOptions o = .ok s0) (hr : Nest.Run c P (Nest.start s0) tr s) (hq : c.ptrEq = true) :
    Nest.Single s := by
  refine hr.single hq (nest_inv hb .start hq (P := P)) ?_
  intro i st a j st' b h1 h2 h3 h4 ho
  rw [start_idle h1 a] at h3
  cases h3

/-! ### Stuck exactly in a deadlock -/

/-- As long as there is no deadlock (a set of strands each of which waits for one of them) and some strand is in a call or has a
guard, somebody can go on. -/
theorem C81_progress (hb : SyncCache.withOptions o = .ok s0) (hr : Nest.Run c P (Nest.start s0) tr s) (hq : c.ptrEq = true)
    (hd : ∀ T, ¬ Deadlock s T) {t : Nat} (ht : Active s t) : CanGoOn c s := by
  by_contra hn
  exact hd (Active s) ⟨⟨t, ht⟩, fun _ hu => Nest.stuck (nest_inv hb hr hq) (nest_single hb hr hq) hn hu⟩

/-- When nobody can go on, all strands that are in a call or have a guard form a deadlock: each waits for a guard that another of
them has. -/
theorem C81_end (hb : SyncCache.withOptions o = .ok s0) (hr : Nest.Run c P (Nest.start s0) tr s) (hq : c.ptrEq = true)
    (hn : ¬ CanGoOn c s) {t : Nat} (ht : Active s t) : Deadlock s (Active s) :=
  ⟨⟨t, ht⟩, fun _ hu => Nest.stuck (nest_inv hb hr hq) (nest_single hb hr hq) hn hu⟩

/-- The strands of a deadlock can do nothing of what is due, even with the other guards they have. -/
theorem C81_stuck (hb : SyncCache.withOptions o = .ok s0) (hr : Nest.Run c P (Nest.start s0) tr s) (hq : c.ptrEq = true)
    {T : Nat → Prop} (hd : Deadlock s T) {i a : Nat} {st : Conc.State K V} {x : Conc.Act K V} (hi : s.cache.shards[i]? = some st)
    (hx : Due st x) (ha : x.agent = some a) (ho : T (s.owner i a)) : Nest.exec c s (.act i x) = none := by
  obtain ⟨u, -, hw⟩ := hd.2 _ ho
  exact Nest.waiting_stuck (nest_inv hb hr hq) hw hi hx ha rfl

/-- There is a deadlock exactly if some strand waits for itself, directly or through others. -/
theorem C81_circle (hb : SyncCache.withOptions o = .ok s0) (hr : Nest.Run c P (Nest.start s0) tr s) (hq : c.ptrEq = true) :
    (∃ T, Deadlock s T) ↔ ∃ t, Circle s t := by
  constructor
  · rintro ⟨T, h⟩
    obtain ⟨t, -, ht⟩ := Nest.circle_of_deadlock (nest_inv hb hr hq) h
    exact ⟨t, ht⟩
  · rintro ⟨t, ht⟩
    exact ⟨_, Nest.deadlock_of_circle ht⟩

/-- A deadlock is for ever: whatever else happens, each of these strands goes on waiting for the same one, unless a timeout of
one of them runs out or a future of one of them is dropped. -/
theorem C81_forever (hb : SyncCache.withOptions o = .ok s0) (hr : Nest.Run c P (Nest.start s0) tr s) (hq : c.ptrEq = true)
    {T : Nat → Prop} (hd : Deadlock s T) (hr' : Nest.Run c (Patient T) s tr' s') :
    Deadlock s' T ∧ ∀ t u, T t → T u → WaitsOn s t u → WaitsOn s' t u := by
  have h := hr'.deadlock hq (nest_inv hb hr hq) hd
  refine ⟨⟨hd.1, fun t ht => ?_⟩, h⟩
  obtain ⟨u, hu, hw⟩ := hd.2 t ht
  exact ⟨u, hu, h t u ht hu hw⟩

/-! ### Asking for the key one is loading -/

/-- A strand that has the guard of a load of `k` and asks for `k` again (with anything but `get`) gets no answer, unless its timeout
runs out, its future is dropped, or somebody else removes, clears or inserts `k`: the call does not return, and the load does not
end. -/
theorem C81_self (hb : SyncCache.withOptions o = .ok s0) (hr : Nest.Run c P (Nest.start s0) tr s) (hq : c.ptrEq = true)
    {t i b : Nat} {k : K} {p : Plh} {st : Conc.State K V} (hi : s.cache.shards[i]? = some st) (hg : st.ctl b = .guard k p)
    (ho : s.owner i b = t) {kind : Conc.Kind} (hk : kind ≠ .get)
    (hs : Nest.exec c s (.begin t i kind k) = some (.ok (s1, evs))) (hr' : Nest.Run c (Patient (· = t)) s1 tr' s')
    (hn : ¬ Superseded c (hotTarget o s0) (onShard i (tr ++ evs ++ tr')) k p) :
    ∃ st', s'.cache.shards[i]? = some st' ∧ InCall st' st.next ∧ st'.ctl b = .guard k p := by
  have hin := nest_sinv hb hr hq
  have hlb : b < st.next := (nest_inv hb hr hq i st hi).lt_next hg (by simp)
  have hd := Nest.exec_did hs
  cases hd with
  | @begin _ _ _ _ y es hf ht hx =>
    have hin1 := hin.step hq hx
    obtain ⟨st2, st1, hm⟩ := Nest.moved (nest_inv hb hr hq) hq hx
      (s' := ⟨y, fun j b => if j = i ∧ b = Nest.fresh s i then t else s.owner j b⟩) rfl
    have := hm.at_
    rw [hi] at this
    cases this
    have hfr : Nest.fresh s i = st.next := by unfold Nest.fresh; rw [hi]
    obtain ⟨es', he⟩ := hm.eff
    have hg1 : st1.ctl b = .guard k p := by
      rw [he.ctl_other (by simp [Conc.Act.agent]) (fun _ _ _ => by omega)]
      exact hg
    have hh : Conc.Held st1 st.next k p := by
      cases he
      refine ⟨?_, .inl ?_⟩
      · simp only [Function.update_self]
        exact hk
      · simp only [Function.update_self]
    rcases hr'.held hq hin1 hm.at_' hh hg1 (if_pos ⟨rfl, hfr.symm⟩)
      ((if_neg (by rw [hfr]; omega)).trans ho) with h | ⟨st', h1, h2, h3, -, -⟩
    · exact absurd h hn
    · exact ⟨st', h1, h2.engaged, h3⟩

/-! ### How to avoid it -/

/-- If the keys are ordered by some rank, and strands ask only for keys of higher rank than those they have guards of, there is never a
deadlock. -/
theorem C81_ordered (hb : SyncCache.withOptions o = .ok s0) {rank : K → Nat}
    (hr : Nest.Run c (Climbs rank) (Nest.start s0) tr s) (hq : c.ptrEq = true) (T : Nat → Prop) : ¬ Deadlock s T := by
  intro hd
  obtain ⟨t, -, ht⟩ := Nest.circle_of_deadlock (nest_inv hb hr hq) hd
  refine (hr.ordered hq (nest_inv hb .start hq (P := Anything)) ?_).no_circle (nest_inv hb hr hq) ht
  intro i st a j st' b k k' p h1 h2 h3
  rw [start_idle h1 a] at h3
  cases h3

/-- In particular if strands that have a guard make no calls but `get`, `insert`, `remove` and others that do not wait, before they have
used it. -/
theorem C81_flat (hb : SyncCache.withOptions o = .ok s0) (hr : Nest.Run c Flat (Nest.start s0) tr s) (hq : c.ptrEq = true)
    (T : Nat → Prop) : ¬ Deadlock s T := by
  refine C81_ordered hb (rank := fun _ => 0) (hr.weaken ?_) hq T
  intro s act h
  cases act with
  | begin t i kind k => exact h.imp id (fun h k' hk' => absurd hk' (h k'))
  | act i x => trivial

/-! ### Examples -/

/-- Performing a list of actions, all of which must be possible and satisfy `q`. -/
def runNest (c : Cfg K V RS) (q : Nest.State K V → Nest.Act K V → Bool) (s : Nest.State K V) :
    List (Nest.Act K V) → Option (Nest.State K V × List (Nat × Conc.Ev K V))
  | [] => some (s, [])
  | act :: acts =>
    if q s act then
      match Nest.exec c s act with
      | some (.ok (s1, e1)) =>
        match runNest c q s1 acts with
        | some (s2, e2) => some (s2, e1 ++ e2)
        | none => none
      | _ => none
    else none

theorem runNest_run {q : Nest.State K V → Nest.Act K V → Bool} {n0 : Nest.State K V}
    (hP : ∀ tr s act, Nest.Run c P n0 tr s → q s act = true → P s act) :
    ∀ {acts : List (Nest.Act K V)} {s s' : Nest.State K V} {t t' : List (Nat × Conc.Ev K V)}, Nest.Run c P n0 t s →
      runNest c q s acts = some (s', t') → Nest.Run c P n0 (t ++ t') s' := by
  intro acts
  induction acts with
  | nil =>
    intro s s' t t' hr hs
    cases hs
    simpa using hr
  | cons act acts ih =>
    intro s s' t t' hr hs
    unfold runNest at hs
    split at hs
    · rename_i hq
      split at hs
      · rename_i s1 e1 h1
        split at hs
        · rename_i s2 e2 h2
          cases hs
          have := ih (.act hr (hP _ _ _ hr hq) h1) h2
          simpa using this
        · cases hs
      · cases hs
    · cases hs

/-- The cache of C41's example with strands, after the given actions. -/
def nxRun (acts : List (Nest.Act Nat Nat)) : Nest.State Nat Nat × List (Nat × Conc.Ev Nat Nat) :=
  (runNest sxCfg (fun _ _ => true) (Nest.start sxNew) acts).getD (Nest.start sxNew, [])

/-- All actions of the list are possible. -/
def nxFine (acts : List (Nest.Act Nat Nat)) : Bool := (runNest sxCfg (fun _ _ => true) (Nest.start sxNew) acts).isSome

theorem nxRun_run {acts : List (Nest.Act Nat Nat)} (h : nxFine acts = true) :
    Nest.Run sxCfg Anything (Nest.start sxNew) (nxRun acts).2 (nxRun acts).1 := by
  unfold nxFine at h
  unfold nxRun
  rcases hr : runNest sxCfg (fun _ _ => true) (Nest.start sxNew) acts with _ | ⟨s, t⟩
  · rw [hr] at h; cases h
  · have := runNest_run (P := Anything) (fun _ _ _ _ _ => trivial) .start hr
    rw [List.nil_append] at this
    exact this

/-- Strand `t`, a thread, asks for key `k` (call `a` on its shard), up to `upsert_placeholder`. -/
def nxAsk (t a k : Nat) : List (Nest.Act Nat Nat) :=
  .begin t (k % 2) (.thread t false) k ::
    [.enter a 0, .find a, .tally a, .upsert a].map (fun x => .act (k % 2) x)

/-- Strand `t` asks for `k` and gets the guard. -/
def nxGuard (t a k : Nat) : List (Nest.Act Nat Nat) := nxAsk t a k ++ [.act (k % 2) (.startLoading a)]

/-- Strand `t` asks for `k`, which is being loaded, and waits. -/
def nxWait (t a k : Nat) : List (Nest.Act Nat Nat) := nxAsk t a k ++ [.act (k % 2) (.join a)]

/-- Strand 5 loads key 2 and, while it does, asks for key 3; strand 6 loads key 3 and asks for key 2. -/
def nxCross : List (Nest.Act Nat Nat) := nxGuard 5 0 2 ++ nxGuard 6 0 3 ++ nxWait 5 1 3 ++ nxWait 6 1 2

/-- Strand 5 loads key 2 and asks for key 2; strand 6 is about to ask for key 2 as well. -/
def nxSelf : List (Nest.Act Nat Nat) := nxGuard 5 0 2 ++ nxWait 5 1 2 ++ [.begin 6 0 (.thread 6 false) 2]

/-- What a waiting call and the guard it waits for look like. -/
def nxLooks (s : Nest.State Nat Nat) (i a b k id : Nat) : Bool :=
  match s.cache.shards[i]? with
  | none => false
  | some st =>
    match st.ctl a, st.ctl b with
    | .waiting k1 p, .guard k2 p' => k1 == k && k2 == k && p == p' && p.id == id && !st.flag a
    | _, _ => false

theorem nxLooks_waits {s : Nest.State Nat Nat} {i a b k id t u : Nat} (h : nxLooks s i a b k id = true) (ht : s.owner i a = t)
    (hu : s.owner i b = u) : WaitsOn s t u := by
  unfold nxLooks at h
  split at h
  · cases h
  · rename_i st hst
    split at h
    · rename_i k1 p k2 p' h1 h2
      simp only [Bool.and_eq_true, beq_iff_eq, Bool.not_eq_true'] at h
      obtain ⟨⟨⟨⟨rfl, rfl⟩, rfl⟩, -⟩, hf⟩ := h
      exact ⟨i, st, a, b, _, p, hst, ht, hu, ⟨⟨_, h1⟩, hf⟩, h2⟩
    · cases h

/-- Strands 5 and 6 wait for each other. -/
theorem nxCross_deadlock : Deadlock (nxRun nxCross).1 (fun t => t = 5 ∨ t = 6) := by
  refine ⟨⟨5, .inl rfl⟩, ?_⟩
  rintro t (rfl | rfl)
  · exact ⟨6, .inr rfl, nxLooks_waits (i := 1) (a := 1) (b := 0) (k := 3) (id := 0) (by decide +kernel) (by decide +kernel)
      (by decide +kernel)⟩
  · exact ⟨5, .inl rfl, nxLooks_waits (i := 0) (a := 1) (b := 0) (k := 2) (id := 0) (by decide +kernel) (by decide +kernel)
      (by decide +kernel)⟩

/-- The hypotheses of `C81_forever` (and, read the other way, of `C81_circle`) are met. -/
example : SyncCache.withOptions sxOptions = .ok sxNew ∧ sxCfg.ptrEq = true ∧
    Nest.Run sxCfg Anything (Nest.start sxNew) (nxRun nxCross).2 (nxRun nxCross).1 ∧
    Deadlock (nxRun nxCross).1 (fun t => t = 5 ∨ t = 6) := ⟨sxBuilt, rfl, nxRun_run (by decide +kernel), nxCross_deadlock⟩

/-- Nobody can go on there (`C81_end`, `C81_stuck`). -/
example : ¬ CanGoOn sxCfg (nxRun nxCross).1 ∧ Active (nxRun nxCross).1 5 := by
  have hr := nxRun_run (acts := nxCross) (by decide +kernel)
  constructor
  · rintro ⟨i, st, x, hi, hx, hn⟩
    obtain ⟨a, ha⟩ := Conc.due_agent hx
    have hl : i < 2 := by
      have : (nxRun nxCross).1.cache.shards.length = 2 := by decide +kernel
      rw [← this]
      exact (List.getElem?_eq_some_iff.1 hi).1
    have hnext : st.next = 2 := by
      have : ∀ j, j < 2 → ((nxRun nxCross).1.cache.shards[j]?.map (fun st => st.next)) = some 2 := by decide +kernel
      have := this i hl
      rw [hi] at this
      exact Option.some.inj this
    by_cases h : a < 2
    · have ho : ∀ j, j < 2 → ∀ b, b < 2 → (nxRun nxCross).1.owner j b = 5 ∨ (nxRun nxCross).1.owner j b = 6 := by decide +kernel
      exact hn (C81_stuck sxBuilt hr rfl nxCross_deadlock hi hx ha (ho i hl a h))
    · have hidle := (nest_inv sxBuilt hr rfl i st hi).fresh a (by omega)
      exact (Nest.exec_some hi ha hn).2 (Conc.idle_none hidle hx ha)
  · obtain ⟨u, -, hw⟩ := nxCross_deadlock.2 5 (.inl rfl)
    exact Nest.WaitsOn.active hw

/-- Others go on: strand 7 loads key 4, strand 8 asks for key 3 and waits as well. -/
example : nxFine (nxCross ++ nxGuard 7 2 4 ++ [.act 0 (.publish 2 44), .act 0 (.store 2)] ++ nxWait 8 2 3) = true := by
  decide +kernel

/-- Strand 5 waits for itself. -/
example : nxFine nxSelf = true ∧ Circle (nxRun nxSelf).1 5 :=
  ⟨by decide +kernel, .single (nxLooks_waits (i := 0) (a := 1) (b := 0) (k := 2) (id := 0) (by decide +kernel)
    (by decide +kernel) (by decide +kernel))⟩

/-- The hypotheses of `C81_self`: strand 5 has the guard of key 2 and asks for it; the call goes on to wait, and somebody else asks
for another key. -/
example : (match (nxRun (nxGuard 5 0 2)).1.cache.shards[0]? with
    | some st => (match st.ctl 0 with | .guard 2 _ => true | _ => false) && st.next == 1
    | none => false) = true ∧ (nxRun (nxGuard 5 0 2)).1.owner 0 0 = 5 ∧
    (match Nest.exec sxCfg (nxRun (nxGuard 5 0 2)).1 (.begin 5 0 (.thread 5 false) 2) with
    | some (.ok (s1, [])) => (runNest sxCfg (fun _ _ => true) s1 ((nxWait 5 1 2).tail ++ nxGuard 6 0 3)).isSome
    | _ => false) = true := by decide +kernel

/-- Whether a strand asks only for keys greater than those it has guards of. -/
def nxClimbs (s : Nest.State Nat Nat) : Nest.Act Nat Nat → Bool
  | .begin t _ _ k => s.cache.shards.zipIdx.all (fun x => (List.range x.1.next).all (fun a =>
      match x.1.ctl a with
      | .guard k' _ => s.owner x.2 a != t || k' < k
      | _ => true))
  | _ => true

theorem nxClimbs_climbs {tr : List (Nat × Conc.Ev Nat Nat)} {s : Nest.State Nat Nat} {act : Nest.Act Nat Nat}
    (hr : Nest.Run sxCfg (Climbs id) (Nest.start sxNew) tr s) (h : nxClimbs s act = true) : Climbs id s act := by
  cases act with
  | act i x => trivial
  | begin t i kind k =>
    right
    rintro k' ⟨j, st, a, p, hj, ho, hg⟩
    have hl := (nest_inv sxBuilt hr rfl j st hj).lt_next hg (by simp)
    simp only [nxClimbs, List.all_eq_true, List.mem_range, Prod.forall, List.mem_zipIdx_iff_getElem?] at h
    have := h st j hj a hl
    rw [hg] at this
    simp only [Bool.or_eq_true, bne_iff_ne, ne_eq, decide_eq_true_eq] at this
    rcases this with h | h
    · exact absurd ho h
    · exact h

/-- Strand 5 loads key 2 and asks for key 3, which strand 6 loads; then strand 6 asks for key 5. When it has loaded both, strand 5 gets
what it asked for, and stores its own. -/
def nxClimb : List (Nest.Act Nat Nat) :=
  nxGuard 5 0 2 ++ nxGuard 6 0 3 ++ nxWait 5 1 3 ++ nxGuard 6 2 5 ++
    [.act 1 (.publish 2 55), .act 1 (.store 2), .act 1 (.publish 0 33), .act 1 (.store 0), .act 1 (.wake 1), .act 1 (.relock 1),
      .act 1 (.rejoin 1), .act 0 (.publish 0 22), .act 0 (.store 0)]

/-- The strands ask for greater keys only (`C81_ordered`), and all ends well. -/
example : (match runNest sxCfg nxClimbs (Nest.start sxNew) nxClimb with
    | some (s, _) => items s.cache == [(2, 22), (3, 33), (5, 55)]
    | none => false) = true ∧
    ∀ s tr, runNest sxCfg nxClimbs (Nest.start sxNew) nxClimb = some (s, tr) →
      Nest.Run sxCfg (Climbs id) (Nest.start sxNew) tr s := by
  refine ⟨by decide +kernel, fun s tr h => ?_⟩
  have := runNest_run (P := Climbs id) (fun _ _ _ hr => nxClimbs_climbs hr) .start h
  rwa [List.nil_append] at this

end QuickCache.Props
