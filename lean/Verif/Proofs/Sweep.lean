import Verif.Proofs.Sharded
import Verif.Spec.Sweep
import Mathlib.Data.List.Basic

/-!
# Calls that visit all shards, and the statistics of the concurrent cache
-/

namespace QuickCache.Conc
variable {K V RS : Type} [DecidableEq K] {c : Cfg K V RS} {s s' : State K V} {act : Act K V} {evs tr : List (Ev K V)}
  {target cap gcap : Nat}
open Shard Unsync Spec

/-! ### Statistics -/

omit [DecidableEq K] in
theorem countP_flatWakes {f : Ev K V → Bool} (hf : ∀ b w, f (.woke b w) = false) (s : State K V) (l : List Nat) :
    (l.flatMap s.wakes).countP f = 0 := by
  rw [List.countP_eq_zero]
  intro e he
  obtain ⟨b, -, rfl, -⟩ := mem_flatWakes he
  simp [hf]

omit [DecidableEq K] in
theorem countP_wakes {f : Ev K V → Bool} (hf : ∀ b w, f (.woke b w) = false) (s : State K V) (b : Nat) :
    (s.wakes b).countP f = 0 := by
  rw [List.countP_eq_zero]
  intro e he
  obtain ⟨rfl, -⟩ := mem_wakes he
  simp [hf]

/-- Calls of a single section do not count. -/
theorem secStats {op : Op K V} {sh sh' : Shard K V} {out : SOut K V} {q : Req K V RS}
    (h : SecEff c sh (.call op) (sh', out, q)) : sh'.hits = sh.hits ∧ sh'.misses = sh.misses := by
  generalize hx : (sh', out, q) = x at h
  cases h with
  | call hop he plh np =>
    cases hx
    generalize hy : (sh', _, q) = y at he
    cases he with
    | insert h => cases hy; exact h.stats
    | replace h => cases hy; exact h.stats
    | removeHit t r hk wrote same => cases hy; exact ⟨same.hits, same.misses⟩
    | removeIdle t e he hno wrote same => cases hy; exact ⟨same.hits, same.misses⟩
    | retain inv same => cases hy; exact ⟨same.hits, same.misses⟩
    | hit hop' => cases hop' <;> exact hop.elim
    | miss hop' => cases hop' <;> first | exact hop.elim | (cases hy; exact ⟨rfl, rfl⟩)
    | leave hop' => cases hop' <;> exact hop.elim
    | drop hop' => cases hop' <;> exact hop.elim
    | fill hop' => cases hop' <;> exact hop.elim
    | fillMutOut => exact hop.elim
    | fillMut => exact hop.elim
    | _ => cases hy; exact ⟨rfl, rfl⟩

theorem Eff.stats (he : Eff c s act s' evs) :
    s'.shard.hits = s.shard.hits + evs.countP countsHit ∧ s'.shard.misses = s.shard.misses + evs.countP countsMiss := by
  cases he
  case enter => split <;> exact ⟨rfl, rfl⟩
  case bump he => cases he with | bumped r hk wrote plh same => exact ⟨same.hits, same.misses⟩
  case hit he => cases he; exact ⟨rfl, rfl⟩
  case miss he => cases he; exact ⟨rfl, rfl⟩
  case goOn he => cases he; exact ⟨rfl, rfl⟩
  case found he => cases he with | found t r hk wrote hits misses plh np => exact ⟨hits, misses⟩
  case created he =>
    cases he with
    | created hp hno plh id np =>
      rcases hp.stats with ⟨h1, h2, t, ph, h3, h4, h5⟩ | ⟨h1, h2, -⟩
      · exact absurd (by simp [keyAt, h3, keyOf, h4]) (hno _ t h5)
      · exact ⟨h1, h2⟩
  case joining he => cases he; exact ⟨rfl, rfl⟩
  case guard w _ => cases w <;> exact ⟨rfl, rfl⟩
  case publish =>
    simp only [List.countP_cons, countP_flatWakes (f := countsHit) (fun _ _ => rfl),
      countP_flatWakes (f := countsMiss) (fun _ _ => rfl)]
    exact ⟨rfl, rfl⟩
  case handOver =>
    simp only [List.countP_cons, countP_wakes (f := countsHit) (fun _ _ => rfl),
      countP_wakes (f := countsMiss) (fun _ _ => rfl)]
    exact ⟨rfl, rfl⟩
  case store he => cases he with | filled hl h plh np => exact h.stats
  case giveUp he => cases he with | abandoned inv same => exact ⟨same.hits, same.misses⟩
  case write he => exact secStats he
  all_goals exact ⟨rfl, rfl⟩

theorem Run.stats (hr : Run c (State.new (Shard.new target cap gcap)) tr s) (hq : c.ptrEq = true) :
    s.shard.hits = tr.countP countsHit ∧ s.shard.misses = tr.countP countsMiss := by
  induction hr with
  | start => exact ⟨rfl, rfl⟩
  | layout m p hr hm hp ih => exact ih
  | act hr hs ih =>
    have := ((hr.reach hq (.new ..)).inv.eff hq hs).stats
    rw [List.countP_append, List.countP_append, ← ih.1, ← ih.2]
    exact this

end QuickCache.Conc

namespace QuickCache.Sweep
variable {K V RS : Type} [DecidableEq K] {c : Cfg K V RS} {s0 s s' : State K V} {h h1 h2 : List (Moment K V)} {m : Moment K V}
open Shard Unsync Spec Conc

/-! ### Executions with calls that visit all shards as executions of the sharded cache -/

omit [DecidableEq K] in
theorem onShards_append (h1 h2 : List (Moment K V)) : onShards (h1 ++ h2) = onShards h1 ++ onShards h2 := by
  simp [onShards]

omit [DecidableEq K] in
theorem onShards_one (i : Nat) (evs : List (Conc.Ev K V)) (x : Conc.Cache K V) :
    onShards [⟨evs.map (.shard i), x⟩] = evs.map (fun e => (i, e)) := by
  simp only [onShards, List.flatMap_cons, List.flatMap_nil, List.append_nil, List.filterMap_map, Function.comp_def]
  rw [List.filterMap_eq_map']

/-- The outcomes of the actions. -/
inductive Eff (c : Cfg K V RS) (s : State K V) : Act K V → State K V → List (Ev K V) → Prop
  | shard {i : Nat} {act : Conc.Act K V} {x : Conc.Cache K V} {evs : List (Conc.Ev K V)}
      (h : s.cache.exec c i act = some (.ok (x, evs))) : Eff c s (.shard i act) { s with cache := x } (evs.map (.shard i))
  | call (t : Tour K V) : Eff c s (.call t)
      { s with walks := Function.update s.walks s.count (some ⟨t, 0, 0⟩), count := s.count + 1 } [.called s.count t]
  | write {a : Nat} {w : Walk K V} {op : Op K V} {x : Conc.Cache K V} {evs : List (Conc.Ev K V)} (hw : s.walks a = some w)
      (hop : w.tour.op = some op) (h : s.cache.exec c w.next (.call op) = some (.ok (x, evs))) :
      Eff c s (.visit a) { s with cache := x, walks := Function.update s.walks a (some { w with next := w.next + 1 }) }
        (evs.map (.shard w.next))
  | read {a n acc : Nat} {w : Walk K V} {st : Conc.State K V} (hw : s.walks a = some w) (hop : w.tour.op = none)
      (hst : s.cache.shards[w.next]? = some st) (hl : st.writer = none) (e1 : w.tour.read st.shard = .ok n)
      (e2 : w.tour.add w.acc n = .ok acc) :
      Eff c s (.visit a) { s with walks := Function.update s.walks a (some
        ⟨w.tour, if w.tour.stops n then s.cache.shards.length else w.next + 1, acc⟩) } []
  | finish {a : Nat} {w : Walk K V} (hw : s.walks a = some w) (hl : s.cache.shards.length ≤ w.next) :
      Eff c s (.finish a) { s with walks := Function.update s.walks a none } [.returned a (w.tour.out w.acc)]

theorem exec_eff {act : Act K V} {evs : List (Ev K V)} (hs : exec c s act = some (.ok (s', evs))) : Eff c s act s' evs := by
  cases act with
  | shard i act =>
    simp only [exec] at hs
    split at hs
    · cases hs
    · rename_i r hr
      cases r with
      | error e => cases hs
      | ok x => cases hs; exact .shard hr
  | call t => cases hs; exact .call t
  | visit a =>
    simp only [exec] at hs
    split at hs
    · cases hs
    · rename_i w hw
      unfold visit at hs
      split at hs
      · rename_i op hop
        split at hs
        · cases hs
        · rename_i r hr
          cases r with
          | error e => cases hs
          | ok x => cases hs; exact .write hw hop hr
      · rename_i hop
        split at hs
        · cases hs
        · rename_i st hst
          split at hs
          · rename_i hl
            rw [Option.some.injEq] at hs
            cases e1 : w.tour.read st.shard with
            | error e => rw [e1] at hs; cases hs
            | ok n =>
              rw [e1, Res.ok_bind] at hs
              cases e2 : w.tour.add w.acc n with
              | error e => rw [e2] at hs; cases hs
              | ok acc => rw [e2, Res.ok_bind] at hs; cases hs; exact .read hw hop hst (by simpa using hl) e1 e2
          · cases hs
  | finish a =>
    simp only [exec] at hs
    split at hs
    · cases hs
    · rename_i w hw
      split at hs
      · rename_i hl
        cases hs
        exact .finish hw hl
      · cases hs

/-- What an action does to the cache: nothing, or an action on a shard. -/
theorem exec_cache {act : Act K V} {evs : List (Ev K V)} (hs : exec c s act = some (.ok (s', evs))) :
    (s'.cache = s.cache ∧ ∀ x, onShards [⟨evs, x⟩] = []) ∨
      ∃ i act' evs', s.cache.exec c i act' = some (.ok (s'.cache, evs')) ∧ evs = evs'.map (.shard i) := by
  cases exec_eff hs with
  | shard h => exact .inr ⟨_, _, _, h, rfl⟩
  | write hw hop h => exact .inr ⟨_, _, _, h, rfl⟩
  | _ => exact .inl ⟨rfl, fun _ => rfl⟩

theorem Run.sharded (hr : Run c s0 h s) : Conc.Cache.Run c s0.cache (onShards h) s.cache := by
  induction hr with
  | start => exact .start
  | layout m p hr hi hm hp hx ih =>
    subst hx
    rw [onShards_append]
    have := Conc.Cache.Run.layout m p ih hi hm hp
    simpa [onShards] using this
  | @act h s s' act evs hr hs ih =>
    rw [onShards_append]
    rcases exec_cache hs with ⟨h1, h2⟩ | ⟨i, act', evs', h1, rfl⟩
    · rw [h2, List.append_nil, h1]; exact ih
    · rw [onShards_one]; exact .act ih h1

/-- Every moment is the end of an execution. -/
theorem Run.at (hr : Run c s0 h s) : ∀ {h1 h2 : List (Moment K V)} {m : Moment K V}, h = h1 ++ m :: h2 →
    ∃ s1, Run c s0 (h1 ++ [m]) s1 ∧ s1.cache = m.cache := by
  induction hr with
  | start => intro h1 h2 m he; simp at he
  | @layout h s i st m p hr hi hm hp x hx ih =>
    intro h1 h2 m' he
    rcases List.eq_nil_or_concat h2 with rfl | ⟨h2', z, rfl⟩
    · obtain ⟨rfl, h3⟩ := List.append_inj' he rfl
      cases h3
      exact ⟨_, .layout m p hr hi hm hp hx, rfl⟩
    · rw [List.concat_eq_append, ← List.cons_append, ← List.append_assoc] at he
      obtain ⟨rfl, -⟩ := List.append_inj' he rfl
      exact ih rfl
  | @act h s s' act evs hr hs ih =>
    intro h1 h2 m' he
    rcases List.eq_nil_or_concat h2 with rfl | ⟨h2', z, rfl⟩
    · obtain ⟨rfl, h3⟩ := List.append_inj' he rfl
      cases h3
      exact ⟨_, .act hr hs, rfl⟩
    · rw [List.concat_eq_append, ← List.cons_append, ← List.append_assoc] at he
      obtain ⟨rfl, -⟩ := List.append_inj' he rfl
      exact ih rfl

/-! ### Calls under way -/

/-- What the call `t` reads in shard `i`. -/
def readAt (t : Tour K V) (i : Nat) (x : Conc.Cache K V) : Nat :=
  match x.shards[i]? with
  | some st =>
    match t.read st.shard with
    | .ok n => n
    | .error _ => 0
  | none => 0

/-- What is known about a call under way, given the moments `h` since it began. -/
structure Seen (N : Nat) (t : Tour K V) (w : Walk K V) (h : List (Moment K V)) : Prop where
  tour : w.tour = t
  le : w.next ≤ N
  reads : t.op = none →
    (∃ seen : List (Conc.Cache K V), seen.Sublist (h.map Moment.cache) ∧ seen.length = w.next ∧ w.acc = sumOver (readAt t) seen ∧
      ∀ (i : Nat) (x : Conc.Cache K V), seen[i]? = some x → ∃ (st : Conc.State K V) (n : Nat), x.shards[i]? = some st ∧
        t.read st.shard = .ok n) ∨
    (t = .isEmpty ∧ w.acc ≠ 0 ∧ ∃ m ∈ h, ∃ i, readAt t i m.cache ≠ 0)
  writes : ∀ op, t.op = some op → ∀ i, i < w.next → (i, (⟨op, .unit, []⟩ : Call K V)) ∈ shardCalls (onShards h)

omit [DecidableEq K] in
theorem sumOver_concat (f : Nat → Conc.Cache K V → Nat) (seen : List (Conc.Cache K V)) (x : Conc.Cache K V) :
    sumOver f (seen ++ [x]) = sumOver f seen + f seen.length x := by
  simp [sumOver, List.mapIdx_append]

omit [DecidableEq K] in
theorem shardCalls_append' (t1 t2 : List (Nat × Conc.Ev K V)) : shardCalls (t1 ++ t2) = shardCalls t1 ++ shardCalls t2 := by
  simp [shardCalls]

omit [DecidableEq K] in
/-- A moment in which the call does nothing. -/
theorem Seen.later {N : Nat} {t : Tour K V} {w : Walk K V} (hw : Seen N t w h) (m : Moment K V) : Seen N t w (h ++ [m]) where
  tour := hw.tour
  le := hw.le
  reads ht := by
    rcases hw.reads ht with ⟨seen, h1, h2, h3, h4⟩ | ⟨h1, h2, m', h3, h4⟩
    · refine .inl ⟨seen, ?_, h2, h3, h4⟩
      rw [List.map_append]
      exact h1.trans (List.sublist_append_left ..)
    · exact .inr ⟨h1, h2, m', by simp [h3], h4⟩
  writes op hop i hi := by
    rw [onShards_append, shardCalls_append', List.mem_append]
    exact .inl (hw.writes op hop i hi)

/-- The invariant about calls under way. -/
structure Walks (N : Nat) (h : List (Moment K V)) (s : State K V) : Prop where
  used : ∀ a w, s.walks a = some w → a < s.count
  called : ∀ m ∈ h, ∀ a t, Ev.called a t ∈ m.evs → a < s.count
  seen : ∀ a w, s.walks a = some w → ∀ h1 x t h2, h = h1 ++ ⟨[.called a t], x⟩ :: h2 → Seen N t w h2

omit [DecidableEq K] in
theorem Walks.keep {N : Nat} (hw : Walks N h s) {s' : State K V} (hs : ∀ a w, s'.walks a = some w → s.walks a = some w)
    (hc : s'.count = s.count) {m : Moment K V} (hm : ∀ a t, Ev.called a t ∉ m.evs) : Walks N (h ++ [m]) s' where
  used a w ha := hc ▸ hw.used a w (hs a w ha)
  called m' hm' a t ht := by
    rcases List.mem_append.1 hm' with h1 | h1
    · exact hc ▸ hw.called m' h1 a t ht
    · rw [List.mem_singleton.1 h1] at ht
      exact absurd ht (hm a t)
  seen a w ha h1 x t h2 he := by
    rcases List.eq_nil_or_concat h2 with rfl | ⟨h2', z, rfl⟩
    · obtain ⟨rfl, h3⟩ := List.append_inj' he rfl
      cases h3
      exact absurd (by simp) (hm a t)
    · rw [List.concat_eq_append, ← List.cons_append, ← List.append_assoc] at he
      obtain ⟨rfl, h3⟩ := List.append_inj' he rfl
      cases h3
      rw [List.concat_eq_append]
      exact (hw.seen a w (hs a w ha) h1 x t h2' rfl).later _

omit [DecidableEq K] in
theorem Walks.move {N : Nat} (hw : Walks N h s) {a : Nat} {w w' : Walk K V} (ha : s.walks a = some w) {x : Conc.Cache K V}
    {m : Moment K V} (hm : ∀ a t, Ev.called a t ∉ m.evs)
    (hstep : ∀ t h2, Seen N t w h2 → Seen N t w' (h2 ++ [m])) :
    Walks N (h ++ [m]) { s with cache := x, walks := Function.update s.walks a (some w') } where
  used b v hb := by
    by_cases hba : b = a
    · subst hba; exact hw.used b w ha
    · simp only [Function.update_of_ne hba] at hb; exact hw.used b v hb
  called m' hm' b t ht := by
    rcases List.mem_append.1 hm' with h1 | h1
    · exact hw.called m' h1 b t ht
    · rw [List.mem_singleton.1 h1] at ht
      exact absurd ht (hm b t)
  seen b v hb h1 y t h2 he := by
    rcases List.eq_nil_or_concat h2 with rfl | ⟨h2', z, rfl⟩
    · obtain ⟨rfl, h3⟩ := List.append_inj' he rfl
      cases h3
      exact absurd (by simp) (hm b t)
    · rw [List.concat_eq_append, ← List.cons_append, ← List.append_assoc] at he
      obtain ⟨rfl, h3⟩ := List.append_inj' he rfl
      cases h3
      rw [List.concat_eq_append]
      by_cases hba : b = a
      · subst hba
        simp only [Function.update_self, Option.some.injEq] at hb
        subst hb
        exact hstep t h2' (hw.seen b w ha h1 y t h2' rfl)
      · simp only [Function.update_of_ne hba] at hb
        exact (hw.seen b v hb h1 y t h2' rfl).later _

/-- The section of a call that changes a shard. -/
theorem sweep_call {n target cap gcap i : Nat} {mask : UInt64} {tr : List (Nat × Conc.Ev K V)} {x y : Conc.Cache K V} {t : Tour K V} {op : Op K V}
    {evs : List (Conc.Ev K V)} (h : Conc.Cache.SInv c n mask target cap gcap tr x) (hq : c.ptrEq = true) (ht : t.op = some op)
    (hs : x.exec c i (.call op) = some (.ok (y, evs))) :
    calls evs = [⟨op, .unit, []⟩] ∧ i < n := by
  obtain ⟨-, st, st', hst, hex, -⟩ := Conc.Cache.exec_some hs
  have hi : i < n := by rw [← h.len]; exact (List.getElem?_eq_some_iff.1 hst).1
  refine ⟨?_, hi⟩
  have hre := h.reach hq hst
  have he := hre.inv.eff hq hex
  have hh := he.history hre.inv
  have hcase : (∃ f, op = .retain f) ∨ op = .clear ∨ op = .reserve := by
    cases t <;> cases ht
    · exact .inl ⟨_, rfl⟩
    · exact .inr (.inl rfl)
    · exact .inr (.inr rfl)
  cases he with
  | read hop => rcases hcase with ⟨f, rfl⟩ | rfl | rfl <;> cases hop
  | write hop hw hr he =>
    rcases hh with ⟨h1, -⟩ | ⟨x, h1, h2⟩
    · cases h1
    · rw [h1]
      cases h1
      rcases hcase with ⟨f, rfl⟩ | rfl | rfl <;>
        (obtain ⟨h3, h4, -⟩ := h2; simp only at h3 h4; rw [h3, h4])

theorem Run.walks {n target cap gcap : Nat} {mask : UInt64}
    (h0 : s0 = Sweep.start ⟨List.replicate n (Shard.new target cap gcap), mask⟩) (hq : c.ptrEq = true) (hr : Run c s0 h s) :
    Walks n h s := by
  have sinv : ∀ {h s}, Run c s0 h s → Conc.Cache.SInv c n mask target cap gcap (onShards h) s.cache := by
    intro h s hr
    refine hr.sharded.sinv hq ?_
    rw [h0]
    exact .new ..
  induction hr with
  | start =>
    subst h0
    exact ⟨fun a w h => (by cases h), fun m hm => (by simp at hm), fun a w h => (by cases h)⟩
  | layout m p hr hi hm hp hx ih =>
    refine ih.keep ?_ ?_ ?_
    · exact fun _ _ h => h
    · rfl
    · simp
  | @act h s s' act evs hr hs ih =>
    cases exec_eff hs with
    | shard h =>
      refine ih.keep ?_ ?_ ?_
      · exact fun _ _ h => h
      · rfl
      · simp
    | call t =>
      refine ⟨?_, ?_, ?_⟩
      · intro a w ha
        by_cases hac : a = s.count
        · subst hac; exact Nat.lt_succ_self _
        · simp only [Function.update_of_ne hac] at ha
          exact Nat.lt_succ_of_lt (ih.used a w ha)
      · intro m hm a t' ht
        rcases List.mem_append.1 hm with h1 | h1
        · exact Nat.lt_succ_of_lt (ih.called m h1 a t' ht)
        · rw [List.mem_singleton.1 h1] at ht
          simp only [List.mem_singleton, Ev.called.injEq] at ht
          rw [ht.1]
          exact Nat.lt_succ_self _
      · intro a w ha h1 x t' h2 he
        rcases List.eq_nil_or_concat h2 with rfl | ⟨h2', z, rfl⟩
        · obtain ⟨rfl, h3⟩ := List.append_inj' he rfl
          cases h3
          simp only [Function.update_self, Option.some.injEq] at ha
          subst ha
          exact ⟨rfl, Nat.zero_le _, fun _ => .inl ⟨[], by simp, rfl, rfl, by simp⟩, fun op hop i hi => by simp at hi⟩
        · rw [List.concat_eq_append, ← List.cons_append, ← List.append_assoc] at he
          obtain ⟨rfl, h3⟩ := List.append_inj' he rfl
          cases h3
          have hlt := ih.called ⟨[.called a t'], x⟩ (by simp) a t' (List.mem_singleton.2 rfl)
          simp only [Function.update_of_ne (Nat.ne_of_lt hlt)] at ha
          rw [List.concat_eq_append]
          exact (ih.seen a w ha h1 x t' h2' rfl).later _
    | @finish a w hw hl =>
      refine ih.keep ?_ ?_ ?_
      · intro b w h
        by_cases hba : b = a
        · subst hba; simp at h
        · simpa only [Function.update_of_ne hba] using h
      · rfl
      · simp
    | @write a w op y evs hw hop hr' =>
      obtain ⟨hc, hlt⟩ := sweep_call (sinv hr) hq hop hr'
      refine ih.move hw (by simp) ?_
      intro t h2 hseen
      have htop : t.op = some op := by rw [← hseen.tour]; exact hop
      refine ⟨hseen.tour, hlt, fun h => (by rw [htop] at h; cases h), ?_⟩
      intro op' hop' i hi
      obtain rfl : op = op' := by rw [htop] at hop'; exact Option.some.inj hop'
      rw [onShards_append, shardCalls_append', List.mem_append]
      simp only at hi
      by_cases hin : i < w.next
      · exact .inl (hseen.writes op hop' i hin)
      · obtain rfl : i = w.next := by omega
        right
        rw [onShards_one, ← List.nil_append (List.map _ _), Conc.Cache.shardCalls_append, hc]
        simp
    | @read a n1 acc w st hw hop hst hw1 e1 e2 =>
      have hlen := (sinv hr).len
      have hlt : w.next < n := by rw [← hlen]; exact (List.getElem?_eq_some_iff.1 hst).1
      refine ih.move (x := s.cache) hw (by simp) ?_
      intro t h2 hseen
      have htop : t.op = none := by rw [← hseen.tour]; exact hop
      have hacc : acc = w.acc + n1 := by
        revert e2
        unfold Tour.add cadd
        split
        · split <;> intro h <;> cases h; rfl
        · split <;> intro h <;> cases h; rfl
        · intro h; cases h; rfl
      refine ⟨hseen.tour, ?_, fun _ => ?_, fun op h => (by rw [htop] at h; cases h)⟩
      · simp only
        split
        · exact Nat.le_of_eq hlen
        · exact hlt
      · have hread : readAt t w.next s.cache = n1 := by
          unfold readAt
          rw [← hseen.tour, hst]
          simp only [e1]
        by_cases hstop : w.tour.stops n1 = true
        · right
          rw [hseen.tour] at hstop
          have ⟨ht, hn⟩ : t = .isEmpty ∧ n1 ≠ 0 := by
            cases t <;> simp [Tour.stops] at hstop ⊢
            exact hstop
          refine ⟨ht, by simp only; omega, ⟨[], s.cache⟩, by simp, w.next, ?_⟩
          rw [hread]
          exact hn
        · simp only [hstop]
          rcases hseen.reads htop with ⟨seen, h3, h4, h5, h6⟩ | ⟨h3, h4, m, h5, h6⟩
          · left
            refine ⟨seen ++ [s.cache], ?_, by simp [h4], ?_, ?_⟩
            · rw [List.map_append]
              exact h3.append (List.Sublist.refl _)
            · rw [sumOver_concat, h4, hread, ← h5]
              exact hacc
            · intro i x hx
              by_cases hi : i < seen.length
              · rw [List.getElem?_append_left hi] at hx
                exact h6 i x hx
              · rw [List.getElem?_append_right (by omega)] at hx
                obtain ⟨h7, h8⟩ := List.getElem?_eq_some_iff.1 hx
                have h9 : i = w.next := by simp at h7; omega
                simp only [List.getElem_singleton] at h8
                subst h8
                rw [h9, ← hseen.tour]
                exact ⟨st, n1, hst, e1⟩
          · right
            exact ⟨h3, by omega, m, by simp [h5], h6⟩

/-- The end of a call. -/
theorem Run.returned {n target cap gcap a : Nat} {mask : UInt64} {t : Tour K V} {out : TOut} {x y : Conc.Cache K V}
    (h0 : s0 = Sweep.start ⟨List.replicate n (Shard.new target cap gcap), mask⟩) (hq : c.ptrEq = true)
    (hr : Run c s0 (h1 ++ ⟨[.called a t], x⟩ :: h2 ++ [⟨[.returned a out], y⟩]) s) :
    s.cache = y ∧ ∃ w, Seen n t w h2 ∧ w.next = n ∧ out = t.out w.acc := by
  generalize hh : h1 ++ ⟨[.called a t], x⟩ :: h2 ++ [⟨[.returned a out], y⟩] = h at hr
  cases hr with
  | start => simp at hh
  | layout m p hr hi hm hp hx =>
    have := (List.append_inj' hh rfl).2
    cases this
  | @act h s1 _ act evs hr hs =>
    obtain ⟨rfl, h3⟩ := List.append_inj' hh rfl
    have hev : evs = [.returned a out] := by
      have := congrArg (fun l => (l.map Moment.evs)) h3
      simpa using this.symm
    have hcy : s.cache = y := by
      have := congrArg (fun l => (l.map Moment.cache)) h3
      simpa using this.symm
    refine ⟨hcy, ?_⟩
    have hlen : s1.cache.shards.length = n := by
      have h4 : Conc.Cache.SInv c n mask target cap gcap _ s1.cache := hr.sharded.sinv hq (by rw [h0]; exact .new ..)
      exact h4.len
    have hwalks := hr.walks h0 hq
    generalize hev' : evs = evs' at hs
    cases exec_eff hs with
    | @shard i act x evs h =>
      rw [hev] at hev'
      cases evs <;> simp at hev'
    | call t' => rw [hev] at hev'; simp at hev'
    | @write a w op x evs hw hop h =>
      rw [hev] at hev'
      cases evs <;> simp at hev'
    | read => rw [hev] at hev'; cases hev'
    | @finish b w hw hle =>
      rw [hev] at hev'
      simp only [List.cons.injEq, Ev.returned.injEq, and_true] at hev'
      obtain ⟨rfl, rfl⟩ := hev'
      have hseen := hwalks.seen a w hw h1 x t h2 rfl
      have := hseen.le
      exact ⟨w, hseen, by omega, by rw [hseen.tour]⟩

/-- A call is under way until it returns. -/
theorem Run.open (hr : Run c s0 h s) : ∀ {h1 h2 : List (Moment K V)} {a : Nat} {t : Tour K V} {x : Conc.Cache K V},
    h = h1 ++ ⟨[.called a t], x⟩ :: h2 → (∀ m ∈ h2, ∀ out, Ev.returned a out ∉ m.evs) → ∃ w, s.walks a = some w := by
  induction hr with
  | start => intro h1 h2 a t x he; simp at he
  | @layout h s i st m p hr hi hm hp x hx ih =>
    intro h1 h2 a t x' he hn
    rcases List.eq_nil_or_concat h2 with rfl | ⟨h2', z, rfl⟩
    · have := (List.append_inj' he rfl).2
      cases this
    · rw [List.concat_eq_append, ← List.cons_append, ← List.append_assoc] at he
      obtain ⟨rfl, -⟩ := List.append_inj' he rfl
      exact ih rfl (fun m hm => hn m (by simp [hm]))
  | @act h s s' act evs hr hs ih =>
    intro h1 h2 a t x' he hn
    rcases List.eq_nil_or_concat h2 with rfl | ⟨h2', z, rfl⟩
    · have h3 := (List.append_inj' he rfl).2
      replace h3 : evs = [.called a t] := congrArg Moment.evs (List.cons.inj h3).1
      clear he
      have no : ∀ {i} {evs : List (Conc.Ev K V)}, evs.map (Ev.shard i) ≠ [.called a t] := by
        intro i evs h
        cases evs <;> simp at h
      cases exec_eff hs with
      | call t' =>
        simp only [List.cons.injEq, Ev.called.injEq, and_true] at h3
        rw [← h3.1]
        exact ⟨_, Function.update_self ..⟩
      | finish => simp at h3
      | read => simp at h3
      | shard => exact absurd h3 no
      | write => exact absurd h3 no
    · rw [List.concat_eq_append, ← List.cons_append, ← List.append_assoc] at he
      obtain ⟨rfl, h3⟩ := List.append_inj' he rfl
      cases h3
      obtain ⟨w, hw⟩ := ih rfl (fun m hm => hn m (by simp [hm]))
      have upd : ∀ (b : Nat) (v : Walk K V), ∃ w, Function.update s.walks b (some v) a = some w := by
        intro b v
        by_cases hb : a = b
        · subst hb; exact ⟨v, Function.update_self ..⟩
        · exact ⟨w, by rw [Function.update_of_ne hb]; exact hw⟩
      cases exec_eff hs with
      | call t' => exact upd _ _
      | shard => exact ⟨w, hw⟩
      | write => exact upd _ _
      | read => exact upd _ _
      | @finish b _ _ _ =>
        have hb : a ≠ b := by
          intro hb
          subst hb
          rw [List.concat_eq_append] at hn
          exact hn _ (List.mem_append_right _ (List.mem_singleton.2 rfl)) _ (List.mem_singleton.2 rfl)
        exact ⟨w, by simp only [Function.update_of_ne hb]; exact hw⟩

/-! ### Visits are counted -/

theorem performs_bound {acts : List (Act K V)} (hr : Performs c s0 acts s) (h0 : ∀ a, s0.walks a = none) :
    s.cache.shards.length = s0.cache.shards.length ∧ ∀ a,
      acts.countP (isVisit a) ≤ s.cache.shards.length ∧ (s.count ≤ a → acts.countP (isVisit a) = 0) ∧
      (∀ w, s.walks a = some w → a < s.count ∧ acts.countP (isVisit a) ≤ w.next ∧ w.next ≤ s.cache.shards.length) := by
  induction hr with
  | start => exact ⟨rfl, fun a => ⟨Nat.zero_le _, fun _ => rfl, fun w hw => by rw [h0 a] at hw; cases hw⟩⟩
  | layout m p hr hi hm hp ih => simpa using ih
  | @act acts s s' act evs hr hs ih =>
    obtain ⟨ih1, ih⟩ := ih
    have len : ∀ {i : Nat} {act : Conc.Act K V} {y : Conc.Cache K V} {evs}, s.cache.exec c i act = some (.ok (y, evs)) →
        y.shards.length = s.cache.shards.length ∧ i < s.cache.shards.length := by
      intro i act y evs h
      obtain ⟨-, st, st', hst, -, rfl⟩ := Conc.Cache.exec_some h
      exact ⟨by simp, (List.getElem?_eq_some_iff.1 hst).1⟩
    have moves : ∀ {b : Nat} {w : Walk K V} (w' : Walk K V), s.walks b = some w → w.next < s.cache.shards.length →
        w.next + 1 ≤ w'.next → w'.next ≤ s.cache.shards.length → ∀ a,
        (acts ++ [Act.visit b]).countP (isVisit a) ≤ s.cache.shards.length ∧
        (s.count ≤ a → (acts ++ [Act.visit b]).countP (isVisit a) = 0) ∧
        ∀ v, Function.update s.walks b (some w') a = some v →
          a < s.count ∧ (acts ++ [Act.visit b]).countP (isVisit a) ≤ v.next ∧ v.next ≤ s.cache.shards.length := by
      intro b w w' hw h1 h2 h3 a
      obtain ⟨g1, g2, g3⟩ := ih a
      simp only [List.countP_append, List.countP_singleton, isVisit]
      by_cases ha : a = b
      · subst ha
        have g4 := g3 w hw
        simp only [beq_self_eq_true, if_true]
        refine ⟨by omega, fun h => by omega, fun v hv => ?_⟩
        rw [Function.update_self] at hv
        cases hv
        omega
      · have : (b == a) = false := by simpa using fun h => ha h.symm
        simp only [this]
        refine ⟨g1, g2, fun v hv => ?_⟩
        rw [Function.update_of_ne ha] at hv
        exact g3 v hv
    cases exec_eff hs with
    | shard h =>
      obtain ⟨h1, -⟩ := len h
      simp only [h1, List.countP_append, List.countP_singleton, isVisit]
      exact ⟨ih1, ih⟩
    | call t =>
      refine ⟨ih1, fun a => ?_⟩
      obtain ⟨h1, h2, h3⟩ := ih a
      simp only [List.countP_append, List.countP_singleton, isVisit]
      refine ⟨h1, fun h => h2 (by omega), fun w hw => ?_⟩
      by_cases ha : a = s.count
      · subst ha
        rw [Function.update_self] at hw
        cases hw
        have := h2 (Nat.le_refl _)
        simp [this]
      · rw [Function.update_of_ne ha] at hw
        have := h3 w hw
        exact ⟨by omega, this.2⟩
    | @write b w op x evs hw hop h =>
      obtain ⟨h1, h2⟩ := len h
      refine ⟨h1.trans ih1, ?_⟩
      simp only [h1]
      exact moves ⟨w.tour, w.next + 1, w.acc⟩ hw h2 (Nat.le_refl _) h2
    | @read b n acc w st hw hop hst hl e1 e2 =>
      have h2 := (List.getElem?_eq_some_iff.1 hst).1
      refine ⟨ih1, moves _ hw h2 ?_ ?_⟩ <;> (simp only; split <;> omega)
    | @finish b w hw hl =>
      refine ⟨ih1, fun a => ?_⟩
      obtain ⟨h1, h2, h3⟩ := ih a
      simp only [List.countP_append, List.countP_singleton, isVisit]
      refine ⟨h1, h2, fun v hv => ?_⟩
      by_cases ha : a = b
      · subst ha; rw [Function.update_self] at hv; cases hv
      · rw [Function.update_of_ne ha] at hv; exact h3 v hv

end QuickCache.Sweep
