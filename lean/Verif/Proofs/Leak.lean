import Verif.Proofs.Memory
import Verif.Proofs.Sharded
import Verif.Spec.Longevity

/-!
# Dropped guards in the shared cache: proof
-/

namespace QuickCache.Conc
variable {K V RS : Type} [DecidableEq K] {c : Cfg K V RS}
open Spec
open Function (update)

/-- A shard after `n` lookups of `k` whose guards were dropped, with `m` misses counted. -/
def leaky (c : Cfg K V RS) (k : K) (T C G n m : Nat) : Shard K V := { leaked c k T C G n with misses := m }

/-- The placeholder of the `n`-th lookup. -/
def leakPlh (c : Cfg K V RS) (k : K) (n : Nat) : Plh := { id := n, hash := c.hash k, idx := n }

omit [DecidableEq K] in
theorem leaky_insert (c : Cfg K V RS) (k : K) (T C G n m : Nat) :
    (leaky c k T C G n m : Shard K V).entries.insert (.placeholder { key := k, hot := .cold, shared := leakPlh c k n }) =
      if n + 2 = 2 ^ 32 then .error .slabFull else .ok ((leaky c k T C G (n + 1) m : Shard K V).entries, n) := by
  have h0 : ((List.range n).map (leakSlot c k : Nat → SEntry (Entry K V)))[n]? = none := by
    rw [List.getElem?_eq_none_iff]; simp
  by_cases hne : n + 2 = 2 ^ 32
  · simp only [leaky, leaked, Slab.insert, h0, List.length_map, List.length_range, ne_eq, not_true, if_false, hne, if_true]
  · simp only [leaky, leaked, Slab.insert, h0, List.length_map, List.length_range, ne_eq, not_true, if_false, hne,
      List.range_succ, List.map_append, List.map_cons, List.map_nil, leakSlot, leakPlh]

theorem leaky_upsert (c : Cfg K V RS) (k : K) (T C G n m : Nat) :
    Sync.step c (leaky c k T C G n m) (.upsert k) =
      if n + 2 = 2 ^ 32 then .error .slabFull else
        .ok ({ leaky c k T C G (n + 1) (m + 1) with map := [(c.hash k, n)] }, .pending (leakPlh c k n) true, c.begin) := by
  simp only [Sync.step]
  unfold Shard.upsertPlaceholder
  have h2 : (leaky c k T C G n m).search (c.hash k) (fun x => x == k) = .ok none := rfl
  have h3 : (leaky c k T C G n m : Shard K V).entries.nextFree = n := rfl
  have h4 : (leaky c k T C G n m : Shard K V).nextPlh = n := rfl
  have h5 := leaky_insert (V := V) c k T C G n m
  unfold leakPlh at h5
  rw [h2]
  simp only [Res.ok_bind, h3, h4]
  rw [h5]
  split
  · rfl
  · simp only [Res.ok_bind, ne_eq, not_true, if_false, Shard.mapInsert]
    rfl

theorem leaky_abandon (c : Cfg K V RS) (k : K) (T C G n m : Nat) :
    Sync.step c { (leaky c k T C G (n + 1) m : Shard K V) with map := [(c.hash k, n)] } (.abandon k (leakPlh c k n)) =
      .ok (leaky c k T C G (n + 1) m, .unit, c.begin) := by
  have hp : (leaky c k T C G (n + 1) m : Shard K V).probe (c.hash k) (c.hash k) = true := by
    simp [leaky, leaked, Shard.new]
  have hg : (leaky c k T C G (n + 1) m : Shard K V).entries.get n = _ := leaked_get (V := V) c k T C G (Nat.lt_succ_self n)
  have hsame : c.sameAs { id := n, hash := c.hash k, idx := n } { id := n, hash := c.hash k, idx := n } = true := by
    unfold Cfg.sameAs; split <;> simp
  simp only [Sync.step]
  unfold Shard.removePlaceholder leakPlh
  simp [hp, hg, hsame]
  rfl

/-- Actions about one key that follow each other. -/
inductive Chain (c : Cfg K V RS) (k : K) : State K V → List (Ev K V) → State K V → Prop
  | nil (s : State K V) : Chain c k s [] s
  | snoc {s s1 s2 : State K V} {l evs : List (Ev K V)} {act : Act K V} (h : Chain c k s l s1)
      (hk : act.key = none ∨ act.key = some k) (hs : exec c s1 act = some (.ok (s2, evs))) : Chain c k s (l ++ evs) s2

/-- The shard after `n` dropped guards, nobody in a call. -/
structure Leaky (c : Cfg K V RS) (k : K) (T C G n : Nat) (s : State K V) : Prop where
  shard : ∃ m, s.shard = leaky c k T C G n m
  writer : s.writer = none
  readers : s.readers = []

/-- Someone has come as far as the write lock. -/
theorem Leaky.ask {k : K} {T C G n : Nat} {s : State K V} (h : Leaky c k T C G n s) :
    ∃ l s', Chain c k s l s' ∧ Leaky c k T C G n s' ∧ s'.ctl s.next = .created k ∧ l.countP takesSlot = 0 := by
  obtain ⟨m, hm⟩ := h.shard
  let a := s.next
  let s1 : State K V :=
    { s with
      next := s.next + 1, kind := update s.kind s.next .task,
      ctl := update s.ctl s.next (.start k), flag := update s.flag s.next false }
  have e1 : exec c s (.begin .task k) = some (.ok (s1, [])) := rfl
  have c1 : s1.ctl a = .start k := Function.update_self ..
  have k1 : s1.kind a = .task := Function.update_self ..
  let s2 : State K V := { s1.go a (.seek k) with readers := a :: s1.readers, cx := update s1.cx a 0 }
  have e2 : exec c s1 (.enter a 0) = some (.ok (s2, [.polled a 0])) := by
    have w1 : s1.writer = none := h.writer
    simp only [exec, enter, c1, w1, k1, Option.isNone_none, if_true]
    rfl
  have c2 : s2.ctl a = .seek k := Function.update_self ..
  have e3 : exec c s2 (.find a) = some (.ok (s2.go a (.tally k none), [.sect (.find k) (.located none) c.begin.log])) := by
    have w : Sync.step c s2.shard (.find k) = .ok (s2.shard, .located none, c.begin) := by
      have : s2.shard = leaky c k T C G n m := hm
      rw [this]
      rfl
    simp only [exec, find, c2, w, Res.ok_bind]
    rfl
  let s3 := s2.go a (.tally k none)
  have c3 : s3.ctl a = .tally k none := Function.update_self ..
  have k3 : s3.kind a = .task := k1
  let s4 : State K V := { (s3.unlockRead a).go a (.created k) with shard := leaky c k T C G n (m + 1) }
  have e4 : exec c s3 (.tally a) = some (.ok (s4, [.sect (.count false) .unit c.begin.log])) := by
    have w : Sync.step c s3.shard (.count false) = .ok (leaky c k T C G n (m + 1), .unit, c.begin) := by
      have : s3.shard = leaky c k T C G n m := hm
      rw [this]
      rfl
    simp only [exec, tally, c3, k3, Option.isSome_none, w, Res.ok_bind]
    rfl
  refine ⟨_, s4, ((((Chain.nil s).snoc (Or.inr rfl) e1).snoc (Or.inl rfl) e2).snoc (Or.inl rfl) e3).snoc (Or.inl rfl) e4,
    ⟨⟨m + 1, rfl⟩, h.writer, ?_⟩, Function.update_self .., rfl⟩
  show (a :: s.readers).erase a = []
  rw [h.readers]
  simp

theorem Leaky.round {k : K} {T C G n : Nat} {s : State K V} (h : Leaky c k T C G n s) (hn : n + 2 ≠ 2 ^ 32) :
    ∃ l s', Chain c k s l s' ∧ Leaky c k T C G (n + 1) s' ∧ l.countP takesSlot = 1 := by
  obtain ⟨l0, s4, h0, h4, c4, hl⟩ := h.ask
  generalize s.next = a at c4
  obtain ⟨m, hm⟩ := h4.shard
  let p := leakPlh c k n
  let sh : Shard K V := { leaky c k T C G (n + 1) (m + 1) with map := [(c.hash k, n)] }
  let s5 : State K V := { ((({ s4 with shard := sh } : State K V).setPlh p ⟨k, p, [], .loading⟩).go a (.starting k p true)) with
    writer := some a }
  have u4 : s4.unlocked = true := by unfold State.unlocked; rw [h4.writer, h4.readers]; rfl
  have e5 : exec c s4 (.upsert a) = some (.ok (s5, [.sect (.upsert k) (.pending p true) c.begin.log, .began a k p])) := by
    have w := leaky_upsert c k T C G n m
    rw [if_neg hn, ← hm] at w
    simp only [exec, upsert, c4, u4, if_true, w, Res.ok_bind]
    rfl
  have c5 : s5.ctl a = .starting k p true := Function.update_self ..
  have p5 : s5.plh p.id = some ⟨k, p, [], .loading⟩ := Function.update_self ..
  let s6 := (s5.go a (.guard k p)).unlockWrite
  have e6 : exec c s5 (.startLoading a) = some (.ok (s6, [.gotGuard a k p])) := by
    simp only [exec, startLoading, c5, p5, Option.map_some, if_true]
    rfl
  have c6 : s6.ctl a = .guard k p := Function.update_self ..
  let s7 := s6.go a (.leaving k p)
  have e7 : exec c s6 (.drop a) = some (.ok (s7, [])) := by
    simp only [exec, drop, c6]
    rfl
  have c7 : s7.ctl a = .leaving k p := Function.update_self ..
  have u7 : s7.unlocked = true := by
    show ((none : Option Nat).isNone && s4.readers.isEmpty) = true
    rw [h4.readers]; rfl
  let s8 : State K V := { s7.go a (.dropping k p) with writer := some a }
  have e8 : exec c s7 (.lockDrop a) = some (.ok (s8, [])) := by
    simp only [exec, lockDrop, c7, u7, if_true]
    rfl
  have c8 : s8.ctl a = .dropping k p := Function.update_self ..
  have p8 : s8.plh p.id = some ⟨k, p, [], .loading⟩ := p5
  let s9 : State K V := { ((s8.setPlh p ⟨k, p, [], .terminated⟩).go a .idle).unlockWrite with
    shard := leaky c k T C G (n + 1) (m + 1) }
  have e9 : exec c s8 (.finishDrop a) = some (.ok (s9, [.sect (.abandon k p) .unit c.begin.log, .dropped a k p])) := by
    have w : Sync.step c s8.shard (.abandon k p) = _ := leaky_abandon c k T C G n (m + 1)
    simp only [exec, finishDrop, c8, p8, List.getLast?_nil, w, Res.ok_bind]
    rfl
  refine ⟨_, s9, ((((h0.snoc (Or.inl rfl) e5).snoc (Or.inl rfl) e6).snoc (Or.inl rfl) e7).snoc (Or.inl rfl) e8).snoc
    (Or.inl rfl) e9, ⟨⟨m + 1, rfl⟩, rfl, h4.readers⟩, ?_⟩
  simp only [List.countP_append, hl]
  rfl

theorem Leaky.full {k : K} {T C G n : Nat} {s : State K V} (h : Leaky c k T C G n s) (hn : n + 2 = 2 ^ 32) :
    ∃ l s' a, Chain c k s l s' ∧ Leaky c k T C G n s' ∧ l.countP takesSlot = 0 ∧
      exec c s' (.upsert a) = some (.error .slabFull) := by
  obtain ⟨l0, s4, h0, h4, c4, hl⟩ := h.ask
  obtain ⟨m, hm⟩ := h4.shard
  have u4 : s4.unlocked = true := by unfold State.unlocked; rw [h4.writer, h4.readers]; rfl
  refine ⟨l0, s4, s.next, h0, h4, hl, ?_⟩
  have w := leaky_upsert c k T C G n m
  rw [if_pos hn, ← hm] at w
  simp only [exec, upsert, c4, u4, if_true, w]
  rfl

/-! ### In the sharded cache -/

theorem Cache.exec_lift {s : Cache K V} {i : Nat} {st : State K V} {act : Act K V} {k : K} (hi : s.shards[i]? = some st)
    (hh : s.home c k = i) (hk : act.key = none ∨ act.key = some k) {r : Res (State K V × List (Ev K V))}
    (hs : Conc.exec c st act = some r) :
    s.exec c i act = some (r >>= fun x => .ok ({ s with shards := s.shards.set i x.1 }, x.2)) := by
  have hr : s.routes c i act = true := by
    unfold Cache.routes
    rcases hk with hk | hk <;> rw [hk]
    simp [hh]
  unfold Cache.exec
  rw [if_pos hr, hi]
  simp only [hs]

theorem Chain.lift {s0 s : Cache K V} {tr : List (Nat × Ev K V)} {i : Nat} {k : K} {st st' : State K V} {l : List (Ev K V)}
    (hc : Chain c k st l st') (hr : Cache.Run c s0 tr s) (hi : s.shards[i]? = some st) (hh : s.home c k = i) :
    Cache.Run c s0 (tr ++ l.map (fun e => (i, e))) { s with shards := s.shards.set i st' } := by
  induction hc with
  | nil =>
    have : s.shards.set i st = s.shards := by
      obtain ⟨h1, h2⟩ := List.getElem?_eq_some_iff.1 hi
      rw [← h2]
      exact List.set_getElem_self h1
    rw [this]
    simpa using hr
  | @snoc s1 s2 l evs act hc hk hs ih =>
    have hl : i < s.shards.length := (List.getElem?_eq_some_iff.1 hi).1
    have h2 := Cache.exec_lift (s := { s with shards := s.shards.set i s1 }) (List.getElem?_set_self hl) hh hk hs
    have := ih.act h2
    simpa using this

omit [DecidableEq K] in
theorem onShard_append (i : Nat) (tr : List (Nat × Ev K V)) (l : List (Ev K V)) :
    onShard i (tr ++ l.map (fun e => (i, e))) = onShard i tr ++ l := by
  unfold onShard
  rw [List.filterMap_append, List.filterMap_map]
  congr 1
  have : ((fun e : Nat × Ev K V => if e.1 = i then some e.2 else none) ∘ fun e => (i, e)) = some := by
    funext e
    simp
  rw [this, List.filterMap_some]

theorem leak_run {k : K} {T C G N : Nat} {mask : UInt64} (hk : shardIdx mask (c.hash k) < N) : ∀ n, n + 1 < 2 ^ 32 →
    ∃ tr st, Cache.Run c (Cache.start ⟨List.replicate N (Shard.new T C G), mask⟩) tr
        ⟨(List.replicate N (State.new (Shard.new T C G))).set (shardIdx mask (c.hash k)) st, mask⟩ ∧
      Leaky c k T C G n st ∧ additions (shardIdx mask (c.hash k)) tr = n
  | 0, _ => by
    refine ⟨[], State.new (Shard.new T C G), ?_, ⟨⟨0, rfl⟩, rfl, rfl⟩, rfl⟩
    have e : (Cache.start ⟨List.replicate N (Shard.new T C G : Shard K V), mask⟩) =
        ⟨(List.replicate N (State.new (Shard.new T C G))).set (shardIdx mask (c.hash k)) (State.new (Shard.new T C G)), mask⟩ := by
      unfold Cache.start
      simp
    rw [← e]
    exact .start
  | n + 1, hn => by
    obtain ⟨tr, st, h1, h2, h3⟩ := leak_run hk n (by omega)
    obtain ⟨l, st', h4, h5, h6⟩ := h2.round (by omega)
    refine ⟨tr ++ l.map (fun e => (shardIdx mask (c.hash k), e)), st', ?_, h5, ?_⟩
    · have := h4.lift h1 (i := shardIdx mask (c.hash k)) (by simp [hk]) rfl
      simpa using this
    · unfold additions at h3 ⊢
      rw [onShard_append, List.countP_append, h3, h6]

/-! ### What is left -/

theorem Leaky.iter {k : K} {T C G n : Nat} {s : State K V} (h : Leaky c k T C G n s) (hn : n + 1 < 2 ^ 32) : s.shard.iter = [] := by
  obtain ⟨m, hm⟩ := h.shard
  rw [hm]
  have hi := (leaked_run (V := V) c k T C G n hn).reach_new.inv.toInv0
  have := hi.len_iter
  exact List.eq_nil_of_length_eq_zero (l := (leaked c k T C G n : Shard K V).iter) this

omit [DecidableEq K] in
theorem Leaky.slots {k : K} {T C G n : Nat} {s : State K V} (h : Leaky c k T C G n s) : s.shard.slots = n := by
  obtain ⟨m, hm⟩ := h.shard
  rw [hm]
  exact leaked_slots c k T C G n

theorem Leaky.items {k : K} {T C G n N : Nat} {s : State K V} {mask : UInt64} (h : Leaky c k T C G n s) (hn : n + 1 < 2 ^ 32) (i : Nat) :
    items ⟨(List.replicate N (State.new (Shard.new T C G))).set i s, mask⟩ = [] := by
  unfold Spec.items
  rw [List.flatMap_eq_nil_iff]
  intro x hx
  rcases List.mem_or_eq_of_mem_set hx with hx | rfl
  · rw [List.eq_of_mem_replicate hx]
    rfl
  · exact h.iter hn

end QuickCache.Conc
