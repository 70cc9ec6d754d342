import Verif.Spec.Balance
import Verif.Spec.Sharded
import Verif.Spec.Ops
import Verif.Proofs.History

/-!
# What enters and what leaves the cache: proof
-/

namespace QuickCache.Spec
variable {K V RS : Type _} [DecidableEq K] [DecidableEq V] {c : Cfg K V RS} {target : Nat} {m m' : K → Option V} {y : K × V}

/-- Whether the item is in the map. -/
def bal (m : K → Option V) (y : K × V) : Nat := if m y.1 = some y.2 then 1 else 0

theorem count_cons' (x : K × V) (l : List (K × V)) : (x :: l).count y = [x].count y + l.count y := by
  rw [List.count_cons, List.count_cons, List.count_nil]
  omega

theorem count_one (k : K) (v : V) : [(k, v)].count y = if k = y.1 ∧ v = y.2 then 1 else 0 := by
  rw [List.count_cons, List.count_nil, Nat.zero_add]
  obtain ⟨a, b⟩ := y
  simp

theorem bal_put_none {k : K} (h : m k = none) (v : V) : bal (put m k v) y = bal m y + [(k, v)].count y := by
  rw [count_one]
  unfold bal put
  by_cases hk : y.1 = k
  · rw [hk, h]
    simp
  · have : ¬ (k = y.1 ∧ v = y.2) := fun hc => hk hc.1.symm
    simp [hk, this]

theorem bal_put_some {k : K} {old : V} (h : m k = some old) (v : V) :
    bal (put m k v) y + [(k, old)].count y = bal m y + [(k, v)].count y := by
  rw [count_one, count_one]
  unfold bal put
  by_cases hk : y.1 = k
  · rw [hk, h]
    simp only [if_true, Option.some.injEq, true_and]
    omega
  · have : ∀ v, ¬ (k = y.1 ∧ v = y.2) := fun v hc => hk hc.1.symm
    simp [hk, this]

theorem bal_del_some {k : K} {v : V} (h : m k = some v) : bal (del m k) y + [(k, v)].count y = bal m y := by
  rw [count_one]
  unfold bal del
  by_cases hk : y.1 = k
  · rw [hk, h]
    simp
  · have : ¬ (k = y.1 ∧ v = y.2) := fun hc => hk hc.1.symm
    simp [hk, this]

omit [DecidableEq V] in
theorem del_none {k : K} (h : m k = none) : del m k = m := by
  funext x
  unfold del
  split
  · rename_i hx; rw [hx, h]
  · rfl

omit [DecidableEq V] in
theorem alter_none {k : K} (h : m k = none) (f : V → V) : alter m k f = m := by
  funext x
  unfold alter
  split
  · rename_i hx; rw [hx, h]; rfl
  · rfl

omit [DecidableEq V] in
theorem alter_some {k : K} {v : V} (h : m k = some v) (f : V → V) : alter m k f = put m k (f v) := by
  funext x
  unfold alter put
  rw [h]
  rfl

omit [DecidableEq K] in
theorem bal_none : bal (fun _ : K => (none : Option V)) y = 0 := by simp [bal]

omit [DecidableEq K] [DecidableEq V] in
theorem nodup_of_map' {l : List (K × V)} (h : (l.map (·.1)).Nodup) : l.Nodup :=
  (List.pairwise_map.mp h).imp fun h e => h (congrArg _ e)

/-- The balance of a list of lifecycle calls that turn `m` into `m'`, while `i` enters and `o` leaves otherwise. -/
def Even (y : K × V) (m m' : K → Option V) (i o : List (K × V)) (log : List (Event K V)) : Prop :=
  bal m' y + (o.count y + (log.flatMap evOut).count y) = bal m y + (i.count y + (log.flatMap evIn).count y)

theorem Evicts.even {st st' : RS} {log : List (Event K V)} (h : Evicts c m st log m' st') : Even y m m' [] [] log := by
  unfold Even
  induction h with
  | nil => rfl
  | @spare m m' st st1 st' x w w' log here heavy free before light rest ih =>
    simp only [List.flatMap_cons, evIn, evOut, List.count_append, List.count_nil] at *
    have := bal_put_some (y := y) here
    have := this w'
    omega
  | evict here heavy free before still rest ih =>
    have := bal_del_some (y := y) here
    simp only [List.flatMap_cons, evIn, evOut, List.count_append, List.count_nil] at *
    omega

theorem Evicts.even' {st st' : RS} {log : List (Event K V)} (h : Evicts c m st log m' st') :
    bal m' y + (log.flatMap evOut).count y = bal m y + (log.flatMap evIn).count y := by
  have := h.even (y := y)
  unfold Even at this
  simp only [List.count_nil, Nat.zero_add] at this
  exact this

theorem Enter.even {k : K} {v v1 : V} {st : RS} {pre : List (Event K V)} (h : Enter c target k v st pre v1) :
    [(k, v1)].count y + (pre.flatMap evOut).count y = [(k, v)].count y + (pre.flatMap evIn).count y := by
  cases h with
  | direct => rfl
  | rewritten heavy free before =>
    simp only [List.flatMap_cons, List.flatMap_nil, List.append_nil, evIn, evOut]
    omega

theorem Store.even {k : K} {v : V} {log : List (Event K V)} (h : Store c target m k v log m') : Even y m m' [(k, v)] [] log := by
  unfold Even
  cases h with
  | rejected enter asked heavy =>
    have h1 := enter.even (y := y)
    simp only [List.flatMap_append, List.count_append, List.flatMap_cons, List.flatMap_nil, evIn, evOut, List.count_nil]
    cases hk : m k with
    | none =>
      rw [del_none hk]
      simp only [Option.toList_none, List.map_nil, List.flatMap_nil, List.count_nil]
      omega
    | some old =>
      have := bal_del_some (y := y) hk
      simp only [Option.toList_some, List.map_cons, List.map_nil, List.flatMap_cons, List.flatMap_nil, evIn, evOut, List.count_append,
        List.count_nil]
      omega
  | overwritten enter fits here after =>
    have h1 := enter.even (y := y)
    have h2 := after.even' (y := y)
    rename_i v1 old pre L
    have h3 := bal_put_some (y := y) here v1
    simp only [List.flatMap_append, List.count_append, List.flatMap_cons, evIn, evOut, List.count_nil]
    omega
  | added enter fits absent first after either =>
    rename_i st1 st2 v1 pre L1 L2 m1
    have h1 := enter.even (y := y)
    have h2 := first.even' (y := y)
    have h3 := after.even' (y := y)
    have h5 : m1 k = none := (first.absent absent).1
    have h4 := bal_put_none (y := y) h5 v1
    simp only [List.flatMap_append, List.count_append, List.count_nil]
    omega

theorem Even.quiet : Even y m m [] [] [] := rfl

/-- What a map written through a reference looks like. -/
theorem Even.alter {k : K} {v : V} (h : m k = some v) (f : V → V) : Even y m (alter m k f) [(k, f v)] [(k, v)] [] := by
  unfold Even
  rw [alter_some h]
  have := bal_put_some (y := y) h (f v)
  simp only [List.flatMap_nil, List.count_nil]
  omega

/-- The balance of a call. -/
theorem OpSpec.even {x : Unsync.Call K V} (h : OpSpec c target m x.op x.out x.log m') :
    bal m' y + (goes x).count y ≤ bal m y + (comes x).count y ∧
      (Op.silent x.op = false → bal m' y + (goes x).count y = bal m y + (comes x).count y) := by
  obtain ⟨op, out, log⟩ := x
  simp only at h
  have eq : bal m' y + (goes ⟨op, out, log⟩).count y = bal m y + (comes ⟨op, out, log⟩).count y →
      bal m' y + (goes ⟨op, out, log⟩).count y ≤ bal m y + (comes ⟨op, out, log⟩).count y ∧
      (Op.silent op = false → bal m' y + (goes ⟨op, out, log⟩).count y = bal m y + (comes ⟨op, out, log⟩).count y) :=
    fun h => ⟨Nat.le_of_eq h, fun _ => h⟩
  have done : Even y m m' (enters op out) (leaves op out) log →
      bal m' y + (goes ⟨op, out, log⟩).count y = bal m y + (comes ⟨op, out, log⟩).count y := by
    intro h
    unfold goes comes
    rw [List.count_append, List.count_append]
    exact h
  cases op with
  | insert k v =>
    obtain ⟨rfl, h⟩ := h
    exact eq (done h.even)
  | replace k v soft =>
    obtain ⟨r, rfl, h⟩ := h
    refine eq (done ?_)
    cases h with
    | absent enter absent =>
      have h1 := enter.even (y := y)
      unfold Even
      simp only [enters, leaves, Option.map_some]
      omega
    | rejected enter asked heavy here =>
      have h1 := enter.even (y := y)
      have h2 := bal_del_some (y := y) here
      unfold Even
      simp only [enters, leaves, Option.map_some, List.flatMap_append, List.count_append, List.flatMap_cons, List.flatMap_nil, evIn,
        evOut, List.count_nil]
      omega
    | overwritten enter fits here after =>
      rename_i v1 old pre L
      have h1 := enter.even (y := y)
      have h2 := after.even' (y := y)
      have h3 := bal_put_some (y := y) here v1
      unfold Even
      simp only [enters, leaves, Option.map_none, List.flatMap_append, List.count_append, List.flatMap_cons, evIn, evOut, List.count_nil]
      omega
  | remove k =>
    obtain ⟨rfl, rfl, rfl⟩ := h
    refine eq (done ?_)
    unfold Even
    cases hk : m k with
    | none =>
      rw [del_none hk]
      rfl
    | some v =>
      have := bal_del_some (y := y) hk
      simp only [enters, leaves, Option.map_some, List.flatMap_nil, List.count_nil]
      omega
  | get k =>
    obtain ⟨rfl, rfl, rfl⟩ := h
    exact eq (done .quiet)
  | peek k =>
    obtain ⟨rfl, rfl, rfl⟩ := h
    exact eq (done .quiet)
  | containsKey k =>
    obtain ⟨rfl, rfl, rfl⟩ := h
    exact eq (done .quiet)
  | getMut k f =>
    obtain ⟨rfl, rfl, rfl⟩ := h
    refine eq (done ?_)
    cases hk : m k with
    | none => rw [alter_none hk]; exact .quiet
    | some v => exact .alter hk f
  | peekMut k f =>
    obtain ⟨rfl, rfl, rfl⟩ := h
    refine eq (done ?_)
    cases hk : m k with
    | none => rw [alter_none hk]; exact .quiet
    | some v => exact .alter hk f
  | retain f =>
    obtain ⟨rfl, rfl, rfl⟩ := h
    refine ⟨?_, fun h => by cases h⟩
    change bal _ y + 0 ≤ bal m y + 0
    unfold bal
    split
    · rename_i h
      simp only [Option.filter_eq_some_iff] at h
      rw [if_pos h.1]
    · omega
  | clear =>
    obtain ⟨rfl, rfl, rfl⟩ := h
    refine ⟨?_, fun h => by cases h⟩
    rw [bal_none]
    exact Nat.zero_le _
  | drain =>
    obtain ⟨⟨l, rfl, hl⟩, rfl, rfl⟩ := h
    refine eq (done ?_)
    unfold Even
    rw [bal_none]
    change 0 + (l.count y + 0) = bal m y + 0
    have hnd : l.Nodup := nodup_of_map' hl.1
    unfold bal
    rw [List.Nodup.count hnd]
    simp only [hl.2 y.1 y.2]
    omega
  | reserve =>
    obtain ⟨rfl, rfl, rfl⟩ := h
    exact eq (done .quiet)
  | getOrInsertWith k load =>
    refine eq (done ?_)
    cases hk : m k with
    | some v =>
      simp only [OpSpec, hk] at h
      obtain ⟨rfl, rfl, rfl⟩ := h
      cases load <;> exact .quiet
    | none =>
      cases load with
      | none =>
        simp only [OpSpec, hk] at h
        obtain ⟨rfl, rfl, rfl⟩ := h
        exact .quiet
      | some v =>
        simp only [OpSpec, hk] at h
        obtain ⟨h, rfl⟩ := h
        exact h.even
  | getMutOrInsertWith k load f =>
    refine eq (done ?_)
    cases hk : m k with
    | some v =>
      simp only [OpSpec, hk] at h
      obtain ⟨rfl, rfl, rfl⟩ := h
      cases load <;> exact .alter hk f
    | none =>
      cases load with
      | none =>
        simp only [OpSpec, hk] at h
        obtain ⟨rfl, rfl, rfl⟩ := h
        exact .quiet
      | some v =>
        simp only [OpSpec, hk] at h
        obtain ⟨m1, h, rfl, rfl⟩ := h
        have h1 := h.even (y := y)
        cases hk' : m1 k with
        | none => rw [alter_none hk']; exact h1
        | some w =>
          have h2 := Even.alter (y := y) hk' f
          unfold Even at *
          simp only [enters, leaves, List.flatMap_nil, List.count_nil] at *
          rw [count_cons' (k, v)]
          omega
  | getRefOrGuard k use =>
    refine eq (done ?_)
    cases hk : m k with
    | some v =>
      simp only [OpSpec, hk] at h
      obtain ⟨rfl, rfl, rfl⟩ := h
      cases use <;> exact .quiet
    | none =>
      cases use with
      | insert v =>
        simp only [OpSpec, hk] at h
        obtain ⟨rfl, h⟩ := h
        exact h.even
      | _ =>
        simp only [OpSpec, hk] at h
        obtain ⟨rfl, rfl, rfl⟩ := h
        exact .quiet
  | getMutOrGuard k f use =>
    refine eq (done ?_)
    cases hk : m k with
    | some v =>
      simp only [OpSpec, hk] at h
      obtain ⟨rfl, rfl, rfl⟩ := h
      cases use <;> exact .alter hk f
    | none =>
      cases use with
      | insert v =>
        simp only [OpSpec, hk] at h
        obtain ⟨rfl, h⟩ := h
        exact h.even
      | _ =>
        simp only [OpSpec, hk] at h
        obtain ⟨rfl, rfl, rfl⟩ := h
        exact .quiet

theorem Replays.even {h : List (Unsync.Call K V)} (hr : Replays c target (fun _ => none) h m) :
    bal m y + (h.flatMap goes).count y ≤ (h.flatMap comes).count y ∧
      ((∀ x ∈ h, Op.silent x.op = false) → bal m y + (h.flatMap goes).count y = (h.flatMap comes).count y) := by
  induction hr with
  | start => simp [bal_none]
  | @call h m m' x hr hx ih =>
    obtain ⟨h1, h2⟩ := hx.even (y := y)
    simp only [List.flatMap_append, List.flatMap_cons, List.flatMap_nil, List.append_nil, List.count_append]
    refine ⟨by omega, fun hs => ?_⟩
    have h3 := ih.2 (fun x hx => hs x (List.mem_append_left _ hx))
    have h4 := h2 (hs x (by simp))
    omega

theorem ShardReplays.even {home : K → Nat} {h : List (Nat × Unsync.Call K V)} (hr : ShardReplays c target home h m)
    (hd : ∀ x ∈ h, x.2.op ≠ .drain) :
    bal m y + (h.flatMap (fun x => goes x.2)).count y ≤ (h.flatMap (fun x => comes x.2)).count y ∧
      ((∀ x ∈ h, Op.silent x.2.op = false) →
        bal m y + (h.flatMap (fun x => goes x.2)).count y = (h.flatMap (fun x => comes x.2)).count y) := by
  induction hr with
  | start => simp [bal_none]
  | @call h m m' i x hr hi hx ih =>
    have ih := ih (fun x hx => hd x (List.mem_append_left _ hx))
    have hd := hd (i, x) (by simp)
    have h0 : bal (onHome home i x.op m m') y + (goes x).count y ≤ bal m y + (comes x).count y ∧
        (Op.silent x.op = false → bal (onHome home i x.op m m') y + (goes x).count y = bal m y + (comes x).count y) := by
      have h1 := hx.even (y := y)
      cases hk : x.op.key with
      | some k => simp only [onHome, hk]; exact h1
      | none =>
        simp only [onHome, hk]
        by_cases hh : home y.1 = i
        · have : bal (fun k => if home k = i then m' k else m k) y = bal m' y := by simp [bal, hh]
          rw [this]
          exact h1
        · have h3 : bal (fun k => if home k = i then m' k else m k) y = bal m y := by simp [bal, hh]
          rw [h3]
          -- no other call without a key gives anything back
          obtain ⟨op, out, log⟩ := x
          simp only at *
          cases op with
          | retain f => obtain ⟨rfl, rfl, rfl⟩ := hx; exact ⟨Nat.le_refl _, fun _ => rfl⟩
          | clear => obtain ⟨rfl, rfl, rfl⟩ := hx; exact ⟨Nat.le_refl _, fun _ => rfl⟩
          | reserve => obtain ⟨rfl, rfl, rfl⟩ := hx; exact ⟨Nat.le_refl _, fun _ => rfl⟩
          | drain => exact absurd rfl hd
          | _ => cases hk
    simp only [List.flatMap_append, List.flatMap_cons, List.flatMap_nil, List.append_nil, List.count_append]
    refine ⟨by omega, fun hs => ?_⟩
    have h3 := ih.2 (fun x hx => hs x (List.mem_append_left _ hx))
    have h4 := h0.2 (hs (i, x) (by simp))
    omega

/-- A list of the items, counted. -/
theorem Lists.count {l : List (K × V)} (h : Lists l m) : l.count y = bal m y := by
  rw [List.Nodup.count (nodup_of_map' h.1)]
  unfold bal
  simp only [h.2 y.1 y.2]

/-! ### A lifecycle that changes no values -/

section
variable (hk : ∀ st k v, (c.beforeEvict st k v).2 = v)
include hk
omit [DecidableEq V]

theorem Evicts.asIs {st st' : RS} {log : List (Event K V)} (h : Evicts c m st log m' st') :
    ∀ k v v', Event.beforeEvict k v v' ∈ log → v' = v := by
  induction h with
  | nil => intro k v v' h; cases h
  | @spare m m' st st1 st' x w w' log here heavy free before light rest ih =>
    intro k v v' h
    rcases List.mem_cons.mp h with h | h
    · cases h
      have := hk st x w
      rw [before] at this
      exact this
    · exact ih k v v' h
  | @evict m m' st st1 st' x w w' log here heavy free before still rest ih =>
    intro k v v' h
    rcases List.mem_cons.mp h with h | h
    · cases h
      have := hk st x w
      rw [before] at this
      exact this
    · rcases List.mem_cons.mp h with h | h
      · cases h
      · exact ih k v v' h

omit [DecidableEq K] in
theorem Enter.asIs {k0 : K} {v0 v1 : V} {st : RS} {pre : List (Event K V)} (h : Enter c target k0 v0 st pre v1) :
    ∀ k v v', Event.beforeEvict k v v' ∈ pre → v' = v := by
  cases h with
  | direct => intro k v v' h; cases h
  | rewritten heavy free before =>
    intro k v v' h
    simp only [List.mem_singleton] at h
    cases h
    have := hk c.beginReq k0 v0
    rw [before] at this
    exact this

theorem Store.asIs {k0 : K} {v0 : V} {log : List (Event K V)} (h : Store c target m k0 v0 log m') :
    ∀ k v v', Event.beforeEvict k v v' ∈ log → v' = v := by
  intro k v v' hm
  cases h with
  | rejected enter asked heavy =>
    simp only [List.mem_append, List.mem_map, List.mem_singleton, reduceCtorEq, and_false, exists_false, or_false] at hm
    exact enter.asIs hk k v v' hm
  | overwritten enter fits here after =>
    simp only [List.mem_append, List.mem_cons, reduceCtorEq, false_or] at hm
    rcases hm with h | h
    · exact enter.asIs hk k v v' h
    · exact after.asIs hk k v v' h
  | added enter fits absent first after either =>
    simp only [List.mem_append] at hm
    rcases hm with (h | h) | h
    · exact enter.asIs hk k v v' h
    · exact first.asIs hk k v v' h
    · exact after.asIs hk k v v' h

theorem Replays.asIs {h : List (Unsync.Call K V)} {m0 : K → Option V} (hr : Replays c target m0 h m)
    (ho : ∀ x ∈ h, (∃ k v, x.op = .insert k v) ∨ ∃ k, x.op = .get k) :
    ∀ x ∈ h, ∀ k v v', Event.beforeEvict k v v' ∈ x.log → v' = v := by
  induction hr with
  | start => intro x hx; cases hx
  | @call h m m' x hr hx ih =>
    intro y hy
    rcases List.mem_append.mp hy with hy | hy
    · exact ih (fun x hx => ho x (List.mem_append_left _ hx)) y hy
    · simp only [List.mem_singleton] at hy
      subst hy
      have := ho y (by simp)
      obtain ⟨op, out, log⟩ := y
      rcases this with ⟨k, v, h⟩ | ⟨k, h⟩ <;> cases h
      · exact hx.2.asIs hk
      · obtain ⟨-, rfl, -⟩ := hx
        intro k v v' h; cases h

theorem ShardReplays.asIs {home : K → Nat} {h : List (Nat × Unsync.Call K V)} (hr : ShardReplays c target home h m)
    (ho : ∀ x ∈ h, (∃ k v, x.2.op = .insert k v) ∨ ∃ k, x.2.op = .get k) :
    ∀ x ∈ h, ∀ k v v', Event.beforeEvict k v v' ∈ x.2.log → v' = v := by
  induction hr with
  | start => intro x hx; cases hx
  | @call h m m' i x hr hi hx ih =>
    intro y hy
    rcases List.mem_append.mp hy with hy | hy
    · exact ih (fun x hx => ho x (List.mem_append_left _ hx)) y hy
    · simp only [List.mem_singleton] at hy
      subst hy
      have := ho (i, x) (by simp)
      obtain ⟨op, out, log⟩ := x
      rcases this with ⟨k, v, h⟩ | ⟨k, h⟩ <;> cases h
      · exact hx.2.asIs hk
      · obtain ⟨-, rfl, -⟩ := hx
        intro k v v' h; cases h

end

/-! ### Only insertions -/

omit [DecidableEq K] in
/-- What `before_evict` leaves alone enters and leaves. -/
theorem count_log {log : List (Event K V)} (hb : ∀ k v v', Event.beforeEvict k v v' ∈ log → v' = v) [DecidableEq K] :
    (log.flatMap evOut).count y = (log.flatMap evIn).count y + (evicted log).count y := by
  induction log with
  | nil => rfl
  | cons e log ih =>
    have ih := ih (fun k v v' h => hb k v v' (List.mem_cons_of_mem _ h))
    unfold evicted at *
    cases e with
    | beforeEvict k v v' =>
      have e1 := hb k v v' (by simp)
      subst e1
      simp only [List.flatMap_cons, evIn, evOut, List.count_append, List.count_nil]
      omega
    | onEvict k v =>
      simp only [List.flatMap_cons, evIn, evOut, List.count_append, List.count_nil]
      omega

theorem OpSpec.inserted {x : Unsync.Call K V} (h : OpSpec c target m x.op x.out x.log m')
    (ho : (∃ k v, x.op = .insert k v) ∨ ∃ k, x.op = .get k)
    (hb : ∀ k v v', Event.beforeEvict k v v' ∈ x.log → v' = v) :
    (goes x).count y + (inserted x.op).toList.count y = (comes x).count y + (evicted x.log).count y := by
  obtain ⟨op, out, log⟩ := x
  simp only at *
  have h1 := count_log (y := y) hb
  unfold goes comes
  rw [List.count_append, List.count_append]
  rcases ho with ⟨k, v, rfl⟩ | ⟨k, rfl⟩
  · obtain ⟨rfl, -⟩ := h
    simp only [leaves, enters, Spec.inserted, Option.toList_some, List.count_nil]
    omega
  · obtain ⟨rfl, rfl, -⟩ := h
    rfl

theorem count_inserted {h : List (Unsync.Call K V)} {m0 : K → Option V} (hr : Replays c target m0 h m)
    (ho : ∀ x ∈ h, (∃ k v, x.op = .insert k v) ∨ ∃ k, x.op = .get k)
    (hb : ∀ x ∈ h, ∀ k v v', Event.beforeEvict k v v' ∈ x.log → v' = v) :
    (h.flatMap goes).count y + (h.filterMap (fun x => inserted x.op)).count y =
      (h.flatMap comes).count y + (h.flatMap (fun x => evicted x.log)).count y := by
  induction hr with
  | start => rfl
  | @call h m m' x hr hx ih =>
    have ih := ih (fun x hx => ho x (List.mem_append_left _ hx)) (fun x hx => hb x (List.mem_append_left _ hx))
    have h1 := OpSpec.inserted (y := y) hx (ho x (by simp)) (hb x (by simp))
    have h2 : ([x].filterMap (fun x => inserted x.op)) = (inserted x.op).toList := by
      cases hi : inserted x.op <;> simp [hi]
    rw [List.filterMap_append, h2]
    simp only [List.flatMap_append, List.flatMap_cons, List.flatMap_nil, List.append_nil, List.count_append]
    omega

theorem count_shared_inserted {home : K → Nat} {h : List (Nat × Unsync.Call K V)} (hr : ShardReplays c target home h m)
    (ho : ∀ x ∈ h, (∃ k v, x.2.op = .insert k v) ∨ ∃ k, x.2.op = .get k)
    (hb : ∀ x ∈ h, ∀ k v v', Event.beforeEvict k v v' ∈ x.2.log → v' = v) :
    (h.flatMap (fun x => goes x.2)).count y + (h.filterMap (fun x => inserted x.2.op)).count y =
      (h.flatMap (fun x => comes x.2)).count y + (h.flatMap (fun x => evicted x.2.log)).count y := by
  induction hr with
  | start => rfl
  | @call h m m' i x hr hi hx ih =>
    have ih := ih (fun x hx => ho x (List.mem_append_left _ hx)) (fun x hx => hb x (List.mem_append_left _ hx))
    have h1 := OpSpec.inserted (y := y) hx (ho (i, x) (by simp)) (hb (i, x) (by simp))
    have h2 : ([(i, x)].filterMap (fun x => inserted x.2.op)) = (inserted x.op).toList := by
      cases hi : inserted x.op <;> simp [hi]
    rw [List.filterMap_append, h2]
    simp only [List.flatMap_append, List.flatMap_cons, List.flatMap_nil, List.append_nil, List.count_append]
    omega

end QuickCache.Spec
