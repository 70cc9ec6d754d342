import Verif.Spec.Flood
import Verif.Proofs.ClockFit

/-!
# A flood of new keys passes through the cold list of the abstract clock machine
-/

namespace QuickCache.Spec.Clock
variable {K V RS : Type} [DecidableEq K] {c : Cfg K V RS} {B : Nat} {U : List K}

/-- Hot items stay, and their counters do not fall. -/
def Above (m m' : Clock K V) : Prop :=
  ∀ k i, m.items k = some i → i.hot = true →
    ∃ j, m'.items k = some j ∧ j.value = i.value ∧ j.hot = true ∧ i.refs ≤ j.refs

omit [DecidableEq K] in
theorem Above.refl (m : Clock K V) : Above m m := fun _ i h1 h2 => ⟨i, h1, rfl, h2, Nat.le_refl _⟩

omit [DecidableEq K] in
theorem Above.trans {m m1 m' : Clock K V} (h1 : Above m m1) (h2 : Above m1 m') : Above m m' := by
  intro k i a1 a2
  obtain ⟨j, b1, b2, b3, b4⟩ := h1 k i a1 a2
  obtain ⟨l, d1, d2, d3, d4⟩ := h2 k j b1 b3
  exact ⟨l, d1, d2.trans b2, d3, Nat.le_trans b4 d4⟩

/-- The hot items weigh at most `B`, cold items are unreferenced, and only keys in `U` left traces. -/
structure Quiet (c : Cfg K V RS) (B : Nat) (U : List K) (m : Clock K V) : Prop where
  wf : WF c m
  bound : m.hotWeight c ≤ B
  cold : ∀ k i, m.items k = some i → i.hot = false → i.refs = 0
  items : ∀ k, m.items k ≠ none → k ∈ U
  pending : ∀ k, m.pending k ≠ none → k ∈ U
  ghosts : ∀ g ∈ m.ghosts, ∃ k ∈ U, g = c.hash k

/-- What making room does if it takes cold items only. -/
structure Skims (m : Clock K V) (log : List (Event K V)) (m' : Clock K V) : Prop where
  hotL : m'.hot = m.hot
  hot : ∀ k i, m.items k = some i → i.hot = true → m'.items k = some i
  absent : ∀ k, m.items k = none → m'.items k = none
  pending : m'.pending = m.pending
  target : m'.target = m.target
  cap : m'.cap = m.cap
  log : ∀ e ∈ log, ∃ i, m.items e.key = some i ∧ i.hot = false

omit [DecidableEq K] in
theorem Skims.refl (m : Clock K V) : Skims m [] m :=
  ⟨rfl, fun _ _ h _ => h, fun _ h => h, rfl, rfl, rfl, fun _ h => by cases h⟩

omit [DecidableEq K] in
theorem Skims.trans {m m1 m' : Clock K V} {L L1 : List (Event K V)} (h1 : Skims m L m1) (h2 : Skims m1 L1 m') :
    Skims m (L ++ L1) m' := by
  refine ⟨h2.hotL.trans h1.hotL, fun k i a b => h2.hot k i (h1.hot k i a b) b, fun k a => h2.absent k (h1.absent k a),
    h2.pending.trans h1.pending, h2.target.trans h1.target, h2.cap.trans h1.cap, fun e he => ?_⟩
  rcases List.mem_append.mp he with he | he
  · exact h1.log e he
  · obtain ⟨i, a1, a2⟩ := h2.log e he
    cases hm : m.items e.key with
    | none => rw [h1.absent _ hm] at a1; cases a1
    | some j =>
      cases hj : j.hot with
      | true => rw [h1.hot _ j hm hj] at a1; cases a1; rw [hj] at a2; cases a2
      | false => exact ⟨j, rfl, hj⟩

omit [DecidableEq K] in
theorem Skims.above {m m' : Clock K V} {L : List (Event K V)} (h : Skims m L m') : Above m m' :=
  fun k i a b => ⟨i, h.hot k i a b, rfl, b, Nat.le_refl _⟩

omit [DecidableEq K] in
/-- The weight of the hot list depends on the hot items only. -/
theorem hotWeight_same {m m' : Clock K V} (hw : WF c m) (h1 : m'.hot = m.hot)
    (h2 : ∀ k i, m.items k = some i → i.hot = true → m'.items k = some i) : m'.hotWeight c = m.hotWeight c := by
  unfold hotWeight
  rw [h1]
  congr 1
  refine List.map_congr_left (fun k hk => ?_)
  obtain ⟨i, a1, a2, -⟩ := (hw.hot k).mp hk
  simp [weigh, a1, h2 k i a1 a2]

omit [DecidableEq K] in
theorem passes_none {m : Clock K V} (hp : ∀ k v, c.pinned k v = false) (k : K) : m.passes c k = false := by
  unfold passes
  split <;> simp [hp]

omit [DecidableEq K] in
theorem dropWhile_passes {m : Clock K V} (hp : ∀ k v, c.pinned k v = false) (l : List K) :
    l.dropWhile (m.passes c) = l ∧ l.takeWhile (m.passes c) = [] := by
  cases l with
  | nil => exact ⟨rfl, rfl⟩
  | cons k l => simp [passes_none hp]

theorem TurnCold.quiet {m m' : Clock K V} {st st' : RS} {log : List (Event K V)} {b : Bool}
    (h : TurnCold c m st log m' st' b) (q : Quiet c B U m) (hp : ∀ k v, c.pinned k v = false) (hc : m.cold ≠ []) :
    Quiet c B U m' ∧ Skims m log m' := by
  obtain ⟨-, htk⟩ := dropWhile_passes (m := m) hp m.cold
  have hinfo : ∀ {k : K} {l : List K} {i : Item V}, m.cold.dropWhile (m.passes c) = k :: l → m.items k = some i →
      i.hot = false := by
    intro k l i at_ here
    have hk : k ∈ m.cold := by rw [split_drop at_]; simp
    obtain ⟨j, h3, h4, h5⟩ := (q.wf.cold k).mp hk
    rw [here] at h3; cases h3; exact h4
  have hw := TurnCold.thin (T := 0) (E := []) h q.wf (Nat.zero_le _)
  cases h with
  | hot none turn =>
    rw [(dropWhile_passes hp _).1] at none
    exact absurd none hc
  | promote at_ here referenced shrink => exact absurd (q.cold _ _ here (hinfo at_ here)) referenced
  | @spare k l i st1 v at_ here unref before light =>
    have hi := hinfo at_ here
    have hot : ∀ x j, m.items x = some j → j.hot = true → put m.items k { i with value := v } x = some j := by
      intro x j a b
      by_cases hx : x = k
      · subst hx; rw [here] at a; cases a; rw [hi] at b; cases b
      · rw [put_other _ _ hx]; exact a
    have hwf := q.wf
    have hs := split_drop at_
    obtain ⟨c1, c2, c3⟩ := rest_cold hs q.wf.coldN
    refine ⟨⟨?_, ?_, fun x j a b => ?_, fun x hx => ?_, q.pending, q.ghosts⟩,
      ⟨rfl, hot, fun x a => ?_, rfl, rfl, rfl, fun e he => ?_⟩⟩
    · refine q.wf.upd k (fun x hx => put_other _ _ hx) q.wf.hotN c1 (fun x _ => .rfl) c3 ?_ ?_
      · show k ∈ m.hot ↔ _
        rw [q.wf.hot k]
        simp [setItem, light, here, hi]
      · simp [setItem, c2, light]
    · rw [hotWeight_same (m' := { m.setItem k { i with value := v } with cold := l ++ m.cold.takeWhile (m.passes c) }) q.wf rfl hot]
      exact q.bound
    · by_cases hx : x = k
      · subst hx; simp [setItem] at a; subst a; exact unref
      · exact q.cold x j (by simpa [setItem, put_other _ _ hx] using a) b
    · by_cases hk : x = k
      · subst hk; exact q.items _ (by rw [here]; simp)
      · exact q.items x (by simpa [setItem, put_other _ _ hk] using hx)
    · by_cases hx : x = k
      · subst hx; rw [here] at a; cases a
      · simpa [setItem, put_other _ _ hx] using a
    · simp at he; subst he; exact ⟨i, here, hi⟩
  | @evict k l i st1 v at_ here unref before still =>
    have hi := hinfo at_ here
    have hot : ∀ x j, m.items x = some j → j.hot = true → del m.items k x = some j := by
      intro x j a b
      by_cases hx : x = k
      · subst hx; rw [here] at a; cases a; rw [hi] at b; cases b
      · rw [del_other _ hx]; exact a
    have hs := split_drop at_
    obtain ⟨c1, c2, c3⟩ := rest_cold hs q.wf.coldN
    have hdel : ∀ x, del m.items k x ≠ none → x ≠ k ∧ m.items x ≠ none := by
      intro x hx
      by_cases hk : x = k
      · subst hk; simp at hx
      · rw [del_other _ hk] at hx; exact ⟨hk, hx⟩
    refine ⟨⟨?_, ?_, fun x j a b => ?_, fun x hx => q.items x (hdel x hx).2, q.pending, ?_⟩,
      ⟨rfl, hot, fun x a => ?_, rfl, rfl, rfl, fun e he => ?_⟩⟩
    · refine q.wf.upd k (fun x hx => del_other _ hx) q.wf.hotN c1 (fun x _ => .rfl) c3 ?_ ?_
      · show k ∈ m.hot ↔ _
        rw [q.wf.hot k]
        simp [haunt, dropItem, here, hi]
      · simp [haunt, dropItem]
        exact ⟨fun h => c2 (List.mem_append_left _ h), fun h => c2 (List.mem_append_right _ h)⟩
    · rw [hotWeight_same (m := m) (m' := ({ m.dropItem k with cold := l ++ m.cold.takeWhile (m.passes c) } : Clock K V).haunt (c.hash k))
        q.wf rfl hot]
      exact q.bound
    · have a' : del m.items k x = some j := a
      have hx := hdel x (by rw [a']; simp)
      rw [del_other _ hx.1] at a'
      exact q.cold x j a' b
    · intro g hg
      have : g ∈ m.ghosts ++ [c.hash k] := by
        have h : g ∈ if m.ghostCap < m.ghosts.length + 1 then (m.ghosts ++ [c.hash k]).tail else m.ghosts ++ [c.hash k] := hg
        by_cases h0 : m.ghostCap < m.ghosts.length + 1
        · rw [if_pos h0] at h; exact List.mem_of_mem_tail h
        · rw [if_neg h0] at h; exact h
      rcases List.mem_append.mp this with h | h
      · exact q.ghosts g h
      · simp at h; exact ⟨k, q.items k (by rw [here]; simp), h⟩
    · show del m.items k x = none
      unfold del; split <;> simp [a]
    · simp at he
      rcases he with rfl | rfl <;> exact ⟨i, here, hi⟩

theorem Fit.quiet {m m' : Clock K V} {st st' : RS} {log : List (Event K V)} {extra : Nat}
    (h : Fit c extra m st log m' st') (q : Quiet c B U m) (hp : ∀ k v, c.pinned k v = false) (hb : B + extra ≤ m.cap) :
    Quiet c B U m' ∧ Skims m log m' := by
  have hcold : ∀ {m : Clock K V}, Quiet c B U m → B + extra ≤ m.cap → m.cap < m.hotWeight c + m.coldWeight c + extra →
      m.cold ≠ [] := by
    intro m q hb over h0
    have := q.bound
    simp [coldWeight, h0] at over
    omega
  induction h with
  | done fits => exact ⟨q, .refl _⟩
  | stop over turn => exact turn.quiet q hp (hcold q hb over)
  | more over turn rest ih =>
    obtain ⟨q1, s1⟩ := turn.quiet q hp (hcold q hb over)
    obtain ⟨q2, s2⟩ := ih q1 (by rw [s1.cap]; exact hb)
    exact ⟨q2, s1.trans s2⟩

/-! ### Adding an item -/

/-- A new item enters a list. -/
theorem Quiet.add {m : Clock K V} (q : Quiet c B U m) {k : K} (hk : k ∉ U) (i : Item V) (hr : i.refs = 0)
    (hb : i.hot = true → m.hotWeight c + c.weight k i.value ≤ B) :
    Quiet c B (k :: U) ((m.setItem k i).enlist i.hot k (c.weight k i.value)) ∧
      Above m ((m.setItem k i).enlist i.hot k (c.weight k i.value)) := by
  have hn : m.items k = none := Classical.byContradiction fun h => hk (q.items k h)
  have hwf := q.wf.enlist (k := k) (fun j hj => by rw [hn] at hj; cases hj) i
  have hit : ((m.setItem k i).enlist i.hot k (c.weight k i.value)).items = put m.items k i := items_enlist ..
  have hoff := q.wf.off (k := k) (fun j hj => by rw [hn] at hj; cases hj)
  have hsame := enlist_same (m.setItem k i) i.hot k (c.weight k i.value)
  have hkeep : ∀ x ∈ m.hot, weigh c ((m.setItem k i).enlist i.hot k (c.weight k i.value)) x = weigh c m x := by
    intro x hx
    have hne : x ≠ k := fun h => hoff.1 (h ▸ hx)
    unfold weigh; rw [hit, put_other _ _ hne]
  have hwk : weigh c ((m.setItem k i).enlist i.hot k (c.weight k i.value)) k = c.weight k i.value := by
    unfold weigh; rw [hit, put_same]
  refine ⟨⟨hwf, ?_, fun x j a b => ?_, fun x hx => ?_, fun x hx => ?_, fun g hg => ?_⟩, fun x j a b => ?_⟩
  · by_cases hh : i.hot = true ∧ c.weight k i.value ≠ 0
    · have hl : ((m.setItem k i).enlist i.hot k (c.weight k i.value)).hot = m.hot ++ [k] := by
        unfold Clock.enlist; rw [if_neg hh.2, hh.1]; rfl
      unfold hotWeight
      rw [hl, List.map_append, List.sum_append, List.map_congr_left hkeep]
      simp only [List.map_cons, List.map_nil, List.sum_cons, List.sum_nil, hwk]
      exact hb hh.1
    · have hl : ((m.setItem k i).enlist i.hot k (c.weight k i.value)).hot = m.hot := by
        unfold Clock.enlist
        split
        · rfl
        · rename_i h0
          have : i.hot = false := by
            cases h : i.hot with
            | false => rfl
            | true => exact absurd ⟨h, h0⟩ hh
          rw [this]; rfl
      unfold hotWeight
      rw [hl, List.map_congr_left hkeep]
      exact q.bound
  · rw [hit] at a
    by_cases hx : x = k
    · subst hx; simp at a; subst a; exact hr
    · rw [put_other _ _ hx] at a; exact q.cold x j a b
  · rw [hit] at hx
    by_cases hk : x = k
    · subst hk; simp
    · rw [put_other _ _ hk] at hx; exact List.mem_cons_of_mem _ (q.items x hx)
  · rw [hsame.2.1] at hx; exact List.mem_cons_of_mem _ (q.pending x hx)
  · rw [hsame.2.2] at hg
    obtain ⟨u, h1, h2⟩ := q.ghosts g hg
    exact ⟨u, List.mem_cons_of_mem _ h1, h2⟩
  · rw [hit]
    have hne : x ≠ k := by rintro rfl; rw [hn] at a; cases a
    exact ⟨j, by rw [put_other _ _ hne]; exact a, rfl, b, Nat.le_refl _⟩

omit [DecidableEq K] in
theorem Quiet.mono {m : Clock K V} (q : Quiet c B U m) (k : K) : Quiet c B (k :: U) m :=
  ⟨q.wf, q.bound, q.cold, fun x h => List.mem_cons_of_mem _ (q.items x h), fun x h => List.mem_cons_of_mem _ (q.pending x h),
    fun g hg => by obtain ⟨u, h1, h2⟩ := q.ghosts g hg; exact ⟨u, List.mem_cons_of_mem _ h1, h2⟩⟩

omit [DecidableEq K] in
/-- A key not used before left no traces. -/
theorem Quiet.new {m : Clock K V} (q : Quiet c B U m) {k : K} (hk : k ∉ U) (hh : ∀ u ∈ U, c.hash k ≠ c.hash u) :
    m.items k = none ∧ m.pending k = none ∧ c.hash k ∉ m.ghosts :=
  ⟨Classical.byContradiction fun h => hk (q.items k h), Classical.byContradiction fun h => hk (q.pending k h),
    fun h => by obtain ⟨u, h1, h2⟩ := q.ghosts _ h; exact hh u h1 h2⟩

omit [DecidableEq K] in
theorem weight_enter {target : Nat} {k : K} {v v1 : V} {st : RS} {pre : List (Event K V)} (h : Enter c target k v st pre v1) :
    c.weight k v1 = enterWeight c target k v := by
  rw [h.is.1]; unfold enterWeight enterValue; split <;> rfl

/-- The lifecycle calls are about no hot item. -/
def Apart (m : Clock K V) (log : List (Event K V)) : Prop := ∀ e ∈ log, ∀ i, m.items e.key = some i → i.hot = false

omit [DecidableEq K] in
theorem apart_enter {m : Clock K V} {target : Nat} {k : K} {v v1 : V} {st : RS} {pre : List (Event K V)}
    (h : Enter c target k v st pre v1) (hn : m.items k = none) : Apart m pre := by
  intro e he i hi
  cases h with
  | direct => cases he
  | rewritten => simp at he; subst he; rw [show (Event.beforeEvict k v v1 : Event K V).key = k from rfl, hn] at hi; cases hi

omit [DecidableEq K] in
theorem Apart.append {m : Clock K V} {L L' : List (Event K V)} (h : Apart m L) (h' : Apart m L') : Apart m (L ++ L') := by
  intro e he
  rcases List.mem_append.mp he with he | he
  · exact h e he
  · exact h' e he

omit [DecidableEq K] in
theorem Skims.apart {m m' : Clock K V} {L : List (Event K V)} (h : Skims m L m') : Apart m L := by
  intro e he i hi
  obtain ⟨j, h1, h2⟩ := h.log e he
  rw [hi] at h1; cases h1; exact h2

omit [DecidableEq K] in
theorem apart_onEvict {m : Clock K V} {k : K} (v : V) (hn : m.items k = none) : Apart m [.onEvict k v] := by
  intro e he i hi
  simp at he; subst he; rw [show (Event.onEvict k v : Event K V).key = k from rfl, hn] at hi; cases hi

/-- What a call of a flood does. -/
structure Passes (c : Cfg K V RS) (B : Nat) (U : List K) (m : Clock K V) (log : List (Event K V)) (m' : Clock K V) : Prop where
  quiet : Quiet c B U m'
  above : Above m m'
  apart : Apart m log
  target : m'.target = m.target
  cap : m'.cap = m.cap

theorem Insert.passes {m m' : Clock K V} {k : K} {v : V} {log : List (Event K V)} (h : Insert c m k v log m')
    (q : Quiet c B U m) (hp : ∀ k v, c.pinned k v = false) (ht : m.target ≤ B)
    (hb : B + enterWeight c m.target k v ≤ m.cap) (hk : k ∉ U) (hh : ∀ u ∈ U, c.hash k ≠ c.hash u) :
    Passes c B (k :: U) m log m' := by
  obtain ⟨n1, n2, n3⟩ := q.new hk hh
  cases h with
  | @rejected st v1 pre enter asked heavy =>
    have hoff := q.wf.off (k := k) (fun j hj => by rw [n1] at hj; cases hj)
    have e : (m.dropItem k).delist k = m := by
      have h1 : m.hot.filter (· ≠ k) = m.hot := List.filter_eq_self.mpr (fun x hx => by
        simp only [decide_eq_true_eq]; rintro rfl; exact hoff.1 hx)
      have h2 : m.cold.filter (· ≠ k) = m.cold := List.filter_eq_self.mpr (fun x hx => by
        simp only [decide_eq_true_eq]; rintro rfl; exact hoff.2 hx)
      unfold delist dropItem
      rw [del_self _ n1]
      show { m with hot := m.hot.filter (· ≠ k), cold := m.cold.filter (· ≠ k) } = m
      rw [h1, h2]
    rw [e, n1]
    exact ⟨q.mono k, .refl m, ((apart_enter enter n1).append (fun e he => by cases he)).append (apart_onEvict v1 n1), rfl, rfl⟩
  | @stored st st' v1 pre log m' enter fits place =>
    have hwe := weight_enter enter
    cases place with
    | overwrite here => rw [n1] at here; cases here
    | loading absent pending => rw [n2] at pending; cases pending
    | ghost absent idle back => obtain ⟨A, C, h, -⟩ := back; exact absurd (by rw [h]; simp) n3
    | fresh absent idle new fit =>
      rename_i m1
      obtain ⟨q1, s1⟩ := fit.quiet q hp (by rw [hwe]; exact hb)
      have hhw := hotWeight_same q.wf s1.hotL s1.hot
      obtain ⟨q2, a2⟩ := q1.add hk ⟨v1, decide (m.hotWeight c + c.weight k v1 ≤ m.target), 0⟩ rfl (by
        intro h
        have := of_decide_eq_true h
        rw [hhw]; exact Nat.le_trans this ht)
      exact ⟨q2, s1.above.trans a2, (apart_enter enter n1).append s1.apart, (sizes_enlist ..).1.trans s1.target,
        (sizes_enlist ..).2.trans s1.cap⟩

theorem Load.passes {m m1 m' : Clock K V} {k : K} {v : V} {log : List (Event K V)} (hl : Lookup c m k none m1)
    (h : Fill c m1 k v false log m') (q : Quiet c B U m) (hp : ∀ k v, c.pinned k v = false) (hb : B = m.cap)
    (hk : k ∉ U) (hh : ∀ u ∈ U, c.hash k ≠ c.hash u) : Passes c B (k :: U) m log m' := by
  obtain ⟨n1, n2, n3⟩ := q.new hk hh
  have hdel : del (put m.pending k false) k = m.pending := by
    rw [del_put, del_self _ n2]
  have back : ({ m with pending := del (put m.pending k false) k } : Clock K V) = m := by rw [hdel]
  cases hl with
  | loading absent pending => rw [n2] at pending; cases pending
  | ghost absent idle back => obtain ⟨A, C, h, -⟩ := back; exact absurd (by rw [h]; simp) n3
  | fresh absent idle new =>
    cases h with
    | @rejected st v1 pre enter asked heavy =>
      show Passes c B (k :: U) m _ { m with pending := del (put m.pending k false) k }
      rw [back]
      exact ⟨q.mono k, .refl m, (apart_enter enter n1).append (apart_onEvict v1 n1), rfl, rfl⟩
    | @weightless st v1 pre b enter fits pending light =>
      show Passes c B (k :: U) m _ { (m.setItem k ⟨v1, _, 0⟩) with pending := del (put m.pending k false) k }
      rw [hdel]
      generalize (decide (({ m with pending := put m.pending k false } : Clock K V).hotWeight c +
        ({ m with pending := put m.pending k false } : Clock K V).coldWeight c ≤ m.cap) || b) = hot
      obtain ⟨q2, a2⟩ := q.add hk ⟨v1, hot, 0⟩ rfl (by intro _; rw [light]; exact q.bound)
      rw [light] at q2 a2
      exact ⟨q2, a2, apart_enter enter n1, rfl, rfl⟩
    | @stored st st' v1 pre log b hot m' enter fits pending heavy level fit =>
      have hb' : b = false := by
        have : put m.pending k false k = some b := pending
        simp at this; exact this
      subst hb'
      have e : ({ (({ m with pending := put m.pending k false } : Clock K V).setItem k ⟨v1, hot, 0⟩) with
          pending := del (put m.pending k false) k } : Clock K V) = m.setItem k ⟨v1, hot, 0⟩ := by
        unfold setItem; simp only; rw [hdel]
      have fit' : Fit c 0 ((m.setItem k ⟨v1, hot, 0⟩).enlist hot k (c.weight k v1)) st log m' st' := by
        unfold Clock.enlist
        rw [if_neg heavy, ← e]
        exact fit
      have hlev : hot = true → m.hotWeight c + c.weight k v1 ≤ B := by
        intro hh
        rw [hh, Bool.or_false] at level
        have : m.hotWeight c + m.coldWeight c + c.weight k v1 ≤ m.cap := of_decide_eq_true level.symm
        omega
      obtain ⟨q2, a2⟩ := q.add hk ⟨v1, hot, 0⟩ rfl hlev
      have hz := sizes_enlist (m.setItem k ⟨v1, hot, 0⟩) hot k (c.weight k v1)
      obtain ⟨q3, s3⟩ := fit'.quiet q2 hp (by rw [hz.2]; exact Nat.le_of_eq hb)
      refine ⟨q3, a2.trans s3.above, (apart_enter enter n1).append (fun e he i hi => ?_), s3.target.trans hz.1, s3.cap.trans hz.2⟩
      cases hh : i.hot with
      | false => rfl
      | true =>
        obtain ⟨j, b1, -, b3, -⟩ := a2 _ i hi hh
        rw [s3.apart e he j b1] at b3; cases b3

/-- Looking up a hot item. -/
theorem Quiet.warm {m : Clock K V} (q : Quiet c B U m) {k : K} {i : Item V} (hk : m.items k = some i) (hh : i.hot = true) :
    Passes c B U m [] (m.setItem k i.warm) := by
  have ht : Above m (m.setItem k i.warm) := by
    intro x j a b
    by_cases hx : x = k
    · subst hx
      rw [hk] at a; cases a
      refine ⟨i.warm, by simp [setItem], rfl, hh, ?_⟩
      show i.refs ≤ if i.refs < 2 then i.refs + 1 else i.refs
      split <;> omega
    · exact ⟨j, by simpa [setItem, put_other _ _ hx] using a, rfl, b, Nat.le_refl _⟩
  refine ⟨⟨?_, ?_, fun x j a b => ?_, fun x hx => ?_, q.pending, q.ghosts⟩, ht, fun e he => (by cases he), rfl, rfl⟩
  · refine q.wf.upd k (fun x hx => put_other _ _ hx) q.wf.hotN q.wf.coldN (fun x _ => .rfl) (fun x _ => .rfl) ?_ ?_
    · show k ∈ m.hot ↔ _
      rw [q.wf.hot, hk]; simp [setItem, Item.warm]
    · show k ∈ m.cold ↔ _
      rw [q.wf.cold, hk]; simp [setItem, Item.warm]
  · have : (m.setItem k i.warm).hotWeight c = m.hotWeight c := by
      unfold hotWeight
      congr 1
      refine List.map_congr_left (fun x _ => ?_)
      by_cases hx : x = k
      · subst hx; simp [weigh, setItem, hk, Item.warm]
      · simp [weigh, setItem, put_other _ _ hx]
    rw [this]; exact q.bound
  · by_cases hx : x = k
    · subst hx
      simp [setItem] at a; subst a
      rw [show i.warm.hot = i.hot from rfl, hh] at b; cases b
    · exact q.cold x j (by simpa [setItem, put_other _ _ hx] using a) b
  · by_cases hx' : x = k
    · subst hx'; exact q.items x (by rw [hk]; simp)
    · exact q.items x (by simpa [setItem, put_other _ _ hx'] using hx)

omit [DecidableEq K] in
theorem Quiet.same {m : Clock K V} (q : Quiet c B U m) : Passes c B U m [] m :=
  ⟨q, .refl m, fun e he => (by cases he), rfl, rfl⟩

/-! ### Histories -/

theorem Run.stay {m0 m : Clock K V} (hr : Run c m0 [] m) : m = m0 := by
  generalize hl : ([] : List (Unsync.Call K V)) = l at hr
  cases hr with
  | start => rfl
  | call => simp at hl

/-- The first call of a history. -/
theorem Run.uncons {m0 m : Clock K V} {x : Unsync.Call K V} {h : List (Unsync.Call K V)} (hr : Run c m0 (x :: h) m) :
    ∃ m1, Step c m0 x.op x.out x.log m1 ∧ Run c m1 h m := by
  generalize hl : x :: h = l at hr
  induction hr generalizing h with
  | start => cases hl
  | @call h' m1 m2 y hr hx ih =>
    cases h' with
    | nil =>
      simp at hl
      obtain ⟨rfl, rfl⟩ := hl
      rw [hr.stay] at hx
      exact ⟨_, hx, .start⟩
    | cons z h' =>
      rw [List.cons_append, List.cons.injEq] at hl
      obtain ⟨rfl, rfl⟩ := hl
      obtain ⟨m3, h1, h2⟩ := ih rfl
      exact ⟨m3, h1, .call h2 hx⟩

theorem Run.flood {target cap : Nat} {hot : K → Prop} {ops : List (Op K V)} {D : List K}
    (hd : ∀ a ∈ D, ∀ b ∈ D, c.hash a = c.hash b → a = b) (hp : ∀ k v, c.pinned k v = false) (htb : target ≤ B)
    (hf : Flood c target cap B hot U ops) :
    ∀ {m m' : Clock K V} {h : List (Unsync.Call K V)}, Run c m h m' → h.map (·.op) = ops → Quiet c B U m →
      m.target = target → m.cap = cap → (∀ k ∈ U, k ∈ D) → (∀ k ∈ keysOf h, k ∈ D) →
      (∀ k, hot k → ∃ i, m.items k = some i ∧ i.hot = true) →
      Above m m' ∧ ∀ x ∈ h, Apart m x.log := by
  have step : ∀ {U' : List K} {ops : List (Op K V)} {m m1 m' : Clock K V} {x : Unsync.Call K V} {h : List (Unsync.Call K V)},
      (∀ {m m' : Clock K V} {h : List (Unsync.Call K V)}, Run c m h m' → h.map (·.op) = ops → Quiet c B U' m →
        m.target = target → m.cap = cap → (∀ k ∈ U', k ∈ D) → (∀ k ∈ keysOf h, k ∈ D) →
        (∀ k, hot k → ∃ i, m.items k = some i ∧ i.hot = true) → Above m m' ∧ ∀ x ∈ h, Apart m x.log) →
      Passes c B U' m x.log m1 → Run c m1 h m' → h.map (·.op) = ops → m.target = target → m.cap = cap →
      (∀ k ∈ U', k ∈ D) → (∀ k ∈ keysOf h, k ∈ D) → (∀ k, hot k → ∃ i, m.items k = some i ∧ i.hot = true) →
      Above m m' ∧ ∀ y ∈ x :: h, Apart m y.log := by
    intro U' ops m m1 m' x h ih p hr ho h1 h2 h3 h4 h5
    obtain ⟨a1, a2⟩ := ih hr ho p.quiet (p.target.trans h1) (p.cap.trans h2) h3 h4 (fun k hk => by
      obtain ⟨i, b1, b2⟩ := h5 k hk
      obtain ⟨j, d1, -, d3, -⟩ := p.above k i b1 b2
      exact ⟨j, d1, d3⟩)
    refine ⟨p.above.trans a1, fun y hy => ?_⟩
    rcases List.mem_cons.mp hy with rfl | hy
    · exact p.apart
    · intro e he i hi
      cases hh : i.hot with
      | false => rfl
      | true =>
        obtain ⟨j, d1, -, d3, -⟩ := p.above _ i hi hh
        rw [a2 y hy e he j d1] at d3; cases d3
  have keys : ∀ {x : Unsync.Call K V} {h : List (Unsync.Call K V)}, (∀ k ∈ keysOf (x :: h), k ∈ D) → ∀ k ∈ keysOf h, k ∈ D := by
    intro x h hk k hm
    refine hk k ?_
    unfold keysOf at hm ⊢
    rw [List.filterMap_cons]
    split
    · exact hm
    · exact List.mem_cons_of_mem _ hm
  have first : ∀ {x : Unsync.Call K V} {h : List (Unsync.Call K V)} {k : K}, (∀ k ∈ keysOf (x :: h), k ∈ D) →
      x.op.key? = some k → k ∈ D := by
    intro x h k hk hx
    refine hk k ?_
    unfold keysOf
    rw [List.filterMap_cons, hx]
    exact List.mem_cons_self
  have fresh : ∀ {U : List K} {k : K}, k ∈ D → (∀ u ∈ U, u ∈ D) → k ∉ U → ∀ u ∈ U, c.hash k ≠ c.hash u := by
    intro U k h1 h2 h3 u hu he
    exact h3 (by rw [hd k h1 u (h2 u hu) he]; exact hu)
  have grow : ∀ {U : List K} {k : K}, k ∈ D → (∀ u ∈ U, u ∈ D) → ∀ u ∈ k :: U, u ∈ D := by
    intro U k h1 h2 u hu
    rcases List.mem_cons.mp hu with rfl | hu
    · exact h1
    · exact h2 u hu
  induction hf with
  | done =>
    intro m m' h hr ho q h1 h2 h3 h4 h5
    cases h with
    | cons x h => cases ho
    | nil =>
      obtain rfl := hr.stay
      exact ⟨.refl _, fun x hx => by cases hx⟩
  | insert new light rest ih =>
    intro m m' h hr ho q h1 h2 h3 h4 h5
    cases h with
    | nil => cases ho
    | cons x h =>
      rw [List.map_cons, List.cons.injEq] at ho
      obtain ⟨m1, hs, hr'⟩ := hr.uncons
      have hk := first h4 (by rw [ho.1]; rfl)
      refine step ih (m1 := m1) ?_ hr' ho.2 h1 h2 (grow hk h3) (keys h4) h5
      rw [ho.1] at hs
      generalize x.out = out at hs
      cases hs with
      | insert hi => exact hi.passes q hp (by rw [h1]; exact htb) (by rw [h1, h2]; exact light) new (fresh hk h3 new)
  | load new whole rest ih =>
    intro m m' h hr ho q h1 h2 h3 h4 h5
    cases h with
    | nil => cases ho
    | cons x h =>
      rw [List.map_cons, List.cons.injEq] at ho
      obtain ⟨m1, hs, hr'⟩ := hr.uncons
      have hk := first h4 (by rw [ho.1]; rfl)
      refine step ih (m1 := m1) ?_ hr' ho.2 h1 h2 (grow hk h3) (keys h4) h5
      have hn := (q.new new (fresh hk h3 new)).1
      rw [ho.1] at hs
      generalize x.out = out at hs
      generalize x.log = log at hs ⊢
      cases hs with
      | loadHit hl => cases hl with | found here => rw [hn] at here; cases here
      | load hl fill => exact Load.passes hl fill q hp (by rw [h2]; exact whole) new (fresh hk h3 new)
  | guard new whole rest ih =>
    intro m m' h hr ho q h1 h2 h3 h4 h5
    cases h with
    | nil => cases ho
    | cons x h =>
      rw [List.map_cons, List.cons.injEq] at ho
      obtain ⟨m1, hs, hr'⟩ := hr.uncons
      have hk := first h4 (by rw [ho.1]; rfl)
      refine step ih (m1 := m1) ?_ hr' ho.2 h1 h2 (grow hk h3) (keys h4) h5
      have hn := (q.new new (fresh hk h3 new)).1
      rw [ho.1] at hs
      generalize x.out = out at hs
      generalize x.log = log at hs ⊢
      cases hs with
      | guardHit hl => cases hl with | found here => rw [hn] at here; cases here
      | guard hl guarded =>
        cases guarded with
        | insert fill => exact Load.passes hl fill q hp (by rw [h2]; exact whole) new (fresh hk h3 new)
  | hit known rest ih =>
    intro m m' h hr ho q h1 h2 h3 h4 h5
    cases h with
    | nil => cases ho
    | cons x h =>
      rw [List.map_cons, List.cons.injEq] at ho
      obtain ⟨m1, hs, hr'⟩ := hr.uncons
      refine step ih (m1 := m1) ?_ hr' ho.2 h1 h2 h3 (keys h4) h5
      obtain ⟨i, b1, b2⟩ := h5 _ known
      rw [ho.1] at hs
      generalize x.out = out at hs
      generalize x.log = log at hs ⊢
      cases hs with
      | get => unfold touch; rw [b1]; exact q.warm b1 b2
  | @loadHit _ k _ _ known rest ih =>
    intro m m' h hr ho q h1 h2 h3 h4 h5
    cases h with
    | nil => cases ho
    | cons x h =>
      rw [List.map_cons, List.cons.injEq] at ho
      obtain ⟨m1, hs, hr'⟩ := hr.uncons
      refine step ih (m1 := m1) ?_ hr' ho.2 h1 h2 h3 (keys h4) h5
      obtain ⟨i, b1, b2⟩ := h5 _ known
      rw [ho.1] at hs
      generalize x.out = out at hs
      generalize x.log = log at hs ⊢
      have no : ∀ {m2 : Clock K V}, ¬ Lookup c m k none m2 := by
        intro m2 hl
        cases hl with
        | loading absent => rw [b1] at absent; cases absent
        | ghost absent => rw [b1] at absent; cases absent
        | fresh absent => rw [b1] at absent; cases absent
      cases hs with
      | loadHit hl =>
        cases hl with
        | found here => rw [b1] at here; cases here; exact q.warm b1 b2
      | loadFail hl => exact absurd hl no
      | load hl => exact absurd hl no
  | @guardHit _ k _ _ known rest ih =>
    intro m m' h hr ho q h1 h2 h3 h4 h5
    cases h with
    | nil => cases ho
    | cons x h =>
      rw [List.map_cons, List.cons.injEq] at ho
      obtain ⟨m1, hs, hr'⟩ := hr.uncons
      refine step ih (m1 := m1) ?_ hr' ho.2 h1 h2 h3 (keys h4) h5
      obtain ⟨i, b1, b2⟩ := h5 _ known
      rw [ho.1] at hs
      generalize x.out = out at hs
      generalize x.log = log at hs ⊢
      have no : ∀ {m2 : Clock K V}, ¬ Lookup c m k none m2 := by
        intro m2 hl
        cases hl with
        | loading absent => rw [b1] at absent; cases absent
        | ghost absent => rw [b1] at absent; cases absent
        | fresh absent => rw [b1] at absent; cases absent
      cases hs with
      | guardHit hl =>
        cases hl with
        | found here => rw [b1] at here; cases here; exact q.warm b1 b2
      | guard hl => exact absurd hl no
  | miss new rest ih =>
    intro m m' h hr ho q h1 h2 h3 h4 h5
    cases h with
    | nil => cases ho
    | cons x h =>
      rw [List.map_cons, List.cons.injEq] at ho
      obtain ⟨m1, hs, hr'⟩ := hr.uncons
      refine step ih (m1 := m1) ?_ hr' ho.2 h1 h2 h3 (keys h4) h5
      have hk := first h4 (by rw [ho.1]; rfl)
      have hn := (q.new new (fresh hk h3 new)).1
      rw [ho.1] at hs
      generalize x.out = out at hs
      generalize x.log = log at hs ⊢
      cases hs with
      | get => unfold touch; rw [hn]; exact q.same
  | peek rest ih =>
    intro m m' h hr ho q h1 h2 h3 h4 h5
    cases h with
    | nil => cases ho
    | cons x h =>
      rw [List.map_cons, List.cons.injEq] at ho
      obtain ⟨m1, hs, hr'⟩ := hr.uncons
      refine step ih (m1 := m1) ?_ hr' ho.2 h1 h2 h3 (keys h4) h5
      rw [ho.1] at hs
      generalize x.out = out at hs
      generalize x.log = log at hs ⊢
      cases hs with
      | peek => exact q.same
  | containsKey rest ih =>
    intro m m' h hr ho q h1 h2 h3 h4 h5
    cases h with
    | nil => cases ho
    | cons x h =>
      rw [List.map_cons, List.cons.injEq] at ho
      obtain ⟨m1, hs, hr'⟩ := hr.uncons
      refine step ih (m1 := m1) ?_ hr' ho.2 h1 h2 h3 (keys h4) h5
      rw [ho.1] at hs
      generalize x.out = out at hs
      generalize x.log = log at hs ⊢
      cases hs with
      | containsKey => exact q.same

/-! ### Filling an empty cache -/

/-- The items of `l` are all there is, and they are hot. -/
structure Filled (t cap : Nat) (l : List (K × V)) (m : Clock K V) : Prop where
  target : m.target = t
  cap : m.cap = cap
  items : ∀ k, m.items k = (l.lookup k).map (fun v => ⟨v, true, 0⟩)
  cold : m.cold = []
  ghosts : m.ghosts = []
  pending : ∀ k, m.pending k = none

theorem mem_lookup {l : List (K × V)} (hN : (l.map (·.1)).Nodup) (k : K) (v : V) : (k, v) ∈ l ↔ l.lookup k = some v := by
  induction l with
  | nil => simp
  | cons p l ih =>
    rw [List.map_cons, List.nodup_cons] at hN
    rw [List.lookup_cons, List.mem_cons]
    by_cases hk : k = p.1
    · subst hk
      simp only [beq_self_eq_true, Option.some.injEq]
      constructor
      · rintro (h | h)
        · rw [← h]
        · exact absurd (List.mem_map.mpr ⟨_, h, rfl⟩) hN.1
      · intro h; left; rw [← h]
    · rw [show (k == p.1) = false by simpa using hk]
      simp only
      rw [← ih hN.2]
      constructor
      · rintro (h | h)
        · exact absurd (congrArg (·.1) h) hk
        · exact h
      · exact .inr

theorem Filled.lists {t cap : Nat} {l : List (K × V)} {m : Clock K V} (h : Filled t cap l m) (hN : (l.map (·.1)).Nodup) :
    Lists l m.value := by
  refine ⟨hN, fun k v => ?_⟩
  rw [mem_lookup hN]
  unfold value
  rw [h.items]
  cases l.lookup k <;> simp

theorem Filled.weight {t cap : Nat} {l : List (K × V)} {m : Clock K V} (h : Filled t cap l m) (hN : (l.map (·.1)).Nodup)
    (hw : WF c m) : m.hotWeight c = total c.weight l := by
  have := hw.total (h.lists hN)
  simp [coldWeight, h.cold] at this
  exact this.symm

theorem Run.filled {t cap g : Nat} {h : List (Unsync.Call K V)} {m : Clock K V} (hr : Run c (.empty t cap g) h m) (hc : t ≤ cap) :
    ∀ {l : List (K × V)}, h.map (·.op) = l.map (fun p => .insert p.1 p.2) → (l.map (·.1)).Nodup →
      total c.weight l ≤ t → WF c m ∧ Filled t cap l m := by
  induction hr with
  | start =>
    intro l ho _ _
    cases l with
    | cons => cases ho
    | nil => exact ⟨⟨.nil, .nil, by simp [empty], by simp [empty]⟩, rfl, rfl, fun _ => rfl, rfl, rfl, fun _ => rfl⟩
  | @call h m m' x hr hx ih =>
    intro l ho hN hw
    rw [List.map_append] at ho
    obtain ⟨l0, l1, rfl, e1, e2⟩ := List.map_eq_append_iff.mp ho.symm
    obtain ⟨p, rfl⟩ : ∃ p, l1 = [p] := by
      cases l1 with
      | nil => cases e2
      | cons p l1 =>
        cases l1 with
        | nil => exact ⟨p, rfl⟩
        | cons => simp at e2
    have ex : x.op = .insert p.1 p.2 := by simpa using e2.symm
    rw [bag_append] at hw
    have hp : total c.weight [p] = c.weight p.1 p.2 := by simp [total]
    rw [hp] at hw
    have hN' := hN
    rw [List.map_append, List.nodup_append] at hN
    obtain ⟨w, f⟩ := ih e1.symm hN.1 (by omega)
    have hnew : p.1 ∉ l0.map (·.1) := fun h => hN.2.2 p.1 h p.1 (by simp) rfl
    have hno : l0.lookup p.1 = none := by
      cases hl : l0.lookup p.1 with
      | none => rfl
      | some v => exact absurd (List.mem_map.mpr ⟨_, (mem_lookup hN.1 _ v).mpr hl, rfl⟩) hnew
    have hn : m.items p.1 = none := by rw [f.items, hno]; rfl
    have hhw := f.weight hN.1 w
    have hcw : m.coldWeight c = 0 := by simp [coldWeight, f.cold]
    rw [ex] at hx
    generalize x.out = out at hx
    generalize x.log = log at hx
    cases hx with
    | insert hi =>
      cases hi with
      | rejected enter asked heavy =>
        cases enter with
        | direct => exact absurd rfl asked
        | rewritten hv => rw [f.target] at hv; omega
      | stored enter fits place =>
        cases enter with
        | rewritten hv => rw [f.target] at hv; omega
        | direct =>
          cases place with
          | overwrite here => rw [hn] at here; cases here
          | loading absent pending => rw [f.pending] at pending; cases pending
          | ghost absent idle back => obtain ⟨A, C, h, -⟩ := back; rw [f.ghosts] at h; simp at h
          | fresh absent idle new fit =>
            have hd : decide (m.hotWeight c + c.weight p.1 p.2 ≤ m.target) = true := by
              rw [decide_eq_true_eq, hhw, f.target]; exact hw
            cases fit with
            | stop over => rw [hhw, hcw, f.cap] at over; omega
            | more over => rw [hhw, hcw, f.cap] at over; omega
            | done =>
              rw [hd]
              have hs := sizes_enlist (m.setItem p.1 ⟨p.2, true, 0⟩) true p.1 (c.weight p.1 p.2)
              have hm := enlist_same (m.setItem p.1 ⟨p.2, true, 0⟩) true p.1 (c.weight p.1 p.2)
              refine ⟨w.enlist (fun j hj => by rw [hn] at hj; cases hj) ⟨p.2, true, 0⟩, hs.1.trans f.target, hs.2.trans f.cap, ?_, ?_,
                hm.2.2.trans f.ghosts, fun k => by rw [hm.2.1]; exact f.pending k⟩
              · intro k
                rw [hm.1]
                show put m.items p.1 _ k = _
                rw [List.lookup_append]
                by_cases hk : k = p.1
                · subst hk
                  have : [p].lookup p.1 = some p.2 := by rw [List.lookup_cons, beq_self_eq_true]
                  rw [put_same, hno, this]; rfl
                · rw [put_other _ _ hk, f.items]
                  have : [p].lookup k = none := by rw [List.lookup_cons, show (k == p.1) = false by simpa using hk]; rfl
                  rw [this, Option.or_none]
              · unfold Clock.enlist
                split
                · exact f.cold
                · exact f.cold

end QuickCache.Spec.Clock
