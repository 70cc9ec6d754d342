import Verif.Proofs.ClockScan
import Verif.Props.Flood

/-!
# Property C82: cold items leave in the order in which they came
-/

namespace QuickCache.Props
open Unsync Spec

section
variable {K V RS : Type} [DecidableEq K] {c : Cfg K V RS} {target cap gcap : Nat} {h h1 h2 : List (Unsync.Call K V)}
  {s s1 s2 : Shard K V} {k1 k2 : K} {r1 r2 : Resident K V}

omit [DecidableEq K] in
theorem resident_ext {r r' : Resident K V} (h1 : r'.key = r.key) (h2 : r'.item = r.item) : r' = r := by
  obtain ⟨k, v, st, n⟩ := r
  obtain ⟨k', v', st', n'⟩ := r'
  simp only [Resident.item, Item.mk.injEq] at h1 h2
  obtain ⟨rfl, h3, rfl⟩ := h2
  subst h1
  cases st <;> cases st' <;> simp_all

/-- C82: suppose that nothing is pinned and that every item has weight. Let `k1` be cold and not looked up when `k2` is not cold
yet (absent, or hot), and let nobody use the item of `k1` from then on. If `k2` becomes cold - in whatever way - and is not used from
then on, then it stays, as it is, at least as long as `k1` does, and no lifecycle call concerns it until then. -/
theorem C82_fifo (hp : ∀ k v, c.pinned k v = false) (hv : ∀ k v, c.weight k v ≠ 0)
    (hr : Run c (Shard.new target cap gcap) h s) (hk1 : s.info k1 = some r1) (cold1 : r1.state = .cold)
    (idle1 : r1.referenced = 0) (hk2 : ∀ r, s.info k2 = some r → r.state = .hot)
    (hr1 : Run c s h1 s1) (hu1 : ∀ x ∈ h1, Unused k1 x.op)
    (hk2' : s1.info k2 = some r2) (cold2 : r2.state = .cold)
    (hr2 : Run c s1 h2 s2) (hu2 : ∀ x ∈ h2, Unused k1 x.op ∧ Unused k2 x.op ∧ x.op.sweeps = false)
    (still : s2.contents k1 ≠ none) :
    s2.info k1 = some r1 ∧ s2.info k2 = some r2 ∧ ∀ x ∈ h2, ∀ e ∈ x.log, e.key ≠ k2 := by
  have hP : Clock.Plainly c := ⟨hp, hv⟩
  have info : ∀ {s : Shard K V} {R : RingId → List Nat} (k : K), (s.abs R).items k = (s.info k).map Resident.item := by
    intro s R k; rfl
  have hne : k1 ≠ k2 := by
    rintro rfl
    have := hk2 r1 hk1
    rw [cold1] at this; cases this
  obtain ⟨m0, -, I0⟩ := hr.clock_new
  have w0 := I0.wf hr.reach_new.inv.toInv0
  obtain ⟨R, F, g1, rfl⟩ := I0
  have hc1 : k1 ∈ (s.abs R).cold := by
    rw [w0.cold]
    exact ⟨r1.item, by rw [info, hk1]; rfl, by simp [Resident.item, cold1], hv _ _⟩
  have hc2 : k2 ∉ (s.abs R).cold := by
    rw [w0.cold]
    rintro ⟨i, a1, a2, -⟩
    rw [info] at a1
    obtain ⟨r, b1, rfl⟩ := Option.map_eq_some_iff.mp a1
    have := hk2 r b1
    simp [Resident.item, this] at a2
  have A0 : Clock.Ahead k1 k2 (s.abs R) := by
    refine ⟨fun i hi => ?_, fun h => ?_⟩
    · rw [info, hk1] at hi
      cases hi
      exact ⟨by simp [Resident.item, cold1], by simpa [Resident.item] using idle1⟩
    · obtain ⟨A, B, e⟩ := List.append_of_mem h
      exact ⟨A, B, e, fun h2 => hc2 (by rw [e]; exact List.mem_append_left _ h2)⟩
  obtain ⟨m1, I1, A1, f1⟩ := Clock.run_order hr1 hr.reach_new ⟨R, F, g1, rfl⟩ hne hP A0 hu1
  have re1 := hr1.reach hr.reach_new
  have w1 := I1.wf re1.inv.toInv0
  obtain ⟨m2, I2, A2, f2⟩ := Clock.run_order hr2 re1 I1 hne hP A1 (fun x hx => (hu2 x hx).1)
  have w2 := I2.wf (hr2.reach re1).inv.toInv0
  obtain ⟨R1, F1, g1', rfl⟩ := I1
  obtain ⟨R2, F2, g2', rfl⟩ := I2
  have hin : k1 ∈ (s2.abs R2).cold := by
    have still : (s2.info k1).map (·.value) ≠ none := by rw [s2.contents_eq] at still; exact still
    cases hi : s2.info k1 with
    | none => rw [hi] at still; exact absurd rfl still
    | some r =>
      rw [w2.cold]
      exact ⟨r.item, by rw [info, hi]; rfl, (A2.idle r.item (by rw [info, hi]; rfl)).1, hv _ _⟩
  have hc2' : k2 ∈ (s1.abs R1).cold := by
    rw [w1.cold]
    exact ⟨r2.item, by rw [info, hk2']; rfl, by simp [Resident.item, cold2], hv _ _⟩
  obtain ⟨e1, e2, e3⟩ := f2 hin
  obtain ⟨-, d2, -⟩ := f1 e1
  obtain ⟨-, e5, e6⟩ := e3 hc2' (fun x hx => (hu2 x hx).2)
  have back : ∀ {s s' : Shard K V} {R R' : RingId → List Nat} {k : K} {r : Resident K V}, s.info k = some r →
      (s'.abs R').items k = (s.abs R).items k → s'.info k = some r := by
    intro s s' R R' k r a b
    rw [info, info, a] at b
    obtain ⟨r', a', b'⟩ := Option.map_eq_some_iff.mp b
    have k1 : r.key = k := by unfold Shard.info at a; simpa using List.find?_some a
    have k2 : r'.key = k := by unfold Shard.info at a'; simpa using List.find?_some a'
    rw [a', (resident_ext (k2.trans k1.symm) b')]
  exact ⟨back hk1 (e2.trans d2), back hk2' e5, e6⟩

end

/-! ### Inserting many different keys -/

section
variable {K V RS : Type} [DecidableEq K] {hash : K → UInt64} {rs : RS} {f : RS → K → V → RS} {pe : Bool} {par n target gcap : Nat} {h : List (Unsync.Call K V)} {s0 s : Shard K V}

/-- Inserting items of different keys (whose hashes differ), one after the other, into an empty cache for `n` items of weight 1 of
which `target < n` may be hot: in the end the first `target` items are there and the last `n - target`, and nothing else; and from
the `n`-th on each insertion evicts just one item, in the order of insertion. -/
theorem C82_scan (hr : Run (.listener hash rs f pe) (Shard.new target n gcap) h s) (h1 : 1 ≤ target) (ht : target < n) {l : List (K × V)}
    (ho : h.map (·.op) = l.map (fun p => .insert p.1 p.2)) (hd : (l.map (hash ·.1)).Nodup) :
    (∀ k v, (k, v) ∈ s.iter ↔ (k, v) ∈ scanned target n l) ∧ ∀ j x, h[j]? = some x → x.log = scanLog target n l j := by
  obtain ⟨m, hm, R, F, h2, rfl⟩ := hr.clock_new
  obtain ⟨f, hl⟩ := hm.scanned h1 ht ho hd
  refine ⟨fun k v => ?_, hl⟩
  rw [hr.lists.2 k v, ← s.abs_value R]
  unfold Clock.value
  constructor
  · intro hv
    obtain ⟨i, a, rfl⟩ := Option.map_eq_some_iff.mp hv
    exact f.only k i a
  · intro hm
    rcases List.mem_append.mp hm with hm | hm
    · have := f.hotI _ hm
      dsimp only at this
      rw [this]; rfl
    · have := f.coldI _ hm
      dsimp only at this
      rw [this]; rfl

/-- The same for a cache built by `Cache::new(n)`, of which 97 % may be hot. -/
theorem C82_new (hn : Unsync.new par n = .ok s0) (h2 : 2 ≤ n) (hr : Run (.plain hash) s0 h s) {l : List (K × V)}
    (ho : h.map (·.op) = l.map (fun p => .insert p.1 p.2)) (hd : (l.map (hash ·.1)).Nodup) :
    (∀ k v, (k, v) ∈ s.iter ↔ (k, v) ∈ scanned (fracOf n defaultHot) n l) ∧
      ∀ j x, h[j]? = some x → x.log = scanLog (fracOf n defaultHot) n l j := by
  rw [plain_new hn] at hr
  exact C82_scan hr (fracOf_default_pos h2) ((fracOf_default_le n).2 (by omega)) ho hd

end

/-! ### Examples -/

/-- In a cache for eight items, three of them hot: 15 and 4 are cold when 5 is not there yet; then 5 is loaded, removed, and inserted
again, other keys come and are read; 4 and 5 are not used any more while yet other keys come, until 15 has been evicted. -/
def ox0 : List (Op Nat Nat) := [.insert 1 10, .insert 2 20, .insert 3 30, .insert 15 150, .insert 4 40, .get 1]
def ox1 : List (Op Nat Nat) :=
  [.getOrInsertWith 5 (some 50), .get 5, .peek 4, .insert 6 60, .remove 5, .retain (fun k _ => k != 6), .get 3, .insert 5 51,
   .getMut 5 (· + 1)]
def ox2 : List (Op Nat Nat) := [.insert 16 61, .insert 7 70, .get 7, .insert 8 80, .peek 4, .containsKey 5, .get 2]

/-- No two keys collide. -/
def oxCfg : Cfg Nat Nat Unit := .plain (fun k => UInt64.ofNat k)

/-- The hypotheses of `C82_fifo`. -/
def oxReady (ops : List (Op Nat Nat)) : Bool :=
  match runOps oxCfg (Shard.new 3 8 3) ox0 with
  | .error _ => false
  | .ok (s, _) =>
    match runOps oxCfg s ox1 with
    | .error _ => false
    | .ok (s1, _) =>
      match runOps oxCfg s1 ops with
      | .error _ => false
      | .ok (s2, _) =>
        (s.info 4).any (fun r => r.state == .cold && r.referenced == 0) && (s.info 5).isNone &&
          (s1.info 5).any (fun r => r.state == .cold) && (s1.contents 15).isSome && (s2.contents 15).isNone &&
          (s2.contents 4).isSome

example : oxReady ox2 = true := by decide +kernel
example : ∀ op ∈ ox1, Unused 4 op := by
  intro op hop
  simp only [ox1, List.mem_cons, List.not_mem_nil, or_false] at hop
  rcases hop with rfl | rfl | rfl | rfl | rfl | rfl | rfl | rfl | rfl
  all_goals first | exact .inl (by decide) | exact .inr (.inl rfl)
example : ∀ op ∈ ox2, Unused 4 op ∧ Unused 5 op ∧ op.sweeps = false := by
  intro op hop
  simp only [ox2, List.mem_cons, List.not_mem_nil, or_false] at hop
  rcases hop with rfl | rfl | rfl | rfl | rfl | rfl | rfl
  all_goals
    refine ⟨?_, ?_, rfl⟩
    all_goals first | exact .inl (by decide) | exact .inr (.inl rfl) | exact .inr (.inr rfl)

/-- 4 goes next. -/
example : checkThen oxCfg (Shard.new 3 8 3) (ox0 ++ ox1 ++ ox2) (.insert 9 90)
    (fun s _ log => s.contents 5 = some 52 ∧ log = [.beforeEvict 4 40 40, .onEvict 4 40]) = true := by decide +kernel

/-- `Cache::new(34)`: forty items. -/
example : (match runOps oxCfg (Shard.new 32 34 17) ((List.range 40).map (fun i => Op.insert i (i * i))) with
    | .error _ => false
    | .ok (s, h) => decide (s.iter.length = 34) &&
        s.iter.all (fun p => decide (p ∈ scanned 32 34 ((List.range 40).map (fun i => (i, i * i))))) &&
        decide ((h.map (·.log)).drop 33 = [[]] ++ (List.range 6).map (fun i =>
          [.beforeEvict (32 + i) ((32 + i) * (32 + i)) ((32 + i) * (32 + i)), .onEvict (32 + i) ((32 + i) * (32 + i))]))) = true ∧
    ((List.range 40).map (fun i => (UInt64.ofNat i))).Nodup ∧
    (scanned 32 34 ((List.range 40).map (fun i => (i, i * i)))).map (·.1) = List.range 32 ++ [38, 39] := by
  decide +kernel

theorem runOps_ops {K V RS : Type} [DecidableEq K] {c : Cfg K V RS} {s' : Shard K V} :
    ∀ {ops : List (Op K V)} {s : Shard K V} {h : List (Unsync.Call K V)}, runOps c s ops = .ok (s', h) → h.map (·.op) = ops := by
  intro ops
  induction ops with
  | nil => intro s h hs; cases hs; rfl
  | cons op ops ih =>
    intro s h hs
    unfold runOps at hs
    rcases hstep : step c s op with p | ⟨s1, out, q⟩
    · rw [hstep] at hs; cases hs
    · rw [hstep] at hs
      simp only [Res.ok_bind] at hs
      rcases hrest : runOps c s1 ops with p | ⟨s2, h2⟩
      · rw [hrest] at hs; cases hs
      · rw [hrest] at hs
        cases hs
        rw [List.map_cons, ih hrest]

/-- Three histories one after the other, and what is checked in between. -/
def jxCheck : Bool :=
  match runOps fxCfg (Shard.new 2 5 2) [.insert 1 1, .insert 2 1, .insert 3 1] with
  | .error _ => false
  | .ok (s, _) =>
    match runOps fxCfg s [.insert 4 1, .insert 5 1] with
    | .error _ => false
    | .ok (s1, _) =>
      match runOps fxCfg s1 [.peekMut 4 (fun _ => 0), .insert 6 1, .insert 7 1] with
      | .error _ => false
      | .ok (s2, _) =>
        decide (s.info 3 = some ⟨3, 1, .cold, 0⟩ ∧ s.info 5 = none ∧ s1.info 5 = some ⟨5, 1, .cold, 0⟩ ∧
          s2.contents 3 = some 1 ∧ s2.contents 5 = none)

/-- Items without weight disturb the order: when an item in the list becomes weightless, the hand jumps to the one behind it. Here
3, 4 and 5 are cold, in this order, and nobody uses 3 or 5; 4 becomes weightless through a mutable reference; then 5 is evicted
before 3. So `C82_fifo` needs its second hypothesis. -/
theorem C82_jump : ∃ (s s1 s2 : Shard Nat Nat) (h h1 h2 : List (Unsync.Call Nat Nat)),
    Run fxCfg (Shard.new 2 5 2) h s ∧ s.info 3 = some ⟨3, 1, .cold, 0⟩ ∧ s.info 5 = none ∧
      Run fxCfg s h1 s1 ∧ (∀ x ∈ h1, Unused 3 x.op) ∧ s1.info 5 = some ⟨5, 1, .cold, 0⟩ ∧
      Run fxCfg s1 h2 s2 ∧ (∀ x ∈ h2, Unused 3 x.op ∧ Unused 5 x.op ∧ x.op.sweeps = false) ∧
      s2.contents 3 = some 1 ∧ s2.contents 5 = none := by
  have hc : jxCheck = true := by decide +kernel
  unfold jxCheck at hc
  rcases e0 : runOps fxCfg (Shard.new 2 5 2) [.insert 1 1, .insert 2 1, .insert 3 1] with p | ⟨s, h⟩
  · rw [e0] at hc; cases hc
  · simp only [e0] at hc
    rcases e1 : runOps fxCfg s [.insert 4 1, .insert 5 1] with p | ⟨s1, h1⟩
    · rw [e1] at hc; cases hc
    · simp only [e1] at hc
      rcases e2 : runOps fxCfg s1 [.peekMut 4 (fun _ => 0), .insert 6 1, .insert 7 1] with p | ⟨s2, h2⟩
      · rw [e2] at hc; cases hc
      · simp only [e2, decide_eq_true_eq] at hc
        obtain ⟨a1, a2, a3, a4, a5⟩ := hc
        refine ⟨s, s1, s2, h, h1, h2, runOps_run e0, a1, a2, runOps_run e1, fun x hx => ?_, a3, runOps_run e2, fun x hx => ?_, a4, a5⟩
        · have : x.op ∈ h1.map (·.op) := List.mem_map.mpr ⟨x, hx, rfl⟩
          rw [runOps_ops e1] at this
          simp only [List.mem_cons, List.not_mem_nil, or_false] at this
          rcases this with e | e <;> rw [e] <;> exact .inl (by decide)
        · have : x.op ∈ h2.map (·.op) := List.mem_map.mpr ⟨x, hx, rfl⟩
          rw [runOps_ops e2] at this
          simp only [List.mem_cons, List.not_mem_nil, or_false] at this
          rcases this with e | e | e <;> rw [e] <;> exact ⟨.inl (by simp [Op.key?]), .inl (by simp [Op.key?]), rfl⟩

end QuickCache.Props
