import Verif.Proofs.ClockFlood
import Verif.Proofs.Validate
import Verif.Props.Default
import Verif.Props.Thin

/-!
# Property C72: hot items survive a flood of new keys
-/

namespace QuickCache.Props
open Unsync Spec

section
variable {K V RS : Type} [DecidableEq K] {c : Cfg K V RS} {target cap gcap bound : Nat} {h h' : List (Unsync.Call K V)}
  {s s' : Shard K V}

/-- The item of `k` is hot. -/
def HotIn (s : Shard K V) (k : K) : Prop := ∃ r, s.info k = some r ∧ r.state = .hot

/-- C72: suppose that no item is pinned, that no cold item was looked up since it was stored (or since the hand last passed
it), and that the hot items weigh at most `bound`. Then, however many new keys are inserted or loaded, every item that is hot
now stays, with its value, stays hot, and no lifecycle call concerns it; its reference counter does not fall. -/
theorem C72_flood (hr : Run c (Shard.new target cap gcap) h s) (hr' : Run c s h' s') (hd : Distinct c.hash (h ++ h'))
    (hp : ∀ k v, c.pinned k v = false) (ht : target ≤ bound) (hb : hotTotal c s ≤ bound)
    (hc : ∀ k r, s.info k = some r → r.state = .cold → r.referenced = 0)
    (hf : Flood c target cap bound (HotIn s) (keysOf h) (h'.map (·.op)))
    {k : K} {r : Resident K V} (hk : s.info k = some r) (hot : r.state = .hot) :
    (∃ r', s'.info k = some r' ∧ r'.value = r.value ∧ r'.state = .hot ∧ r.referenced ≤ r'.referenced) ∧
      ∀ x ∈ h', ∀ e ∈ x.log, e.key ≠ k := by
  obtain ⟨m, h1, R, F, h2, rfl⟩ := hr.clock_new
  have hi := hr.reach_new.inv.toInv0
  obtain ⟨m', h3, R', F', h4, rfl⟩ := hr'.clock hr.reach_new ⟨R, F, h2, rfl⟩
  have hkeys : ∀ a ∈ keysOf h, a ∈ keysOf (h ++ h') := by
    intro a ha; unfold keysOf at ha ⊢; rw [List.filterMap_append]; exact List.mem_append_left _ ha
  have hkeys' : ∀ a ∈ keysOf h', a ∈ keysOf (h ++ h') := by
    intro a ha; unfold keysOf at ha ⊢; rw [List.filterMap_append]; exact List.mem_append_right _ ha
  have inj : ∀ a b, a ∈ keysOf h → b ∈ keysOf h → c.hash a = c.hash b → a = b :=
    fun a b ha hb => hd a (hkeys a ha) b (hkeys b hb)
  obtain ⟨-, tw⟩ := Clock.Run.det (c := c) (hash' := c.hash) (S := (· ∈ keysOf h)) inj inj
    (Clock.Twin.empty target cap gcap) h1 (fun x hx k hk => List.mem_filterMap.mpr ⟨x, hx, hk⟩) h1 rfl
  have info : ∀ {s : Shard K V} {R : RingId → List Nat} (k : K), (s.abs R).items k = (s.info k).map Resident.item := by
    intro s R k; rfl
  have q : Clock.Quiet c bound (keysOf h) (s.abs R) := by
    refine ⟨Shard.Implements.wf ⟨R, F, h2, rfl⟩ hi, ?_, fun k i a b => ?_, fun k hk => (tw.items k hk).1, tw.pending, ?_⟩
    · rw [Shard.abs_hotWeight hi h2, show s.weightHot = s.wgt .hot from rfl, hi.cnt.wgt .hot, ← Shard.sumBy_wgtF]
      exact hb
    · rw [info] at a
      obtain ⟨r, a1, rfl⟩ := Option.map_eq_some_iff.mp a
      refine hc k r a1 ?_
      have : ¬ r.state = .hot := by simpa [Resident.item] using b
      cases hs : r.state with
      | hot => exact absurd hs this
      | cold => rfl
    · obtain ⟨ks, g1, -, -, g4⟩ := tw.ghosts
      intro g hg
      rw [g1] at hg
      obtain ⟨k, a1, rfl⟩ := List.mem_map.mp hg
      exact ⟨k, (g4 k a1).1, rfl⟩
  obtain ⟨ab, ap⟩ := Clock.Run.flood hd hp ht hf h3 rfl q hr.reach_new.target hr.reach_new.capacity hkeys hkeys' (by
    rintro k ⟨r, a1, a2⟩
    exact ⟨r.item, by rw [info, a1]; rfl, by simp [Resident.item, a2]⟩)
  have hit : (s.abs R).items k = some r.item := by rw [info, hk]; rfl
  have hhot : r.item.hot = true := by simp [Resident.item, hot]
  constructor
  · obtain ⟨j, b1, b2, b3, b4⟩ := ab k _ hit hhot
    rw [info] at b1
    obtain ⟨r', d1, rfl⟩ := Option.map_eq_some_iff.mp b1
    exact ⟨r', d1, b2, by simpa [Resident.item] using b3, b4⟩
  · rintro x hx e he rfl
    rw [ap x hx e he _ hit] at hhot; cases hhot

/-- The first items are hot: inserting items of different keys into an empty cache, as long as they weigh no more than the hot
target, makes all of them hot. -/
theorem C72_first (hr : Run c (Shard.new target cap gcap) h s) (hc : target ≤ cap) {l : List (K × V)}
    (ho : h.map (·.op) = l.map (fun p => .insert p.1 p.2)) (hN : (l.map (·.1)).Nodup) (hw : total c.weight l ≤ target) :
    (∀ k v, (k, v) ∈ l ↔ ∃ r, s.info k = some r ∧ r.value = v) ∧
      (∀ k r, s.info k = some r → r.state = .hot) ∧ hotTotal c s ≤ target := by
  obtain ⟨m, h1, R, F, h2, rfl⟩ := hr.clock_new
  have hi := hr.reach_new.inv.toInv0
  obtain ⟨w, f⟩ := h1.filled hc ho hN hw
  have info : ∀ k, (s.abs R).items k = (s.info k).map Resident.item := fun k => rfl
  refine ⟨fun k v => ?_, fun k r hk => ?_, ?_⟩
  · rw [(f.lists hN).2]
    unfold Clock.value
    rw [info]
    cases s.info k <;> simp [Resident.item]
  · have h3 := info k
    rw [hk, f.items] at h3
    obtain ⟨v, -, h4⟩ := Option.map_eq_some_iff.mp h3
    have : r.item.hot = true := by rw [← h4]
    simpa [Resident.item] using this
  · have := f.weight hN w
    rw [Shard.abs_hotWeight hi h2, show s.weightHot = s.wgt .hot from rfl, hi.cnt.wgt .hot, ← Shard.sumBy_wgtF] at this
    unfold hotTotal
    omega

end

/-! ### `Cache::new` -/

/-- The keys inserted by a list of calls. -/
def insertedKeys {K V : Type _} (ops : List (Op K V)) : List K :=
  ops.filterMap (fun op => match op with | .insert k _ => some k | _ => none)

section
variable {K V : Type} [DecidableEq K] {hash : K → UInt64} {par n : Nat} {h h' : List (Unsync.Call K V)} {s0 s : Shard K V}

omit [DecidableEq K] in
theorem flood_plain {t : Nat} (h2 : t < n) {hot : K → Prop} (ops : List (Op K V)) :
    ∀ {used : List K}, (∀ op ∈ ops, (∃ k v, op = .insert k v) ∨ ∃ k, hot k ∧ op = .get k) →
      (used ++ insertedKeys ops).Nodup → Flood (.plain hash : Cfg K V Unit) t n t hot used ops := by
  induction ops with
  | nil => intro used _ _; exact .done
  | cons op ops ih =>
    intro used ho hN
    have ho' := fun op hop => ho op (List.mem_cons_of_mem _ hop)
    rcases ho op List.mem_cons_self with ⟨k, v, rfl⟩ | ⟨k, hk, rfl⟩
    · have e : insertedKeys (.insert k v :: ops : List (Op K V)) = k :: insertedKeys ops := rfl
      rw [e] at hN
      have hp := (List.perm_middle (a := k) (l₁ := used) (l₂ := insertedKeys ops)).nodup_iff.mp hN
      refine .insert (fun hm => ?_) ?_ (ih ho' hp)
      · exact (List.nodup_cons.mp hp).1 (List.mem_append_left _ hm)
      · have : enterWeight (Cfg.plain hash : Cfg K V Unit) t k v = 1 := by
          unfold enterWeight; split <;> rfl
        omega
    · exact .hit hk (ih ho' hN)

/-- `Cache::new(n)`: the items of the first keys inserted, as many as 96.9 % of `n`, stay in the cache for ever if afterwards
nothing but insertions of new keys and lookups of these first keys happens (unless hashes collide). -/
theorem C72_new (hn : Unsync.new par n = .ok s0) (h64 : n < 2 ^ 64) {l : List (K × V)}
    (hr : Run (.plain hash) s0 h s) (ho : h.map (·.op) = l.map (fun p => .insert p.1 p.2))
    (hl : 1000 * l.length ≤ 969 * n) {s' : Shard K V} (hr' : Run (.plain hash) s h' s')
    (hN : (l.map (·.1) ++ insertedKeys (h'.map (·.op))).Nodup) (hd : Distinct hash (h ++ h'))
    (ho' : ∀ x ∈ h', (∃ k v, x.op = .insert k v) ∨ ∃ p ∈ l, x.op = .get p.1) :
    (∀ k v, (k, v) ∈ l → s'.contents k = some v) ∧ ∀ x ∈ h', ∀ e ∈ x.log, ∀ v, (e.key, v) ∉ l := by
  rw [plain_new hn] at hr
  have hN1 : (l.map (·.1)).Nodup := (List.nodup_append.mp hN).1
  cases hl0 : l with
  | nil => exact ⟨fun _ _ h => (by cases h), fun _ _ _ _ _ h => (by cases h)⟩
  | cons p l' =>
    have hlen : 1 ≤ l.length := by rw [hl0]; simp
    rw [← hl0]
    have hn1 : 1 ≤ n := by omega
    have h3 := fracOf_default_lower hn1 h64
    have h4 := fracOf_default_le n
    have hw : total (Cfg.plain hash : Cfg K V Unit).weight l ≤ fracOf n defaultHot := by
      rw [show total (Cfg.plain hash : Cfg K V Unit).weight l = l.length from total_unit l]; omega
    obtain ⟨f1, f2, f3⟩ := C72_first hr h4.1 ho hN1 hw
    have hkeys : keysOf h = l.map (·.1) := by
      have : keysOf h = (h.map (·.op)).filterMap Op.key? := by unfold keysOf; rw [List.filterMap_map]; rfl
      rw [this, ho, List.filterMap_map]
      show l.filterMap (fun p => some p.1) = _
      rw [List.filterMap_eq_map']
    have hfl : Flood (.plain hash : Cfg K V Unit) (fracOf n defaultHot) n (fracOf n defaultHot) (HotIn s) (keysOf h)
        (h'.map (·.op)) := by
      refine flood_plain (h4.2 hn1) _ (fun op hop => ?_) (by rw [hkeys]; exact hN)
      obtain ⟨x, hx, rfl⟩ := List.mem_map.mp hop
      rcases ho' x hx with h | ⟨p, hp, h⟩
      · exact .inl h
      · obtain ⟨r, a1, -⟩ := (f1 p.1 p.2).mp hp
        exact .inr ⟨p.1, ⟨r, a1, f2 _ r a1⟩, h⟩
    have main := fun {k r} (hk : s.info k = some r) => C72_flood hr hr' hd (fun _ _ => rfl) (Nat.le_refl _) f3
      (fun k r a b => by rw [f2 k r a] at b; cases b) hfl hk (f2 k r hk)
    constructor
    · intro k v hkv
      obtain ⟨r, a1, rfl⟩ := (f1 k v).mp hkv
      obtain ⟨⟨r', b1, b2, -, -⟩, -⟩ := main a1
      rw [s'.contents_eq]
      simp [b1, b2]
    · intro x hx e he v hkv
      obtain ⟨r, a1, -⟩ := (f1 _ v).mp hkv
      exact (main a1).2 x hx e he rfl

end

/-! ### Examples -/

/-- Weights are the last digits of the values; nothing is pinned; no two keys collide. -/
def fxCfg : Cfg Nat Nat Unit :=
  { hash := fun k => UInt64.ofNat k, weight := fun _ v => v % 10, pinned := fun _ _ => false, beginReq := (),
    beforeEvict := fun _ _ v => ((), v), onEvict := fun _ _ _ => (), ptrEq := false }

/-- Two hot items weighing 8 together, one of them looked up, and a cold one. -/
def fxOps : List (Op Nat Nat) := [.insert 1 13, .insert 2 25, .get 1, .insert 3 2]

/-- New keys, inserted, and lookups of hot items. -/
def fxFlood : List (Op Nat Nat) :=
  [.insert 10 2, .get 2, .insert 11 1, .insert 12 22, .get 20, .getOrInsertWith 1 none, .insert 13 1, .peek 11, .insert 14 2]

/-- New keys, loaded. -/
def fxLoads : List (Op Nat Nat) :=
  [.getOrInsertWith 10 (some 2), .get 2, .getRefOrGuard 11 (.insert 1), .getOrInsertWith 12 (some 7), .containsKey 12,
   .getOrInsertWith 13 (some 1)]

/-- The hypotheses of `C72_flood`, for a cache with hot target 8 and capacity 10. -/
def fxReady (ops ops' : List (Op Nat Nat)) (bound : Nat) : Bool :=
  match runOps fxCfg (Shard.new 8 10 3) ops with
  | .error _ => false
  | .ok (s, h) =>
    match runOps fxCfg s ops' with
    | .error _ => false
    | .ok (s', h') =>
      decide (Distinct fxCfg.hash (h ++ h')) && decide (hotTotal fxCfg s ≤ bound) &&
        s.residents.all (fun r => r.state == .hot || r.referenced == 0) &&
        decide ((s.residents.filter (·.state == .hot)).map (·.key) = [1, 2]) &&
        decide (s'.contents 1 = some 13 ∧ s'.contents 2 = some 25 ∧ s'.contents 3 = none)

example : fxReady fxOps fxFlood 8 = true ∧ fxReady fxOps fxLoads 10 = true := by decide +kernel

example : Flood fxCfg 8 10 8 (· ∈ [1, 2]) [1, 2, 3] fxFlood :=
  .insert (by decide) (by decide) (.hit (by decide) (.insert (by decide) (by decide) (.insert (by decide) (by decide)
    (.miss (by decide) (.loadHit (by decide) (.insert (by decide) (by decide) (.peek (.insert (by decide) (by decide)
      .done))))))))

example : Flood fxCfg 8 10 10 (· ∈ [1, 2]) [1, 2, 3] fxLoads :=
  .load (by decide) rfl (.hit (by decide) (.guard (by decide) rfl (.load (by decide) rfl (.containsKey (.load (by decide) rfl
    .done)))))

/-- `Cache::new(34)`: thirty items, then twenty-four new keys, with lookups of the first ones in between. -/
def fxMany : List (Op Nat Nat) := (List.range 24).flatMap (fun i => [.insert (100 + i) i, .get (i % 30)])

/-- All thirty are left, and four of the others. -/
example : (match runOps (.plain (fun k => UInt64.ofNat k)) (Shard.new 32 34 17)
      ((List.range 30).map (fun i => Op.insert i (i * i)) ++ fxMany) with
    | .error _ => false
    | .ok (s, h) => decide (Distinct (fun k => UInt64.ofNat k) h) && decide (s.len = 34) &&
        (List.range 30).all (fun i => s.contents i == some (i * i))) = true ∧
    insertedKeys fxMany = (List.range 24).map (100 + ·) ∧
    (fxMany.all fun op => match op with | .insert _ _ => true | .get k => decide (k < 30) | _ => false) = true := by
  decide +kernel

/-- The bound on the weight of the hot items is needed: items that are loaded are hot until the cache is full, and then an
insertion evicts one of them. Here the cache for four items has a hot target of two. -/
theorem C72_needs_bound : ∃ (s : Shard Nat Nat) (h : List (Unsync.Call Nat Nat)) (s' : Shard Nat Nat) (out : Out Nat Nat)
    (q : Req Nat Nat Unit), Run dxCfg (Shard.new 2 4 2) h s ∧ step dxCfg s (.insert 15 0) = .ok (s', out, q) ∧
      q.log = [.beforeEvict 1 10 10, .onEvict 1 10] := by
  obtain ⟨s, h, s', out, q, h1, h2, h3⟩ := runThen (c := dxCfg) (s0 := Shard.new 2 4 2)
    (ops := [1, 2, 3, 4].map (fun k => .getOrInsertWith k (some (10 * k)))) (op := .insert 15 0)
    (P := fun _ _ log => log = [.beforeEvict 1 10 10, .onEvict 1 10]) (by decide +kernel)
  exact ⟨s, h, s', out, q, h1, h2, h3⟩

/-- A newly loaded item is then its own victim; loaded again, it stays, in place of a hot one. -/
example : checkThen dxCfg (Shard.new 2 4 2) ([1, 2, 3, 4].map (fun k => .getOrInsertWith k (some (10 * k))))
      (.getOrInsertWith 15 (some 0)) (fun s out log => s.contents 15 = none ∧ out = .loaded true (some none) ∧
        log = [.beforeEvict 15 0 0, .onEvict 15 0]) = true ∧
    checkThen dxCfg (Shard.new 2 4 2) ([1, 2, 3, 4, 15].map (fun k => .getOrInsertWith k (some (10 * k))))
      (.getOrInsertWith 15 (some 0)) (fun s _ log => s.contents 15 = some 0 ∧
        log = [.beforeEvict 1 10 10, .onEvict 1 10]) = true := by decide +kernel

/-- So is that on the counters of cold items: a cold item that was looked up becomes hot and displaces one that is hot. -/
example : (match runOps dxCfg (Shard.new 2 4 2) ([1, 2, 3, 4].map (fun k => Op.insert k (10 * k)) ++ [.get 3]) with
    | .error _ => false
    | .ok (s, _) =>
      decide (hotTotal dxCfg s = 2) && (s.info 1).any (fun r => r.state == .hot && r.referenced == 0) &&
        match step dxCfg s (.insert 15 0) with
        | .error _ => false
        | .ok (_, _, q) => decide (q.log = [.beforeEvict 1 10 10, .onEvict 1 10])) = true := by decide +kernel

end QuickCache.Props
