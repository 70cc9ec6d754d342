import Verif.Proofs.Scan

/-!
# Lemmas about single calls used by the property theorems
-/

namespace QuickCache
variable {K V RS : Type _} [DecidableEq K]
open Shard Unsync Spec

section
variable {c : Cfg K V RS} {s s' : Shard K V}

/-- Loading an absent key and writing through the returned reference, on slots. -/
theorem StepEff.loadMut {k : K} {v : V} {f : V → V} {x : Shard K V × Out K V × Req K V RS} (hi : Inv0 c s)
    (h : StepEff c s (.getMutOrInsertWith k (some v) f) x) (hk : s.contents k = none) :
    ∃ s1 s2, Inv0 c s1 ∧ Const s s1 ∧ s1.info = s.info ∧
      s1.weightHot + s1.weightCold = s.weightHot + s.weightCold ∧ StoreEff c s1 c.begin k v .insert (s2, x.2.2, none) ∧
      x.1.contents = alter s2.contents k f ∧ x.2.1 = .loaded true (some (s2.contents k)) ∧
      (∀ k' ≠ k, x.1.info k' = s2.info k') := by
  have hno := hi.contents_none.mp hk
  generalize hop : Op.getMutOrInsertWith k (some v) f = op at h
  cases h with
  | hit hop' t r hk' wrote =>
    cases hop' <;> cases hop
    exact absurd hk' (hno t r wrote.upd.before)
  | miss hop' => cases hop' <;> cases hop
  | leave hop' => cases hop' <;> cases hop
  | drop hop' => cases hop' <;> cases hop
  | fill hop' => cases hop' <;> cases hop
  | fillMutOut hp h hno' taken =>
    cases hop
    have hn : ∀ {s' : Shard K V}, Inv0 c s' → NoRes s' k → s'.contents k = none := fun h h' => h.contents_none.mpr h'
    have hn := hn (h.inv hp.inv) hno'
    refine ⟨_, _, hp.inv, hp.const, hp.info hi, hp.total, h, ?_, by simp only [hn], fun _ _ => rfl⟩
    funext x
    unfold alter
    by_cases hx : x = k
    · subst hx; simp [hn]
    · simp [hx]
  | fillMut hp h taken t r hk' wrote same =>
    cases hop
    have hi2 := h.inv hp.inv
    refine ⟨_, _, hp.inv, hp.const, hp.info hi, hp.total, h, ?_, ?_, ?_⟩
    · have := wrote.info_put hi2 (by intro r' hr'; cases hr'; rfl)
      funext y
      rw [Shard.contents_eq, Shard.contents_eq, this]
      unfold alter
      simp only [hk']
      by_cases hy : y = k
      · subst hy
        have := hi2.info_slot wrote.upd.before
        rw [hk'] at this
        simp [this]
      · simp [hy, put_ne]
    · simp only [slot_contents hi2 wrote.upd.before hk']
    · intro k' hk''
      rw [wrote.info_put hi2 (by intro r' hr'; cases hr'; rfl)]
      simp only [hk']
      rw [put_ne _ _ hk'']
  | _ => cases hop

/-- Any storing call, on slots: the shard before and after the storing part. -/
theorem StepEff.storesThen {op : Op K V} {x : Shard K V × Out K V × Req K V RS} (hi : Inv0 c s) (h : StepEff c s op x)
    {k : K} {v : V} {f : V → V} (hst : StoresThen s.contents op x.2.1 k v f) :
    ∃ s1 s2 str, Inv0 c s1 ∧ Const s s1 ∧ s1.info = s.info ∧
      s1.weightHot + s1.weightCold = s.weightHot + s.weightCold ∧ StoreEff c s1 c.begin k v str (s2, x.2.2, none) ∧
      x.1.contents = alter s2.contents k f ∧ (∀ k' ≠ k, x.1.info k' = s2.info k') ∧
      (∀ soft, str = .replace soft ↔ op = .replace k v soft) := by
  cases hst with
  | plain hst =>
    obtain ⟨s1, str, h1, h2, h3, h4, h5, h6, h7, h8⟩ := h.stores hi hst
    refine ⟨s1, x.1, str, h1, h2, h3, h4, h5, (alter_id _ _).symm, fun _ _ => rfl, ?_⟩
    intro soft
    constructor
    · rintro rfl
      generalize x.2.1 = out at hst
      cases hst with
      | replace => have := (h7 _ rfl).2; cases this; rfl
      | insert => have := (h6 rfl).2; cases this
      | _ => have := h8 (by intro _ _ _ h; cases h); cases this
    · rintro rfl; exact (h7 soft rfl).2
  | loadMut v f out absent =>
    obtain ⟨s1, s2, h1, h2, h3, h4, h5, h6, h7, h8⟩ := h.loadMut hi absent
    refine ⟨s1, s2, .insert, h1, h2, h3, h4, h5, h6, h8, fun soft => ⟨fun h => (by cases h), fun h => (by cases h)⟩⟩

omit [DecidableEq K] in
theorem RejEff.threads {q q' : Req K V RS} {k : K} (h : RejEff c s q k s' q') (ht : Threads c c.beginReq q.log q.st) :
    Threads c c.beginReq q'.log q'.st := by
  cases h with
  | old t r hk same wrote => exact ht.append (.on .nil)
  | plh t ph hk hno same wrote => exact ht
  | none => exact ht

theorem StoreEff.threads {k : K} {v : V} {str : Strategy} {x : Shard K V × Req K V RS × Option V} (hi : Inv0 c s)
    (h : StoreEff c s c.begin k v str x) : Threads c c.beginReq x.2.1.log x.2.1.st := by
  cases h with
  | put q1 v1 he adm hp =>
    obtain ⟨e1, e2, e3⟩ := he.value rfl
    obtain ⟨st, L, h1, h2, h3, h4⟩ := hp.whole hi
    simp only [h1]
    exact (e2.append h2).append h3.threads
  | reject q1 v1 hw hp hb hw1 hrej =>
    obtain ⟨e1, e2, e3⟩ := (Entering.before hw hp hb).value rfl
    have := hrej.threads e2
    cases str with
    | insert => exact this.append (.on .nil)
    | replace => exact this
  | absent q1 v1 he => exact (he.value rfl).2.1

theorem StepEff.threads {op : Op K V} {x : Shard K V × Out K V × Req K V RS} (h : StepEff c s op x) (hi : Inv0 c s) :
    Threads c c.beginReq x.2.2.log x.2.2.st := by
  cases h with
  | insert h => exact h.threads hi
  | replace h => exact h.threads hi
  | fill hop hp h taken => exact h.threads hp.inv
  | fillMutOut hp h hno taken => exact h.threads hp.inv
  | fillMut hp h taken t r hk wrote same => exact h.threads hp.inv
  | _ => exact .nil

/-! ### Victims are neither pinned nor weightless -/

/-- An item passed to `before_evict` is neither pinned nor weightless. -/
def Free (c : Cfg K V RS) (e : Event K V) : Prop :=
  match e with
  | .beforeEvict k v _ => c.pinned k v = false ∧ c.weight k v ≠ 0
  | .onEvict _ _ => True

theorem Spec.Evicts.free {m m' : K → Option V} {st st' : RS} {L : List (Event K V)} (h : Evicts c m st L m' st') :
    ∀ e ∈ L, Free c e := by
  induction h with
  | nil => simp
  | spare here heavy free before light rest ih =>
    intro e he
    rcases List.mem_cons.mp he with rfl | he
    · exact ⟨free, heavy⟩
    · exact ih e he
  | evict here heavy free before still rest ih =>
    intro e he
    rcases List.mem_cons.mp he with rfl | he
    · exact ⟨free, heavy⟩
    · rcases List.mem_cons.mp he with rfl | he
      · trivial
      · exact ih e he

omit [DecidableEq K] in
theorem Spec.Enter.free {target : Nat} {k : K} {v v1 : V} {st : RS} {pre : List (Event K V)}
    (h : Enter c target k v st pre v1) : ∀ e ∈ pre, Free c e := by
  cases h with
  | direct => simp
  | rewritten heavy free before =>
    intro e he
    rw [List.mem_singleton.mp he]
    exact ⟨free, by omega⟩

theorem Spec.Store.free {target : Nat} {m m' : K → Option V} {k : K} {v : V} {L : List (Event K V)}
    (h : Store c target m k v L m') : ∀ e ∈ L, Free c e := by
  cases h with
  | rejected enter asked heavy =>
    intro e he
    simp only [List.mem_append, List.mem_map, List.mem_singleton] at he
    rcases he with (he | ⟨o, -, rfl⟩) | rfl
    · exact enter.free e he
    · trivial
    · trivial
  | overwritten enter fits here after =>
    intro e he
    simp only [List.mem_append, List.mem_cons] at he
    rcases he with he | rfl | he
    · exact enter.free e he
    · trivial
    · exact after.free e he
  | added enter fits absent first after either =>
    intro e he
    simp only [List.mem_append] at he
    rcases he with (he | he) | he
    · exact enter.free e he
    · exact first.free e he
    · exact after.free e he

theorem Spec.Replace.free {target : Nat} {m m' : K → Option V} {k : K} {v : V} {L : List (Event K V)} {r : Option V}
    (h : Replace c target m k v L m' r) : ∀ e ∈ L, Free c e := by
  cases h with
  | absent enter absent => exact enter.free
  | rejected enter asked heavy here =>
    intro e he
    simp only [List.mem_append, List.mem_singleton] at he
    rcases he with he | rfl
    · exact enter.free e he
    · trivial
  | overwritten enter fits here after => exact (Store.overwritten enter fits here after).free

theorem Spec.OpSpec.free {target : Nat} {m m' : K → Option V} {op : Op K V} {out : Out K V} {log : List (Event K V)}
    (h : OpSpec c target m op out log m') : ∀ e ∈ log, Free c e := by
  have nil : log = [] → ∀ e ∈ log, Free c e := by rintro rfl; simp
  cases op with
  | insert k v => exact h.2.free
  | replace k v soft => obtain ⟨r, -, h⟩ := h; exact h.free
  | getOrInsertWith k load =>
    simp only [OpSpec] at h
    cases hm : m k with
    | some w => rw [hm] at h; exact nil h.2.1
    | none =>
      rw [hm] at h
      cases load with
      | none => exact nil h.2.1
      | some w => exact h.1.free
  | getMutOrInsertWith k load f =>
    simp only [OpSpec] at h
    cases hm : m k with
    | some w => rw [hm] at h; exact nil h.2.1
    | none =>
      rw [hm] at h
      cases load with
      | none => exact nil h.2.1
      | some w => obtain ⟨m1, h, -⟩ := h; exact h.free
  | getRefOrGuard k use =>
    simp only [OpSpec] at h
    cases hm : m k with
    | some w => rw [hm] at h; exact nil h.2.1
    | none =>
      rw [hm] at h
      cases use with
      | insert w => exact h.2.free
      | drop => exact nil h.2.1
      | forget => exact nil h.2.1
  | getMutOrGuard k f use =>
    simp only [OpSpec] at h
    cases hm : m k with
    | some w => rw [hm] at h; exact nil h.2.1
    | none =>
      rw [hm] at h
      cases use with
      | insert w => exact h.2.free
      | drop => exact nil h.2.1
      | forget => exact nil h.2.1
  | _ => exact nil h.2.1

/-! ### Further facts -/

/-- A property of one item that every call keeps is kept by a run. -/
theorem Unsync.Run.keeps {target cap gcap : Nat} {h h' : List (Call K V)} {k : K} {v : V} (hr' : Run c s h' s')
    (hr : Run c (Shard.new target cap gcap) h s)
    (hkeep : ∀ {h : List (Call K V)} {s s' : Shard K V} {op : Op K V} {out : Out K V} {q : Req K V RS},
      Run c (Shard.new target cap gcap) h s → step c s op = .ok (s', out, q) → (k, v) ∈ s.iter →
      ¬ Touches k v ⟨op, out, q.log⟩ → (k, v) ∈ s'.iter ∧ ∀ e ∈ q.log, eventKey e ≠ k)
    (hm : (k, v) ∈ s.iter) (ht : ∀ x ∈ h', ¬ Touches k v x) :
    (k, v) ∈ s'.iter ∧ ∀ x ∈ h', ∀ e ∈ x.log, eventKey e ≠ k := by
  suffices H : (k, v) ∈ s'.iter ∧ (∀ x ∈ h', ∀ e ∈ x.log, eventKey e ≠ k) ∧
      Run c (Shard.new target cap gcap) (h ++ h') s' from ⟨H.1, H.2.1⟩
  induction hr' with
  | start => exact ⟨hm, by simp, by simpa using hr⟩
  | layout m p hr1 hm' hp ih =>
    obtain ⟨h1, h2, h3⟩ := ih ht
    exact ⟨h1, h2, .layout m p h3 hm' hp⟩
  | @call h1 s1 s2 op out q hr1 hs ih =>
    obtain ⟨g1, g2, g3⟩ := ih (fun x hx => ht x (by simp [hx]))
    obtain ⟨f1, f2⟩ := hkeep g3 hs g1 (ht ⟨op, out, q.log⟩ (by simp))
    refine ⟨f1, ?_, by rw [← List.append_assoc]; exact .call g3 hs⟩
    intro x hx
    rcases List.mem_append.mp hx with hx | hx
    · exact g2 x hx
    · rw [List.mem_singleton.mp hx]; exact f2

omit [DecidableEq K] in
theorem preamble_key (c : Cfg K V RS) (target : Nat) (m : K → Option V) (k : K) (v : V) :
    ∀ e ∈ preamble c target m k v, eventKey e = k := by
  intro e he
  unfold preamble at he
  rcases List.mem_append.mp he with he | he
  · split at he
    · rw [List.mem_singleton.mp he]; rfl
    · simp at he
  · obtain ⟨o, -, rfl⟩ := List.mem_map.mp he; rfl

theorem Spec.Evicts.nil_eq {m m' : K → Option V} {st st' : RS} (h : Evicts c m st [] m' st') : m' = m := by
  cases h; rfl

theorem alter_put_same (m : K → Option V) (k : K) (v : V) (f : V → V) : alter (put m k v) k f = put m k (f v) := by
  funext x
  unfold alter put
  by_cases h : x = k
  · simp [h]
  · simp [h]

theorem Spec.Scans.events {m m' : K → Option (Resident K V)} {st st' : RS} {L : List (Event K V)} {tr : List (Visit K)}
    (h : Scans c m st L tr m' st') : ∀ e ∈ L, .victim (eventKey e) ∈ tr := by
  induction h with
  | nil => simp
  | pass here hot kept rest ih => intro e he; exact List.mem_cons_of_mem _ (ih e he)
  | promote here cold referenced rest ih => intro e he; exact List.mem_cons_of_mem _ (ih e he)
  | spare here unref heavy free before light rest ih =>
    intro e he
    rcases List.mem_cons.mp he with rfl | he
    · simp [eventKey]
    · exact List.mem_cons_of_mem _ (ih e he)
  | evict here unref heavy free before still rest ih =>
    intro e he
    rcases List.mem_cons.mp he with rfl | he
    · simp [eventKey]
    · rcases List.mem_cons.mp he with rfl | he
      · simp [eventKey]
      · exact List.mem_cons_of_mem _ (ih e he)

/-- A hit, with queue and counter of the item. -/
theorem StepEff.hit_info {op : Op K V} {x : Shard K V × Out K V × Req K V RS} (hi : Inv0 c s) (h : StepEff c s op x)
    {k : K} {b : Bool} {f : V → V} {out : V → Out K V} (hop : HitOp op k b f out) {r : Resident K V}
    (hk : s.info k = some r) :
    x.1.info = put s.info k { r with referenced := if b then bumpRef r.referenced else r.referenced, value := f r.value } := by
  have hyes : ¬ NoRes s k := by
    intro hno
    rw [hi.info_none.mpr hno] at hk; cases hk
  have hpend : ∀ {s1 : Shard K V} {p : Plh}, Pending c s k s1 p → False := by
    intro s1 p hp
    exact hyes hp.noRes
  cases h with
  | hit hop' t r' hk' wrote =>
    have : ∀ {k' : K} {b' : Bool} {f' : V → V} {out' : V → Out K V}, HitOp op k' b' f' out' → k' = k ∧ b' = b ∧ f' = f := by
      intro k' b' f' out' h'
      cases hop <;> cases h' <;> exact ⟨rfl, rfl, rfl⟩
    obtain ⟨rfl, rfl, rfl⟩ := this hop'
    have h1 := hi.info_slot wrote.upd.before
    rw [hk', hk] at h1
    cases h1
    rw [wrote.info_put hi (by intro r' hr'; cases hr'; rfl), hk']
  | miss hop' hno =>
    exfalso
    cases hop <;> cases hop' <;> exact hyes hno
  | leave hop' hp => exfalso; cases hop <;> cases hop' <;> exact hpend hp
  | drop hop' hp => exfalso; cases hop <;> cases hop' <;> exact hpend hp
  | fill hop' hp => exfalso; cases hop <;> cases hop' <;> exact hpend hp
  | fillMutOut hp => exfalso; cases hop; exact hpend hp
  | fillMut hp => exfalso; cases hop; exact hpend hp
  | _ => cases hop

/-- Which calls make lifecycle calls. -/
theorem Spec.OpSpec.silent {target : Nat} {m m' : K → Option V} {op : Op K V} {out : Out K V} {log : List (Event K V)}
    (h : OpSpec c target m op out log m') (hst : ∀ k v f, ¬ StoresThen m op out k v f)
    (hrep : ∀ k v soft, op ≠ .replace k v soft) : log = [] := by
  cases op with
  | insert k v => exact absurd (.plain (.insert k v _)) (hst k v id)
  | replace k v soft => exact absurd rfl (hrep k v soft)
  | getOrInsertWith k load =>
    simp only [OpSpec] at h
    cases hm : m k with
    | some w => rw [hm] at h; exact h.2.1
    | none =>
      rw [hm] at h
      cases load with
      | none => exact h.2.1
      | some w => exact absurd (.plain (.load w _ hm)) (hst k w id)
  | getMutOrInsertWith k load f =>
    simp only [OpSpec] at h
    cases hm : m k with
    | some w => rw [hm] at h; exact h.2.1
    | none =>
      rw [hm] at h
      cases load with
      | none => exact h.2.1
      | some w => exact absurd (.loadMut w f _ hm) (hst k w f)
  | getRefOrGuard k use =>
    simp only [OpSpec] at h
    cases hm : m k with
    | some w => rw [hm] at h; exact h.2.1
    | none =>
      rw [hm] at h
      cases use with
      | insert w => exact absurd (.plain (.guard w _ hm)) (hst k w id)
      | drop => exact h.2.1
      | forget => exact h.2.1
  | getMutOrGuard k f use =>
    simp only [OpSpec] at h
    cases hm : m k with
    | some w => rw [hm] at h; exact h.2.1
    | none =>
      rw [hm] at h
      cases use with
      | insert w => exact absurd (.plain (.guardMut f w _ hm)) (hst k w id)
      | drop => exact h.2.1
      | forget => exact h.2.1
  | _ => exact h.2.1

/-! ### Calls that always return -/

theorem Unsync.Run.returns {target cap gcap : Nat} {h : List (Call K V)} (hr : Run c (Shard.new target cap gcap) h s)
    {op : Op K V} (ha : ∀ w, ¬ Adds c target s.contents op w) (hg : ¬ Grows s.contents op) :
    ∃ s' out q, step c s op = .ok (s', out, q) := by
  have hre := hr.reach_new
  rcases step_sat hre.inv.toInv0 op with ⟨x, hx, -⟩ | ⟨p', hp', he⟩
  · exact ⟨_, _, _, hx⟩
  · exfalso
    rcases he with ⟨rfl, w, hw, -⟩ | ⟨rfl, hg', -⟩
    · rw [hre.target] at hw; exact ha w hw
    · exact hg hg'

/-! ### The admission check -/

/-- The lifecycle calls of the admission check. -/
def checkLog (c : Cfg K V RS) (target : Nat) (k : K) (v : V) : List (Event K V) :=
  if target < c.weight k v ∧ c.pinned k v = false then [.beforeEvict k v (enterValue c target k v)] else []

omit [DecidableEq K] in
theorem Spec.Enter.det {target : Nat} {k : K} {v v1 : V} {st : RS} {pre : List (Event K V)}
    (h : Enter c target k v st pre v1) : v1 = enterValue c target k v ∧ pre = checkLog c target k v ∧
      (pre ≠ [] ↔ target < c.weight k v ∧ c.pinned k v = false) := by
  unfold checkLog
  cases h with
  | direct fits =>
    have : ¬ (target < c.weight k v ∧ c.pinned k v = false) := by
      rintro ⟨h1, h2⟩
      rcases fits with h | h
      · omega
      · rw [h2] at h; cases h
    unfold enterValue
    rw [if_neg this, if_neg this]
    exact ⟨rfl, rfl, by simp [this]⟩
  | rewritten heavy free before =>
    have : target < c.weight k v ∧ c.pinned k v = false := ⟨heavy, free⟩
    unfold enterValue
    rw [if_pos this, if_pos this, before]
    exact ⟨rfl, rfl, by simp [this]⟩

omit [DecidableEq K] in
theorem enterWeight_value (c : Cfg K V RS) (target : Nat) (k : K) (v : V) :
    enterWeight c target k v = c.weight k (enterValue c target k v) := by
  unfold enterWeight enterValue
  split <;> rfl

omit [DecidableEq K] in
theorem admissible_of_admitted {target : Nat} {k : K} {v v1 : V} {st : RS} {pre : List (Event K V)}
    (h : Enter c target k v st pre v1) (hf : Admitted c target k pre v1) : Admissible c target k v := by
  obtain ⟨rfl, -, h3⟩ := h.det
  by_cases hp : pre = []
  · have : ¬ (target < c.weight k v ∧ c.pinned k v = false) := fun h => (h3.mpr h) hp
    unfold Admissible
    cases hpin : c.pinned k v with
    | true => exact Or.inl rfl
    | false =>
      right
      unfold enterWeight
      rw [if_neg this]
      have : ¬ target < c.weight k v := fun h => this ⟨h, hpin⟩
      omega
  · right
    rw [enterWeight_value]
    exact hf hp

omit [DecidableEq K] in
theorem inadmissible_of_heavy {target : Nat} {k : K} {v v1 : V} {st : RS} {pre : List (Event K V)}
    (h : Enter c target k v st pre v1) (asked : pre ≠ []) (heavy : target < c.weight k v1) : ¬ Admissible c target k v := by
  obtain ⟨rfl, -, h3⟩ := h.det
  rintro (h' | h')
  · rw [(h3.mp asked).2] at h'; cases h'
  · rw [enterWeight_value] at h'; omega

/-- Storing an inadmissible item. -/
theorem Spec.Store.inadmissible {target : Nat} {m m' : K → Option V} {k : K} {v : V} {L : List (Event K V)}
    (h : Store c target m k v L m') (hadm : ¬ Admissible c target k v) :
    L = .beforeEvict k v (enterValue c target k v) :: (m k).toList.map (.onEvict k) ++
      [.onEvict k (enterValue c target k v)] ∧ m' = del m k := by
  cases h with
  | rejected enter asked heavy =>
    obtain ⟨rfl, h2, h3⟩ := enter.det
    refine ⟨?_, rfl⟩
    unfold checkLog at h2
    rw [if_pos (h3.mp asked)] at h2
    rw [h2]
    rfl
  | overwritten enter fits => exact absurd (admissible_of_admitted enter fits) hadm
  | added enter fits => exact absurd (admissible_of_admitted enter fits) hadm

/-- Storing an admissible item: it is readable afterwards unless it was itself among the victims. -/
theorem Spec.Store.admissible {target : Nat} {m m' : K → Option V} {k : K} {v : V} {L : List (Event K V)}
    (h : Store c target m k v L m') (hadm : Admissible c target k v) :
    ∃ st st' L', L = preamble c target m k v ++ L' ∧
      Evicts c (put m k (enterValue c target k v)) st L' m' st' := by
  cases h with
  | rejected enter asked heavy => exact absurd hadm (inadmissible_of_heavy enter asked heavy)
  | overwritten enter fits here after =>
    obtain ⟨rfl, rfl, h3⟩ := enter.det
    exact ⟨_, _, _, by unfold preamble checkLog; rw [here]; simp, after⟩
  | added enter fits absent first after either =>
    obtain ⟨rfl, rfl, h3⟩ := enter.det
    exact ⟨_, _, _, by unfold preamble checkLog; rw [absent]; simp, Evicts.merge absent first after⟩

/-! ### Statistics -/

omit [DecidableEq K] in
theorem StoreEff.stats {k : K} {v : V} {str : Strategy} {q : Req K V RS} {x : Shard K V × Req K V RS × Option V}
    (h : StoreEff c s q k v str x) : x.1.hits = s.hits ∧ x.1.misses = s.misses := by
  cases h with
  | put q1 v1 he adm hp =>
    obtain ⟨s1, s2, qa, qb, t, old, r, pre, wrote, hk, hv, href, hold, post, fits, fresh, done, same, once⟩ := hp
    exact ⟨same.hits, same.misses⟩
  | reject q1 v1 hw hp hb hw1 hrej =>
    cases hrej with
    | old t r hk same wrote => cases str <;> exact ⟨same.hits, same.misses⟩
    | plh t ph hk hno same wrote => cases str <;> exact ⟨same.hits, same.misses⟩
    | none => cases str <;> exact ⟨rfl, rfl⟩
  | absent q1 v1 he => exact ⟨rfl, rfl⟩

/-! ### Rings -/

omit [DecidableEq K] in
theorem walk_ring {R : List Nat} {t : Nat} (n : Nat) (hr : Ring s.entries.nxt s.entries.prv R) (ht : t ∈ R) :
    s.walk n t ∈ R := by
  induction n generalizing t with
  | zero => exact ht
  | succ n ih =>
    obtain ⟨A, B, rfl⟩ := List.append_of_mem ht
    obtain ⟨m, h1, h2, -⟩ := hr.next_mem
    unfold walk
    apply ih
    rw [h2]
    have := List.mem_of_mem_head? (Option.mem_def.mpr h1)
    simp only [List.mem_append, List.mem_cons, List.not_mem_nil, or_false] at this ⊢
    rcases this with (h | h) | h
    · exact Or.inr (Or.inr h)
    · exact Or.inl h
    · exact Or.inr (Or.inl h)

omit [DecidableEq K] in
theorem walk_path {a b : Nat} {A B : List Nat} (h : Path s.entries.nxt s.entries.prv (a :: A ++ b :: B)) :
    s.walk (A.length + 1) a = b := by
  induction A generalizing a with
  | nil => exact h.1.1
  | cons x A ih =>
    have h' : Path s.entries.nxt s.entries.prv (x :: A ++ b :: B) := h.2
    have := ih h'
    simp only [List.length_cons, walk]
    rw [show s.entries.nxt a = x from h.1.1]
    exact this

omit [DecidableEq K] in
/-- An item is a candidate exactly when it has weight. -/
theorem Inv0.candidate (hi : Inv0 c s) {t : Nat} {r : Resident K V} (ht : s.entries.item t = some (.resident r)) :
    s.Candidate r.state t ↔ c.weight r.key r.value ≠ 0 := by
  obtain ⟨R, F, hl, hh, hm⟩ := hi.str
  have hrho : c.rho s.entries.item t = some r.state.ring ↔ c.weight r.key r.value ≠ 0 := by
    unfold Cfg.rho Cfg.ringOf
    rw [ht]
    simp only [Option.bind_some]
    split <;> simp_all
  rw [← hrho, ← hm]
  constructor
  · rintro ⟨h, n, h1, h2⟩
    rw [hh] at h1
    rw [← h2]
    exact walk_ring n (hl.ring _) (List.mem_of_mem_head? (Option.mem_def.mpr h1))
  · intro hmem
    cases hR : R r.state.ring with
    | nil => rw [hR] at hmem; simp at hmem
    | cons h tl =>
      have hring := hl.ring r.state.ring
      rw [hR] at hring hmem
      refine ⟨h, ?_⟩
      rcases List.mem_cons.mp hmem with rfl | hmem
      · exact ⟨0, by rw [hh, hR]; rfl, rfl⟩
      · obtain ⟨A, B, rfl⟩ := List.append_of_mem hmem
        refine ⟨A.length + 1, by rw [hh, hR]; rfl, walk_path (B := B ++ [h]) ?_⟩
        simpa [Ring] using hring

end

theorem filterMap_modify {A B : Type _} (g : A → Option B) (f : A → A) :
    ∀ (l : List A) (t : Nat), (∀ x, l[t]? = some x → g (f x) = g x) → (l.modify t f).filterMap g = l.filterMap g
  | [], t, _ => by simp
  | a :: l, 0, h => by
    have := h a rfl
    simp [List.modify_cons, List.filterMap_cons, this]
  | a :: l, t + 1, h => by
    have := filterMap_modify g f l t (fun x hx => h x (by simpa using hx))
    simp [List.filterMap_cons, this]

omit [DecidableEq K] in
theorem Shard.iter_setEntry {s : Shard K V} {t : Nat} {e e' : Entry K V} (he : s.entries.item t = some e)
    (hp : residentPair e' = residentPair e) : (s.setEntry t e').iter = s.iter := by
  have h1 : ∀ s : Shard K V, s.iter = s.entries.entries.filterMap (fun x => x.item.bind residentPair) := by
    intro s
    unfold Shard.iter Slab.iter
    rw [List.filterMap_filterMap]
  rw [h1, h1]
  refine filterMap_modify _ _ _ _ ?_
  intro x hx
  unfold Slab.item at he
  rw [hx] at he
  have he : x.item = some e := he
  simp [he, hp]

/-- A lookup leaves items, counters of items and all links as they are. -/
theorem get_links {s : Shard K V} (hi : Inv0 c s) {k : K} {x : Shard K V × Option V}
    (hg : s.get (c.hash k) (fun x => x == k) = .ok x) :
    x.1.iter = s.iter ∧ x.1.len = s.len ∧ x.1.weight = s.weight ∧ x.1.entries.nxt = s.entries.nxt ∧
      x.1.entries.prv = s.entries.prv ∧ x.1.head = s.head := by
  unfold Shard.get at hg
  rcases Shard.searchResident_spec hi.idx (Lawful.key c k) with ⟨t, r, h1, h2, -⟩ | ⟨h1, -⟩
  · rw [h1] at hg
    simp only [Res.ok_bind] at hg
    split at hg
    · cases hg
      refine ⟨Shard.iter_setEntry h2 rfl, rfl, rfl, ?_, ?_, ?_⟩
      · funext u; exact Slab.nxt_setItem ..
      · funext u; exact Slab.prv_setItem ..
      · funext i; cases i <;> rfl
    · cases hg; exact ⟨rfl, rfl, rfl, rfl, rfl, rfl⟩
  · rw [h1] at hg
    cases hg
    exact ⟨rfl, rfl, rfl, rfl, rfl, by funext i; cases i <;> rfl⟩

/-- A victim is announced by `before_evict`: without such a call the item is still there, unchanged. -/
theorem Spec.Evicts.announced {m m' : K → Option V} {st st' : RS} {L : List (Event K V)} (h : Evicts c m st L m' st') {k : K}
    {v : V} (hk : m k = some v) : m' k = some v ∨ ∃ w, .beforeEvict k v w ∈ L := by
  induction h with
  | nil => exact Or.inl hk
  | @spare m m' st st1 st' k1 v1 v' log here heavy free before light rest ih =>
    by_cases hkk : k = k1
    · subst hkk
      rw [here] at hk
      cases hk
      exact Or.inr ⟨v', by simp⟩
    · rcases ih (by simp [Spec.put, hkk, hk]) with h | ⟨w, h⟩
      · exact Or.inl h
      · exact Or.inr ⟨w, by simp [h]⟩
  | @evict m m' st st1 st' k1 v1 v' log here heavy free before still rest ih =>
    by_cases hkk : k = k1
    · subst hkk
      rw [here] at hk
      cases hk
      exact Or.inr ⟨v', by simp⟩
    · rcases ih (by simp [Spec.del, hkk, hk]) with h | ⟨w, h⟩
      · exact Or.inl h
      · exact Or.inr ⟨w, by simp [h]⟩

end QuickCache
