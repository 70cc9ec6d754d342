import Verif.Proofs.Vary
import Verif.Props.ConcExample

/-!
# Property C75: the lifecycle may answer differently from call to call

`c` fixes hasher and weighter, every call has its own configuration `c'` with these two (`Kin c c'`) and an arbitrary lifecycle.
-/

namespace QuickCache.Props
variable {K V RS : Type} [DecidableEq K] {c c' : Cfg K V RS} {target cap gcap : Nat}
  {h : List (Cfg K V RS × Unsync.Call K V)} {s s' : Shard K V}
open Unsync Spec

/-! ### The sequential cache -/

/-- Lookups return the value last stored. -/
theorem C75_lookup (hr : Varied c (Shard.new target cap gcap) h s) (hk : Kin c c') {op : Op K V} {out : Out K V}
    {q : Req K V RS} (hs : step c' s op = .ok (s', out, q)) {k : K} {v : V} (hy : Yields op out k v) :
    lastStored k (h.map (·.2)) = some v := by
  have ho := hr.opSpec hk hs
  apply (hr.replays (.new ..)).latest k v
  cases hy with
  | get => obtain ⟨h, -, -⟩ := ho; rw [Out.value.injEq] at h; exact h.symm
  | peek => obtain ⟨h, -, -⟩ := ho; rw [Out.value.injEq] at h; exact h.symm
  | getMut => obtain ⟨h, -, -⟩ := ho; rw [Out.value.injEq] at h; exact h.symm
  | peekMut => obtain ⟨h, -, -⟩ := ho; rw [Out.value.injEq] at h; exact h.symm
  | load _ load =>
    simp only [OpSpec] at ho
    cases hm : s.contents k with
    | some w => rw [hm] at ho; obtain ⟨h, -, -⟩ := ho; cases h; rfl
    | none => rw [hm] at ho; cases load <;> simp at ho
  | loadMut _ load f =>
    simp only [OpSpec] at ho
    cases hm : s.contents k with
    | some w => rw [hm] at ho; obtain ⟨h, -, -⟩ := ho; cases h; rfl
    | none => rw [hm] at ho; cases load <;> simp at ho
  | guard _ use =>
    simp only [OpSpec] at ho
    cases hm : s.contents k with
    | some w => rw [hm] at ho; obtain ⟨h, -, -⟩ := ho; cases h; rfl
    | none => rw [hm] at ho; cases use <;> simp at ho
  | guardMut _ f use =>
    simp only [OpSpec] at ho
    cases hm : s.contents k with
    | some w => rw [hm] at ho; obtain ⟨h, -, -⟩ := ho; cases h; rfl
    | none => rw [hm] at ho; cases use <;> simp at ho
  | remove k0 =>
    obtain ⟨h, -, -⟩ := ho
    cases hm : s.contents k0 with
    | none => rw [hm] at h; cases h
    | some w => rw [hm] at h; cases h; exact hm
  | drain l _ _ mem =>
    obtain ⟨⟨l', h, hl⟩, -, -⟩ := ho
    cases h
    exact (hl.2 k v).mp mem

/-- The cache holds exactly the items stored and not removed, replaced or evicted since, each once, and `len` and `weight`
are exact. -/
theorem C75_contents (hr : Varied c (Shard.new target cap gcap) h s) :
    (∀ k v, (k, v) ∈ s.iter ↔ playAll (h.map (·.2)) k = some v) ∧ (s.iter.map (·.1)).Nodup ∧ s.len = s.iter.length ∧
      ∀ w, s.weight = .ok w → w = total c.weight s.iter := by
  have hi := hr.reach_new.inv.toInv0
  refine ⟨fun k v => ?_, hr.lists.1, hi.len_iter.symm, fun w hw => ?_⟩
  · rw [hr.lists.2 k v, ← (hr.replays (.new ..)).playAll]
  · rw [hi.total_iter]
    unfold Shard.weight cadd at hw
    split at hw
    · cases hw; rfl
    · cases hw

/-- The whole history is a possible behaviour of a plain map from which items are evicted as specified, each call with the
lifecycle of the moment. -/
theorem C75_refines (hr : Varied c (Shard.new target cap gcap) h s) : VariedReplays target (fun _ => none) h s.contents :=
  hr.replays (.new ..)

/-- … and of the clock machine. -/
theorem C75_policy (hr : Varied c (Shard.new target cap gcap) h s) :
    ∃ m : Clock K V, VariedClock (.empty target cap gcap) h m ∧ (∀ k v, (k, v) ∈ s.iter ↔ m.value k = some v) ∧
      (∀ w, s.weight = .ok w → w = m.hotWeight c + m.coldWeight c) ∧ m.ghosts.length = s.numNonResident := by
  obtain ⟨m, h1, R, F, h2, rfl⟩ := hr.clock (.new ..) (new_sim ..)
  have hinv := hr.reach_new.inv.toInv0
  refine ⟨_, h1, ?_, ?_, Shard.abs_ghosts hinv h2⟩
  · intro k v
    rw [Shard.abs_value]
    exact hr.lists.2 k v
  · intro w hw
    rw [Shard.abs_hotWeight hinv h2, Shard.abs_coldWeight hinv h2]
    unfold Shard.weight cadd at hw
    split at hw
    · cases hw; rfl
    · cases hw

/-- Every call returns, unless the cache is too large: it neither runs for ever nor fails an assertion. -/
theorem C75_panics (hr : Varied c (Shard.new target cap gcap) h s) (hk : Kin c c') {op : Op K V} {p : Panic}
    (hs : step c' s op = .error p) :
    (p = .overflow ∧ ∃ w, Adds c' target s.contents op w ∧ 2 ^ 64 ≤ total c.weight s.iter + w) ∨
    (p = .slabFull ∧ Grows s.contents op ∧ s.entries.entries.length = 2 ^ 32 - 2) := by
  have hre := hk.reach hr.reach_new
  rcases step_sat hre.inv.toInv0 op with ⟨x, hx, -⟩ | ⟨p', hp', he⟩
  · rw [hx] at hs; cases hs
  · rw [hp'] at hs
    cases hs
    rcases he with ⟨rfl, w, hw, hle⟩ | ⟨rfl, hg, hlen⟩
    · rw [hre.target] at hw
      exact Or.inl ⟨rfl, w, hw, by rw [← hk.weight, hre.inv.toInv0.total_iter]; exact hle⟩
    · exact Or.inr ⟨rfl, hg, by omega⟩

/-- An item that is pinned during a call stays, whatever it was before, … -/
theorem C75_pinned (hr : Varied c (Shard.new target cap gcap) h s) (hk : Kin c c') {op : Op K V} {out : Out K V}
    {q : Req K V RS} (hs : step c' s op = .ok (s', out, q)) {k : K} {v : V} (hm : (k, v) ∈ s.iter)
    (hp : c'.pinned k v = true) (ht : ¬ Touches k v ⟨op, out, q.log⟩) : (k, v) ∈ s'.iter ∧ ∀ e ∈ q.log, eventKey e ≠ k := by
  obtain ⟨h1, h2⟩ := ((hr.opSpec hk hs).spared ((hr.lists.2 k v).mp hm) ht).safe (Or.inr hp)
  exact ⟨((Varied.call hr hk hs).lists.2 k v).mpr h1, h2⟩

/-- … and one that is not pinned during a call counts: after an admitted item with weight is stored, the items not pinned
at that moment weigh at most the capacity. In particular unpinning items that filled the cache beyond its capacity gives the
room back with the next such call. -/
theorem C75_capacity (hr : Varied c (Shard.new target cap gcap) h s) (hk : Kin c c') (ht : target ≤ cap) {op : Op K V}
    {out : Out K V} {q : Req K V RS} (hs : step c' s op = .ok (s', out, q)) {k : K} {v : V}
    (hst : Stores s.contents op out k v) (hadm : Admissible c' target k v) (hw : enterWeight c' target k v ≠ 0) :
    total (evictable c') s'.iter ≤ s'.capacity := by
  rw [show s'.capacity = cap from (Varied.call hr hk hs).reach_new.capacity]
  exact (hk.reach hr.reach_new).repair ht hs hst hadm hw

/-- Performing calls, each with its own lifecycle. -/
def runVaried (c : Cfg K V RS) (s : Shard K V) : List ((K → V → Bool) × Op K V) → Res (Shard K V × List (Cfg K V RS × Call K V))
  | [] => .ok (s, [])
  | (p, op) :: ops => do
    let (s1, out, q) ← step { c with pinned := p } s op
    let (s2, h) ← runVaried c s1 ops
    .ok (s2, ({ c with pinned := p }, ⟨op, out, q.log⟩) :: h)

theorem runVaried_varied {s0 : Shard K V} : ∀ {ops : List ((K → V → Bool) × Op K V)} {s : Shard K V}
    {h h' : List (Cfg K V RS × Call K V)}, Varied c s0 h s → runVaried c s ops = .ok (s', h') → Varied c s0 (h ++ h') s' := by
  intro ops
  induction ops with
  | nil =>
    intro s h h' hr hs
    cases hs
    simpa using hr
  | cons x ops ih =>
    obtain ⟨p, op⟩ := x
    intro s h h' hr hs
    unfold runVaried at hs
    rcases hstep : step { c with pinned := p } s op with e | ⟨s1, out, q⟩
    · rw [hstep] at hs; cases hs
    · rw [hstep] at hs
      simp only [Res.ok_bind] at hs
      rcases hrest : runVaried c s1 ops with e | ⟨s2, h2⟩
      · rw [hrest] at hs; cases hs
      · rw [hrest] at hs
        cases hs
        have hk : Kin c { c with pinned := p } := ⟨rfl, rfl, rfl⟩
        have := ih (.call hr hk hstep) hrest
        simpa using this

/-- Three items pinned at first fill the cache beyond its capacity of 10. The pins are taken off, and the next insert brings
the weight down; an item pinned later stays. -/
def varyEx (n : Nat) : List ((Nat → Nat → Bool) × Op Nat Nat) :=
  ([(fun _ _ => true, .insert 1 15), (fun _ _ => true, .insert 2 15), (fun _ _ => true, .insert 3 15),
    (fun _ _ => false, .insert 4 14), (fun k _ => k == 4, .insert 5 16), (fun k _ => k == 5, .get 5)] :
    List ((Nat → Nat → Bool) × Op Nat Nat)).take n

def varyIter (n : Nat) : List (Nat × Nat) :=
  match runVaried exCfg exNew (varyEx n) with
  | .ok (s, _) => s.iter
  | .error _ => []

example : varyIter 3 = [(1, 15), (2, 15), (3, 15)] ∧ varyIter 4 = [(1, 15), (4, 14)] ∧ varyIter 5 = [(5, 16), (4, 14)] := by
  decide +kernel

/-! ### The concurrent cache -/

section conc
open Conc
variable {z z' : State K V} {tr : List (Cfg K V RS × List (Ev K V))}

/-- Lookups and writes of all threads take effect in one order, as on a plain map, each with the lifecycle of the moment;
every key is stored at most once, and `len` and `weight` are exact. -/
theorem C75_linearizable (hr : VariedConc c (State.new (Shard.new target cap gcap)) tr z) (hq : c.ptrEq = true) :
    VariedReplays target (fun _ => none) (variedCalls tr) z.shard.contents ∧
      (∀ k v, (k, v) ∈ z.shard.iter ↔ playAll ((variedCalls tr).map (·.2)) k = some v) ∧
      (z.shard.iter.map (·.1)).Nodup ∧ z.shard.len = z.shard.iter.length ∧
      ∀ w, z.shard.weight = .ok w → w = total c.weight z.shard.iter := by
  have hi := (hr.reach hq (.new ..)).inv.shard.toInv0
  refine ⟨hr.replays hq, fun k v => ?_, (lists_iter hi).1, hi.len_iter.symm, fun w hw => ?_⟩
  · rw [(lists_iter hi).2 k v, (hr.replays hq).playAll]
  · rw [hi.total_iter]
    unfold Shard.weight cadd at hw
    split at hw
    · cases hw; rfl
    · cases hw

/-- No action fails an assertion of the code. -/
theorem C75_asserts (hr : VariedConc c (State.new (Shard.new target cap gcap)) tr z) (hq : c.ptrEq = true) (hk : Kin c c')
    {act : Act K V} {e : Panic} (hs : exec c' z act = some (.error e)) :
    (e = .overflow ∧ ∃ k v, 2 ^ 64 ≤ total c.weight z.shard.iter + enterWeight c' target k v) ∨
    (e = .slabFull ∧ z.shard.entries.entries.length = 2 ^ 32 - 2) := by
  rw [← hk.weight]
  exact (hk.creach (hr.reach hq (.new ..))).asserts (hk.ptrEq.trans hq) hs

/-- At most one caller is entitled to provide the value of a load. -/
theorem C75_one (hr : VariedConc c (State.new (Shard.new target cap gcap)) tr z) (hq : c.ptrEq = true) {a b : Nat} {p : Plh}
    (ha : Entitled z a p) (hb : Entitled z b p) : a = b :=
  (hr.reach hq (.new ..)).inv.entitled_one ha hb

/-- A caller that waits waits for somebody. -/
theorem C75_responsible (hr : VariedConc c (State.new (Shard.new target cap gcap)) tr z) (hq : c.ptrEq = true) {a : Nat}
    {p : Plh} (hw : Waits z a p) : ∃ b, b ≠ a ∧ Entitled z b p := by
  have hi := (hr.reach hq (.new ..)).inv
  obtain ⟨ps, h1, h2, -, h4⟩ := hi.waits hw
  obtain ⟨b, hb⟩ := hi.entitled_exists ⟨ps, h1, h2, h4⟩
  refine ⟨b, ?_, hb⟩
  rintro rfl
  obtain ⟨⟨k, hc⟩, hf⟩ := hw
  cases hb with
  | notified k h flag => rw [hf] at flag; cases flag
  | _ => simp_all

/-- Without new callers only finitely many actions are done, … -/
theorem C75_finite (hr : VariedConc c (State.new (Shard.new target cap gcap)) tr z) (hq : c.ptrEq = true) {n : Nat}
    (hs : VariedSteps c z n z') : n ≤ 14 * z.next := by
  have := (hs.work hq (hr.reach hq (.new ..))).2.2
  have := work_le z
  omega

/-- … and as long as some caller is not done, somebody can go on, whatever the lifecycle is then. -/
theorem C75_progress (hr : VariedConc c (State.new (Shard.new target cap gcap)) tr z) (hq : c.ptrEq = true) (hk : Kin c c')
    {a : Nat} (ha : z.ctl a ≠ .idle) : ∃ act, Due z act ∧ exec c' z act ≠ none :=
  (hk.creach (hr.reach hq (.new ..))).inv.progress ha

/-- Performing actions, each with its own lifecycle. -/
def actVaried (c : Cfg K V RS) (s : State K V) :
    List ((K → V → Bool) × Act K V) → Option (State K V × List (Cfg K V RS × List (Ev K V)))
  | [] => some (s, [])
  | (p, act) :: acts =>
    match exec { c with pinned := p } s act with
    | some (.ok (s1, e1)) =>
      match actVaried c s1 acts with
      | some (s2, e2) => some (s2, ({ c with pinned := p }, e1) :: e2)
      | none => none
    | _ => none

theorem actVaried_varied {s0 : State K V} : ∀ {acts : List ((K → V → Bool) × Act K V)} {s : State K V}
    {t t' : List (Cfg K V RS × List (Ev K V))}, VariedConc c s0 t s → actVaried c s acts = some (z', t') →
    VariedConc c s0 (t ++ t') z' := by
  intro acts
  induction acts with
  | nil =>
    intro s t t' hr hs
    cases hs
    simpa using hr
  | cons x acts ih =>
    obtain ⟨p, act⟩ := x
    intro s t t' hr hs
    unfold actVaried at hs
    split at hs
    · rename_i s1 e1 h1
      split at hs
      · rename_i s2 e2 h2
        cases hs
        have hk : Kin c { c with pinned := p } := ⟨rfl, rfl, rfl⟩
        have := ih (.act hr hk h1) h2
        simpa using this
      · cases hs
    · cases hs

/-- The example in which two callers wait for a load, the even keys being pinned during one half of the actions and the odd
keys during the other half. -/
def cxVaried : Option (State Nat Nat × List (Cfg Nat Nat (List Nat) × List (Ev Nat Nat))) :=
  actVaried cxCfg cxNew (cxWait.zipIdx.map (fun x => (fun k _ => k % 2 == x.2 % 2, x.1)))

example : (match cxVaried with
    | some (s, _) => decide (s.ctl 1 = .waiting 7 (ld 0 0)) && decide (s.ctl 2 = .waiting 7 (ld 0 0)) && !s.flag 1
    | none => false) = true := by decide +kernel

end conc

end QuickCache.Props
