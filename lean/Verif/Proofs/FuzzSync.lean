import Verif.Model.FuzzSync
import Verif.Proofs.FuzzUnsync
import Verif.Proofs.SecKeep
import Verif.Proofs.ClockConc
import Verif.Props.Conc

/-!
# The fuzz target for `sync::Cache` never fails: proof
-/

namespace QuickCache.FuzzSync
open Conc Spec
open FuzzUnsync (Value Layout cfg handed fresh checkEvicted)

/-- How many slots an action can add. -/
def grows {K V : Type _} : Act K V → Nat
  | .upsert _ | .call _ => 1
  | _ => 0

section
variable {K V RS : Type _} [DecidableEq K]

/-- How many slots a section can add. -/
def growsSec : Section K V → Nat
  | .upsert _ | .call _ => 1
  | _ => 0

theorem len_sec (c : Cfg K V RS) (s : Shard K V) (sec : Section K V) :
    On (fun x => x.1.entries.entries.length ≤ s.entries.entries.length + growsSec sec) (Sync.step c s sec) := by
  cases sec with
  | call op => exact .bind' (Unsync.gr_step c s op) (fun a ha => .ok ha.1)
  | upsert k =>
    refine .bind' (Shard.gr_upsertPlaceholder c s _ _ _) (fun a ha => ?_)
    obtain ⟨s1, u⟩ := a
    cases u with
    | found i v => exact .ok ha.1
    | pending p n => exact .ok ha.1
  | fill k p r v => exact .bind' (Shard.kp_replacePlaceholder c s _ _ _ _) (fun a ha => .ok (Nat.le_of_eq ha.1))
  | abandon k p => exact .bind' (Shard.kp_removePlaceholder c s _) (fun a ha => .ok (Nat.le_of_eq ha.1))
  | find k => exact .bind (fun a => .ok (Nat.le_refl _))
  | load k t =>
    simp only [Sync.step]
    split
    · exact .ok (Nat.le_refl _)
    · exact .err
  | bump k t =>
    simp only [Sync.step]
    split
    · exact .ok (Nat.le_of_eq (Shard.kp_setEntry _ _ _).1)
    · exact .err
  | count hit =>
    simp only [Sync.step]
    refine .ok ?_
    cases hit <;> exact Nat.le_refl _

theorem len_exec {c : Cfg K V RS} {s s' : State K V} (h : CInv c s) (hq : c.ptrEq = true) {x : Act K V} {evs : List (Ev K V)}
    (hx : exec c s x = some (.ok (s', evs))) :
    s'.shard.entries.entries.length ≤ s.shard.entries.entries.length + grows x := by
  rcases exec_sect h hq hx with ⟨h1, -⟩ | ⟨sec, out, q, rest, h1, h2, h3, -⟩
  · rw [h1]; omega
  · have h4 := (len_sec c s.shard sec).res _ h3
    have he := h.eff hq hx
    refine Nat.le_trans h4 (Nat.add_le_add_left ?_ _)
    cases he with
    | enter w h hw =>
      split at h1
      · simp only [List.cons.injEq, reduceCtorEq, false_and] at h1
      · cases h1
    | _ =>
      simp only [List.cons.injEq, Ev.sect.injEq, reduceCtorEq, false_and] at h1 <;>
      first
      | (obtain ⟨⟨rfl, -⟩, -⟩ := h1; exact Nat.le_refl _)

end

/-! ### Single actions -/

variable {hash : UInt16 → UInt64} {lay : Layout} {T C G n : Nat} {w : World}

/-- The cache is in a state of some execution and has `n` slots at most. -/
structure Live (hash : UInt16 → UInt64) (T C G n : Nat) (w : World) : Prop where
  run : ∃ tr, Conc.Run (cfg hash true) (State.new (Shard.new T C G)) tr w.st
  room : w.st.shard.entries.entries.length ≤ n

namespace Live

theorem inv (h : Live hash T C G n w) : CInv (cfg hash true) w.st := by
  obtain ⟨tr, hr⟩ := h.run
  exact (hr.reach rfl (.new ..)).inv

theorem target (h : Live hash T C G n w) : w.st.shard.weightTargetHot = T := by
  obtain ⟨tr, hr⟩ := h.run
  exact (hr.reach rfl (.new ..)).reach.target

theorem light (h : Live hash T C G n w) : total (cfg hash true).weight w.st.shard.iter ≤ 65536 * 65536 :=
  Nat.le_trans (FuzzUnsync.total_lt _) (Nat.mul_le_mul_right _ (FuzzUnsync.keys_le h.inv.shard.toInv0.nodup_iter))

theorem validates (h : Live hash T C G n w) (ht : T ≤ C) : w.st.shard.validate (cfg hash true) false = .ok () := by
  have hl := h.light
  obtain ⟨tr, hr⟩ := h.run
  have hi := h.inv.shard
  rw [hi.toInv0.total_iter] at hl
  refine hi.validate (by omega) (fun _ => ?_)
  rw [(hr.reach rfl (.new ..)).reach.capacity]
  exact hr.evW_le rfl ht

theorem mono (h : Live hash T C G n w) {m : Nat} (hm : n ≤ m) : Live hash T C G m w := ⟨h.run, Nat.le_trans h.room hm⟩

/-- A possible action is performed. -/
theorem act (h : Live hash T C G n w) (hl : lay.Fair) (hn : n < 2 ^ 32 - 2) {x : Act UInt16 Value}
    (hx : exec (cfg hash true) w.st x ≠ none) : ∃ st' evs w', Eff (cfg hash true) w.st x st' evs ∧
      w' = { w with st := { st' with shard := lay w.acts st'.shard }, acts := w.acts + 1 } ∧
      FuzzSync.act hash lay w x = .ok (w', evs) ∧ Live hash T C G (n + grows x) w' ∧
      (lay w.acts st'.shard).contents = st'.shard.contents := by
  have hi := h.inv
  have hroom := h.room
  have hlight := h.light
  obtain ⟨tr, hr⟩ := h.run
  unfold FuzzSync.act
  cases hy : exec (cfg hash true) w.st x with
  | none => exact absurd hy hx
  | some y =>
    cases y with
    | error e =>
      rcases Props.C49_asserts hr rfl hy with ⟨-, k, v, h1⟩ | ⟨-, h1⟩
      · have := FuzzUnsync.enterWeight_lt (hash := hash) (ptr := true) T k v
        omega
      · omega
    | ok z =>
      obtain ⟨st', evs⟩ := z
      obtain ⟨m, p, h1, h2, h3⟩ := hl w.acts st'.shard
      refine ⟨st', evs, _, hi.eff rfl hy, rfl, rfl, ⟨⟨tr ++ evs, ?_⟩, ?_⟩, ?_⟩
      · dsimp only
        rw [h1]
        exact .layout m p (.act hr hy) h2 h3
      · have := len_exec hi rfl hy
        dsimp only
        rw [h1]
        show st'.shard.entries.entries.length ≤ _
        omega
      · rw [h1]; rfl

end Live

/-! ### Between the calls and inside of one -/

/-- Every agent is finished or has a guard that is in the map, and nothing else is in the map. -/
structure Holds (ctl : Nat → Ctl UInt16 Value) (held : List (UInt16 × Nat)) : Prop where
  rest : ∀ a, ctl a = .idle ∨ ∃ k p, ctl a = .guard k p ∧ (k, a) ∈ held
  has : ∀ k a, (k, a) ∈ held → ∃ p, ctl a = .guard k p
  nodup : (held.map (·.1)).Nodup

/-- Between two calls. -/
structure Good (hash : UInt16 → UInt64) (T C G n : Nat) (w : World) : Prop extends Live hash T C G n w where
  holds : Holds w.st.ctl w.held

/-- During a call, or while a guard is used: agent `a` is at `x`. -/
structure Busy (hash : UInt16 → UInt64) (T C G n : Nat) (w : World) (a : Nat) (x : Ctl UInt16 Value) : Prop
    extends Live hash T C G n w where
  here : w.st.ctl a = x
  holds : Holds (Function.update w.st.ctl a .idle) w.held

theorem Good.mono (h : Good hash T C G n w) {m : Nat} (hm : n ≤ m) : Good hash T C G m w := ⟨h.toLive.mono hm, h.holds⟩

section
variable {a : Nat} {x : Ctl UInt16 Value}

namespace Busy

theorem others (h : Busy hash T C G n w a x) {b : Nat} (hb : b ≠ a) :
    w.st.ctl b = .idle ∨ ∃ k p, w.st.ctl b = .guard k p ∧ (k, b) ∈ w.held := by
  have := h.holds.rest b
  rwa [Function.update_of_ne hb] at this

theorem writer (h : Busy hash T C G n w a x) (hx : x.writes = false) : w.st.writer = none := by
  cases hw : w.st.writer with
  | none => rfl
  | some b =>
    have h1 := (h.inv.lock.wr b).mp hw
    by_cases hb : b = a
    · rw [hb, h.here, hx] at h1; cases h1
    · rcases h.others hb with e | ⟨k, p, e, -⟩ <;> rw [e] at h1 <;> cases h1

theorem readers (h : Busy hash T C G n w a x) (hx : x.reads = false) : w.st.readers = [] := by
  cases hw : w.st.readers with
  | nil => rfl
  | cons b l =>
    have h1 := (h.inv.lock.rd b).mp (by rw [hw]; simp)
    by_cases hb : b = a
    · rw [hb, h.here, hx] at h1; cases h1
    · rcases h.others hb with e | ⟨k, p, e, -⟩ <;> rw [e] at h1 <;> cases h1

theorem unlocked (h : Busy hash T C G n w a x) (hw : x.writes = false) (hr : x.reads = false) : w.st.unlocked = true := by
  unfold State.unlocked
  rw [h.writer hw, h.readers hr]; rfl

/-- The agent goes on. -/
theorem next (h : Busy hash T C G n w a x) {m : Nat} {w' : World} (hl : Live hash T C G m w') {y : Ctl UInt16 Value}
    (hc : w'.st.ctl = Function.update w.st.ctl a y) (hh : w'.held = w.held) : Busy hash T C G m w' a y :=
  ⟨hl, by rw [hc, Function.update_self], by rw [hc, Function.update_idem, hh]; exact h.holds⟩

/-- The agent is finished. -/
theorem done (h : Busy hash T C G n w a x) {m : Nat} {w' : World} (hl : Live hash T C G m w')
    (hc : w'.st.ctl = Function.update w.st.ctl a .idle) (hh : w'.held = w.held) : Good hash T C G m w' :=
  ⟨hl, by rw [hc, hh]; exact h.holds⟩

end Busy

theorem Good.busy (h : Good hash T C G n w) : Busy hash T C G n w w.st.next .idle := by
  have := h.inv.fresh w.st.next (Nat.le_refl _)
  exact ⟨h.toLive, this, by rw [← this, Function.update_eq_self]; exact h.holds⟩

theorem mem_of_lookup {k : UInt16} {a : Nat} : ∀ {l : List (UInt16 × Nat)}, l.lookup k = some a → (k, a) ∈ l
  | (k', a') :: l, h => by
    rw [List.lookup_cons] at h
    split at h
    · rename_i e
      cases h
      rw [eq_of_beq e]
      exact List.mem_cons_self
    · exact List.mem_cons_of_mem _ (mem_of_lookup h)

theorem lookup_of_mem {k : UInt16} {a : Nat} : ∀ {l : List (UInt16 × Nat)}, (k, a) ∈ l → (l.lookup k).isSome = true
  | (k', a') :: l, h => by
    rw [List.lookup_cons]
    split
    · rfl
    · rename_i e
      rcases List.mem_cons.mp h with h | h
      · cases h; simp at e
      · exact lookup_of_mem h

theorem mem_unique {l : List (UInt16 × Nat)} (h : (l.map (·.1)).Nodup) {k : UInt16} {a b : Nat} (ha : (k, a) ∈ l) (hb : (k, b) ∈ l) :
    a = b := by
  have := List.inj_on_of_nodup_map h ha hb rfl
  exact congrArg Prod.snd this

/-- A guard is taken out of the map. -/
theorem Holds.without {ctl : Nat → Ctl UInt16 Value} {held : List (UInt16 × Nat)} (h : Holds ctl held) {k : UInt16} {a : Nat}
    (hm : (k, a) ∈ held) : Holds (Function.update ctl a .idle) (held.filter (fun p => p.1 ≠ k)) := by
  obtain ⟨q, hq⟩ := h.has k a hm
  refine ⟨fun b => ?_, fun k' b hb => ?_, ?_⟩
  · by_cases hb : b = a
    · left; rw [hb, Function.update_self]
    · rw [Function.update_of_ne hb]
      rcases h.rest b with e | ⟨k', p, e, hk⟩
      · exact Or.inl e
      · refine Or.inr ⟨k', p, e, List.mem_filter.mpr ⟨hk, ?_⟩⟩
        simp only [ne_eq, decide_eq_true_eq]
        rintro rfl
        exact hb (mem_unique h.nodup hk hm)
  · obtain ⟨h1, h2⟩ := List.mem_filter.mp hb
    simp only [ne_eq, decide_eq_true_eq] at h2
    obtain ⟨p, hp⟩ := h.has k' b h1
    refine ⟨p, ?_⟩
    rw [Function.update_of_ne, hp]
    rintro rfl
    rw [hq] at hp
    cases hp
    exact h2 rfl
  · exact h.nodup.sublist (List.filter_sublist.map _)

theorem Good.take (h : Good hash T C G n w) {k : UInt16} {a : Nat} (hm : w.held.lookup k = some a) :
    ∃ p, Busy hash T C G n (w.without k) a (.guard k p) := by
  obtain ⟨p, hp⟩ := h.holds.has k a (mem_of_lookup hm)
  exact ⟨p, ⟨⟨h.run, h.room⟩, hp, h.holds.without (mem_of_lookup hm)⟩⟩

/-- A guard is put into the map. -/
theorem Holds.put {ctl : Nat → Ctl UInt16 Value} {held : List (UInt16 × Nat)} {k : UInt16} {a : Nat} {p : Plh}
    (h : Holds (Function.update ctl a .idle) held) (hc : ctl a = .guard k p) (hn : ∀ b, (k, b) ∉ held) :
    Holds ctl ((k, a) :: held) := by
  refine ⟨fun b => ?_, fun k' b hb => ?_, ?_⟩
  · by_cases hb : b = a
    · exact Or.inr ⟨k, p, hb ▸ hc, by rw [hb]; exact List.mem_cons_self⟩
    · have := h.rest b
      rw [Function.update_of_ne hb] at this
      rcases this with e | ⟨k', q, e, hm⟩
      · exact Or.inl e
      · exact Or.inr ⟨k', q, e, List.mem_cons_of_mem _ hm⟩
  · rcases List.mem_cons.mp hb with hb | hb
    · cases hb
      exact ⟨p, hc⟩
    · obtain ⟨q, hq⟩ := h.has k' b hb
      refine ⟨q, ?_⟩
      rwa [Function.update_of_ne] at hq
      rintro rfl
      rw [Function.update_self] at hq
      cases hq
  · refine List.nodup_cons.mpr ⟨?_, h.nodup⟩
    intro hm
    obtain ⟨⟨k', b⟩, hm, e⟩ := List.mem_map.mp hm
    cases e
    exact hn b hm

theorem filter_eq {held : List (UInt16 × Nat)} {k : UInt16} (hn : held.lookup k = none) :
    held.filter (fun p => p.1 ≠ k) = held := by
  refine List.filter_eq_self.mpr (fun q hq => ?_)
  simp only [ne_eq, decide_eq_true_eq]
  rintro rfl
  have := lookup_of_mem hq
  rw [hn] at this
  cases this

/-! ### Dropping a guard -/

theorem Busy.dropGuard {k : UInt16} {p : Plh} (h : Busy hash T C G n w a (.guard k p)) (hl : lay.Fair) (hn : n < 2 ^ 32 - 2) :
    ∃ w', FuzzSync.dropGuard hash lay w a = .ok w' ∧ Good hash T C G n w' ∧ w'.held = w.held ∧
      w'.st.shard.contents = w.st.shard.contents := by
  obtain ⟨st1, evs1, w1, e1, d1, r1, l1, c1⟩ := h.toLive.act hl hn (x := .drop a) (by simp [exec, Conc.drop, h.here])
  have b1 : Busy hash T C G n w1 a (.leaving k p) := by
    cases e1 with
    | drop hc =>
      rw [h.here] at hc
      cases hc
      exact h.next l1 (by rw [d1]; rfl) (by rw [d1])
  have k1 : w1.st.shard.contents = w.st.shard.contents := by
    cases e1 with
    | drop hc => rw [d1]; exact c1
  obtain ⟨st2, evs2, w2, e2, d2, r2, l2, c2⟩ := b1.toLive.act hl hn (x := .lockDrop a)
    (by simp [exec, Conc.lockDrop, b1.here, b1.unlocked rfl rfl])
  have b2 : Busy hash T C G n w2 a (.dropping k p) := by
    cases e2 with
    | lockDrop hc hw hr =>
      rw [b1.here] at hc
      cases hc
      exact b1.next l2 (by rw [d2]; rfl) (by rw [d2])
  have k2 : w2.st.shard.contents = w1.st.shard.contents := by
    cases e2 with
    | lockDrop hc => rw [d2]; exact c2
  obtain ⟨st3, evs3, w3, e3, d3, r3, l3, c3⟩ := b2.toLive.act hl hn (x := .finishDrop a) (by
    obtain ⟨ps, h1, -⟩ := b2.inv.at b2.here
    simp only [exec, Conc.finishDrop, b2.here, h1]
    split
    · split <;> simp
    · simp)
  have b3 : Good hash T C G n w3 := by
    cases e3 with
    | handOver hc => exact b2.done l3 (by rw [d3]; rfl) (by rw [d3])
    | giveUp hc => exact b2.done l3 (by rw [d3]; rfl) (by rw [d3])
  have k3 : w3.st.shard.contents = w2.st.shard.contents := by
    cases e3 with
    | handOver hc => rw [d3]; exact c3
    | giveUp hc _ _ _ _ _ he =>
      rw [d3]
      exact c3.trans (he.contents b2.inv.shard).1
  refine ⟨w3, ?_, b3, by rw [d3]; dsimp only; rw [d2]; dsimp only; rw [d1], by rw [k3, k2, k1]⟩
  unfold FuzzSync.dropGuard
  rw [r1, Res.ok_bind]
  dsimp only
  rw [r2, Res.ok_bind]
  dsimp only
  rw [r3, Res.ok_bind]

theorem Good.discard (h : Good hash T C G n w) (hl : lay.Fair) (hn : n < 2 ^ 32 - 2) (k : UInt16) :
    ∃ w', FuzzSync.discard hash lay w k = .ok w' ∧ Good hash T C G n w' ∧ w'.st.shard.contents = w.st.shard.contents := by
  unfold FuzzSync.discard
  cases hm : w.held.lookup k with
  | none => exact ⟨w, rfl, h, rfl⟩
  | some a =>
    obtain ⟨p, hb⟩ := h.take hm
    obtain ⟨w', h1, h2, -, h4⟩ := hb.dropGuard hl hn
    exact ⟨w', h1, h2, h4⟩

/-! ### Calls made of one section -/

theorem Good.call (h : Good hash T C G n w) (hl : lay.Fair) (hn : n < 2 ^ 32 - 2) {op : Op UInt16 Value} {b : Bool}
    (hop : lockMode op = some b) : ∃ w' out log, FuzzSync.call hash lay w op = .ok (w', out, handed log) ∧
      OpSpec (cfg hash true) T w.st.shard.contents op out log w'.st.shard.contents ∧ Good hash T C G (n + 1) w' := by
  have hb := h.busy
  obtain ⟨st1, evs1, w1, e1, d1, r1, l1, c1⟩ := h.toLive.act hl hn (x := .call op) (by
    have h1 := hb.unlocked rfl rfl
    have h2 := hb.writer rfl
    simp only [exec, Conc.call, hop]
    cases b <;> simp [h1, h2])
  unfold FuzzSync.call
  rw [r1, Res.ok_bind]
  have hi := h.inv.shard
  cases e1 with
  | @read op out hr he =>
    refine ⟨w1, out, [], rfl, ?_, ⟨l1, by rw [d1]; exact h.holds⟩⟩
    rw [d1]
    dsimp only
    rw [c1, ← h.target]
    exact he.contents hi
  | @write op sh out q ho hw hr he =>
    refine ⟨w1, out, q.log, rfl, ?_, ⟨l1, by rw [d1]; exact h.holds⟩⟩
    rw [d1]
    dsimp only
    rw [c1, ← h.target]
    exact he.contents hi

theorem Good.peek (h : Good hash T C G n w) (hl : lay.Fair) (hn : n < 2 ^ 32 - 2) (k : UInt16) :
    ∃ w', FuzzSync.peek hash lay w k = .ok (w', w.st.shard.contents k) ∧ Good hash T C G (n + 1) w' := by
  obtain ⟨w', out, log, h1, ⟨rfl, -⟩, h3⟩ := h.call hl hn (op := .peek k) (b := false) rfl
  refine ⟨w', ?_, h3⟩
  unfold FuzzSync.peek
  rw [h1]
  rfl

theorem Good.checkStored (h : Good hash T C G n w) (hl : lay.Fair) (hn : n < 2 ^ 32 - 2) {k v : UInt16} {ev : List (UInt16 × Value)}
    (h1 : w.st.shard.contents k = none ∨ ∃ x, w.st.shard.contents k = some x ∧ x.original = v)
    (h2 : checkEvicted k (w.st.shard.contents k) [] ev = .ok ()) :
    ∃ w', FuzzSync.checkStored hash lay w k v ev = .ok w' ∧ Good hash T C G (n + 1) w' := by
  obtain ⟨w', g1, g2⟩ := h.peek hl hn k
  refine ⟨w', ?_, g2⟩
  unfold FuzzSync.checkStored
  rw [g1, Res.ok_bind]
  dsimp only
  rw [FuzzUnsync.assert_ok (by rcases h1 with h | ⟨x, h, e⟩ <;> rw [h] <;> simp [*]), Res.ok_bind, h2]
  rfl

/-! ### `get_value_or_guard` -/

/-- How a call of agent `a` for key `k` ends. -/
inductive Ends (hash : UInt16 → UInt64) (T C G n a : Nat) (k : UInt16) (held : List (UInt16 × Nat)) (w : World) : Got → Prop
  | value (h : Good hash T C G n w) (hh : w.held = held) : Ends hash T C G n a k held w .value
  | guard (p : Plh) (h : Busy hash T C G n w a (.guard k p)) (hh : w.held = held) : Ends hash T C G n a k held w (.guard a)
  | timeout (h : Good hash T C G n w) (hh : w.held = held) (hk : (held.lookup k).isSome = true) :
    Ends hash T C G n a k held w .timeout

variable {k : UInt16} {p : Plh} {N : Nat}

/-- The call goes on with a step after which it is not finished. -/
theorem drive_step {x : Act UInt16 Value} {w1 : World} {evs : List (Ev UInt16 Value)} (hx : nextAct a (w.st.ctl a) = some x)
    (hr : act hash lay w x = .ok (w1, evs)) (hf : finished evs = none)
    (h : ∃ w' g, drive hash lay a N w1 = .ok (w', g) ∧ Ends hash T C G n a k w1.held w' g) (hh : w1.held = w.held) :
    ∃ w' g, drive hash lay a (N + 1) w = .ok (w', g) ∧ Ends hash T C G n a k w.held w' g := by
  obtain ⟨w', g, h1, h2⟩ := h
  refine ⟨w', g, ?_, hh ▸ h2⟩
  simp only [drive, hx, hr, Res.ok_bind, hf, h1]

/-- The call goes on with its last step. -/
theorem drive_last {x : Act UInt16 Value} {w1 : World} {evs : List (Ev UInt16 Value)} {g : Got} (hx : nextAct a (w.st.ctl a) = some x)
    (hr : act hash lay w x = .ok (w1, evs)) (hf : finished evs = some g) (h : Ends hash T C G n a k w.held w1 g) :
    ∃ w' g, drive hash lay a (N + 1) w = .ok (w', g) ∧ Ends hash T C G n a k w.held w' g := by
  refine ⟨w1, g, ?_, h⟩
  simp only [drive, hx, hr, Res.ok_bind, hf]

namespace Busy

variable (hl : lay.Fair)
include hl

theorem of_waiting (hn : n < 2 ^ 32 - 2) (h : Busy hash T C G n w a (.waiting k p)) (hk : w.st.kind a = .thread 0 true)
    (hf : w.st.flag a = false) : ∃ w' g, drive hash lay a (N + 1) w = .ok (w', g) ∧ Ends hash T C G n a k w.held w' g := by
  have hin : (w.held.lookup k).isSome = true := by
    obtain ⟨tr, hr⟩ := h.run
    obtain ⟨b, hb, he⟩ := Props.C46_responsible hr rfl (a := a) (p := p) ⟨⟨k, h.here⟩, hf⟩
    rcases h.others hb with e | ⟨k', p', e, hm⟩
    · cases he <;> simp_all
    · have : p' = p := by cases he <;> simp_all
      subst this
      obtain ⟨ps, h1, h2, -⟩ := h.inv.at e
      obtain ⟨ps', h1', h2', -⟩ := h.inv.at h.here
      rw [h1] at h1'
      cases h1'
      rw [← h2', h2]
      exact lookup_of_mem hm
  obtain ⟨st1, evs1, w1, e1, d1, r1, l1, c1⟩ := h.toLive.act hl hn (x := .timeout a) (by
    obtain ⟨ps, h1, -⟩ := h.inv.at h.here
    simp only [exec, Conc.timeout, h.here, hk, h1, hf]
    simp only [Bool.false_eq_true, if_false]
    split <;> simp)
  cases e1 with
  | timely _ _ hf' => rw [hf] at hf'; cases hf'
  | timeout hc =>
    exact drive_last (by rw [h.here]; rfl) r1 rfl
      (.timeout (h.done l1 (by rw [d1]; rfl) (by rw [d1])) (by rw [d1]) hin)

theorem of_joining (hn : n < 2 ^ 32 - 2) (h : Busy hash T C G n w a (.joining k p)) (hk : w.st.kind a = .thread 0 true) :
    ∃ w' g, drive hash lay a (N + 2) w = .ok (w', g) ∧ Ends hash T C G n a k w.held w' g := by
  obtain ⟨st1, evs1, w1, e1, d1, r1, l1, c1⟩ := h.toLive.act hl hn (x := .join a) (by
    obtain ⟨⟨ps, h1, -⟩, -⟩ := h.inv.at h.here
    simp only [exec, Conc.join, h.here, h1]
    split <;> simp)
  cases e1 with
  | enlist hc =>
    rw [h.here] at hc
    cases hc
    exact drive_step (by rw [h.here]; rfl) r1 rfl (of_waiting hl hn (h.next l1 (by rw [d1]; rfl) (by rw [d1]))
      (by rw [d1]; exact hk) (by rw [d1]; exact Function.update_self ..)) (by rw [d1])
  | late hc =>
    exact drive_last (by rw [h.here]; rfl) r1 rfl (.value (h.done l1 (by rw [d1]; rfl) (by rw [d1])) (by rw [d1]))

theorem of_starting (hn : n < 2 ^ 32 - 2) {b : Bool} (h : Busy hash T C G n w a (.starting k p b)) :
    ∃ w' g, drive hash lay a (N + 1) w = .ok (w', g) ∧ Ends hash T C G n a k w.held w' g := by
  obtain ⟨st1, evs1, w1, e1, d1, r1, l1, c1⟩ := h.toLive.act hl hn (x := .startLoading a) (by
    simp only [exec, Conc.startLoading, h.here]
    split <;> simp)
  cases e1 with
  | guard hc =>
    rw [h.here] at hc
    cases hc
    exact drive_last (by rw [h.here]; rfl) r1 rfl
      (.guard p (h.next l1 (by rw [d1]; cases b <;> rfl) (by rw [d1])) (by rw [d1]))

theorem of_created (hn : n + 1 < 2 ^ 32 - 2) (h : Busy hash T C G n w a (.created k)) (hk : w.st.kind a = .thread 0 true) :
    ∃ w' g, drive hash lay a (N + 3) w = .ok (w', g) ∧ Ends hash T C G (n + 1) a k w.held w' g := by
  obtain ⟨st1, evs1, w1, e1, d1, r1, l1, c1⟩ := h.toLive.act hl (by omega) (x := .upsert a) (by
    simp [exec, Conc.upsert, h.here, h.unlocked rfl rfl])
  cases e1 with
  | found hc =>
    exact drive_last (by rw [h.here]; rfl) r1 rfl (.value (h.done l1 (by rw [d1]; rfl) (by rw [d1])) (by rw [d1]))
  | created hc =>
    rw [h.here] at hc
    cases hc
    exact drive_step (by rw [h.here]; rfl) r1 rfl (of_starting hl hn (h.next l1 (by rw [d1]; rfl) (by rw [d1]))) (by rw [d1])
  | joining hc =>
    rw [h.here] at hc
    cases hc
    exact drive_step (by rw [h.here]; rfl) r1 rfl (of_joining hl hn (h.next l1 (by rw [d1]; rfl) (by rw [d1]))
      (by rw [d1]; exact hk)) (by rw [d1])

theorem of_tally (hn : n + 1 < 2 ^ 32 - 2) {r : Option Value} (h : Busy hash T C G n w a (.tally k r))
    (hk : w.st.kind a = .thread 0 true) :
    ∃ w' g, drive hash lay a (N + 4) w = .ok (w', g) ∧ Ends hash T C G (n + 1) a k w.held w' g := by
  obtain ⟨st1, evs1, w1, e1, d1, r1, l1, c1⟩ := h.toLive.act hl (by omega) (x := .tally a) (by
    simp [exec, Conc.tally, h.here])
  cases e1 with
  | hit hc =>
    exact drive_last (by rw [h.here]; rfl) r1 rfl
      (.value ((h.done l1 (by rw [d1]; rfl) (by rw [d1])).mono (by simp [grows])) (by rw [d1]))
  | miss hc hk' => rw [hk] at hk'; cases hk'
  | goOn hc =>
    rw [h.here] at hc
    cases hc
    exact drive_step (by rw [h.here]; rfl) r1 rfl (of_created hl hn (h.next l1 (by rw [d1]; rfl) (by rw [d1]))
      (by rw [d1]; exact hk)) (by rw [d1])

theorem of_bump (hn : n + 1 < 2 ^ 32 - 2) {t : Nat} {v : Value} (h : Busy hash T C G n w a (.bump k t v))
    (hk : w.st.kind a = .thread 0 true) :
    ∃ w' g, drive hash lay a (N + 5) w = .ok (w', g) ∧ Ends hash T C G (n + 1) a k w.held w' g := by
  obtain ⟨st1, evs1, w1, e1, d1, r1, l1, c1⟩ := h.toLive.act hl (by omega) (x := .bump a) (by
    simp [exec, Conc.bump, h.here])
  cases e1 with
  | bump hc =>
    rw [h.here] at hc
    cases hc
    exact drive_step (by rw [h.here]; rfl) r1 rfl (of_tally hl hn (h.next l1 (by rw [d1]; rfl) (by rw [d1]))
      (by rw [d1]; exact hk)) (by rw [d1])

theorem of_saw (hn : n + 1 < 2 ^ 32 - 2) {t : Nat} {v : Value} (h : Busy hash T C G n w a (.saw k t v))
    (hk : w.st.kind a = .thread 0 true) :
    ∃ w' g, drive hash lay a (N + 6) w = .ok (w', g) ∧ Ends hash T C G (n + 1) a k w.held w' g := by
  obtain ⟨st1, evs1, w1, e1, d1, r1, l1, c1⟩ := h.toLive.act hl (by omega) (x := .load a) (by
    simp [exec, Conc.load, h.here])
  cases e1 with
  | load hc m =>
    rw [h.here] at hc
    cases hc
    refine drive_step (by rw [h.here]; rfl) r1 rfl ?_ (by rw [d1])
    have h2 := h.next l1 (by rw [d1]; rfl) (by rw [d1])
    split at h2
    · exact of_bump hl hn h2 (by rw [d1]; exact hk)
    · exact of_tally hl hn h2 (by rw [d1]; exact hk)

theorem of_seek (hn : n + 1 < 2 ^ 32 - 2) (h : Busy hash T C G n w a (.seek k)) (hk : w.st.kind a = .thread 0 true) :
    ∃ w' g, drive hash lay a (N + 7) w = .ok (w', g) ∧ Ends hash T C G (n + 1) a k w.held w' g := by
  obtain ⟨st1, evs1, w1, e1, d1, r1, l1, c1⟩ := h.toLive.act hl (by omega) (x := .find a) (by
    simp [exec, Conc.find, h.here])
  cases e1 with
  | located hc =>
    rw [h.here] at hc
    cases hc
    exact drive_step (by rw [h.here]; rfl) r1 rfl (of_saw hl hn (h.next l1 (by rw [d1]; rfl) (by rw [d1]))
      (by rw [d1]; exact hk)) (by rw [d1])
  | absent hc =>
    rw [h.here] at hc
    cases hc
    exact drive_step (by rw [h.here]; rfl) r1 rfl (of_tally hl (N := N + 2) hn (h.next l1 (by rw [d1]; rfl) (by rw [d1]))
      (by rw [d1]; exact hk)) (by rw [d1])

theorem of_start (hn : n + 1 < 2 ^ 32 - 2) (h : Busy hash T C G n w a (.start k)) (hk : w.st.kind a = .thread 0 true) :
    ∃ w' g, drive hash lay a (N + 8) w = .ok (w', g) ∧ Ends hash T C G (n + 1) a k w.held w' g := by
  obtain ⟨st1, evs1, w1, e1, d1, r1, l1, c1⟩ := h.toLive.act hl (by omega) (x := .enter a 0) (by
    simp [exec, Conc.enter, h.here, h.writer rfl])
  cases e1 with
  | enter _ hc =>
    rw [h.here] at hc
    cases hc
    refine drive_step (by rw [h.here]; rfl) r1 ?_ (of_seek hl hn (h.next l1 (by rw [d1]; rfl) (by rw [d1]))
      (by rw [d1]; exact hk)) (by rw [d1])
    rw [hk]
    rfl

end Busy

theorem Good.getValueOrGuard (h : Good hash T C G n w) (hl : lay.Fair) (hn : n + 1 < 2 ^ 32 - 2) (k : UInt16) :
    ∃ w' g, FuzzSync.getValueOrGuard hash lay w k = .ok (w', g) ∧ Ends hash T C G (n + 1) w.st.next k w.held w' g := by
  have hb := h.busy
  obtain ⟨st1, evs1, w1, e1, d1, r1, l1, c1⟩ := h.toLive.act hl (by omega) (x := .begin (.thread 0 true) k) (by
    simp only [exec, Conc.begin]
    rw [if_pos]
    · simp
    · simp only [Bool.not_eq_eq_eq_not, Bool.not_true]
      refine List.any_eq_false.mpr (fun b hb => ?_)
      rcases h.holds.rest b with e | ⟨k', p', e, -⟩
      · split
        · rw [e]; simp [Ctl.calling]
        · simp
      · split
        · rw [e]; simp [Ctl.calling]
        · simp)
  cases e1 with
  | begin _ _ hk =>
    have h1 := hb.next l1 (y := .start k) (by rw [d1]) (by rw [d1])
    obtain ⟨w', g, h2, h3⟩ := Busy.of_start hl (N := 0) hn h1 (by rw [d1]; exact Function.update_self ..)
    refine ⟨w', g, ?_, ?_⟩
    · unfold FuzzSync.getValueOrGuard
      simp only [r1, Res.ok_bind, h2]
    · have : w1.held = w.held := by rw [d1]
      rw [← this]
      exact h3

/-! ### The program -/

theorem Good.oneOp (h : Good hash T C G n w) (hl : lay.Fair) (hn : n + 2 < 2 ^ 32 - 2) (op : FOp) :
    ∃ w', FuzzSync.oneOp hash lay w op = .ok w' ∧ Good hash T C G (n + 2) w' := by
  cases op with
  | insert k v pinned =>
    obtain ⟨w1, out, log, r1, s1, g1⟩ := h.call hl (by omega) (op := .insert k (fresh v pinned)) (b := true) rfl
    obtain ⟨w2, r2, g2, k2⟩ := g1.discard hl (by omega) k
    obtain ⟨hs1, hs2⟩ := FuzzUnsync.store_checks s1.2
    rw [← k2] at hs1 hs2
    obtain ⟨w3, r3, g3⟩ := g2.checkStored hl (by omega) hs1 hs2
    refine ⟨w3, ?_, g3⟩
    simp only [FuzzSync.oneOp, r1, Res.ok_bind, r2]
    exact r3
  | replace k v pinned =>
    obtain ⟨w1, r1, g1, k1⟩ := h.discard hl (by omega) k
    obtain ⟨w2, out, log, r2, s2, g2⟩ := g1.call hl (by omega) (op := .replace k (fresh v pinned) false) (b := true) rfl
    obtain ⟨r, rfl, s3⟩ := s2
    obtain ⟨hs1, hs2⟩ := FuzzUnsync.replace_checks s3
    cases r with
    | none =>
      obtain ⟨w3, r3, g3⟩ := g2.checkStored hl (by omega) (hs2 rfl).1 (hs2 rfl).2
      refine ⟨w3, ?_, g3⟩
      simp only [FuzzSync.oneOp, r1, Res.ok_bind, r2]
      exact r3
    | some x =>
      obtain ⟨w3, r3, g3⟩ := g2.peek hl (by omega) k
      refine ⟨w3, ?_, g3⟩
      rw [hs1 (by simp)] at r3
      simp only [FuzzSync.oneOp, r1, Res.ok_bind, r2, Option.map_some, r3]
      rfl
  | placeholder k =>
    obtain ⟨w1, g, r1, e1⟩ := h.getValueOrGuard hl (by omega) k
    simp only [FuzzSync.oneOp, r1, Res.ok_bind]
    cases e1 with
    | value h1 hh => exact ⟨w1, rfl, h1.mono (by omega)⟩
    | timeout h1 hh hk =>
      dsimp only
      rw [hh, FuzzUnsync.assert_ok hk]
      exact ⟨w1, rfl, h1.mono (by omega)⟩
    | guard p h1 hh =>
      dsimp only
      cases hm : w1.held.lookup k with
      | none =>
        have h2 : Good hash T C G (n + 1) { w1.without k with held := (k, w.st.next) :: (w1.without k).held } := by
          refine ⟨⟨h1.run, h1.room⟩, Holds.put (p := p) ?_ h1.here (fun b hb => ?_)⟩
          · show Holds _ (w1.held.filter _)
            rw [filter_eq hm]
            exact h1.holds
          · have := (List.mem_filter.mp hb).2
            simp at this
        exact ⟨_, rfl, h2.mono (by omega)⟩
      | some b =>
        have hmem := mem_of_lookup hm
        obtain ⟨q, hq⟩ := h1.holds.has k b hmem
        have hba : b ≠ w.st.next := by
          rintro rfl
          rw [Function.update_self] at hq
          cases hq
        rw [Function.update_of_ne hba] at hq
        have h2 : Busy hash T C G (n + 1)
            { w1.without k with held := (k, w.st.next) :: (w1.without k).held } b (.guard k q) := by
          refine ⟨⟨h1.run, h1.room⟩, hq, Holds.put (p := p) ?_ ?_ (fun c hc => ?_)⟩
          · have := h1.holds.without hmem
            rwa [Function.update_comm hba.symm] at this
          · rw [Function.update_of_ne hba.symm]
            exact h1.here
          · have := (List.mem_filter.mp hc).2
            simp at this
        obtain ⟨w', r', g', -⟩ := h2.dropGuard hl (by omega)
        exact ⟨w', r', g'.mono (by omega)⟩
  | setPlaceholder k v pinned =>
    simp only [FuzzSync.oneOp]
    cases hm : w.held.lookup k with
    | none => exact ⟨w, rfl, h.mono (by omega)⟩
    | some a =>
      dsimp only
      obtain ⟨p, h1⟩ := h.take hm
      obtain ⟨st1, evs1, w1, e1, d1, r1, l1, c1⟩ := h1.toLive.act hl (by omega) (x := .publish a (fresh v pinned)) (by
        obtain ⟨ps, h2, -⟩ := h1.inv.at h1.here
        simp [exec, Conc.publish, h1.here, h2])
      have h2 : ∃ b, Busy hash T C G n w1 a (.inserting k p (fresh v pinned) b) := by
        cases e1 with
        | publish _ hc =>
          rw [h1.here] at hc
          cases hc
          exact ⟨_, h1.next l1 (by rw [d1]; rfl) (by rw [d1])⟩
      obtain ⟨b, h2⟩ := h2
      obtain ⟨st2, evs2, w2, e2, d2, r2, l2, c2⟩ := h2.toLive.act hl (by omega) (x := .store a) (by
        simp [exec, Conc.store, h2.here, h2.unlocked rfl rfl])
      rw [r1, Res.ok_bind]
      dsimp only
      rw [r2, Res.ok_bind]
      cases e2 with
      | superseded hc =>
        exact ⟨w2, rfl, (h2.done l2 (by rw [d2]; rfl) (by rw [d2])).mono (by simp [grows])⟩
      | @store _ _ _ _ _ sh q hc _ _ _ he =>
        rw [h2.here] at hc
        cases hc
        have g2 := h2.done l2 (by rw [d2]; rfl) (by rw [d2])
        have hs := he.contents h2.inv.shard
        have ⟨hs1, hs2⟩ := FuzzUnsync.store_checks hs.2
        have k2 : w2.st.shard.contents = sh.contents := by rw [d2]; exact c2
        rw [← k2] at hs1 hs2
        obtain ⟨w3, r3, g3⟩ := g2.checkStored hl (by simp only [grows]; omega) hs1 hs2
        exact ⟨w3, r3, g3.mono (by simp [grows])⟩
  | remove k =>
    obtain ⟨w1, out, log, r1, s1, g1⟩ := h.call hl (by omega) (op := .remove k) (b := true) rfl
    obtain ⟨rfl, -, s1⟩ := s1
    have hd : w1.st.shard.contents k = none := by rw [s1]; exact Function.update_self ..
    simp only [FuzzSync.oneOp, r1, Res.ok_bind]
    cases hv : w.st.shard.contents k with
    | none =>
      simp only [Option.map_none]
      obtain ⟨w3, r3, g3⟩ := g1.peek hl (by omega) k
      rw [hd] at r3
      rw [r3]
      exact ⟨w3, rfl, g3⟩
    | some x =>
      simp only [Option.map_some]
      obtain ⟨w2, r2, g2, k2⟩ := g1.discard hl (by omega) k
      obtain ⟨w3, r3, g3⟩ := g2.peek hl (by omega) k
      rw [k2, hd] at r3
      rw [r2, Res.ok_bind, FuzzUnsync.assert_ok trivial, Res.ok_bind, r3]
      exact ⟨w3, rfl, g3⟩

theorem Good.loop (hl : lay.Fair) : ∀ (ops : List FOp) {n : Nat} {w : World}, Good hash T C G n w →
    n + 2 * ops.length < 2 ^ 32 - 2 →
    ∃ w', FuzzSync.loop hash lay ops w = .ok w' ∧ Good hash T C G (n + 2 * ops.length) w'
  | [], n, w, h, _ => ⟨w, rfl, h⟩
  | op :: ops, n, w, h, hn => by
    simp only [List.length_cons] at hn
    obtain ⟨w1, r1, g1⟩ := h.oneOp hl (by omega) op
    obtain ⟨w2, r2, g2⟩ := Good.loop hl ops g1 (by omega)
    refine ⟨w2, ?_, g2.mono (by simp only [List.length_cons]; omega)⟩
    simp only [FuzzSync.loop, r1, Res.ok_bind, r2]

theorem Good.dropAll (hl : lay.Fair) (hn : n < 2 ^ 32 - 2) : ∀ (l : List (UInt16 × Nat)) {w : World}, Good hash T C G n w →
    l.Perm w.held → ∃ w', FuzzSync.dropAll hash lay l w = .ok w'
  | [], w, h, _ => ⟨w, rfl⟩
  | (k, a) :: l, w, h, hp => by
    have hm : (k, a) ∈ w.held := hp.subset List.mem_cons_self
    obtain ⟨p, hp'⟩ := h.holds.has k a hm
    have h1 : Busy hash T C G n (w.without k) a (.guard k p) := ⟨⟨h.run, h.room⟩, hp', h.holds.without hm⟩
    obtain ⟨w1, r1, g1, e1, -⟩ := h1.dropGuard hl hn
    have h2 : l.Perm w1.held := by
      rw [e1]
      have h3 := hp.filter (fun p => p.1 ≠ k)
      have h4 : ((k, a) :: l).filter (fun p => p.1 ≠ k) = l := by
        rw [List.filter_cons_of_neg (by simp)]
        refine List.filter_eq_self.mpr (fun q hq => ?_)
        have h5 : (((k, a) :: l).map (·.1)).Nodup := (hp.map _).nodup_iff.mpr h.holds.nodup
        simp only [ne_eq, decide_eq_true_eq]
        rintro rfl
        exact (List.nodup_cons.mp h5).1 (List.mem_map.mpr ⟨q, hq, rfl⟩)
      rw [h4] at h3
      exact h3
    obtain ⟨w2, r2⟩ := Good.dropAll hl hn l g1 h2
    exact ⟨w2, by simp only [FuzzSync.dropAll, r1, Res.ok_bind, r2]⟩

theorem good_new : Good hash T C G 0 ⟨State.new (Shard.new T C G), [], 0⟩ :=
  ⟨⟨⟨[], .start⟩, Nat.le_refl 0⟩, ⟨fun _ => Or.inl rfl, fun _ _ h => (by cases h), List.nodup_nil⟩⟩

theorem never_fails (hl : lay.Fair) {ord : List (UInt16 × Nat) → List (UInt16 × Nat)} (ho : ∀ l, (ord l).Perm l) {i : Input}
    (hn : i.ops.length < 2 ^ 31 - 2) : FuzzSync.run hash lay ord i = .ok () := by
  obtain ⟨hot, ghost, h1, h2, h3⟩ := FuzzUnsync.options_ok ⟨i.items, i.weight, i.hot, i.ghost, []⟩
  have h4 : numShards ⟨1, hot, ghost, i.items.toNat, i.weight.toNat⟩ = .ok 1 := by
    obtain ⟨j, -, h5, h6, -⟩ := numShards_spec ⟨1, hot, ghost, i.items.toNat, i.weight.toNat⟩ (by norm_num)
    have := h6 0 (by norm_num)
    have h7 : 2 ^ j = 1 := Nat.le_antisymm (by simpa using this) (Nat.one_le_two_pow)
    rw [h5, h7]
  have h5 : ∀ x : Nat, x < 2 ^ 64 → share x 1 = x := by
    intro x hx
    unfold share satAdd
    omega
  obtain ⟨w, r, g⟩ := (good_new (hash := hash) (T := fracOf i.weight.toNat hot) (C := i.weight.toNat)
    (G := fracOf i.items.toNat ghost)).loop hl i.ops (by omega)
  obtain ⟨w', r'⟩ := g.dropAll hl (by omega) _ (ho w.held)
  have hv := g.validates (fracOf_le h2 h3 (by have := i.weight.toNat_lt; omega))
  have hw := g.busy.writer rfl
  unfold FuzzSync.run options
  rw [h1, Res.ok_bind]
  unfold SyncCache.withOptions
  simp only [h4, Res.ok_bind, List.replicate_one]
  rw [h5 _ (by have := i.items.toNat_lt; omega), h5 _ (by have := i.weight.toNat_lt; omega)]
  unfold Shard.fromOptions
  rw [r, Res.ok_bind]
  simp only [hw, Option.isNone_none, if_true, hv, Res.ok_bind, r']

end

end QuickCache.FuzzSync
