import Verif.Model.Solo
import Verif.Proofs.ClockConc
import Verif.Proofs.ClockTwin
import Verif.Props.Conc
import Verif.Proofs.FuzzSync
import Verif.Proofs.Dict

/-!
# One call at a time: proof
-/

namespace QuickCache.Solo
open Conc Spec
variable {K V RS : Type} [DecidableEq K] {c : Cfg K V RS} {lay : Layout K V} {T C G : Nat} {w : World K V} {m : Clock K V}

/-- The panics that remain: the call `op`, made when the cache contained `μ`, makes the cache too large; more than `N` actions are
needed to run out of slots. -/
def Large (c : Cfg K V RS) (T : Nat) (μ : K → Option V) (op : Op K V) (N : Nat) (e : Panic) : Prop :=
  (e = .overflow ∧ ∃ x l, Adds c T μ op x ∧ Lists l μ ∧ 2 ^ 64 ≤ total c.weight l + x) ∨ (e = .slabFull ∧ 2 ^ 32 - 2 ≤ N)

omit [DecidableEq K] in
theorem Large.mono {μ : K → Option V} {op : Op K V} {N N' : Nat} {e : Panic} (h : Large c T μ op N e) (hn : N ≤ N') :
    Large c T μ op N' e :=
  h.imp_right (fun h => ⟨h.1, Nat.le_trans h.2 hn⟩)

/-- What a call does to the contents, also if there is room. -/
structure Does (c : Cfg K V RS) (T C : Nat) (μ : K → Option V) (op : Op K V) (out : Out K V) (log : List (Event K V))
    (μ' : K → Option V) : Prop where
  spec : OpSpec c T μ op out log μ'
  room : ∀ {d : Dict K V} {k : K} {v : V} {f : V → V}, Lists d μ → StoresThen μ op out k v f →
    (c.weight k v ≤ T ∨ c.pinned k v = true) → total c.weight (Dict.store d k v) ≤ C →
      log = (μ k).toList.map (.onEvict k) ∧ μ' = put μ k (f v)

/-- The state of the cache, which implements `m`; `held` is the load that goes on. -/
structure Live (c : Cfg K V RS) (T C G : Nat) (w : World K V) (m : Clock K V) (held : Option (K × Plh)) : Prop where
  run : ∃ tr, Conc.Run c (State.new (Shard.new T C G)) tr w.st
  sim : w.st.shard.Implements c m
  live : ∀ k p, PLive c w.st.shard k p ↔ held = some (k, p)
  room : w.st.shard.entries.entries.length ≤ w.acts

variable {held : Option (K × Plh)}

theorem Live.inv (h : Live c T C G w m held) (hq : c.ptrEq = true) : CInv c w.st := by
  obtain ⟨tr, hr⟩ := h.run
  exact (hr.reach hq (.new ..)).inv

theorem Live.reach (h : Live c T C G w m held) (hq : c.ptrEq = true) : CReach c T C G w.st := by
  obtain ⟨tr, hr⟩ := h.run
  exact hr.reach hq (.new ..)

theorem Live.target (h : Live c T C G w m held) (hq : c.ptrEq = true) : w.st.shard.weightTargetHot = T :=
  (h.reach hq).reach.target

theorem Live.capacity (h : Live c T C G w m held) (hq : c.ptrEq = true) : w.st.shard.weightCapacity = C :=
  (h.reach hq).reach.capacity

theorem Live.value (h : Live c T C G w m held) : m.value = w.st.shard.contents := h.sim.value

omit [DecidableEq K] in
theorem plive_relayout {s : Shard K V} {mp : List (UInt64 × Nat)} {p : UInt64 → UInt64 → Bool} (hm : mp.Perm s.map) (k : K)
    (q : Plh) : PLive c (s.relayout mp p) k q ↔ PLive c s k q := by
  unfold PLive
  exact and_congr Iff.rfl hm.mem_iff

/-- A possible action is performed. -/
theorem Live.act (h : Live c T C G w m held) (hq : c.ptrEq = true) (hl : lay.Fair) {x : Act K V}
    (hx : exec c w.st x ≠ none) :
    (∃ e, Solo.act c lay w x = .error e ∧ ExecErr c w.st x e) ∨
    ∃ st' evs w' m', Eff c w.st x st' evs ∧ Solo.act c lay w x = .ok (w', evs) ∧
      (w'.st = { st' with shard := w'.st.shard } ∧ w'.acts = w.acts + 1 ∧ m'.value = st'.shard.contents) ∧
      (∀ held', (∀ k p, PLive c st'.shard k p ↔ held' = some (k, p)) → Live c T C G w' m' held') ∧
      ((m' = m ∧ st'.shard = w.st.shard ∧ ∀ e ∈ evs, isSect e = false) ∨
        ∃ sec out log rest, evs = .sect sec out log :: rest ∧ (∀ e ∈ rest, isSect e = false) ∧
          Clock.Sect c (fun k p => held ≠ some (k, p)) m sec out log m') := by
  have hi := h.inv hq
  obtain ⟨tr, hr⟩ := h.run
  unfold Solo.act
  cases hy : exec c w.st x with
  | none => exact absurd hy hx
  | some y =>
    cases y with
    | error e =>
      refine Or.inl ⟨e, rfl, ?_⟩
      rcases exec_sat hi hq hy with ⟨z, hz, -⟩ | ⟨e', he', hE⟩
      · cases hz
      · cases he'
        exact hE
    | ok z =>
      obtain ⟨st', evs⟩ := z
      obtain ⟨mp, p, h1, h2, h3⟩ := hl w.acts st'.shard
      have hi' := ((Run.act hr hy).reach hq (.new ..)).inv
      obtain ⟨R, F, hR, rfl⟩ := h.sim
      have hsim : ∃ m', st'.shard.Implements c m' ∧ ((m' = w.st.shard.abs R ∧ st'.shard = w.st.shard ∧ ∀ e ∈ evs, isSect e = false) ∨
          ∃ sec out log rest, evs = .sect sec out log :: rest ∧ (∀ e ∈ rest, isSect e = false) ∧
            Clock.Sect c (fun k p => held ≠ some (k, p)) (w.st.shard.abs R) sec out log m') := by
        rcases exec_sect hi hq hy with ⟨e1, e2⟩ | ⟨sec, out, q, rest, rfl, e2, e3, hok, -⟩
        · exact ⟨_, ⟨R, F, by rw [e1]; exact hR, by rw [e1]⟩, Or.inl ⟨rfl, e1, e2⟩⟩
        · obtain ⟨m', g1, g2⟩ := (sect_sim hi.shard hR hq hok).of_ok e3
          refine ⟨m', g1, Or.inr ⟨sec, out, _, rest, rfl, e2, ?_⟩⟩
          exact g2.mono (fun k p _ _ _ => not_congr (h.live k p)) (fun k p _ => not_congr (h.live k p))
      obtain ⟨m', ⟨R', F', g1, rfl⟩, g2⟩ := hsim
      refine Or.inr ⟨st', evs, _, st'.shard.abs R', hi.eff hq hy, rfl, ⟨rfl, rfl, Shard.abs_value _ _⟩, fun held' hh => ⟨⟨tr ++ evs, ?_⟩, ?_, ?_, ?_⟩, g2⟩
      · dsimp only
        rw [h1]
        exact .layout mp p (.act hr hy) h2 h3
      · dsimp only
        rw [h1]
        exact ⟨R', F', g1, (Shard.abs_relayout hi'.shard.toInv0 h2 h3).symm⟩
      · intro k q
        dsimp only
        rw [h1, plive_relayout h2]
        exact hh k q
      · have g3 := FuzzSync.len_exec hi hq hy
        have g4 : FuzzSync.grows x ≤ 1 := by unfold FuzzSync.grows; split <;> omega
        have g5 := h.room
        dsimp only
        rw [h1]
        show st'.shard.entries.entries.length ≤ _
        omega

/-! ### Between the calls and inside of one -/

/-- Between two calls. -/
structure Quiet (c : Cfg K V RS) (T C G : Nat) (w : World K V) (m : Clock K V) : Prop extends Live c T C G w m none where
  idle : ∀ a, w.st.ctl a = .idle

/-- Agent `a` is at `x`. -/
structure Busy (c : Cfg K V RS) (T C G : Nat) (w : World K V) (m : Clock K V) (held : Option (K × Plh)) (a : Nat) (x : Ctl K V) :
    Prop extends Live c T C G w m held where
  here : w.st.ctl a = x
  others : ∀ b, b ≠ a → w.st.ctl b = .idle

variable {a : Nat} {x : Ctl K V}

namespace Busy

theorem writer (h : Busy c T C G w m held a x) (hq : c.ptrEq = true) (hx : x.writes = false) : w.st.writer = none := by
  cases hw : w.st.writer with
  | none => rfl
  | some b =>
    have h1 := ((h.inv hq).lock.wr b).mp hw
    by_cases hb : b = a
    · rw [hb, h.here, hx] at h1; cases h1
    · rw [h.others b hb] at h1; cases h1

theorem readers (h : Busy c T C G w m held a x) (hq : c.ptrEq = true) (hx : x.reads = false) : w.st.readers = [] := by
  cases hw : w.st.readers with
  | nil => rfl
  | cons b l =>
    have h1 := ((h.inv hq).lock.rd b).mp (by rw [hw]; simp)
    by_cases hb : b = a
    · rw [hb, h.here, hx] at h1; cases h1
    · rw [h.others b hb] at h1; cases h1

theorem unlocked (h : Busy c T C G w m held a x) (hq : c.ptrEq = true) (hw : x.writes = false) (hr : x.reads = false) :
    w.st.unlocked = true := by
  unfold State.unlocked
  rw [h.writer hq hw, h.readers hq hr]; rfl

/-- Nobody waits. -/
theorem alone (h : Busy c T C G w m held a x) (hq : c.ptrEq = true) (hx : ∀ k p, x ≠ .waiting k p) {i : Nat} {ps : PState K V}
    (hp : w.st.plh i = some ps) : ps.waiters = [] := by
  cases hw : ps.waiters with
  | nil => rfl
  | cons b l =>
    obtain ⟨⟨k, h1⟩, -⟩ := (h.inv hq).waiter hp (b := b) (by rw [hw]; simp)
    by_cases hb : b = a
    · rw [hb, h.here] at h1; exact absurd h1 (hx _ _)
    · rw [h.others b hb] at h1; cases h1

/-- The agent goes on. -/
theorem next (h : Busy c T C G w m held a x) {w' : World K V} {m' : Clock K V} {held' : Option (K × Plh)}
    (hl : Live c T C G w' m' held') {y : Ctl K V} (hc : w'.st.ctl = Function.update w.st.ctl a y) :
    Busy c T C G w' m' held' a y :=
  ⟨hl, by rw [hc, Function.update_self], fun b hb => by rw [hc, Function.update_of_ne hb]; exact h.others b hb⟩

/-- The agent is finished. -/
theorem done (h : Busy c T C G w m held a .idle) (hh : held = none) : Quiet c T C G w m :=
  ⟨hh ▸ h.toLive, fun b => if hb : b = a then hb ▸ h.here else h.others b hb⟩

end Busy

theorem Quiet.busy (h : Quiet c T C G w m) (a : Nat) : Busy c T C G w m none a .idle :=
  ⟨h.toLive, h.idle a, fun b _ => h.idle b⟩

/-! ### Driving an agent -/

/-- Agent `a` gets to the end of its call within `n` steps, and `P` holds for the value found, the lifecycle calls and the
abstract cache. -/
def Drives (c : Cfg K V RS) (lay : Layout K V) (T C G : Nat) (μ : K → Option V) (op : Op K V) (a : Nat) (r : Option V) (n : Nat) (w : World K V)
    (P : Option V → List (Event K V) → Clock K V → Prop) : Prop :=
  (∃ e, drive c lay a r n w = .error e ∧ Large c T μ op (w.acts + n) e) ∨
  ∃ w' evs m', drive c lay a r n w = .ok (w', evs) ∧ w'.acts ≤ w.acts + n ∧ Quiet c T C G w' m' ∧ P (found evs) (logged evs) m'

variable {r : Option V} {n : Nat} {μ : K → Option V} {op : Op K V} {P P1 : Option V → List (Event K V) → Clock K V → Prop}

omit [DecidableEq K] in
theorem found_append {l l' : List (Ev K V)} (h : found l = none) : found (l ++ l') = found l' := by
  induction l with
  | nil => rfl
  | cons e l ih =>
    cases e with
    | hit => cases h
    | _ => exact ih h

omit [DecidableEq K] in
theorem logged_append (l l' : List (Ev K V)) : logged (l ++ l') = logged l ++ logged l' := by
  induction l with
  | nil => rfl
  | cons e l ih =>
    cases e with
    | sect => simp [logged, ih]
    | _ => exact ih

theorem Busy.finish (h : Busy c T C G w m none a .idle) (hP : P none [] m) : Drives c lay T C G μ op a r (n + 1) w P := by
  refine Or.inr ⟨w, [], m, ?_, by omega, h.done rfl, hP⟩
  simp only [drive, h.here]

/-- The agent makes a step. -/
theorem Busy.step (h : Busy c T C G w m held a x) (hx : x ≠ .idle) {y : Act K V} (hy : nextAct a r x = some y)
    (hs : (∃ e, Solo.act c lay w y = .error e ∧ Large c T μ op w.acts e) ∨
      ∃ w1 evs, (Solo.act c lay w y = .ok (w1, evs) ∧ w1.acts = w.acts + 1) ∧ ∃ P1, Drives c lay T C G μ op a r n w1 P1 ∧
        ((found evs = none ∧ ∀ o L m', P1 o L m' → P o (logged evs ++ L) m') ∨
         (∃ v, found evs = some v ∧ ∀ o L m', P1 o L m' → P (some v) (logged evs ++ L) m'))) :
    Drives c lay T C G μ op a r (n + 1) w P := by
  have hd : drive c lay a r (n + 1) w = (do
      let (w, evs) ← Solo.act c lay w y
      let (w, rest) ← drive c lay a r n w
      .ok (w, evs ++ rest)) := by
    rw [drive]
    have := h.here
    split
    · rename_i e; rw [this] at e; exact absurd e hx
    · rw [this, hy]
  unfold Drives
  rw [hd]
  rcases hs with ⟨e, h1, h2⟩ | ⟨w1, evs, ⟨h1, hacts⟩, P1, h2, h3⟩
  · exact Or.inl ⟨e, by rw [h1]; rfl, h2.mono (by omega)⟩
  · rw [h1, Res.ok_bind]
    dsimp only
    rcases h2 with ⟨e, h4, h5⟩ | ⟨w', rest, m', h4, ha', h5, h6⟩
    · exact Or.inl ⟨e, by rw [h4]; rfl, h5.mono (by omega)⟩
    · refine Or.inr ⟨w', evs ++ rest, m', by rw [h4]; rfl, by omega, h5, ?_⟩
      rw [logged_append]
      rcases h3 with ⟨h7, h8⟩ | ⟨v, h7, h8⟩
      · rw [found_append h7]; exact h8 _ _ _ h6
      · have : found (evs ++ rest) = some v := by
          clear h1 h4 h6 h8
          induction evs with
          | nil => cases h7
          | cons e l ih =>
            cases e with
            | hit => exact h7
            | _ => exact ih h7
        rw [this]; exact h8 _ _ _ h6

/-- How a guard is used. -/
def use : Option V → GuardUse V
  | some v => .insert v
  | none => .drop

/-! ### The steps of a call, last one first -/

section
variable {k : K} {p : Plh} {v : V}

theorem held_iff {sh : Shard K V} (h : ∀ k' p', PLive c sh k' p' ↔ PLive c w.st.shard k' p' ∧ p' ≠ p)
    (hl : Live c T C G w m (some (k, p))) : ∀ k' p', PLive c sh k' p' ↔ (none : Option (K × Plh)) = some (k', p') := by
  intro k' p'
  rw [h, hl.live]
  constructor
  · rintro ⟨h1, h2⟩
    cases h1
    exact absurd rfl h2
  · intro h; cases h

theorem does_get {m : K → Option V} : Does c T C m (.get k) (.value (m k)) [] m :=
  ⟨⟨rfl, rfl, rfl⟩, fun _ hst => by cases hst with | plain hst => cases hst⟩

theorem does_hit {m : K → Option V} {use : GuardUse V} (hk : m k = some v) :
    Does c T C m (.getRefOrGuard k use) (.orGuard (some v)) [] m := by
  refine ⟨by simp [OpSpec, hk], fun _ hst => ?_⟩
  cases hst with
  | plain hst =>
    cases hst with
    | guard _ _ absent => rw [hk] at absent; cases absent

namespace Busy
variable (hq : c.ptrEq = true) (hl : lay.Fair)
include hq hl

theorem of_dropping (h : Busy c T C G w m (some (k, p)) a (.dropping k p)) :
    Drives c lay T C G μ op a r (n + 2) w (fun o L m' => o = none ∧ L = [] ∧ m' = { m with pending := del m.pending k }) := by
  refine h.step (by simp) (y := .finishDrop a) rfl ?_
  rcases h.toLive.act hq hl (x := .finishDrop a) (by
    obtain ⟨ps, h1, -⟩ := (h.inv hq).at h.here
    simp only [exec, Conc.finishDrop, h.here, h1]
    split
    · split <;> simp
    · simp) with he | ⟨st', evs, w', m', e, h1, ⟨h2, hacts, hv⟩, h3, h4⟩
  · exact he.elim fun _ h => False.elim h.2
  refine Or.inr ⟨w', evs, ⟨h1, hacts⟩, ?_⟩
  cases e with
  | handOver hc hp _ _ _ hb =>
    rw [h.alone hq (by simp) hp] at hb
    cases hb
  | giveUp hc _ _ _ _ _ he =>
    rw [h.here] at hc
    cases hc
    cases he with
    | abandoned _ _ _ _ _ _ plh =>
      have hn := h3 none (held_iff plh.live h.toLive)
      rcases h4 with ⟨-, -, h4⟩ | ⟨sec, out, log, rest, h4, -, h5⟩
      · simp [isSect] at h4
      · cases h4
        cases h5 with
        | abandonedLate late => exact absurd rfl late
        | abandoned here =>
          exact ⟨_, (h.next hn (y := .idle) (by rw [h2]; rfl)).finish (P := fun o L m' => o = none ∧ L = [] ∧ m' = _) ⟨rfl, rfl, rfl⟩,
            Or.inl ⟨rfl, fun o L m' hP => hP⟩⟩

theorem of_leaving (h : Busy c T C G w m (some (k, p)) a (.leaving k p)) :
    Drives c lay T C G μ op a r (n + 3) w (fun o L m' => o = none ∧ L = [] ∧ m' = { m with pending := del m.pending k }) := by
  refine h.step (by simp) (y := .lockDrop a) rfl ?_
  rcases h.toLive.act hq hl (x := .lockDrop a) (by simp [exec, Conc.lockDrop, h.here, h.unlocked hq rfl rfl])
    with he | ⟨st', evs, w', m', e, h1, ⟨h2, hacts, hv⟩, h3, h4⟩
  · exact he.elim fun _ h => False.elim h.2
  refine Or.inr ⟨w', evs, ⟨h1, hacts⟩, ?_⟩
  cases e with
  | lockDrop hc =>
    rw [h.here] at hc
    cases hc
    have hn := h3 _ h.live
    rcases h4 with ⟨rfl, -, -⟩ | ⟨sec, out, log, rest, h4, -⟩
    · exact ⟨_, of_dropping hq hl (n := n) (h.next hn (by rw [h2]; rfl)), Or.inl ⟨rfl, fun o L m' hP => hP⟩⟩
    · cases h4

theorem of_inserting (h : Busy c T C G w m (some (k, p)) a (.inserting k p v false))
    (hμ : m.value = μ) (hk : μ k = none) (hop : op = .getRefOrGuard k (.insert v)) :
    Drives c lay T C G μ op a r (n + 2) w (fun o L m' => o = none ∧ Clock.Fill c m k v false L m' ∧
      Does c T C μ op (.orGuard none) L m'.value) := by
  refine h.step (by simp) (y := .store a) rfl ?_
  rcases h.toLive.act hq hl (x := .store a) (by simp [exec, Conc.store, h.here, h.unlocked hq rfl rfl])
    with he | ⟨st', evs, w', m', e, h1, ⟨h2, hacts, hv⟩, h3, h4⟩
  · obtain ⟨e, h1, k', q, v', b, h2, rfl, h3⟩ := he
    rw [h.here] at h2
    cases h2
    rw [h.target hq, ← (h.inv hq).shard.toInv0.total_iter] at h3
    refine Or.inl ⟨_, h1, Or.inl ⟨rfl, _, _, by rw [hop]; exact .guard v hk, ?_, h3⟩⟩
    rw [← hμ, h.value]
    exact lists_iter (h.inv hq).shard.toInv0
  refine Or.inr ⟨w', evs, ⟨h1, hacts⟩, ?_⟩
  cases e with
  | superseded hc _ _ hg =>
    rw [h.here] at hc
    cases hc
    exact absurd ((h.live k p).mpr rfl).1 (hg k)
  | store hc _ _ _ he =>
    rw [h.here] at hc
    cases hc
    cases he with
    | filled _ heff plh =>
      have hn := h3 none (held_iff plh.live h.toLive)
      rcases h4 with ⟨-, -, h4⟩ | ⟨sec, out, log, rest, h4, -, h5⟩
      · simp [isSect] at h4
      · cases h4
        cases h5 with
        | filled here fill =>
          refine ⟨_, (h.next hn (y := .idle) (by rw [h2]; rfl)).finish
            (P := fun o L m1 => o = none ∧ L = [] ∧ m1 = m') ⟨rfl, rfl, rfl⟩, Or.inl ⟨rfl, ?_⟩⟩
          rintro o L m1 ⟨h6, rfl, rfl⟩
          refine ⟨h6, by simpa [logged] using fill, ?_⟩
          have hi := (h.inv hq).shard.toInv0
          have hμ' : w.st.shard.contents = μ := h.value.symm.trans hμ
          rw [hv, hop]
          simp only [logged, List.append_nil]
          refine ⟨?_, ?_⟩
          · have := heff.store hi
            rw [h.target hq, hμ'] at this
            simp only [OpSpec, hk]
            exact ⟨trivial, this⟩
          · intro d k' v' f hd hst hfit hcap
            cases hst with
            | plain hst =>
              cases hst
              have := heff.dict_store hi (h.target hq) (h.capacity hq) (by rw [hμ']; exact hd) hfit hcap
              rwa [hμ'] at this

theorem of_guard (h : Busy c T C G w m (some (k, p)) a (.guard k p))
    (hμ : m.value = μ) (hk : μ k = none) (hop : op = .getRefOrGuard k (use r)) :
    Drives c lay T C G μ op a r (n + 4) w (fun o L m' => o = none ∧
      Clock.Guarded c m k (use r) L m' ∧
      Does c T C μ op (.orGuard none) L m'.value) := by
  cases r with
  | none =>
    refine h.step (by simp) (y := .drop a) rfl ?_
    rcases h.toLive.act hq hl (x := .drop a) (by simp [exec, Conc.drop, h.here])
      with he | ⟨st', evs, w', m', e, h1, ⟨h2, hacts, hv⟩, h3, h4⟩
    · exact he.elim fun _ h => False.elim h.2
    refine Or.inr ⟨w', evs, ⟨h1, hacts⟩, ?_⟩
    cases e with
    | drop hc =>
      rw [h.here] at hc
      cases hc
      have hn := h3 _ h.live
      rcases h4 with ⟨rfl, -, -⟩ | ⟨sec, out, log, rest, h4, -⟩
      · refine ⟨_, of_leaving hq hl (n := n) (h.next hn (by rw [h2]; rfl)), Or.inl ⟨rfl, ?_⟩⟩
        rintro o L m1 ⟨h6, rfl, rfl⟩
        refine ⟨h6, .drop, ?_⟩
        rw [hop]
        refine ⟨?_, ?_⟩
        · simp only [OpSpec, hk, use]
          exact ⟨trivial, rfl, hμ⟩
        · intro d k' v' f hd hst
          cases hst with
          | plain hst => cases hst
      · cases h4
  | some v =>
    refine h.step (by simp) (y := .publish a v) rfl ?_
    obtain ⟨ps, hps, -⟩ := (h.inv hq).at h.here
    have hal := h.alone hq (by simp) hps
    rcases h.toLive.act hq hl (x := .publish a v) (by simp [exec, Conc.publish, h.here, hps])
      with he | ⟨st', evs, w', m', e, h1, ⟨h2, hacts, hv⟩, h3, h4⟩
    · exact he.elim fun _ h => False.elim h.2
    refine Or.inr ⟨w', evs, ⟨h1, hacts⟩, ?_⟩
    cases e with
    | @publish _ _ _ _ ps' hc hp =>
      rw [h.here] at hc
      cases hc
      rw [hps] at hp
      cases hp
      have hn := h3 _ h.live
      rcases h4 with ⟨rfl, -, -⟩ | ⟨sec, out, log, rest, h4, -⟩
      · refine ⟨_, of_inserting hq hl (n := n + 1) (v := v) (h.next hn (by rw [h2, hal]; rfl)) hμ hk hop, Or.inl ⟨by rw [hal]; rfl, ?_⟩⟩
        rintro o L m1 ⟨h6, h7, h8⟩
        exact ⟨h6, .insert (by rw [hal]; exact h7), by rw [hal]; exact h8⟩
      · cases h4

theorem of_starting {b : Bool} (h : Busy c T C G w m (some (k, p)) a (.starting k p b))
    (hμ : m.value = μ) (hk : μ k = none) (hop : op = .getRefOrGuard k (use r)) :
    Drives c lay T C G μ op a r (n + 5) w (fun o L m' => o = none ∧
      Clock.Guarded c m k (use r) L m' ∧
      Does c T C μ op (.orGuard none) L m'.value) := by
  refine h.step (by simp) (y := .startLoading a) rfl ?_
  rcases h.toLive.act hq hl (x := .startLoading a) (by
    simp only [exec, Conc.startLoading, h.here]
    split <;> simp) with he | ⟨st', evs, w', m', e, h1, ⟨h2, hacts, hv⟩, h3, h4⟩
  · exact he.elim fun _ h => False.elim h.2
  refine Or.inr ⟨w', evs, ⟨h1, hacts⟩, ?_⟩
  cases e with
  | guard hc =>
    rw [h.here] at hc
    cases hc
    have hn := h3 _ (by cases b <;> exact h.live)
    rcases h4 with ⟨rfl, -, -⟩ | ⟨sec, out, log, rest, h4, -⟩
    · exact ⟨_, of_guard hq hl (n := n) (h.next hn (by rw [h2]; cases b <;> rfl)) hμ hk hop, Or.inl ⟨rfl, fun o L m' hP => hP⟩⟩
    · cases h4

theorem of_created (h : Busy c T C G w m none a (.created k))
    (hμ : m.value = μ) (hop : op = .getRefOrGuard k (use r)) :
    Drives c lay T C G μ op a r (n + 6) w (fun o L m' =>
      Clock.Step c m (.getRefOrGuard k (use r)) (.orGuard o) L m' ∧
      Does c T C μ op (.orGuard o) L m'.value) := by
  refine h.step (by simp) (y := .upsert a) rfl ?_
  rcases h.toLive.act hq hl (x := .upsert a) (by simp [exec, Conc.upsert, h.here, h.unlocked hq rfl rfl])
    with he | ⟨st', evs, w', m', e, h1, ⟨h2, hacts, hv⟩, h3, h4⟩
  · obtain ⟨e, h1, k', h2, rfl, -, h3⟩ := he
    have := h.room
    exact Or.inl ⟨_, h1, Or.inr ⟨rfl, by omega⟩⟩
  refine Or.inr ⟨w', evs, ⟨h1, hacts⟩, ?_⟩
  have hμ' : w.st.shard.contents = μ := h.value.symm.trans hμ
  cases e with
  | @found _ _ v _ hc _ _ he =>
    rw [h.here] at hc
    cases hc
    have hcon := (he.contents (h.inv hq).shard).1
    cases he with
    | found t r' hk wrote hits misses plh np =>
      have hn := h3 none (fun k' p' => (plh.live k' p').trans (h.live k' p'))
      rcases h4 with ⟨-, -, h4⟩ | ⟨sec, out, log, rest, h4, -, h5⟩
      · simp [isSect] at h4
      · cases h4
        cases h5 with
        | found look =>
          refine ⟨_, (h.next hn (y := .idle) (by rw [h2]; rfl)).finish
            (P := fun o L m1 => o = none ∧ L = [] ∧ m1 = m') ⟨rfl, rfl, rfl⟩, Or.inr ⟨_, rfl, ?_⟩⟩
          rintro o L m1 ⟨-, rfl, rfl⟩
          refine ⟨.guardHit look, ?_⟩
          have hμk : μ k = some r'.value := by
            generalize hw : some r'.value = o at look
            rw [← hμ]
            unfold Clock.value
            cases look with
            | found here => rw [here]; rfl
            | _ => cases hw
          have hval : m1.value = μ := hv.trans (hcon.trans hμ')
          rw [hop, hval]
          exact does_hit hμk
  | @created _ _ p _ hc _ _ he =>
    rw [h.here] at hc
    cases hc
    have hcon := (he.contents (h.inv hq).shard).1
    cases he with
    | created hp hno plh id np =>
      have hn := h3 (some (k, p)) (fun k' p' => by
        have h6 : PLive c w.st.shard k' p' ↔ none = some (k', p') := h.live k' p'
        refine (plh.live k' p').trans ?_
        rw [h6]
        simp only [reduceCtorEq, false_or, Option.some.injEq, Prod.mk.injEq]
        exact ⟨fun e => ⟨e.1.symm, e.2.symm⟩, fun e => ⟨e.1.symm, e.2.symm⟩⟩)
      rcases h4 with ⟨-, -, h4⟩ | ⟨sec, out, log, rest, h4, -, h5⟩
      · simp [isSect] at h4
      · cases h4
        cases h5 with
        | began idle look =>
          refine ⟨_, of_starting hq hl (n := n) (h.next hn (by rw [h2]; rfl)) (hv.trans (hcon.trans hμ')) ?_ hop, Or.inl ⟨rfl, ?_⟩⟩
          · rw [← hμ]
            unfold Clock.value
            generalize hw : none = o at look
            cases look with
            | found => cases hw
            | _ => simp [*]
          · rintro o L m1 ⟨rfl, h7, h8⟩
            exact ⟨.guard look h7, h8⟩
  | joining hc _ _ he =>
    cases he with
    | joined _ hl => exact absurd ((h.live _ _).mp hl) (by simp)

theorem of_tally {o' : Option V} (h : Busy c T C G w m none a (.tally k o')) (hk : w.st.kind a = .get ∨ o' ≠ none) :
    Drives c lay T C G μ op a r (n + 2) w (fun o L m' => o = o' ∧ L = [] ∧ m' = m) := by
  refine h.step (by simp) (y := .tally a) rfl ?_
  rcases h.toLive.act hq hl (x := .tally a) (by simp [exec, Conc.tally, h.here])
    with he | ⟨st', evs, w', m', e, h1, ⟨h2, hacts, hv⟩, h3, h4⟩
  · exact he.elim fun _ h => False.elim h.2
  refine Or.inr ⟨w', evs, ⟨h1, hacts⟩, ?_⟩
  cases e with
  | hit hc he =>
    rw [h.here] at hc
    cases hc
    cases he
    have hn := h3 none h.live
    rcases h4 with ⟨-, -, h4⟩ | ⟨sec, out, log, rest, h4, -, h5⟩
    · simp [isSect] at h4
    · cases h4
      cases h5
      refine ⟨_, (h.next hn (y := .idle) (by rw [h2]; rfl)).finish
        (P := fun o L m1 => o = none ∧ L = [] ∧ m1 = m) ⟨rfl, rfl, rfl⟩, Or.inr ⟨_, rfl, ?_⟩⟩
      rintro o L m1 ⟨-, rfl, rfl⟩
      exact ⟨rfl, rfl, rfl⟩
  | miss hc _ he =>
    rw [h.here] at hc
    cases hc
    cases he
    have hn := h3 none h.live
    rcases h4 with ⟨-, -, h4⟩ | ⟨sec, out, log, rest, h4, -, h5⟩
    · simp [isSect] at h4
    · cases h4
      cases h5
      refine ⟨_, (h.next hn (y := .idle) (by rw [h2]; rfl)).finish
        (P := fun o L m1 => o = none ∧ L = [] ∧ m1 = m) ⟨rfl, rfl, rfl⟩, Or.inl ⟨rfl, ?_⟩⟩
      rintro o L m1 ⟨rfl, rfl, rfl⟩
      exact ⟨rfl, rfl, rfl⟩
  | goOn hc hk' he =>
    rw [h.here] at hc
    cases hc
    rcases hk with hk | hk
    · exact absurd hk hk'
    · exact absurd rfl hk

/-- The search was in vain: the call loads the value. -/
theorem of_miss (h : Busy c T C G w m none a (.tally k none)) (hk : w.st.kind a ≠ .get)
    (hμ : m.value = μ) (hop : op = .getRefOrGuard k (use r)) :
    Drives c lay T C G μ op a r (n + 7) w (fun o L m' =>
      Clock.Step c m (.getRefOrGuard k (use r)) (.orGuard o) L m' ∧
      Does c T C μ op (.orGuard o) L m'.value) := by
  refine h.step (by simp) (y := .tally a) rfl ?_
  rcases h.toLive.act hq hl (x := .tally a) (by simp [exec, Conc.tally, h.here])
    with he | ⟨st', evs, w', m', e, h1, ⟨h2, hacts, hv⟩, h3, h4⟩
  · exact he.elim fun _ h => False.elim h.2
  refine Or.inr ⟨w', evs, ⟨h1, hacts⟩, ?_⟩
  cases e with
  | hit hc he => rw [h.here] at hc; cases hc
  | miss hc hk' he => exact absurd hk' hk
  | goOn hc hk' he =>
    rw [h.here] at hc
    cases hc
    cases he
    have hn := h3 none h.live
    rcases h4 with ⟨-, -, h4⟩ | ⟨sec, out, log, rest, h4, -, h5⟩
    · simp [isSect] at h4
    · cases h4
      cases h5
      exact ⟨_, of_created hq hl (n := n) (h.next hn (by rw [h2]; rfl)) hμ hop, Or.inl ⟨rfl, fun o L m' hP => hP⟩⟩

theorem of_bump {t : Nat} {i : Item V} (h : Busy c T C G w m none a (.bump k t v)) (hi : m.items k = some i) (hf : i.refs < 2) :
    Drives c lay T C G μ op a r (n + 3) w (fun o L m' => o = some v ∧ L = [] ∧ m' = m.setItem k i.warm) := by
  refine h.step (by simp) (y := .bump a) rfl ?_
  rcases h.toLive.act hq hl (x := .bump a) (by simp [exec, Conc.bump, h.here])
    with he | ⟨st', evs, w', m', e, h1, ⟨h2, hacts, hv⟩, h3, h4⟩
  · exact he.elim fun _ h => False.elim h.2
  refine Or.inr ⟨w', evs, ⟨h1, hacts⟩, ?_⟩
  cases e with
  | bump hc he =>
    rw [h.here] at hc
    cases hc
    cases he with
    | bumped r' hk wrote plh same =>
      have hn := h3 none (fun k' p' => (plh.live k' p').trans (h.live k' p'))
      rcases h4 with ⟨-, -, h4⟩ | ⟨sec, out, log, rest, h4, -, h5⟩
      · simp [isSect] at h4
      · cases h4
        cases h5 with
        | bump here =>
          rw [hi] at here
          cases here
          have hw : ({ i with refs := (i.refs + 1) % 2 ^ 16 } : Item V) = i.warm := by
            unfold Item.warm
            rw [if_pos hf, Nat.mod_eq_of_lt (by omega)]
          rw [hw] at hn
          exact ⟨_, of_tally hq hl (n := n) (h.next hn (by rw [h2]; rfl)) (Or.inr (by simp)), Or.inl ⟨rfl, fun o L m' hP => hP⟩⟩

theorem of_saw {t : Nat} (h : Busy c T C G w m none a (.saw k t v)) :
    Drives c lay T C G μ op a r (n + 4) w (fun o L m' => o = some v ∧ L = [] ∧ m' = m.touch k) := by
  refine h.step (by simp) (y := .load a none) rfl ?_
  rcases h.toLive.act hq hl (x := .load a none) (by simp [exec, Conc.load, h.here])
    with he | ⟨st', evs, w', m', e, h1, ⟨h2, hacts, hv⟩, h3, h4⟩
  · exact he.elim fun _ h => False.elim h.2
  refine Or.inr ⟨w', evs, ⟨h1, hacts⟩, ?_⟩
  cases e with
  | load hc j =>
    rw [h.here] at hc
    cases hc
    have hn := h3 none h.live
    rcases h4 with ⟨-, -, h4⟩ | ⟨sec, out, log, rest, h4, -, h5⟩
    · simp [isSect] at h4
    · cases h4
      cases h5 with
      | @load _ _ i here =>
        have hb := h.next hn (by rw [h2]; rfl)
        have ht : m.touch k = m.setItem k i.warm := by unfold Clock.touch; rw [here]
        split at hb
        · rename_i hlt
          refine ⟨_, of_bump hq hl (n := n) hb here hlt, Or.inl ⟨rfl, ?_⟩⟩
          rintro o L m1 ⟨rfl, rfl, rfl⟩
          exact ⟨rfl, rfl, ht.symm⟩
        · rename_i hlt
          refine ⟨_, of_tally hq hl (n := n + 1) hb (Or.inr (by simp)), Or.inl ⟨rfl, ?_⟩⟩
          rintro o L m1 ⟨rfl, rfl, rfl⟩
          refine ⟨rfl, rfl, ?_⟩
          rw [ht]
          have hw : i.warm = i := by
            unfold Item.warm
            rw [if_neg (show ¬ i.refs < 2 from hlt)]
          rw [hw]
          unfold Clock.setItem
          rw [put_self _ here]

/-- The call that an agent of this kind makes. -/
def opOf (k : K) (r : Option V) (kind : Kind) : Op K V :=
  if kind = .get then .get k else .getRefOrGuard k (use r)

/-- What it returns. -/
def outOf (kind : Kind) (o : Option V) : Out K V := if kind = .get then .value o else .orGuard o

/-- What it does. -/
def Outcome (c : Cfg K V RS) (T C : Nat) (m : Clock K V) (k : K) (r : Option V) (kind : Kind) (o : Option V) (L : List (Event K V))
    (m' : Clock K V) : Prop :=
  Clock.Step c m (opOf k r kind) (outOf kind o) L m' ∧ Does c T C m.value (opOf k r kind) (outOf kind o) L m'.value

omit hq hl in
theorem touch_value (m : Clock K V) (k : K) : (m.touch k).value = m.value := by
  unfold Clock.touch
  cases hi : m.items k with
  | none => rfl
  | some i =>
    funext x
    unfold Clock.value Clock.setItem put
    dsimp only
    split
    · rename_i e
      rw [e, hi]
      simp only [Option.map_some, Item.warm]
    · rfl

theorem of_seek (h : Busy c T C G w m none a (.seek k)) :
    Drives c lay T C G m.value (opOf k r (w.st.kind a)) a r (n + 8) w (Outcome c T C m k r (w.st.kind a)) := by
  refine h.step (by simp) (y := .find a) rfl ?_
  rcases h.toLive.act hq hl (x := .find a) (by simp [exec, Conc.find, h.here])
    with he | ⟨st', evs, w', m', e, h1, ⟨h2, hacts, hv⟩, h3, h4⟩
  · exact he.elim fun _ h => False.elim h.2
  refine Or.inr ⟨w', evs, ⟨h1, hacts⟩, ?_⟩
  cases e with
  | located hc t r' ht hk =>
    rw [h.here] at hc
    cases hc
    have hn := h3 none h.live
    rcases h4 with ⟨-, -, h4⟩ | ⟨sec, out, log, rest, h4, -, h5⟩
    · simp [isSect] at h4
    · cases h4
      cases h5 with
      | find value =>
        refine ⟨_, of_saw hq hl (n := n + 3) (h.next hn (by rw [h2]; rfl)), Or.inl ⟨rfl, ?_⟩⟩
        rintro o L m1 ⟨rfl, rfl, rfl⟩
        have hv : m.value k = some r'.value := value
        have htv : (m.touch k).value = m.value := touch_value ..
        unfold Outcome opOf outOf
        rw [htv]
        split
        · rw [← hv]; exact ⟨.get, does_get⟩
        · refine ⟨?_, does_hit hv⟩
          unfold Clock.value at hv
          unfold Clock.touch
          cases hi : m.items k with
          | none => rw [hi] at hv; cases hv
          | some i =>
            rw [hi] at hv
            have hv' : r'.value = i.value := (Option.some.inj hv).symm
            rw [hv']
            exact .guardHit (.found hi)
  | absent hc hno =>
    rw [h.here] at hc
    cases hc
    have hn := h3 none h.live
    rcases h4 with ⟨-, -, h4⟩ | ⟨sec, out, log, rest, h4, -, h5⟩
    · simp [isSect] at h4
    · cases h4
      cases h5 with
      | find value =>
        have hb := h.next hn (y := .tally k none) (by rw [h2]; rfl)
        have hkind : w'.st.kind a = w.st.kind a := by rw [h2]; rfl
        by_cases hk : w.st.kind a = .get
        · refine ⟨_, of_tally hq hl (n := n + 5) hb (Or.inl (hkind.trans hk)), Or.inl ⟨rfl, ?_⟩⟩
          rintro o L m1 ⟨h6, h7, h8⟩
          rw [h6, h7, h8]
          unfold Outcome opOf outOf
          rw [if_pos hk, if_pos hk]
          have hv : m.value k = none := value
          have : m.touch k = m := by
            unfold Clock.touch
            unfold Clock.value at hv
            cases hi : m.items k with
            | none => rfl
            | some i => rw [hi] at hv; cases hv
          have hs : Clock.Step c m (.get k) (.value (m.value k)) [] (m.touch k) := .get
          have hd : Does c T C m.value (.get k) (.value (m.value k)) [] m.value := does_get
          rw [hv, this] at hs
          rw [hv] at hd
          exact ⟨hs, hd⟩
        · refine ⟨_, of_miss hq hl (n := n) hb (by rw [hkind]; exact hk) rfl (if_neg hk), Or.inl ⟨rfl, ?_⟩⟩
          intro o L m1 hP
          unfold Outcome outOf
          rw [show opOf k r (w.st.kind a) = .getRefOrGuard k (use r) from if_neg hk] at hP ⊢
          rw [if_neg hk]
          exact hP

theorem of_start (h : Busy c T C G w m none a (.start k)) :
    Drives c lay T C G m.value (opOf k r (w.st.kind a)) a r (n + 9) w (Outcome c T C m k r (w.st.kind a)) := by
  refine h.step (by simp) (y := .enter a 0) rfl ?_
  rcases h.toLive.act hq hl (x := .enter a 0) (by simp [exec, Conc.enter, h.here, h.writer hq rfl])
    with he | ⟨st', evs, w', m', e, h1, ⟨h2, hacts, hv⟩, h3, h4⟩
  · exact he.elim fun _ h => False.elim h.2
  refine Or.inr ⟨w', evs, ⟨h1, hacts⟩, ?_⟩
  cases e with
  | enter _ hc =>
    rw [h.here] at hc
    cases hc
    have hn := h3 none h.live
    have hkind : w'.st.kind a = w.st.kind a := by rw [h2]; rfl
    rcases h4 with ⟨rfl, -, -⟩ | ⟨sec, out, log, rest, h4, -⟩
    · have hd := of_seek hq hl (n := n) (r := r) (h.next hn (y := .seek k) (by rw [h2]; rfl))
      rw [hkind] at hd
      refine ⟨_, hd, Or.inl ⟨by split <;> rfl, ?_⟩⟩
      intro o L m1 hP
      have : logged (if w.st.kind a = .task then [Ev.polled (K := K) (V := V) a 0] else []) = [] := by split <;> rfl
      rw [this]
      exact hP
    · split at h4 <;> cases h4

end Busy
end

/-! ### Calls -/

theorem Quiet.drive (h : Quiet c T C G w m) (hq : c.ptrEq = true) (hl : lay.Fair) (kind : Kind) (k : K) (r : Option V) :
    (∃ e, (do
        let (w1, _) ← Solo.act c lay w (.begin kind k)
        Solo.drive c lay w.st.next r 12 w1) = .error e ∧ Large c T m.value (Busy.opOf k r kind) (w.acts + 13) e) ∨
    ∃ w1 evs1 w' evs m', Solo.act c lay w (.begin kind k) = .ok (w1, evs1) ∧ Solo.drive c lay w.st.next r 12 w1 = .ok (w', evs) ∧
      w'.acts ≤ w.acts + 13 ∧ Quiet c T C G w' m' ∧ Busy.Outcome c T C m k r kind (found evs) (logged evs) m' := by
  rcases h.toLive.act hq hl (x := .begin kind k) (by
    simp only [exec, Conc.begin]
    rw [if_pos]
    · simp
    · cases kind with
      | thread tid timed =>
        simp only [Bool.not_eq_eq_eq_not, Bool.not_true]
        refine List.any_eq_false.mpr (fun b hb => ?_)
        split
        · rw [h.idle b]; simp [Ctl.calling]
        · simp
      | _ => rfl) with he | ⟨st', evs, w1, m', e, h1, ⟨h2, hacts, hv⟩, h3, h4⟩
  · exact he.elim fun _ h => False.elim h.2
  cases e with
  | begin _ _ hk =>
    have hn := h3 none h.live
    rcases h4 with ⟨rfl, -, -⟩ | ⟨sec, out, log, rest, h4, -⟩
    · have hb := (h.busy w.st.next).next hn (y := .start k) (by rw [h2])
      have hkind : w1.st.kind w.st.next = kind := by rw [h2]; exact Function.update_self ..
      have hd := Busy.of_start hq hl (n := 3) (r := r) hb
      rw [hkind] at hd
      rcases hd with ⟨e, g1, g2⟩ | ⟨w', evs, m1, g1, g4, g2, g3⟩
      · exact Or.inl ⟨e, by rw [h1, Res.ok_bind]; exact g1, g2.mono (by omega)⟩
      · exact Or.inr ⟨w1, _, w', evs, m1, h1, g1, by omega, g2, g3⟩
    · cases h4

/-- A call comes to its end. -/
theorem Quiet.perform (h : Quiet c T C G w m) (hq : c.ptrEq = true) (hl : lay.Fair) {x : Call K V} (hx : x.Known) :
    (∃ e, Solo.perform c lay w x = .error e ∧ Large c T m.value x.op (w.acts + 13) e) ∨
    ∃ w' y m', Solo.perform c lay w x = .ok (w', y) ∧ w'.acts ≤ w.acts + 13 ∧ y.op = x.op ∧ Quiet c T C G w' m' ∧ Clock.Step c m y.op y.out y.log m' ∧
      Does c T C m.value y.op y.out y.log m'.value := by
  cases x with
  | plain op =>
    simp only [Solo.perform]
    rcases h.toLive.act hq hl (x := .call op) (by
      have h1 := (h.busy 0).unlocked hq rfl rfl
      have h2 := (h.busy 0).writer hq rfl
      simp only [exec, Conc.call]
      cases hop : lockMode op with
      | none => exact absurd hop hx
      | some b => cases b <;> simp [h1, h2]) with ⟨e, he, hL⟩ | ⟨st', evs, w1, m', e, h1, ⟨h2, hacts, hv⟩, h3, h4⟩
    · refine Or.inl ⟨e, by rw [he]; rfl, ?_⟩
      rcases hL with ⟨rfl, x, hx, hx'⟩ | ⟨rfl, -, hx⟩
      · rw [h.target hq] at hx
        rw [← (h.inv hq).shard.toInv0.total_iter] at hx'
        exact Or.inl ⟨rfl, x, _, by rw [h.value]; exact hx, by rw [h.value]; exact lists_iter (h.inv hq).shard.toInv0, hx'⟩
      · have := h.room
        exact Or.inr ⟨rfl, by omega⟩
    have hi := (h.inv hq).shard
    cases e with
    | read hop he =>
      have hn := h3 none h.live
      rcases h4 with ⟨-, -, h4⟩ | ⟨sec, out, log, rest, h4, -, h5⟩
      · simp [isSect] at h4
      · cases h4
        cases h5 with
        | call step =>
          refine Or.inr ⟨w1, _, m', by rw [h1]; rfl, by omega, rfl, ⟨hn, by rw [h2]; exact h.idle⟩, step, ?_⟩
          rw [hv, h.value]
          refine ⟨?_, ?_⟩
          · have := he.contents hi
            simp only [Section.asCall] at this
            rwa [h.target hq] at this
          · intro d k v f hd hst
            cases hst with
            | plain hst => cases hst <;> cases hop
            | loadMut => cases hop
    | write hop hw hr he =>
      cases he with
      | call hop' heff plh np =>
        have hn := h3 none (fun k p => by
          refine (plh.live k p).trans ?_
          rw [h.live]
          simp)
        rcases h4 with ⟨-, -, h4⟩ | ⟨sec, out, log, rest, h4, -, h5⟩
        · simp [isSect] at h4
        · cases h4
          cases h5 with
          | call step =>
            refine Or.inr ⟨w1, _, m', by rw [h1]; rfl, by omega, rfl, ⟨hn, by rw [h2]; exact h.idle⟩, step, ?_⟩
            rw [hv, h.value]
            refine ⟨?_, ?_⟩
            · have := heff.opSpec hi.toInv0
              rwa [h.target hq] at this
            · intro d k v f hd hst hfit hcap
              exact heff.dict_store hi.toInv0 (h.target hq) (h.capacity hq) hd hst hfit hcap
  | get k =>
    simp only [Solo.perform]
    rcases h.drive hq hl .get k none with ⟨e, he, hL⟩ | ⟨w1, evs1, w', evs, m', h1, h2, hacts, h3, h4⟩
    · refine Or.inl ⟨e, ?_, hL⟩
      cases ha : Solo.act c lay w (.begin .get k) with
      | error e' => rw [ha] at he; cases he; rfl
      | ok z =>
        rw [ha, Res.ok_bind] at he
        rw [Res.ok_bind]
        dsimp only at he ⊢
        rw [he]
        rfl
    · refine Or.inr ⟨w', _, m', by rw [h1, Res.ok_bind]; dsimp only; rw [h2]; rfl, hacts, rfl, h3, ?_⟩
      exact h4
  | load l k r =>
    simp only [Solo.perform]
    have hne : l.kind ≠ .get := by cases l <;> simp [Loader.kind]
    rcases h.drive hq hl l.kind k r with ⟨e, he, hL⟩ | ⟨w1, evs1, w', evs, m', h1, h2, hacts, h3, h4⟩
    · refine Or.inl ⟨e, ?_, by unfold Busy.opOf at hL; rw [if_neg hne] at hL; cases r <;> exact hL⟩
      cases ha : Solo.act c lay w (.begin l.kind k) with
      | error e' => rw [ha] at he; cases he; rfl
      | ok z =>
        rw [ha, Res.ok_bind] at he
        rw [Res.ok_bind]
        dsimp only at he ⊢
        rw [he]
        rfl
    · refine Or.inr ⟨w', _, m', by rw [h1, Res.ok_bind]; dsimp only; rw [h2]; rfl, hacts, rfl, h3, ?_⟩
      unfold Busy.Outcome Busy.opOf Busy.outOf at h4
      rw [if_neg hne, if_neg hne] at h4
      cases r <;> exact h4

theorem Quiet.new : Quiet c T C G (World.new T C G) (.empty T C G) := by
  refine ⟨⟨⟨[], .start⟩, new_sim c T C G, fun k p => ⟨fun h => ?_, fun h => by cases h⟩, Nat.le_refl 0⟩, fun a => rfl⟩
  obtain ⟨-, h⟩ := h
  cases h

/-- One call after the other. -/
theorem Quiet.calls (hq : c.ptrEq = true) (hl : lay.Fair) : ∀ {l : List (Call K V)} {w : World K V} {m m0 : Clock K V}
    {h0 : List (Unsync.Call K V)}, (∀ x ∈ l, x.Known) → Quiet c T C G w m → Clock.Run c m0 h0 m →
    (∃ e l1 x l2 w1 h1 m1, l = l1 ++ x :: l2 ∧ Solo.run c lay l w = .error e ∧ Solo.run c lay l1 w = .ok (w1, h1) ∧
      Quiet c T C G w1 m1 ∧ Solo.perform c lay w1 x = .error e ∧ Large c T m1.value x.op (w.acts + 13 * l.length) e) ∨
    ∃ w' h m', Solo.run c lay l w = .ok (w', h) ∧ h.map (·.op) = l.map Call.op ∧ Quiet c T C G w' m' ∧ Clock.Run c m0 (h0 ++ h) m'
  | [], w, m, m0, h0, _, h, hr => Or.inr ⟨w, [], m, rfl, rfl, h, by rw [List.append_nil]; exact hr⟩
  | x :: l, w, m, m0, h0, hk, h, hr => by
    rw [Solo.run]
    rcases h.perform hq hl (hk x (by simp)) with ⟨e, he, hL⟩ | ⟨w1, y, m1, h1, hacts, h2, h3, h4, -⟩
    · exact Or.inl ⟨e, [], x, l, w, [], m, rfl, by rw [he]; rfl, rfl, h, he, hL.mono (by rw [List.length_cons]; omega)⟩
    · rw [h1, Res.ok_bind]
      dsimp only
      rcases Quiet.calls (l := l) hq hl (fun x hx => hk x (by simp [hx])) h3 (.call hr h4) with
        ⟨e, l1, x', l2, w2, h', m2, rfl, he, g1, g2, g3, hL⟩ | ⟨w', h', m', g1, g2, g3, g4⟩
      · refine Or.inl ⟨e, x :: l1, x', l2, w2, y :: h', m2, rfl, by rw [he]; rfl, ?_, g2, g3,
          hL.mono (by rw [List.length_cons]; omega)⟩
        rw [Solo.run, h1, Res.ok_bind]
        dsimp only
        rw [g1]; rfl
      · refine Or.inr ⟨w', y :: h', m', by rw [g1]; rfl, by simp [h2, g2], g3, ?_⟩
        rwa [List.append_assoc] at g4

end QuickCache.Solo
