import Verif.Proofs.ConcProgress

/-!
# Facts behind the properties of the concurrent protocol
-/

namespace QuickCache.Conc
variable {K V RS : Type} [DecidableEq K] {c : Cfg K V RS} {target cap gcap : Nat} {s s' : State K V} {act : Act K V}
  {evs tr : List (Ev K V)}
open Shard Unsync Spec
open Function (update)

/-! ### Responsibility -/

omit [DecidableEq K] in
theorem At.pending {plh : Nat → Option (PState K V)} {k : K} {p : Plh} (h : At plh k p (· = .loading)) :
    ∃ ps, plh p.id = some ps ∧ ps.handle = p ∧ ps.loading = .loading := by
  obtain ⟨ps, h1, -, h2, h3⟩ := h
  exact ⟨ps, h1, h2, h3⟩

theorem CInv.entitled_iff (h : CInv c s) {a : Nat} {p : Plh} :
    Entitled s a p ↔ resp s a = some p ∧ LoadPending s p := by
  constructor
  · intro he
    cases he with
    | guard k hc | leaving k hc | dropping k hc | abandoning k hc =>
      exact ⟨by simp [resp, respOf, hc], by have hA := h.at hc; exact At.pending hA⟩
    | starting k w hc => exact ⟨by simp [resp, respOf, hc], by have hA := h.at hc; exact At.pending hA⟩
    | notified k hc hf hp => exact ⟨by simp [resp, respOf, hc, hf], hp⟩
    | claimed k hc hp | rejoining k hc hp => exact ⟨by simp [resp, respOf, hc], hp⟩
  · rintro ⟨hr, hp⟩
    unfold resp respOf at hr
    split at hr <;> rename_i hc
    · cases hr; exact .starting _ _ hc
    · cases hr; exact .guard _ hc
    · cases hr; exact .leaving _ hc
    · cases hr; exact .dropping _ hc
    · cases hr; exact .abandoning _ hc
    · cases hr; exact .claimed _ hc hp
    · cases hr; exact .rejoining _ hc hp
    · split at hr
      · rename_i hf; cases hr; exact .notified _ hc hf hp
      · cases hr
    · cases hr

theorem CInv.entitled_one (h : CInv c s) {a b : Nat} {p : Plh} (ha : Entitled s a p) (hb : Entitled s b p) : a = b := by
  obtain ⟨h1, ps, h2, h3, h4⟩ := h.entitled_iff.mp ha
  obtain ⟨h5, -⟩ := h.entitled_iff.mp hb
  obtain ⟨d, -, hu⟩ := h.pl.one _ _ h2 h4
  rw [h3] at hu
  rw [hu a h1, hu b h5]

theorem CInv.entitled_exists (h : CInv c s) {p : Plh} (hp : LoadPending s p) : ∃ a, Entitled s a p := by
  obtain ⟨ps, h2, h3, h4⟩ := id hp
  obtain ⟨d, hd, -⟩ := h.pl.one _ _ h2 h4
  rw [h3] at hd
  exact ⟨d, h.entitled_iff.mpr ⟨hd, hp⟩⟩

theorem CInv.waits (h : CInv c s) {a : Nat} {p : Plh} (hw : Waits s a p) :
    ∃ ps, s.plh p.id = some ps ∧ ps.handle = p ∧ a ∈ ps.waiters ∧ ps.loading = .loading := by
  obtain ⟨⟨k, hc⟩, hf⟩ := hw
  have hwait : wait s a = some p := by simp [wait, waitOf, hc, hf]
  have hA : AOK c s.shard s.plh (.waiting k p) := h.at hc
  obtain ⟨ps, hp, -, hh, -⟩ := hA
  have hm : a ∈ ps.waiters := (h.pl.mem _ _ hp a).mpr (by rw [hh]; exact hwait)
  exact ⟨ps, hp, hh, hm, h.pl.idle _ _ hp (List.ne_nil_of_mem hm)⟩

theorem CInv.mem_waits (h : CInv c s) {a : Nat} {p : Plh} {ps : PState K V} (hp : s.plh p.id = some ps) (hh : ps.handle = p) :
    a ∈ ps.waiters ↔ Waits s a p := by
  constructor
  · intro hm
    have := h.waiter hp hm
    rw [hh] at this
    exact this
  · intro hw
    obtain ⟨ps', h1, -, h3, -⟩ := h.waits hw
    rw [hp] at h1; cases h1; exact h3

/-! ### Loads of one key -/

theorem Run.loads (hr : Run c (State.new (Shard.new target cap gcap)) tr s) (hq : c.ptrEq = true) {a : Nat} {k : K}
    {p : Plh} (ha : Loads s a k p) : PLive c s.shard k p ∨ Superseded c target tr k p := by
  have hi := (hr.reach hq (.new ..)).inv
  have ht := hr.tinv hq
  cases ha with
  | guard hc | leaving hc | dropping hc =>
    refine ht.live k p ?_
    have hA := hi.at hc
    exact At.core hA
  | inserting v r hc => exact ht.insLive a k p v r hc

theorem Run.loads_one (hr : Run c (State.new (Shard.new target cap gcap)) tr s) (hq : c.ptrEq = true) {a b : Nat} {k : K}
    {p : Plh} (ha : Loads s a k p) (hb : Loads s b k p) : a = b := by
  have hi := (hr.reach hq (.new ..)).inv
  have ht := hr.tinv hq
  have cases' : ∀ {a}, Loads s a k p → (∃ v r, s.ctl a = .inserting k p v r ∧ At s.plh k p (· = .inserted v)) ∨
      (Entitled s a p ∧ At s.plh k p (· = .loading)) := by
    intro a ha
    cases ha with
    | guard hc => exact Or.inr ⟨.guard k hc, by have hA := hi.at hc; exact hA⟩
    | leaving hc => exact Or.inr ⟨.leaving k hc, by have hA := hi.at hc; exact hA⟩
    | dropping hc => exact Or.inr ⟨.dropping k hc, by have hA := hi.at hc; exact hA⟩
    | inserting v r hc => exact Or.inl ⟨v, r, hc, by have hA := hi.at hc; exact hA⟩
  rcases cases' ha with ⟨v, r, h1, h2⟩ | ⟨h1, h2⟩ <;> rcases cases' hb with ⟨w, r', h3, h4⟩ | ⟨h3, h4⟩
  · exact ht.pub1 _ _ _ _ _ (ht.ins _ _ _ _ _ h1) (ht.ins _ _ _ _ _ h3)
  · have := h2.core; rw [h4.core] at this; cases this
  · have := h2.core; rw [h4.core] at this; cases this
  · exact hi.entitled_one h1 h3

/-! ### Panics -/

/-- An action only panics if the cache is too large. -/
theorem CReach.asserts {target cap gcap : Nat} (hre : CReach c target cap gcap s) (hq : c.ptrEq = true) {act : Act K V}
    {e : Panic} (hs : exec c s act = some (.error e)) :
    (e = .overflow ∧ ∃ k v, 2 ^ 64 ≤ total c.weight s.shard.iter + enterWeight c target k v) ∨
    (e = .slabFull ∧ s.shard.entries.entries.length = 2 ^ 32 - 2) := by
  have hi := hre.inv
  have ht := hre.reach.target
  rcases exec_sat hi hq hs with ⟨x, hx, -⟩ | ⟨e', he', hE⟩
  · cases hx
  · cases he'
    rw [hi.shard.toInv0.total_iter]
    cases act with
    | upsert a =>
      obtain ⟨k, -, rfl, -, h⟩ := hE
      exact Or.inr ⟨rfl, by omega⟩
    | store a =>
      obtain ⟨k, q, v, b, -, rfl, h⟩ := hE
      rw [ht] at h
      exact Or.inl ⟨rfl, k, v, h⟩
    | call op =>
      have hop : ∃ b, lockMode op = some b := by
        simp only [exec, Conc.call] at hs
        cases hl : lockMode op with
        | none => rw [hl] at hs; simp at hs
        | some b => exact ⟨b, rfl⟩
      obtain ⟨b, hop⟩ := hop
      rcases hE with ⟨rfl, w, hw, h⟩ | ⟨rfl, -, h⟩
      · rw [ht] at hw
        refine Or.inl ⟨rfl, ?_⟩
        cases hw with
        | insert k v => exact ⟨k, v, h⟩
        | replace k v => exact ⟨k, v, h⟩
        | _ => cases hop
      · exact Or.inr ⟨rfl, by omega⟩
    | _ => exact hE.elim

/-! ### Values received -/

/-- Values are published by the holder of a guard, and received after being published. -/
def Sourced (t1 : List (Ev K V)) : Ev K V → Prop
  | .published a p _ => ∃ k, .gotGuard a k p ∈ t1 ∧ ∃ b, .began b k p ∈ t1
  | .received _ k p v => (∃ b, .published b p v ∈ t1) ∧ ∃ b, .began b k p ∈ t1
  | _ => True

omit [DecidableEq K] in
theorem Sourced.mono (t t' : List (Ev K V)) (e : Ev K V) (h : Sourced t e) : Sourced (t ++ t') e := by
  cases e with
  | published a p v =>
    obtain ⟨k, h1, b, h2⟩ := h
    exact ⟨k, List.mem_append_left _ h1, b, List.mem_append_left _ h2⟩
  | received a k p v =>
    obtain ⟨⟨b, h1⟩, b', h2⟩ := h
    exact ⟨⟨b, List.mem_append_left _ h1⟩, b', List.mem_append_left _ h2⟩
  | _ => trivial

theorem Run.sourced (hr : Run c (State.new (Shard.new target cap gcap)) tr s) (hq : c.ptrEq = true) : Always Sourced tr := by
  have := hr.induct hq (CReach.new c target cap gcap) (P := fun tr s => TInv c target tr s ∧ Always Sourced tr)
    ⟨.new target cap gcap, .nil⟩ (fun _ _ _ _ _ h hm => ⟨h.1.relayout hm, h.2⟩) ?_
  · exact this.2
  · rintro tr s act s' evs hre ⟨h1, h2⟩ he
    refine ⟨h1.step hre.inv hre.reach.target he, h2.append_mono Sourced.mono ?_⟩
    intro e hm
    cases e with
    | published a p v =>
      obtain ⟨k, r, h3, -, h4, -⟩ := he.published hm
      exact ⟨k, h1.grd a k p h3, h1.begun _ _ _ _ h4.core⟩
    | received a k p v =>
      have h3 := he.on_received hm
      exact ⟨(h1.pub p v).mpr ⟨k, h3.core⟩, h1.begun _ _ _ _ h3.core⟩
    | _ => trivial

/-! ### Insertions through guards -/

theorem Run.fills (hr : Run c (State.new (Shard.new target cap gcap)) tr s) (hq : c.ptrEq = true) :
    Always (fun t1 e => ∀ a k p err, e = .insertDone a k p err →
      (err.isSome ↔ Superseded c target t1 k p) ∧ (∀ v, err = some v → .published a p v ∈ t1)) tr := by
  have := hr.induct hq (CReach.new c target cap gcap) (P := fun tr s => TInv c target tr s ∧
    Always (fun t1 e => ∀ a k p err, e = .insertDone a k p err →
      (err.isSome ↔ Superseded c target t1 k p) ∧ (∀ v, err = some v → .published a p v ∈ t1)) tr)
    ⟨.new target cap gcap, .nil⟩ (fun _ _ _ _ _ h hm => ⟨h.1.relayout hm, h.2⟩) ?_
  · exact this.2
  · rintro tr s act s' evs hre ⟨h1, h2⟩ he
    refine ⟨h1.step hre.inv hre.reach.target he, h2.append ?_⟩
    rintro t1 e t2 heq a k p err rfl
    have hm : Ev.insertDone a k p err ∈ evs := by rw [heq]; simp
    have key : ∀ (sec : Section K V) (out : SOut K V) (log : List (Event K V)), (∀ op, sec ≠ .call op) →
        (Superseded c target (tr ++ [.sect sec out log]) k p ↔ Superseded c target tr k p) := by
      intro sec out log hsec
      refine ⟨fun hs => ?_, fun hs => hs.append⟩
      rcases hs.of_append with h3 | ⟨e, h3, h4⟩
      · exact h3
      · simp only [List.mem_cons, List.not_mem_nil, or_false] at h3
        subst h3
        cases h4 <;> exact absurd rfl (hsec _)
    have two : ∀ {x y : Ev K V}, [x, y] = t1 ++ Ev.insertDone a k p err :: t2 → x ≠ .insertDone a k p err → t1 = [x] := by
      intro x y h3 h4
      rcases t1 with _ | ⟨z, _ | ⟨z', t1⟩⟩
      · cases h3; exact absurd rfl h4
      · cases h3; rfl
      · have := congrArg List.length h3; simp at this
    obtain ⟨v, r, hc, -, h3⟩ := he.insertDone hm
    cases he
    case superseded k1 p1 v1 rf hc1 hw hr hg =>
      simp only [List.mem_cons, reduceCtorEq, List.not_mem_nil, or_false, false_or, Ev.insertDone.injEq] at hm
      obtain ⟨rfl, rfl, rfl, rfl⟩ := hm
      rw [two heq (by simp), key _ _ _ (by simp)]
      refine ⟨⟨fun _ => ?_, fun _ => rfl⟩, ?_⟩
      · rcases h1.insLive _ _ _ _ _ hc1 with h4 | h4
        · exact absurd h4.1 (hg _)
        · exact h4
      · rintro w h4
        cases h4
        exact List.mem_append_left _ (h1.ins _ _ _ _ _ hc1)
    case store k1 p1 v1 rf sh q hc1 hw hr hl hs =>
      simp only [List.mem_cons, reduceCtorEq, List.not_mem_nil, or_false, false_or, Ev.insertDone.injEq] at hm
      obtain ⟨rfl, rfl, rfl, rfl⟩ := hm
      rw [two heq (by simp), key _ _ _ (by simp)]
      exact ⟨⟨fun h => absurd h (by simp), fun h => absurd h (h1.dead _ _ hl)⟩, fun v hv => by cases hv⟩
    case publish =>
      simp only [List.mem_cons, reduceCtorEq, false_or] at hm
      exact absurd hm (not_mem_flatWakes rfl)
    case handOver =>
      simp only [List.mem_cons, reduceCtorEq, false_or] at hm
      exact absurd hm (not_mem_wakes rfl)
    case enter => exact absurd hm (not_mem_poll (by simp))
    all_goals simp at hm

/-! ### Loads given up -/

/-- No event engages a load after it was given up. -/
theorem Eff.engages (he : Eff c s act s' evs) (h : CInv c s) {p : Plh} {k : K}
    (hd : (s.plh p.id).map core = some (k, p, .terminated)) {e : Ev K V} (hm : e ∈ evs) : ¬ About p e := by
  have no : ∀ {k' q l}, q = p → At s.plh k' q (· = l) → l ≠ .terminated → False := by
    intro k' q l hq ha hl
    subst hq
    have := ha.core
    rw [hd] at this; cases this; exact hl rfl
  intro ha
  cases e with
  | received a k' q v => exact no ha (he.on_received hm) (by simp)
  | began a k' q =>
    have h1 := (he.began h hm).1
    rw [show q = p from ha] at h1
    rw [h1] at hd; cases hd
  | gotGuard a k' q =>
    obtain ⟨-, ⟨w, hc⟩, -⟩ := he.gotGuard hm
    have hA := h.at hc
    exact no ha hA (by simp)
  | published a q v =>
    obtain ⟨k', r, -, -, h1, -⟩ := he.published hm
    exact no ha h1 (by simp)
  | insertDone a k' q err =>
    obtain ⟨v, r, hc, -⟩ := he.insertDone hm
    have hA := h.at hc
    exact no ha hA (by simp)
  | handedOver a q b =>
    obtain ⟨k', -, h1, -⟩ := he.handedOver hm
    exact no ha h1 (by simp)
  | dropped a k' q =>
    obtain ⟨-, -, h1, -⟩ := he.dropped hm
    exact no ha h1 (by simp)
  | sect sec out log =>
    cases sec with
    | upsert k' =>
      cases out with
      | pending q new =>
        cases new with
        | false =>
          have hq : q = p := ha
          subst hq
          have hl := he.joined hm
          obtain ⟨ps, h1, h2, h3, h4⟩ := h.pl.slot _ _ hl.1
          have h5 := h4.mp hl
          rw [h1] at hd
          have : core ps = (k, q, .terminated) := Option.some.inj hd
          exact h5 (congrArg (fun x => x.2.2) this)
        | true => exact ha
      | _ => exact ha
    | _ => exact ha
  | _ => exact ha

theorem Run.engages (hr : Run c (State.new (Shard.new target cap gcap)) tr s) (hq : c.ptrEq = true) :
    Always (fun t1 (e : Ev K V) => ∀ (a : Nat) (k : K) (p : Plh), Ev.dropped a k p ∈ t1 → ¬ About p e) tr := by
  have := hr.induct hq (CReach.new c target cap gcap) (P := fun tr s => TInv c target tr s ∧
    Always (fun t1 (e : Ev K V) => ∀ (a : Nat) (k : K) (p : Plh), Ev.dropped a k p ∈ t1 → ¬ About p e) tr)
    ⟨.new target cap gcap, .nil⟩ (fun _ _ _ _ _ h hm => ⟨h.1.relayout hm, h.2⟩) ?_
  · exact this.2
  · rintro tr s act s' evs hre ⟨h1, h2⟩ he
    refine ⟨h1.step hre.inv hre.reach.target he, h2.append ?_⟩
    intro t1 e t2 heq a k p hd
    rcases List.mem_append.mp hd with hd | hd
    · exact he.engages hre.inv ((h1.drp k p).mp ⟨a, hd⟩) (by rw [heq]; simp)
    · -- in the same action: it is the last event
      have hm : Ev.dropped a k p ∈ evs := by rw [heq]; simp [hd]
      exfalso
      cases he
      case giveUp k1 p1 ps sh hc hp hk hh hl hb he =>
        have : Ev.dropped a k p ∈ t1 → False := by
          intro hd
          rcases t1 with _ | ⟨z, _ | ⟨z', t1⟩⟩
          · cases hd
          · cases heq
            simp at hd
          · have := congrArg List.length heq; simp at this
        exact this hd
      case publish =>
        simp only [List.mem_cons, reduceCtorEq, false_or] at hm
        exact absurd hm (not_mem_flatWakes rfl)
      case handOver =>
        simp only [List.mem_cons, reduceCtorEq, false_or] at hm
        exact absurd hm (not_mem_wakes rfl)
      case enter => exact absurd hm (not_mem_poll (by simp))
      all_goals simp at hm

/-- The key is neither stored nor being loaded. -/
def Vacant (c : Cfg K V RS) (s : State K V) (k : K) : Prop := s.shard.contents k = none ∧ ∀ p, ¬ PLive c s.shard k p

theorem Eff.fill (he : Eff c s act s' evs) {k : K} {p : Plh} {b : Bool} {v : V} {log : List (Event K V)}
    (hm : .sect (.fill k p b v) (.filled none) log ∈ evs) : PLive c s.shard k p := by
  cases he
  case store k1 p1 v1 rf sh q hc hw hr hl hs =>
    simp only [List.mem_cons, reduceCtorEq, List.not_mem_nil, or_false, Ev.sect.injEq, Section.fill.injEq] at hm
    obtain ⟨⟨rfl, rfl, -⟩, -⟩ := hm
    exact hl
  all_goals first
    | (simp at hm; done)
    | (simp only [List.mem_cons, reduceCtorEq, false_or] at hm; exact absurd hm (not_mem_flatWakes rfl))
    | (simp only [List.mem_cons, reduceCtorEq, false_or] at hm; exact absurd hm (not_mem_wakes rfl))

theorem Eff.lockMode (he : Eff c s act s' evs) {op : Op K V} {out : SOut K V} {log : List (Event K V)}
    (hm : .sect (.call op) out log ∈ evs) : ∃ b, Conc.lockMode op = some b := by
  cases he
  case read op1 out1 hop hs =>
    simp only [List.mem_cons, List.not_mem_nil, or_false, Ev.sect.injEq, Section.call.injEq] at hm
    obtain ⟨rfl, -⟩ := hm
    cases op <;> first | exact ⟨_, rfl⟩ | cases hop
  case write op1 sh out1 q hop hw hr hs =>
    simp only [List.mem_cons, List.not_mem_nil, or_false, Ev.sect.injEq, Section.call.injEq] at hm
    obtain ⟨rfl, -⟩ := hm
    exact ⟨_, hop⟩
  all_goals first
    | (simp at hm; done)
    | (simp only [List.mem_cons, reduceCtorEq, false_or] at hm; exact absurd hm (not_mem_flatWakes rfl))
    | (simp only [List.mem_cons, reduceCtorEq, false_or] at hm; exact absurd hm (not_mem_wakes rfl))

theorem Eff.vacant (he : Eff c s act s' evs) (h : CInv c s) {k : K} (hv : Vacant c s k) (hn : ∀ e ∈ evs, ¬ Enters k e) :
    Vacant c s' k := by
  refine ⟨?_, fun p hp => ?_⟩
  · rcases he.history h with ⟨-, hx⟩ | ⟨x, hx, ho⟩
    · rw [hx]; exact hv.1
    · by_contra hk
      have hs := ho.appears hv.1 hk
      have hm : x ∈ calls evs := by rw [hx]; simp
      obtain ⟨e, he1, hex⟩ := List.mem_filterMap.mp hm
      unfold asCall at hex
      split at hex
      · cases hex
        obtain ⟨b, hb⟩ := he.lockMode he1
        cases hs with
        | insert v => exact hn _ he1 rfl
        | _ => cases hb
      · cases hex
        cases hs
        exact hv.2 _ (he.fill he1)
      · cases hex; cases hs
      · cases hex; cases hs
      · cases hex
  · rcases (he.live h k p).mp hp with h1 | ⟨a, h1⟩
    · exact hv.2 p h1.1
    · exact hn _ h1 rfl

theorem Vacant.began {k : K} (hv : Vacant c s k) (hi : CInv c s) {b : Nat} (hb : s.ctl b = .created k)
    (he : Eff c s (.upsert b) s' evs) : ∃ q, .began b k q ∈ evs ∧ s.plh q.id = none := by
  have fin : ∀ {q}, .began b k q ∈ evs → ∃ q, .began b k q ∈ evs ∧ s.plh q.id = none :=
    fun {q} hm => ⟨q, hm, (he.began hi hm).1⟩
  have hh := he.history hi
  cases he
  case found k1 v sh hw hr hs hc =>
    rw [hb] at hc; cases hc
    exfalso
    rcases hh with ⟨h1, -⟩ | ⟨x, h1, h2⟩
    · cases h1
    · cases h1
      obtain ⟨h2, -⟩ := h2
      rw [hv.1] at h2; cases h2
  case created k1 p sh hw hr hs hc =>
    rw [hb] at hc; cases hc
    exact fin (q := p) (by simp)
  case joining k1 p sh hw hr hs hc =>
    rw [hb] at hc; cases hc
    cases hs with
    | joined hp hl => exact absurd hl (hv.2 _)

theorem Run.vacant (hr : Run c (State.new (Shard.new target cap gcap)) tr s) (hq : c.ptrEq = true) {a : Nat} {k : K} {p : Plh}
    {t1 t2 : List (Ev K V)} (ht : tr = t1 ++ .dropped a k p :: t2) (hs : ¬ Superseded c target t1 k p)
    (hn : ∀ e ∈ t2, ¬ Enters k e) : Vacant c s k := by
  have := hr.induct hq (CReach.new c target cap gcap) (P := fun tr s => TInv c target tr s ∧
    ∀ a k p t1 t2, tr = t1 ++ .dropped a k p :: t2 → ¬ Superseded c target t1 k p → (∀ e ∈ t2, ¬ Enters k e) → Vacant c s k)
    ⟨.new target cap gcap, by simp⟩ ?_ ?_
  · exact this.2 a k p t1 t2 ht hs hn
  · rintro tr s m p hre ⟨h1, h2⟩ hm
    refine ⟨h1.relayout hm, fun a k p t1 t2 e1 e2 e3 => ⟨(h2 a k p t1 t2 e1 e2 e3).1, fun q hl => ?_⟩⟩
    exact (h2 a k p t1 t2 e1 e2 e3).2 q ((PLive.relayout hm).mp hl)
  · rintro tr s act s' evs hre ⟨h1, h2⟩ he
    refine ⟨h1.step hre.inv hre.reach.target he, fun a k p t1 t2 e1 e2 e3 => ?_⟩
    have fin : ∀ a k p, .dropped a k p ∈ evs → ¬ Superseded c target tr k p → Vacant c s' k := by
      intro a k p hm hs
      have hi := hre.inv.shard.toInv0
      have hA := (he.dropped hm).2.2.1
      have hl : PLive c s.shard k p := (h1.live k p hA.core).resolve_right hs
      have hc : s'.shard.contents = s.shard.contents := by
        rcases he.history hre.inv with ⟨-, h⟩ | ⟨x, h, -⟩
        · exact h
        · exfalso
          cases he
          all_goals first
            | (simp at hm; done)
            | cases h
            | (simp only [List.mem_cons, reduceCtorEq, false_or] at hm; exact absurd hm (not_mem_flatWakes rfl))
            | (simp only [List.mem_cons, reduceCtorEq, false_or] at hm; exact absurd hm (not_mem_wakes rfl))
      refine ⟨by rw [hc]; exact hi.contents_none.mpr (hl.noRes hi), fun q hq => ?_⟩
      rcases (he.live hre.inv k q).mp hq with ⟨h3, -, -, h4⟩ | ⟨b, h3⟩
      · obtain rfl := h3.uniq hi hl
        exact h4 _ _ hm
      · have h4 := (he.began hre.inv h3).2.2
        rw [h4] at hm; simp at hm
    rcases List.append_eq_append_iff.mp e1 with ⟨t', h3, h4⟩ | ⟨t', h3, h4⟩
    · subst h3
      exact fin a k p (by rw [h4]; simp) (fun h => e2 h.append)
    · cases t' with
      | nil =>
        simp only [List.append_nil] at h3
        subst h3
        exact fin a k p (by rw [← List.nil_append evs, ← h4]; simp) e2
      | cons x t' =>
        rw [List.cons_append] at h4
        injection h4 with h4 h5
        subst h4
        refine he.vacant hre.inv (h2 a k p t1 t' h3 e2 (fun e h => e3 e ?_)) (fun e h => e3 e ?_)
        · rw [h5]; exact List.mem_append_left _ h
        · rw [h5]; exact List.mem_append_right _ h

/-! ### The history -/

theorem replays_split {m0 : K → Option V} {h1 h2 : List (Call K V)} {x : Call K V} {m : K → Option V}
    (h : Replays c target m0 (h1 ++ x :: h2) m) : ∃ m1 m2, Replays c target m0 h1 m1 ∧ OpSpec c target m1 x.op x.out x.log m2 := by
  generalize hh : h1 ++ x :: h2 = l at h
  induction h generalizing h2 with
  | start => simp at hh
  | @call l m m' y hr hx ih =>
    rcases List.eq_nil_or_concat h2 with rfl | ⟨h3, z, rfl⟩
    · have := List.append_inj' hh rfl
      obtain ⟨rfl, h4⟩ := this
      cases h4
      exact ⟨m, m', hr, hx⟩
    · rw [List.concat_eq_append] at hh
      have h4 : (h1 ++ x :: h3) ++ [z] = l ++ [y] := by rw [← hh]; simp
      have := List.append_inj' h4 rfl
      exact ih this.1

end QuickCache.Conc
