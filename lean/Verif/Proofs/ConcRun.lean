import Verif.Proofs.ConcKeep
import Verif.Spec.Conc

/-!
# Runs of the concurrent protocol
-/

namespace QuickCache.Conc
variable {K V RS : Type}
open Shard Unsync Spec
open Function (update)

section
variable [DecidableEq K] {c : Cfg K V RS} {s s' : State K V} {act : Act K V} {evs tr : List (Ev K V)}

/-! ### Changes of the layout of the hash table -/

omit [DecidableEq K] in
theorem PLive.relayout {sh : Shard K V} {m : List (UInt64 × Nat)} {p : UInt64 → UInt64 → Bool} (hm : m.Perm sh.map) {k : K}
    {q : Plh} : PLive c (sh.relayout m p) k q ↔ PLive c sh k q := by
  unfold PLive PSlot
  show _ ∧ _ ∈ m ↔ _
  rw [hm.mem_iff]
  rfl

omit [DecidableEq K] in
theorem PSlot.relayout {sh : Shard K V} {m : List (UInt64 × Nat)} {p : UInt64 → UInt64 → Bool} {k : K}
    {q : Plh} : PSlot (sh.relayout m p) k q ↔ PSlot sh k q := Iff.rfl

theorem AOK.relayout {sh : Shard K V} {m : List (UInt64 × Nat)} {p : UInt64 → UInt64 → Bool} (hm : m.Perm sh.map)
    {plh : Nat → Option (PState K V)} {x : Ctl K V} (h : AOK c sh plh x) : AOK c (sh.relayout m p) plh x := by
  cases x <;> try exact h
  exact ⟨h.1, (PLive.relayout hm).mpr h.2⟩

theorem CInv.relayout (h : CInv c s) {m : List (UInt64 × Nat)} {p : UInt64 → UInt64 → Bool} (hm : m.Perm s.shard.map)
    (hp : ∀ x, p x x = true) : CInv c { s with shard := s.shard.relayout m p } where
  shard := ⟨relayout_spec h.shard.toInv0 hm hp, h.shard.ghosts⟩
  fresh := h.fresh
  lock := h.lock
  ag := fun a => (h.ag a).relayout hm
  kind := h.kind
  thr := h.thr
  pl := ⟨h.pl.id, h.pl.nodup, h.pl.mem, h.pl.idle, h.pl.one, fun k q hs => by
    obtain ⟨ps, h1, h2, h3, h4⟩ := h.pl.slot k q hs
    exact ⟨ps, h1, h2, h3, (PLive.relayout hm).trans h4⟩⟩

/-! ### Constants -/

/-- The parameters of the shard do not change. -/
theorem Eff.const (he : Eff c s act s' evs) (h : CInv c s) : Const s.shard s'.shard := by
  cases he with
  | bump _ he => exact (he.keeps h.shard).2
  | hit _ he => exact (he.keeps h.shard).2
  | miss _ _ he => exact (he.keeps h.shard).2
  | goOn _ _ he => exact (he.keeps h.shard).2
  | found _ _ _ he => exact (he.keeps h.shard).2
  | created _ _ _ he => exact (he.keeps h.shard).2
  | joining _ _ _ he => exact (he.keeps h.shard).2
  | store _ _ _ _ he => exact (he.keeps h.shard).2
  | giveUp _ _ _ _ _ _ he => exact (he.keeps h.shard).2
  | write _ _ _ he => exact (he.keeps h.shard).2
  | @guard a k p w h => cases w <;> exact .refl _
  | _ => exact .refl _

/-! ### Induction over runs -/

/-- States reached from a cache built with the given parameters. -/
structure CReach (c : Cfg K V RS) (target cap gcap : Nat) (s : State K V) : Prop where
  inv : CInv c s
  reach : Reach c target cap gcap s.shard

theorem CReach.new (c : Cfg K V RS) (target cap gcap : Nat) :
    CReach c target cap gcap (State.new (Shard.new target cap gcap : Shard K V)) where
  inv := .new (Inv.new ..) (by
    rintro k p ⟨ph, h1, -⟩
    simp [Shard.new, Slab.new, Slab.item] at h1)
  reach := .new ..

theorem CReach.relayout {target cap gcap : Nat} (h : CReach c target cap gcap s) {m : List (UInt64 × Nat)}
    {p : UInt64 → UInt64 → Bool} (hm : m.Perm s.shard.map)
    (hp : ∀ x, p x x = true) : CReach c target cap gcap { s with shard := s.shard.relayout m p } :=
  ⟨h.inv.relayout hm hp, h.reach.relayout hm hp⟩

theorem CReach.step {target cap gcap : Nat} (h : CReach c target cap gcap s) (he : Eff c s act s' evs) :
    CReach c target cap gcap s' := by
  have h1 := he.keeps h.inv
  have h2 := he.const h.inv
  exact ⟨h1, h1.shard, h2.target.trans h.reach.target, h2.capacity.trans h.reach.capacity,
    h2.ghostCap.trans h.reach.ghostCap⟩

/-- What an action that returns does. -/
theorem CInv.eff (h : CInv c s) (hq : c.ptrEq = true) (hs : exec c s act = some (.ok (s', evs))) : Eff c s act s' evs := by
  have := exec_sat h hq hs
  exact this.of_ok rfl

theorem Run.reach {target cap gcap : Nat} {s0 : State K V} (hr : Run c s0 tr s) (hq : c.ptrEq = true)
    (h0 : CReach c target cap gcap s0) : CReach c target cap gcap s := by
  induction hr with
  | start => exact h0
  | layout m p hr hm hp ih => exact ih.relayout hm hp
  | act hr hs ih => exact ih.step (ih.inv.eff hq hs)

/-- Induction over runs, with the invariant at hand. -/
theorem Run.induct {target cap gcap : Nat} {s0 : State K V} (hr : Run c s0 tr s) (hq : c.ptrEq = true)
    (h0 : CReach c target cap gcap s0) {P : List (Ev K V) → State K V → Prop} (start : P [] s0)
    (layout : ∀ tr s m p, CReach c target cap gcap s → P tr s → m.Perm s.shard.map →
      P tr { s with shard := s.shard.relayout m p })
    (act : ∀ tr s act s' evs, CReach c target cap gcap s → P tr s → Eff c s act s' evs → P (tr ++ evs) s') : P tr s := by
  induction hr with
  | start => exact start
  | layout m p hr hm hp ih => exact layout _ _ m p (hr.reach hq h0) ih hm
  | act hr hs ih =>
    have := hr.reach hq h0
    exact act _ _ _ _ _ this ih (this.inv.eff hq hs)

/-! ### The placeholders in the index -/

/-- A load is in the index after an action if it was before and was neither superseded, nor completed or given up in it,
or if it began in it. -/
theorem Eff.live (he : Eff c s act s' evs) (h : CInv c s) (k : K) (p : Plh) :
    PLive c s'.shard k p ↔
      (PLive c s.shard k p ∧ (∀ e ∈ evs, ¬ Supersedes c s.shard.weightTargetHot k e) ∧
        (∀ a k', .insertDone a k' p none ∉ evs) ∧ (∀ a k', .dropped a k' p ∉ evs)) ∨ ∃ a, .began a k p ∈ evs := by
  have read : ∀ {sec sh out}, SecEff c s.shard sec (sh, out, c.begin) → sec.reads →
      (PLive c sh k p ↔ PLive c s.shard k p) := fun he hr => (he.read h.shard hr).plh.live k p
  have nosup : ∀ {sec : Section K V} {out : SOut K V} {log}, (∀ op, sec ≠ .call op) →
      ¬ Supersedes c s.shard.weightTargetHot k (.sect sec out log) := by
    intro sec out log hsec hs
    cases hs <;> exact hsec _ rfl
  have nosup' : ∀ {e : Ev K V}, (∀ sec out log, e ≠ .sect sec out log) → ¬ Supersedes c s.shard.weightTargetHot k e := by
    intro e he hs
    cases hs <;> exact he _ _ _ rfl
  have wakes : ∀ (b : Nat) (e : Ev K V), e ∈ s.wakes b → ∃ w, e = .woke b w := by
    intro b e he
    unfold State.wakes at he
    split at he
    · simp at he; exact ⟨_, he⟩
    · simp at he
  have ws : ∀ {e : Ev K V} {l : List Nat}, e ∈ l.flatMap s.wakes → ∃ b w, e = .woke b w := by
    intro e l he
    obtain ⟨b, -, hb⟩ := List.mem_flatMap.mp he
    exact ⟨b, wakes b e hb⟩
  cases he with
  | begin | drop | lockDrop | wake | timely | relock | retry | enlist | abandon => simp [State.go, State.setPlh, State.unlockWrite]
  | enter =>
    simp only [State.go]
    split
    · simp [nosup']
    · simp
  | located | absent => simp [State.go, nosup]
  | load h n _ => simp [State.go, nosup]
  | bump h he => simp [nosup, read he trivial]
  | hit h he => simp [nosup, nosup', read he trivial]
  | miss h hk he => simp [nosup, nosup', read he trivial]
  | goOn h hk he => simp [nosup, read he trivial]
  | found hc hw hr he =>
    simp [State.go, nosup, nosup']
    cases he with
    | found t r hk wrote hits misses plh np => exact plh.live k p
  | @created a k1 p1 sh hc hw hr he =>
    simp [State.go, State.setPlh, nosup, nosup']
    cases he with
    | created hp hno plh id np => exact plh.live k p
  | joining hc hw hr he =>
    simp [State.go, nosup]
    cases he with
    | joined hp hl => exact Iff.rfl
  | late | received => simp [State.go, State.unlockWrite, State.unlockRead, nosup']
  | @guard a k1 p1 w hc => cases w <;> simp [State.go, State.unlockWrite, State.unlockRead, nosup']
  | claim | pending | timeout | cancel | unpolled | cancelOwner | cancelDone =>
    simp [State.go, State.setPlh, nosup']
  | publish v hc hp hk hh hl =>
    simp only [State.go, State.setPlh]
    constructor
    · intro hlive
      refine Or.inl ⟨hlive, fun e he => ?_, fun a k' he => ?_, fun a k' he => ?_⟩
      · apply nosup'
        intro sec out log heq
        rw [heq] at he
        simp only [List.mem_cons, reduceCtorEq, false_or] at he
        obtain ⟨b, w, hb⟩ := ws he
        cases hb
      all_goals
        simp only [List.mem_cons, reduceCtorEq, false_or] at he
        obtain ⟨b, w, hb⟩ := ws he
        cases hb
    · rintro (⟨hlive, -⟩ | ⟨a, he⟩)
      · exact hlive
      · simp only [List.mem_cons, reduceCtorEq, false_or] at he
        obtain ⟨b, w, hb⟩ := ws he
        cases hb
  | superseded hc hw hr hg => simp [State.go, nosup, nosup']
  | @store a k1 p1 v rf sh q hc hw hr hl he =>
    have hp1 : PLive c sh k p ↔ PLive c s.shard k p ∧ p ≠ p1 := by
      cases he with
      | filled hl h plh np => exact plh.live k p
    simp only [List.mem_cons, List.not_mem_nil, or_false, forall_eq_or_imp, forall_eq, reduceCtorEq, false_or,
      exists_false, Ev.insertDone.injEq, and_true, not_false_eq_true, implies_true, not_and, hp1]
    constructor
    · rintro ⟨h1, h2⟩
      exact ⟨h1, ⟨nosup (by simp), nosup' (by simp)⟩, fun _ _ _ _ h => h2 h⟩
    · rintro ⟨h1, -, h2⟩
      exact ⟨h1, h2 _ _ rfl rfl⟩
  | @handOver a b k1 p1 ps hc hp hk hh hl hb =>
    simp only [State.go, State.setPlh, State.notify, State.unlockWrite]
    constructor
    · intro hlive
      refine Or.inl ⟨hlive, fun e he => ?_, fun a k' he => ?_, fun a k' he => ?_⟩
      · apply nosup'
        intro sec out log heq
        rw [heq] at he
        simp only [List.mem_cons, reduceCtorEq, false_or] at he
        obtain ⟨w, hb⟩ := wakes _ _ he
        cases hb
      all_goals
        simp only [List.mem_cons, reduceCtorEq, false_or] at he
        obtain ⟨w, hb⟩ := wakes _ _ he
        cases hb
    · rintro (⟨hlive, -⟩ | ⟨a, he⟩)
      · exact hlive
      · simp only [List.mem_cons, reduceCtorEq, false_or] at he
        obtain ⟨w, hb⟩ := wakes _ _ he
        cases hb
  | @giveUp a k1 p1 ps sh hc hp hk hh hl hb he =>
    have hp1 : PLive c sh k p ↔ PLive c s.shard k p ∧ p ≠ p1 := by
      cases he with
      | abandoned inv same entries wgt num ghosts plh => exact plh.live k p
    simp only [List.mem_cons, List.not_mem_nil, or_false, forall_eq_or_imp, forall_eq, reduceCtorEq, false_or,
      exists_false, Ev.dropped.injEq, not_false_eq_true, implies_true, true_and, not_and, hp1]
    constructor
    · rintro ⟨h1, h2⟩
      exact ⟨h1, ⟨nosup (by simp), nosup' (by simp)⟩, fun _ _ _ _ h => h2 h⟩
    · rintro ⟨h1, -, h2⟩
      exact ⟨h1, h2 _ _ rfl rfl⟩
  | @read op out hop he =>
    have : ¬ Supersedes c s.shard.weightTargetHot k (.sect (.call op) (.call out) []) := by
      intro hs
      cases hs <;> exact hop
    simp [this]
  | @write op sh out q hop hw hr he =>
    cases he with
    | call hop' hst plh np =>
      rw [show PLive c sh k p ↔ _ from plh.live k p]
      have : Kills c s.shard.weightTargetHot op k ↔
          Supersedes c s.shard.weightTargetHot k (.sect (.call op) (.call out) q.log) := by
        constructor
        · intro hk
          unfold Kills at hk
          split at hk
          · obtain ⟨rfl, ha⟩ := hk; exact .insert _ _ _ ha
          · subst hk; exact .remove _ _
          · exact .clear _ _
          · exact hk.elim
        · intro hs
          cases hs with
          | remove => rfl
          | clear => trivial
          | insert v _ _ ha => exact ⟨rfl, ha⟩
      simp [this]

end
end QuickCache.Conc
