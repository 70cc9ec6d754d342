import Verif.Proofs.ConcInv
import Mathlib.Data.List.Basic

/-!
# What every action of the protocol does

`Eff c s act s' evs` lists the possible outcomes of the actions, `exec_sat` says that in a state satisfying the invariant
every possible action has one of them or fails because the cache is too large.
-/

namespace QuickCache.Conc
variable {K V RS : Type}
open Shard Unsync Spec
open Function (update)

theorem swapRemove_perm {l : List Nat} {i x : Nat} (h : l[i]? = some x) : l.Perm (x :: swapRemove l i) := by
  obtain ⟨hlt, hx⟩ := List.getElem?_eq_some_iff.mp h
  rcases List.eq_nil_or_concat l with rfl | ⟨l', y, rfl⟩
  · simp at hlt
  · unfold swapRemove
    simp only [List.concat_eq_append, List.getLast?_append, List.getLast?_singleton, Option.some_or]
    simp only [List.concat_eq_append] at h hlt hx
    by_cases hi : i < l'.length
    · rw [List.set_append_left _ _ hi, List.dropLast_concat]
      have hxi : l'[i] = x := by rw [List.getElem_append_left hi] at hx; exact hx
      have h1 : (l'.set i y).Perm (y :: l'.eraseIdx i) := List.set_perm_cons_eraseIdx hi y
      have h2 : (l'[i] :: l'.eraseIdx i).Perm l' := List.getElem_cons_eraseIdx_perm hi
      rw [hxi] at h2
      calc l' ++ [y] |>.Perm ((x :: l'.eraseIdx i) ++ [y]) := h2.symm.append_right [y]
        _ |>.Perm (x :: (y :: l'.eraseIdx i)) := by
          simp only [List.cons_append, List.perm_cons]
          exact List.perm_append_singleton y _
        _ |>.Perm (x :: l'.set i y) := h1.symm.cons x
    · have hi2 : i = l'.length := by simp at hlt; omega
      subst hi2
      have hy : y = x := by simpa using hx
      subst hy
      rw [List.set_append_right _ _ (Nat.le_refl _)]
      simp only [Nat.sub_self, List.set_cons_zero, List.dropLast_concat]
      exact List.perm_append_singleton y _

theorem findIdx?_mem {l : List Nat} {f : Nat → Bool} {a : Nat} (hm : a ∈ l) (ha : f a = true)
    (hu : ∀ b ∈ l, f b = true → b = a) : ∃ i, l.findIdx? f = some i ∧ l[i]? = some a := by
  cases h : l.findIdx? f with
  | none =>
    rw [List.findIdx?_eq_none_iff] at h
    rw [h a hm] at ha; cases ha
  | some i =>
    rw [List.findIdx?_eq_some_iff_getElem] at h
    obtain ⟨h1, h2, -⟩ := h
    exact ⟨i, rfl, by rw [List.getElem?_eq_getElem h1, hu _ (List.getElem_mem h1) h2]⟩

/-- The outcomes of the actions. -/
inductive Eff [DecidableEq K] (c : Cfg K V RS) (s : State K V) : Act K V → State K V → List (Ev K V) → Prop
  | begin (kind : Kind) (k : K)
      (hk : ∀ tid t, kind = .thread tid t → ∀ b t', s.kind b = .thread tid t' → (s.ctl b).calling = false) :
      Eff c s (.begin kind k)
        { s with
          next := s.next + 1
          kind := update s.kind s.next kind
          ctl := update s.ctl s.next (.start k)
          flag := update s.flag s.next false } []
  | enter {a : Nat} (w : Nat) {k : K} (h : s.ctl a = .start k) (hw : s.writer = none) :
      Eff c s (.enter a w) { (s.go a (.seek k)) with readers := a :: s.readers, cx := update s.cx a w }
        (if s.kind a = .task then [.polled a w] else [])
  | located {a : Nat} {k : K} (h : s.ctl a = .seek k) (t : Nat) (r : Resident K V)
      (ht : s.shard.entries.item t = some (.resident r)) (hk : r.key = k) :
      Eff c s (.find a) (s.go a (.saw k t r.value)) [.sect (.find k) (.located (some (t, r.value))) []]
  | absent {a : Nat} {k : K} (h : s.ctl a = .seek k) (hno : s.shard.contents k = none) :
      Eff c s (.find a) (s.go a (.tally k none)) [.sect (.find k) (.located none) []]
  | load {a : Nat} {k : K} {t : Nat} {v : V} (h : s.ctl a = .saw k t v) (n : Nat) (old : Option Nat) :
      Eff c s (.load a old) (s.go a (if old.getD n < MAX_F then .bump k t v else .tally k (some v)))
        [.sect (.load k t) (.counter n) []]
  | bump {a : Nat} {k : K} {t : Nat} {v : V} {sh : Shard K V} (h : s.ctl a = .bump k t v)
      (he : SecEff c s.shard (.bump k t) (sh, .unit, c.begin)) :
      Eff c s (.bump a) { s.go a (.tally k (some v)) with shard := sh } [.sect (.bump k t) .unit []]
  | hit {a : Nat} {k : K} {v : V} {sh : Shard K V} (h : s.ctl a = .tally k (some v))
      (he : SecEff c s.shard (.count true) (sh, .unit, c.begin)) :
      Eff c s (.tally a) { (s.unlockRead a).go a .idle with shard := sh } [.sect (.count true) .unit [], .hit a k v]
  | miss {a : Nat} {k : K} {sh : Shard K V} (h : s.ctl a = .tally k none) (hk : s.kind a = .get)
      (he : SecEff c s.shard (.count false) (sh, .unit, c.begin)) :
      Eff c s (.tally a) { (s.unlockRead a).go a .idle with shard := sh } [.sect (.count false) .unit [], .miss a k]
  | goOn {a : Nat} {k : K} {sh : Shard K V} (h : s.ctl a = .tally k none) (hk : s.kind a ≠ .get)
      (he : SecEff c s.shard (.count false) (sh, .unit, c.begin)) :
      Eff c s (.tally a) { (s.unlockRead a).go a (.created k) with shard := sh } [.sect (.count false) .unit []]
  | found {a : Nat} {k : K} {v : V} {sh : Shard K V} (h : s.ctl a = .created k) (hw : s.writer = none)
      (hr : s.readers = []) (he : SecEff c s.shard (.upsert k) (sh, .found v, c.begin)) :
      Eff c s (.upsert a) ({ s with shard := sh }.go a .idle) [.sect (.upsert k) (.found v) [], .hit a k v]
  | created {a : Nat} {k : K} {p : Plh} {sh : Shard K V} (h : s.ctl a = .created k) (hw : s.writer = none)
      (hr : s.readers = []) (he : SecEff c s.shard (.upsert k) (sh, .pending p true, c.begin)) :
      Eff c s (.upsert a) { (({ s with shard := sh }.setPlh p ⟨k, p, [], .loading⟩).go a (.starting k p true)) with
        writer := some a } [.sect (.upsert k) (.pending p true) [], .began a k p]
  | joining {a : Nat} {k : K} {p : Plh} {sh : Shard K V} (h : s.ctl a = .created k) (hw : s.writer = none)
      (hr : s.readers = []) (he : SecEff c s.shard (.upsert k) (sh, .pending p false, c.begin)) :
      Eff c s (.upsert a) { { s with shard := sh }.go a (.joining k p) with writer := some a }
        [.sect (.upsert k) (.pending p false) []]
  | enlist {a : Nat} {k : K} {p : Plh} {ps : PState K V} (h : s.ctl a = .joining k p) (hp : s.plh p.id = some ps)
      (hk : ps.key = k) (hh : ps.handle = p) (hl : ps.loading = .loading) :
      Eff c s (.join a) { (((s.setPlh p { ps with waiters := ps.waiters ++ [a] }).go a (.waiting k p)).unlockWrite) with
          flag := update s.flag a false, waker := update s.waker a (s.cx a) } []
  | late {a : Nat} {k : K} {p : Plh} {ps : PState K V} {v : V} (h : s.ctl a = .joining k p) (hp : s.plh p.id = some ps)
      (hk : ps.key = k) (hh : ps.handle = p) (hl : ps.loading = .inserted v) :
      Eff c s (.join a) (s.go a .idle).unlockWrite [.received a k p v]
  | guard {a : Nat} {k : K} {p : Plh} {w : Bool} (h : s.ctl a = .starting k p w) :
      Eff c s (.startLoading a) (if w then (s.go a (.guard k p)).unlockWrite else (s.go a (.guard k p)).unlockRead a)
        [.gotGuard a k p]
  | wake {a : Nat} {k : K} {p : Plh} {tid : Nat} {t : Bool} (h : s.ctl a = .waiting k p) (hk : s.kind a = .thread tid t)
      (hf : s.flag a = true) : Eff c s (.wake a) (s.go a (.claimed k p)) []
  | claim {a : Nat} (w : Nat) {k : K} {p : Plh} (h : s.ctl a = .waiting k p) (hk : s.kind a = .task) (hf : s.flag a = true) :
      Eff c s (.poll a w) { s.go a (.claimed k p) with flag := update s.flag a false } [.polled a w]
  | pending {a : Nat} (w : Nat) {k : K} {p : Plh} (h : s.ctl a = .waiting k p) (hk : s.kind a = .task)
      (hf : s.flag a = false) : Eff c s (.poll a w) { s with waker := update s.waker a w } [.polled a w]
  | timely {a : Nat} {k : K} {p : Plh} {tid : Nat} (h : s.ctl a = .waiting k p) (hk : s.kind a = .thread tid true)
      (hf : s.flag a = true) : Eff c s (.timeout a) (s.go a (.claimed k p)) []
  | timeout {a : Nat} {k : K} {p : Plh} {tid : Nat} {ps : PState K V} {ws : List Nat} (h : s.ctl a = .waiting k p)
      (hk : s.kind a = .thread tid true) (hf : s.flag a = false) (hp : s.plh p.id = some ps) (hh : ps.handle = p)
      (hws : ps.waiters.Perm (a :: ws)) :
      Eff c s (.timeout a) ((s.setPlh p { ps with waiters := ws }).go a .idle) [.timedOut a]
  | relock {a : Nat} {k : K} {p : Plh} (h : s.ctl a = .claimed k p) (hw : s.writer = none) :
      Eff c s (.relock a) { s.go a (.rejoining k p) with readers := a :: s.readers } []
  | retry {a : Nat} {k : K} {p : Plh} {ps : PState K V} (h : s.ctl a = .rejoining k p) (hp : s.plh p.id = some ps)
      (hk : ps.key = k) (hh : ps.handle = p) (hl : ps.loading = .loading) :
      Eff c s (.rejoin a) (s.go a (.starting k p false)) []
  | received {a : Nat} {k : K} {p : Plh} {ps : PState K V} {v : V} (h : s.ctl a = .rejoining k p)
      (hp : s.plh p.id = some ps) (hk : ps.key = k) (hh : ps.handle = p) (hl : ps.loading = .inserted v) :
      Eff c s (.rejoin a) ((s.go a .idle).unlockRead a) [.received a k p v]
  | publish {a : Nat} (v : V) {k : K} {p : Plh} {ps : PState K V} (h : s.ctl a = .guard k p) (hp : s.plh p.id = some ps)
      (hk : ps.key = k) (hh : ps.handle = p) (hl : ps.loading = .loading) :
      Eff c s (.publish a v) { (s.setPlh p { ps with waiters := [], loading := .inserted v }).go a
        (.inserting k p v (!ps.waiters.isEmpty)) with flag := fun b => if b ∈ ps.waiters then true else s.flag b }
        (.published a p v :: ps.waiters.flatMap s.wakes)
  | superseded {a : Nat} {k : K} {p : Plh} {v : V} {referenced : Bool} (h : s.ctl a = .inserting k p v referenced)
      (hw : s.writer = none) (hr : s.readers = []) (hg : ∀ k, ¬ PSlot s.shard k p) :
      Eff c s (.store a) (s.go a .idle) [.sect (.fill k p referenced v) (.filled (some v)) [], .insertDone a k p (some v)]
  | store {a : Nat} {k : K} {p : Plh} {v : V} {referenced : Bool} {sh : Shard K V} {q : Req K V RS}
      (h : s.ctl a = .inserting k p v referenced) (hw : s.writer = none) (hr : s.readers = [])
      (hl : PLive c s.shard k p) (he : SecEff c s.shard (.fill k p referenced v) (sh, .filled none, q)) :
      Eff c s (.store a) { s.go a .idle with shard := sh }
        [.sect (.fill k p referenced v) (.filled none) q.log, .insertDone a k p none]
  | drop {a : Nat} {k : K} {p : Plh} (h : s.ctl a = .guard k p) : Eff c s (.drop a) (s.go a (.leaving k p)) []
  | lockDrop {a : Nat} {k : K} {p : Plh} (h : s.ctl a = .leaving k p) (hw : s.writer = none) (hr : s.readers = []) :
      Eff c s (.lockDrop a) { s.go a (.dropping k p) with writer := some a } []
  | handOver {a b : Nat} {k : K} {p : Plh} {ps : PState K V} (h : s.ctl a = .dropping k p) (hp : s.plh p.id = some ps)
      (hk : ps.key = k) (hh : ps.handle = p) (hl : ps.loading = .loading) (hb : ps.waiters.getLast? = some b) :
      Eff c s (.finishDrop a) ((((s.setPlh p { ps with waiters := ps.waiters.dropLast }).notify b).go a .idle).unlockWrite)
        (.handedOver a p b :: s.wakes b)
  | giveUp {a : Nat} {k : K} {p : Plh} {ps : PState K V} {sh : Shard K V} (h : s.ctl a = .dropping k p)
      (hp : s.plh p.id = some ps) (hk : ps.key = k) (hh : ps.handle = p) (hl : ps.loading = .loading)
      (hb : ps.waiters = []) (he : SecEff c s.shard (.abandon k p) (sh, .unit, c.begin)) :
      Eff c s (.finishDrop a) { ((s.setPlh p { ps with loading := .terminated }).go a .idle).unlockWrite with shard := sh }
        [.sect (.abandon k p) .unit [], .dropped a k p]
  | unpolled {a : Nat} {k : K} (h : s.ctl a = .start k) (hk : s.kind a = .task) :
      Eff c s (.cancel a) (s.go a .idle) [.cancelled a]
  | cancelOwner {a : Nat} {k : K} {p : Plh} {ps : PState K V} (h : s.ctl a = .waiting k p) (hk : s.kind a = .task)
      (hf : s.flag a = true) (hp : s.plh p.id = some ps) (hh : ps.handle = p) (hl : ps.loading = .loading) :
      Eff c s (.cancel a) (s.go a (.abandoning k p)) [.cancelled a]
  | cancelDone {a : Nat} {k : K} {p : Plh} {ps : PState K V} (h : s.ctl a = .waiting k p) (hk : s.kind a = .task)
      (hf : s.flag a = true) (hp : s.plh p.id = some ps) (hh : ps.handle = p) (hl : ps.loading ≠ .loading) :
      Eff c s (.cancel a) (s.go a .idle) [.cancelled a]
  | cancel {a : Nat} {k : K} {p : Plh} {ps : PState K V} {ws : List Nat} (h : s.ctl a = .waiting k p)
      (hk : s.kind a = .task) (hf : s.flag a = false) (hp : s.plh p.id = some ps) (hh : ps.handle = p)
      (hws : ps.waiters.Perm (a :: ws)) :
      Eff c s (.cancel a) ((s.setPlh p { ps with waiters := ws }).go a .idle) [.cancelled a]
  | abandon {a : Nat} {k : K} {p : Plh} (h : s.ctl a = .abandoning k p) :
      Eff c s (.abandon a) (s.go a (.leaving k p)) []
  | read {op : Op K V} {out : Out K V} (hop : (Section.call op).reads)
      (he : SecEff c s.shard (.call op) (s.shard, .call out, c.begin)) :
      Eff c s (.call op) s [.sect (.call op) (.call out) []]
  | write {op : Op K V} {sh : Shard K V} {out : Out K V} {q : Req K V RS} (hop : lockMode op = some true)
      (hw : s.writer = none) (hr : s.readers = []) (he : SecEff c s.shard (.call op) (sh, .call out, q)) :
      Eff c s (.call op) { s with shard := sh } [.sect (.call op) (.call out) q.log]

/-- The panics of an action: only the cache being too large. -/
def ExecErr [DecidableEq K] (c : Cfg K V RS) (s : State K V) : Act K V → Panic → Prop
  | .upsert a, p => ∃ k, s.ctl a = .created k ∧ SecErr c s.shard (.upsert k) p
  | .store a, p => ∃ k q v b, s.ctl a = .inserting k q v b ∧ SecErr c s.shard (.fill k q b v) p
  | .call op, p => SecErr c s.shard (.call op) p
  | _, _ => False

theorem foldl_notify (l : List Nat) (s : State K V) :
    l.foldl State.notify s = { s with flag := fun b => if b ∈ l then true else s.flag b } := by
  induction l generalizing s with
  | nil => simp
  | cons x l ih =>
    rw [List.foldl_cons, ih]
    unfold State.notify
    congr 1
    funext b
    by_cases hb : b = x
    · subst hb; simp
    · simp [hb]

section
variable [DecidableEq K] {c : Cfg K V RS} {s : State K V}

/-- The placeholder an agent is engaged with. -/
theorem CInv.at (h : CInv c s) {a : Nat} {x : Ctl K V} (hx : s.ctl a = x) : AOK c s.shard s.plh x := hx ▸ h.ag a

omit [DecidableEq K] in
theorem find_unlocked (h : s.unlocked = true) : s.writer = none ∧ s.readers = [] := by
  unfold State.unlocked at h
  simpa using h

/-- The waiters of a load: waiting, and not notified. -/
theorem CInv.waiter (h : CInv c s) {i : Nat} {ps : PState K V} (hp : s.plh i = some ps) {b : Nat} (hb : b ∈ ps.waiters) :
    (∃ k, s.ctl b = .waiting k ps.handle) ∧ s.flag b = false := by
  have := (h.pl.mem i ps hp b).mp hb
  unfold wait waitOf at this
  split at this
  · rename_i k p hx
    split at this
    · cases this
    · rename_i hf
      cases this
      exact ⟨⟨k, hx⟩, by simpa using hf⟩
  · cases this

/-- Every possible action has one of the outcomes, or fails because the cache is too large. -/
theorem exec_sat (h : CInv c s) (hq : c.ptrEq = true) {act : Act K V} {x : Res (State K V × List (Ev K V))}
    (hx : exec c s act = some x) : Res.Sat x (fun y => Eff c s act y.1 y.2) (ExecErr c s act) := by
  have hsec : ∀ {sec}, SecOK c s.shard sec → _ := fun hok => sec_sat h.shard hq hok
  cases act with
  | begin kind k =>
    simp only [exec, Conc.begin] at hx
    cases kind with
    | thread tid t =>
      simp only at hx
      split at hx
      · rename_i hok
        cases hx
        refine .ok (.begin _ k ?_)
        intro tid' t2 he b t' hb
        cases he
        simp only [Bool.not_eq_eq_eq_not, Bool.not_true] at hok
        by_cases hlt : b < s.next
        · have := List.any_eq_false.mp hok b (by simpa using hlt)
          rw [hb] at this
          simpa using this
        · rw [h.fresh b (by omega)]; rfl
      · cases hx
    | get =>
      cases hx
      exact .ok (.begin _ k (by intro tid t he; cases he))
    | task =>
      cases hx
      exact .ok (.begin _ k (by intro tid t he; cases he))
  | enter a w =>
    simp only [exec, enter] at hx
    split at hx
    · rename_i k hc
      split at hx
      · rename_i hw
        cases hx
        exact .ok (.enter w hc (by simpa using hw))
      · cases hx
    · cases hx
  | find a =>
    simp only [exec, find] at hx
    split at hx
    · rename_i k hc
      cases hx
      rcases hsec (sec := .find k) trivial with ⟨y, hy, he⟩ | ⟨p, hy, he⟩
      · rw [hy]
        cases he with
        | located t r ht hk => exact .ok (.located hc t r ht hk)
        | absent hno => exact .ok (.absent hc (h.shard.contents_none.mpr hno))
      · exact he.elim
    · cases hx
  | load a old =>
    simp only [exec, load] at hx
    split at hx
    · rename_i k t v hc
      cases hx
      have hA : AOK c s.shard s.plh (.saw k t v) := h.at hc
      obtain ⟨r, h1, h2, -⟩ := hA
      rcases hsec (sec := .load k t) ⟨r, h1, h2⟩ with ⟨y, hy, he⟩ | ⟨p, hy, he⟩
      · rw [hy]
        cases he with
        | loaded r' ht hk => exact .ok (.load hc r'.referenced old)
      · exact he.elim
    · cases hx
  | bump a =>
    simp only [exec, Conc.bump] at hx
    split at hx
    · rename_i k t v hc
      cases hx
      have hA : AOK c s.shard s.plh (.bump k t v) := h.at hc
      obtain ⟨r, h1, h2, -⟩ := hA
      rcases hsec (sec := .bump k t) ⟨r, h1, h2⟩ with ⟨y, hy, he⟩ | ⟨p, hy, he⟩
      · rw [hy]
        obtain ⟨sh, out, q⟩ := y
        have he' := he
        cases he with
        | bumped r' hk wrote plh same => exact .ok (.bump hc he')
      · exact he.elim
    · cases hx
  | tally a =>
    simp only [exec, tally] at hx
    split at hx
    · rename_i k r hc
      cases hx
      have hs : Sync.step c s.shard (.count r.isSome) = .ok ((if r.isSome then { s.shard with hits := s.shard.hits + 1 }
        else { s.shard with misses := s.shard.misses + 1 }), .unit, c.begin) := rfl
      rw [hs]
      cases r with
      | some v => exact .ok (.hit hc (.counted true))
      | none =>
        by_cases hk : s.kind a = .get
        · have h1 : (if ((none : Option V).isNone && decide (s.kind a ≠ .get)) = true then Ctl.created k else .idle : Ctl K V)
              = .idle := by simp [hk]
          rw [h1, if_pos hk]
          exact .ok (.miss hc hk (.counted false))
        · have h1 : (if ((none : Option V).isNone && decide (s.kind a ≠ .get)) = true then Ctl.created k else .idle : Ctl K V)
              = .created k := by simp [hk]
          rw [h1, if_neg hk]
          exact .ok (.goOn hc hk (.counted false))
    · cases hx
  | upsert a =>
    simp only [exec, upsert] at hx
    split at hx
    · rename_i k hc
      split at hx
      · rename_i hu
        obtain ⟨hw, hr⟩ := find_unlocked hu
        cases hx
        rcases hsec (sec := .upsert k) trivial with ⟨y, hy, he⟩ | ⟨p, hy, he⟩
        · rw [hy]
          obtain ⟨sh, out, q⟩ := y
          have he' := he
          cases he with
          | found t r hk wrote => exact .ok (.found hc hw hr he')
          | created hp => exact .ok (.created hc hw hr he')
          | joined hp => exact .ok (.joining hc hw hr he')
        · rw [hy]
          exact Or.inr ⟨p, rfl, k, hc, he⟩
      · cases hx
    · cases hx
  | join a =>
    simp only [exec, join] at hx
    split at hx
    · rename_i k p hc
      obtain ⟨⟨ps, h1, h2, h3, h4⟩, -⟩ := h.at hc
      rw [h1] at hx
      simp only at hx
      split at hx
      · rename_i hl
        cases hx
        exact .ok (.enlist hc h1 h2 h3 hl)
      · rename_i v hl
        cases hx
        exact .ok (.late hc h1 h2 h3 hl)
      · rename_i hl
        exact absurd hl h4
    · cases hx
  | startLoading a =>
    simp only [exec, startLoading] at hx
    split at hx
    · rename_i k p w hc
      obtain ⟨ps, h1, h2, h3, h4⟩ := h.at hc
      rw [h1] at hx
      simp only [Option.map_some, h4] at hx
      cases hx
      exact .ok (.guard hc)
    · cases hx
  | wake a =>
    simp only [exec, wake] at hx
    split at hx
    · rename_i k p tid t hc hk
      split at hx
      · rename_i hf
        cases hx
        exact .ok (.wake hc hk hf)
      · cases hx
    · cases hx
  | poll a w =>
    simp only [exec, poll] at hx
    split at hx
    · rename_i k p hc hk
      split at hx
      · rename_i hf
        cases hx
        exact .ok (.claim w hc hk hf)
      · rename_i hf
        cases hx
        exact .ok (.pending w hc hk (by simpa using hf))
    · cases hx
  | timeout a =>
    simp only [exec, timeout] at hx
    split at hx
    · rename_i k p tid hc hk
      obtain ⟨ps, h1, h2, h3, h4⟩ := h.at hc
      rw [h1] at hx
      simp only at hx
      split at hx
      · rename_i hf
        cases hx
        exact .ok (.timely hc hk hf)
      · rename_i hf
        simp only [Bool.not_eq_true] at hf
        have hm : a ∈ ps.waiters := by
          rw [h.pl.mem _ ps h1]
          unfold wait waitOf
          rw [hc, hf, h3]; rfl
        obtain ⟨i, hi, hia⟩ := findIdx?_mem (f := fun b => match s.kind b with | .thread t _ => t == tid | _ => false) hm
          (by simp [hk]) (by
            intro b hb hfb
            obtain ⟨⟨k', hcb⟩, -⟩ := h.waiter h1 hb
            cases hkb : s.kind b with
            | thread t y =>
              simp only [hkb, beq_iff_eq] at hfb
              subst hfb
              exact h.thr b a _ _ _ hkb hk (by rw [hcb]; rfl) (by rw [hc]; rfl)
            | get => simp [hkb] at hfb
            | task => simp [hkb] at hfb)
        have hx' : some (.ok ((s.setPlh p { ps with waiters := swapRemove ps.waiters i }).go a .idle, [.timedOut a])) =
            some x := by
          rw [← hx]
          split
          · rename_i hn
            exact absurd (hi.symm.trans hn) (by simp)
          · rename_i j hj
            have := hi.symm.trans hj
            cases this; rfl
        cases hx'
        exact .ok (.timeout hc hk hf h1 h3 (swapRemove_perm hia))
    · cases hx
  | relock a =>
    simp only [exec, relock] at hx
    split at hx
    · rename_i k p hc
      split at hx
      · rename_i hw
        cases hx
        exact .ok (.relock hc (by simpa using hw))
      · cases hx
    · cases hx
  | rejoin a =>
    simp only [exec, rejoin] at hx
    split at hx
    · rename_i k p hc
      obtain ⟨ps, h1, h2, h3, h4⟩ := h.at hc
      rw [h1] at hx
      simp only [Option.map_some] at hx
      cases hl : ps.loading with
      | loading => rw [hl] at hx; cases hx; exact .ok (.retry hc h1 h2 h3 hl)
      | inserted v => rw [hl] at hx; cases hx; exact .ok (.received hc h1 h2 h3 hl)
      | terminated => exact absurd hl h4
    · cases hx
  | publish a v =>
    simp only [exec, publish] at hx
    split at hx
    · rename_i k p hc
      obtain ⟨ps, h1, h2, h3, h4⟩ := h.at hc
      rw [h1] at hx
      simp only [Option.some.injEq] at hx
      subst hx
      rw [foldl_notify]
      exact .ok (.publish v hc h1 h2 h3 h4)
    · cases hx
  | store a =>
    simp only [exec, store] at hx
    split at hx
    · rename_i k p v b hc
      split at hx
      · rename_i hu
        obtain ⟨hw, hr⟩ := find_unlocked hu
        cases hx
        obtain ⟨ps, h1, h2, h3, h4⟩ := h.at hc
        have hok : SecOK c s.shard (.fill k p b v) := by
          intro k' p' hs hid
          obtain ⟨qs, g1, g2, g3, g4⟩ := h.pl.slot k' p' hs
          rw [hid, h1] at g1
          cases g1
          rw [h3] at g3
          rw [h2] at g2
          subst g2 g3
          exact ⟨rfl, rfl, g4.mpr (by rw [h4]; simp)⟩
        rcases hsec (sec := .fill k p b v) hok with ⟨y, hy, he⟩ | ⟨e, hy, he⟩
        · rw [hy]
          obtain ⟨sh, out, q⟩ := y
          have he' := he
          cases he with
          | gone hg => exact .ok (.superseded hc hw hr hg)
          | filled hl hst => exact .ok (.store hc hw hr hl he')
        · rw [hy]
          exact Or.inr ⟨e, rfl, k, p, v, b, hc, he⟩
      · cases hx
    · cases hx
  | drop a =>
    simp only [exec, drop] at hx
    split at hx
    · rename_i k p hc
      cases hx
      exact .ok (.drop hc)
    · cases hx
  | lockDrop a =>
    simp only [exec, lockDrop] at hx
    split at hx
    · rename_i k p hc
      split at hx
      · rename_i hu
        obtain ⟨hw, hr⟩ := find_unlocked hu
        cases hx
        exact .ok (.lockDrop hc hw hr)
      · cases hx
    · cases hx
  | finishDrop a =>
    simp only [exec, finishDrop] at hx
    split at hx
    · rename_i k p hc
      obtain ⟨ps, h1, h2, h3, h4⟩ := h.at hc
      rw [h1] at hx
      simp only at hx
      split at hx
      · rename_i b hb
        split at hx
        · cases hx
          exact .ok (.handOver hc h1 h2 h3 h4 hb)
        · rename_i hl
          exact absurd h4 hl
      · rename_i hb
        have hb' : ps.waiters = [] := by simpa using hb
        cases hx
        have hok : SecOK c s.shard (.abandon k p) := by
          intro k' p' hs hid
          obtain ⟨qs, g1, g2, g3, g4⟩ := h.pl.slot k' p' hs
          rw [hid, h1] at g1
          cases g1
          rw [h3] at g3
          rw [h2] at g2
          exact ⟨g3.symm, g2.symm⟩
        rcases hsec (sec := .abandon k p) hok with ⟨y, hy, he⟩ | ⟨e, hy, he⟩
        · rw [hy]
          obtain ⟨sh, out, q⟩ := y
          have he' := he
          cases he with
          | abandoned => exact .ok (.giveUp hc h1 h2 h3 h4 hb' he')
        · exact he.elim
    · cases hx
  | cancel a =>
    simp only [exec, cancel] at hx
    split at hx
    · rename_i k hc hk
      cases hx
      exact .ok (.unpolled hc hk)
    · rename_i k p hc hk
      obtain ⟨ps, h1, h2, h3, h4⟩ := h.at hc
      rw [h1] at hx
      simp only at hx
      split at hx
      · rename_i hf
        cases hl : ps.loading with
        | loading => rw [hl] at hx; cases hx; exact .ok (.cancelOwner hc hk hf h1 h3 hl)
        | inserted v => rw [hl] at hx; cases hx; exact .ok (.cancelDone hc hk hf h1 h3 (by rw [hl]; simp))
        | terminated => rw [hl] at hx; cases hx; exact .ok (.cancelDone hc hk hf h1 h3 (by rw [hl]; simp))
      · rename_i hf
        simp only [Bool.not_eq_true] at hf
        have hm : a ∈ ps.waiters := by
          rw [h.pl.mem _ ps h1]
          unfold wait waitOf
          rw [hc, hf, h3]; rfl
        obtain ⟨i, hi, hia⟩ := findIdx?_mem (f := fun b => s.kind b = .task && b == a) hm
          (by simp [hk]) (by intro b hb hfb; simp at hfb; exact hfb.2)
        rw [hi] at hx
        cases hx
        exact .ok (.cancel hc hk hf h1 h3 (swapRemove_perm hia))
    · cases hx
  | abandon a =>
    simp only [exec, abandon] at hx
    split at hx
    · rename_i k p hc
      obtain ⟨ps, h1, h2, h3, h4⟩ := h.at hc
      rw [h1] at hx
      simp only [Option.map_some, h4] at hx
      cases hx
      exact .ok (.abandon hc)
    · cases hx
  | call op =>
    simp only [exec, call] at hx
    cases hlm : lockMode op with
    | none => rw [hlm] at hx; cases hx
    | some b =>
      rw [hlm] at hx
      have hsh : op.shared := by
        cases op <;> trivial
      rcases hsec (sec := .call op) hsh with ⟨y, hy, he⟩ | ⟨e, hy, he⟩
      · rw [hy] at hx
        obtain ⟨sh, out, q⟩ := y
        cases b with
        | true =>
          simp only at hx
          split at hx
          · rename_i hfree
            obtain ⟨hw, hr⟩ := find_unlocked hfree
            have he' := he
            cases he with
            | call hop hst => cases hx; exact .ok (.write hlm hw hr he')
          · cases hx
        | false =>
          simp only at hx
          split at hx
          · have hrd : (Section.call op : Section K V).reads := by
              cases op <;> first | trivial | (simp [lockMode] at hlm)
            have he' := he
            cases he with
            | call hop hst =>
              rename_i out' np plh
              have hid : sh = s.shard ∧ q = c.begin := by
                cases op <;> try exact hrd.elim
                · cases hst with
                  | hit hop' => cases hop'
                  | miss hop' => cases hop'; exact ⟨rfl, rfl⟩
                  | peek => exact ⟨rfl, rfl⟩
                  | leave hop' => cases hop'
                  | drop hop' => cases hop'
                  | fill hop' => cases hop'
                · cases hst with
                  | hit hop' => cases hop'
                  | miss hop' => cases hop'; exact ⟨rfl, rfl⟩
                  | contains => exact ⟨rfl, rfl⟩
                  | leave hop' => cases hop'
                  | drop hop' => cases hop'
                  | fill hop' => cases hop'
              obtain ⟨rfl, rfl⟩ := hid
              cases hx
              exact .ok (.read hrd he')
          · cases hx
      · rw [hy] at hx
        cases b <;> simp only at hx <;> split at hx <;> cases hx <;> exact Or.inr ⟨e, rfl, he⟩

end
end QuickCache.Conc
