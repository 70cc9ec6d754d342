import Verif.Proofs.ConcRun

/-!
# What the trace of a run says about its state
-/

set_option linter.unusedSimpArgs false
set_option linter.unusedTactic false
set_option linter.unreachableTactic false

namespace QuickCache.Conc
variable {K V RS : Type}
open Shard Unsync Spec
open Function (update)

/-! ### Traces -/

/-- Every event has the property `Q`, which may depend on the trace before it. -/
def Always (Q : List (Ev K V) → Ev K V → Prop) (tr : List (Ev K V)) : Prop := ∀ t1 e t2, tr = t1 ++ e :: t2 → Q t1 e

theorem Always.nil {Q : List (Ev K V) → Ev K V → Prop} : Always Q [] := by
  intro t1 e t2 h; simp at h

theorem Always.append {Q : List (Ev K V) → Ev K V → Prop} {tr evs : List (Ev K V)} (h : Always Q tr)
    (he : ∀ t1 e t2, evs = t1 ++ e :: t2 → Q (tr ++ t1) e) : Always Q (tr ++ evs) := by
  intro t1 e t2 heq
  rcases List.append_eq_append_iff.mp heq with ⟨l, h1, h2⟩ | ⟨l, h1, h2⟩
  · rw [h1]; exact he l e t2 h2
  · cases l with
    | nil =>
      rw [List.append_nil] at h1
      rw [List.nil_append] at h2
      have := he [] e t2 h2.symm
      rw [List.append_nil, h1] at this
      exact this
    | cons x l =>
      simp only [List.cons_append, List.cons.injEq] at h2
      exact h t1 e l (by rw [h1, h2.1])

theorem Always.append_mono {Q : List (Ev K V) → Ev K V → Prop} {tr evs : List (Ev K V)} (h : Always Q tr)
    (hm : ∀ t t' e, Q t e → Q (t ++ t') e) (he : ∀ e ∈ evs, Q tr e) : Always Q (tr ++ evs) :=
  h.append (fun t1 e t2 heq => hm _ _ _ (he e (by rw [heq]; simp)))

theorem _root_.QuickCache.Spec.Superseded.append {c : Cfg K V RS} {target : Nat} {tr evs : List (Ev K V)} {k : K} {p : Plh}
    (h : Superseded c target tr k p) : Superseded c target (tr ++ evs) k p := by
  obtain ⟨t1, a, t2, e, h1, h2, h3⟩ := h
  exact ⟨t1, a, t2 ++ evs, e, by rw [h1]; simp, by simp [h2], h3⟩

theorem _root_.QuickCache.Spec.Superseded.new {c : Cfg K V RS} {target : Nat} {tr evs : List (Ev K V)} {k : K} {p : Plh} {a : Nat}
    (hb : .began a k p ∈ tr) {e : Ev K V} (he : e ∈ evs) (h : Supersedes c target k e) :
    Superseded c target (tr ++ evs) k p := by
  obtain ⟨t1, t2, h1⟩ := List.append_of_mem hb
  exact ⟨t1, a, t2 ++ evs, e, by rw [h1]; simp, by simp [he], h⟩

theorem _root_.QuickCache.Spec.Superseded.of_append {c : Cfg K V RS} {target : Nat} {tr evs : List (Ev K V)} {k : K} {p : Plh}
    (h : Superseded c target (tr ++ evs) k p) : Superseded c target tr k p ∨ ∃ e ∈ evs, Supersedes c target k e := by
  obtain ⟨t1, a, t2, e, h1, h2, h3⟩ := h
  rcases List.append_eq_append_iff.mp h1 with ⟨l, -, h4⟩ | ⟨l, h4, h5⟩
  · exact Or.inr ⟨e, by rw [h4]; simp [h2], h3⟩
  · cases l with
    | nil =>
      rw [List.nil_append] at h5
      exact Or.inr ⟨e, by rw [← h5]; simp [h2], h3⟩
    | cons x l =>
      simp only [List.cons_append, List.cons.injEq] at h5
      rw [h5.2, List.mem_append] at h2
      rcases h2 with h2 | h2
      · exact Or.inl ⟨t1, a, l, e, by rw [h4, h5.1], h2, h3⟩
      · exact Or.inr ⟨e, h2, h3⟩

theorem _root_.QuickCache.Spec.Superseded.began {c : Cfg K V RS} {target : Nat} {tr : List (Ev K V)} {k : K} {p : Plh}
    (h : Superseded c target tr k p) : ∃ a, .began a k p ∈ tr := by
  obtain ⟨t1, a, t2, e, h1, -⟩ := h
  exact ⟨a, by rw [h1]; simp⟩

section
variable [DecidableEq K] {c : Cfg K V RS} {s s' : State K V} {act : Act K V} {evs tr : List (Ev K V)}

/-! ### The events of one action -/

omit [DecidableEq K] in
theorem mem_wakes {s : State K V} {b : Nat} {e : Ev K V} (he : e ∈ s.wakes b) : e = .woke b (s.waker b) ∧ s.kind b = .task := by
  unfold State.wakes at he
  split at he
  · rename_i h; simp at he; exact ⟨he, h⟩
  · simp at he

omit [DecidableEq K] in
theorem mem_flatWakes {s : State K V} {l : List Nat} {e : Ev K V} (he : e ∈ l.flatMap s.wakes) :
    ∃ b ∈ l, e = .woke b (s.waker b) ∧ s.kind b = .task := by
  obtain ⟨b, h1, hb⟩ := List.mem_flatMap.mp he
  exact ⟨b, h1, mem_wakes hb⟩

/-- An event that is not a wake-up does not occur among wake-ups. -/
def _root_.QuickCache.Conc.Ev.isWoke : Ev K V → Bool
  | .woke _ _ => true
  | _ => false

omit [DecidableEq K] in
theorem not_mem_wakes {s : State K V} {b : Nat} {e : Ev K V} (h : e.isWoke = false) : e ∉ s.wakes b := fun he => by
  rw [(mem_wakes he).1] at h; cases h

omit [DecidableEq K] in
theorem not_mem_flatWakes {s : State K V} {l : List Nat} {e : Ev K V} (h : e.isWoke = false) : e ∉ l.flatMap s.wakes :=
  fun he => by
    obtain ⟨b, -, hb, -⟩ := mem_flatWakes he
    rw [hb] at h; cases h

omit [DecidableEq K] in
theorem not_mem_poll {p : Prop} [Decidable p] {a w : Nat} {e : Ev K V} (h : ∀ a w, e ≠ .polled a w) :
    e ∉ (if p then [.polled a w] else []) := by
  split
  · simpa using h a w
  · simp

/-- What a completed insertion through a guard means. -/
theorem Eff.insertDone (he : Eff c s act s' evs) {a : Nat} {k : K} {p : Plh} {err : Option V}
    (hm : .insertDone a k p err ∈ evs) : ∃ v r, s.ctl a = .inserting k p v r ∧ s'.ctl a = .idle ∧
      ((err = some v ∧ s'.shard = s.shard ∧ ∀ k, ¬ PSlot s.shard k p) ∨ (err = none ∧ PLive c s.shard k p ∧
        ∃ q, SecEff c s.shard (.fill k p r v) (s'.shard, .filled none, q))) := by
  cases he
  case superseded k1 p1 v rf hc hw hr hg =>
    simp only [List.mem_cons, reduceCtorEq, List.not_mem_nil, or_false, false_or, Ev.insertDone.injEq] at hm
    obtain ⟨rfl, rfl, rfl, rfl⟩ := hm
    exact ⟨v, rf, hc, by simp [State.go], Or.inl ⟨rfl, rfl, hg⟩⟩
  case store k1 p1 v rf sh q hc hw hr hl he =>
    simp only [List.mem_cons, reduceCtorEq, List.not_mem_nil, or_false, false_or, Ev.insertDone.injEq] at hm
    obtain ⟨rfl, rfl, rfl, rfl⟩ := hm
    exact ⟨v, rf, hc, by simp [State.go], Or.inr ⟨rfl, hl, q, he⟩⟩
  all_goals first
    | (simp only [List.mem_cons, reduceCtorEq, List.not_mem_nil, or_false, false_or] at hm; done)
    | exact absurd hm (not_mem_poll (by simp))
    | (simp only [List.mem_cons, reduceCtorEq, List.not_mem_nil, or_false, false_or] at hm
       first | exact absurd hm (not_mem_wakes rfl) | exact absurd hm (not_mem_flatWakes rfl))

/-- What a guard dropped without successor means. -/
theorem Eff.dropped (he : Eff c s act s' evs) {a : Nat} {k : K} {p : Plh} (hm : .dropped a k p ∈ evs) :
    s.ctl a = .dropping k p ∧ s'.ctl a = .idle ∧ At s.plh k p (· = .loading) ∧ At s'.plh k p (· = .terminated) := by
  cases he
  case giveUp k1 p1 ps sh hc hp hk hh hl hb he =>
    simp only [List.mem_cons, reduceCtorEq, List.not_mem_nil, or_false, false_or, Ev.dropped.injEq] at hm
    obtain ⟨rfl, rfl, rfl⟩ := hm
    exact ⟨hc, by simp [State.go, State.unlockWrite], ⟨ps, hp, hk, hh, hl⟩, ⟨{ ps with loading := .terminated },
      by simp [State.go, State.unlockWrite, State.setPlh], hk, hh, rfl⟩⟩
  all_goals first
    | (simp only [List.mem_cons, reduceCtorEq, List.not_mem_nil, or_false, false_or] at hm; done)
    | exact absurd hm (not_mem_poll (by simp))
    | (simp only [List.mem_cons, reduceCtorEq, List.not_mem_nil, or_false, false_or] at hm
       first | exact absurd hm (not_mem_wakes rfl) | exact absurd hm (not_mem_flatWakes rfl))

/-- What publishing means. -/
theorem Eff.published (he : Eff c s act s' evs) {a : Nat} {p : Plh} {v : V} (hm : .published a p v ∈ evs) :
    ∃ k r, s.ctl a = .guard k p ∧ s'.ctl a = .inserting k p v r ∧ At s.plh k p (· = .loading) ∧
      At s'.plh k p (· = .inserted v) ∧ ∀ b q w, .published b q w ∈ evs → b = a ∧ q = p ∧ w = v := by
  cases he
  case publish k1 p1 ps hc hp hk hh hl =>
    simp only [List.mem_cons, reduceCtorEq, List.not_mem_nil, or_false, false_or, Ev.published.injEq] at hm
    rcases hm with ⟨rfl, rfl, rfl⟩ | hm
    · refine ⟨k1, !ps.waiters.isEmpty, hc, by simp [State.go], ⟨ps, hp, hk, hh, hl⟩, ⟨{ ps with waiters := [], loading := .inserted v },
        by simp [State.go, State.setPlh], hk, hh, rfl⟩, fun b q w hm => ?_⟩
      simp only [List.mem_cons, Ev.published.injEq] at hm
      rcases hm with h | hm
      · exact h
      · exact absurd hm (not_mem_flatWakes rfl)
    · exact absurd hm (not_mem_flatWakes rfl)
  all_goals first
    | (simp only [List.mem_cons, reduceCtorEq, List.not_mem_nil, or_false, false_or] at hm; done)
    | exact absurd hm (not_mem_poll (by simp))
    | (simp only [List.mem_cons, reduceCtorEq, List.not_mem_nil, or_false, false_or] at hm
       first | exact absurd hm (not_mem_wakes rfl) | exact absurd hm (not_mem_flatWakes rfl))

/-- What beginning a load means. -/
theorem Eff.began (he : Eff c s act s' evs) (h : CInv c s) {a : Nat} {k : K} {p : Plh} (hm : .began a k p ∈ evs) :
    s.plh p.id = none ∧ s'.plh p.id = some ⟨k, p, [], .loading⟩ ∧
      evs = [.sect (.upsert k) (.pending p true) [], .began a k p] := by
  cases he
  case created k1 p1 sh hc hw hr he =>
    simp only [List.mem_cons, reduceCtorEq, List.not_mem_nil, or_false, false_or, Ev.began.injEq] at hm
    obtain ⟨rfl, rfl, rfl⟩ := hm
    refine ⟨?_, by simp [State.go, State.setPlh], rfl⟩
    cases he with
    | created hp hno plh id np =>
      cases hps : s.plh p.id with
      | none => rfl
      | some ps =>
        have := (h.pl.id _ _ hps).1
        omega
  all_goals first
    | (simp only [List.mem_cons, reduceCtorEq, List.not_mem_nil, or_false, false_or] at hm; done)
    | exact absurd hm (not_mem_poll (by simp))
    | (simp only [List.mem_cons, reduceCtorEq, List.not_mem_nil, or_false, false_or] at hm
       first | exact absurd hm (not_mem_wakes rfl) | exact absurd hm (not_mem_flatWakes rfl))

/-- What receiving a value means. -/
theorem Eff.on_received (he : Eff c s act s' evs) {a : Nat} {k : K} {p : Plh} {v : V} (hm : .received a k p v ∈ evs) :
    At s.plh k p (· = .inserted v) := by
  cases he
  case late k1 p1 ps v1 hc hp hk hh hl =>
    simp only [List.mem_cons, reduceCtorEq, List.not_mem_nil, or_false, false_or, Ev.received.injEq] at hm
    obtain ⟨rfl, rfl, rfl, rfl⟩ := hm
    exact ⟨ps, hp, hk, hh, hl⟩
  case received k1 p1 ps v1 hc hp hk hh hl =>
    simp only [List.mem_cons, reduceCtorEq, List.not_mem_nil, or_false, false_or, Ev.received.injEq] at hm
    obtain ⟨rfl, rfl, rfl, rfl⟩ := hm
    exact ⟨ps, hp, hk, hh, hl⟩
  all_goals first
    | (simp only [List.mem_cons, reduceCtorEq, List.not_mem_nil, or_false, false_or] at hm; done)
    | exact absurd hm (not_mem_poll (by simp))
    | (simp only [List.mem_cons, reduceCtorEq, List.not_mem_nil, or_false, false_or] at hm
       first | exact absurd hm (not_mem_wakes rfl) | exact absurd hm (not_mem_flatWakes rfl))

/-- What getting a guard means. -/
theorem Eff.gotGuard (he : Eff c s act s' evs) {a : Nat} {k : K} {p : Plh} (hm : .gotGuard a k p ∈ evs) :
    evs = [.gotGuard a k p] ∧ (∃ w, s.ctl a = .starting k p w) ∧ s'.ctl a = .guard k p := by
  cases he
  case guard k1 p1 w hc =>
    simp only [List.mem_cons, reduceCtorEq, List.not_mem_nil, or_false, false_or, Ev.gotGuard.injEq] at hm
    obtain ⟨rfl, rfl, rfl⟩ := hm
    refine ⟨rfl, ⟨w, hc⟩, ?_⟩
    cases w <;> simp [State.go, State.unlockRead, State.unlockWrite]
  all_goals first
    | (simp only [List.mem_cons, reduceCtorEq, List.not_mem_nil, or_false, false_or] at hm; done)
    | exact absurd hm (not_mem_poll (by simp))
    | (simp only [List.mem_cons, reduceCtorEq, List.not_mem_nil, or_false, false_or] at hm
       first | exact absurd hm (not_mem_wakes rfl) | exact absurd hm (not_mem_flatWakes rfl))

/-- What handing over means. -/
theorem Eff.handedOver (he : Eff c s act s' evs) {a b : Nat} {p : Plh} (hm : .handedOver a p b ∈ evs) :
    ∃ k, s.ctl a = .dropping k p ∧ At s.plh k p (· = .loading) ∧ (∃ ps, s.plh p.id = some ps ∧ b ∈ ps.waiters) ∧
      evs = .handedOver a p b :: s.wakes b := by
  cases he
  case handOver b1 k1 p1 ps hc hp hk hh hl hb =>
    simp only [List.mem_cons, reduceCtorEq, List.not_mem_nil, or_false, false_or, Ev.handedOver.injEq] at hm
    rcases hm with ⟨rfl, rfl, rfl⟩ | hm
    · exact ⟨k1, hc, ⟨ps, hp, hk, hh, hl⟩, ⟨ps, hp, List.mem_of_getLast? hb⟩, rfl⟩
    · exact absurd hm (not_mem_wakes rfl)
  all_goals first
    | (simp only [List.mem_cons, reduceCtorEq, List.not_mem_nil, or_false, false_or] at hm; done)
    | exact absurd hm (not_mem_poll (by simp))
    | (simp only [List.mem_cons, reduceCtorEq, List.not_mem_nil, or_false, false_or] at hm
       first | exact absurd hm (not_mem_wakes rfl) | exact absurd hm (not_mem_flatWakes rfl))

/-- A call that found a load to join. -/
theorem Eff.joined (he : Eff c s act s' evs) {k : K} {p : Plh} {log : List (Event K V)}
    (hm : .sect (.upsert k) (.pending p false) log ∈ evs) : PLive c s.shard k p := by
  cases he
  case joining k1 p1 sh hc hw hr he =>
    simp only [List.mem_cons, List.not_mem_nil, or_false, Ev.sect.injEq, Section.upsert.injEq, SOut.pending.injEq] at hm
    obtain ⟨rfl, ⟨rfl, -⟩, -⟩ := hm
    cases he with
    | joined hp hl => exact hl
  all_goals first
    | (simp only [List.mem_cons, reduceCtorEq, List.not_mem_nil, or_false, false_or, Ev.sect.injEq, false_and,
        SOut.pending.injEq, Bool.false_eq_true, Bool.true_eq_false, and_false] at hm; done)
    | exact absurd hm (not_mem_poll (by simp))
    | (simp only [List.mem_cons, reduceCtorEq, List.not_mem_nil, or_false, false_or] at hm
       first | exact absurd hm (not_mem_wakes rfl) | exact absurd hm (not_mem_flatWakes rfl))

/-! ### The placeholders -/

/-- What a placeholder is about. -/
def core (ps : PState K V) : K × Plh × Loading V := (ps.key, ps.handle, ps.loading)

omit [DecidableEq K] in
theorem At.core {plh : Nat → Option (PState K V)} {k : K} {p : Plh} {l : Loading V} (h : At plh k p (· = l)) :
    (plh p.id).map core = some (k, p, l) := by
  obtain ⟨ps, h1, rfl, rfl, rfl⟩ := h
  rw [h1]; rfl

/-- A placeholder changes only by beginning, publishing or giving up. -/
inductive Fate (s s' : State K V) (evs : List (Ev K V)) (i : Nat) : Prop
  | same (h : (s'.plh i).map core = (s.plh i).map core) (nb : ∀ a k p, .began a k p ∈ evs → p.id ≠ i)
      (np : ∀ a p v, .published a p v ∈ evs → p.id ≠ i) (nd : ∀ a k p, .dropped a k p ∈ evs → p.id ≠ i)
  | began (a : Nat) (k : K) (p : Plh) (he : .began a k p ∈ evs) (hi : p.id = i)
  | published (a : Nat) (p : Plh) (v : V) (he : .published a p v ∈ evs) (hi : p.id = i)
  | dropped (a : Nat) (k : K) (p : Plh) (he : .dropped a k p ∈ evs) (hi : p.id = i)

omit [DecidableEq K] in
theorem core_set {s : State K V} {j i : Nat} {ps ps' : PState K V} (hp : s.plh j = some ps) (hc : core ps' = core ps) :
    (update s.plh j (some ps') i).map core = (s.plh i).map core := by
  by_cases hi : i = j
  · subst hi; simp [hp, hc]
  · simp [hi]

theorem Eff.fate (he : Eff c s act s' evs) (i : Nat) : Fate s s' evs i := by
  cases he
  case created a k1 p1 sh hc hw hr he =>
    by_cases hi : p1.id = i
    · exact .began a k1 p1 (by simp) hi
    · refine .same ?_ ?_ ?_ ?_
      · simp [State.go, State.setPlh, Function.update_of_ne (Ne.symm hi)]
      · intro a' k' p' hm
        simp only [List.mem_cons, reduceCtorEq, List.not_mem_nil, or_false, false_or, Ev.began.injEq] at hm
        rw [hm.2.2]; exact hi
      · simp
      · simp
  case publish a v k1 p1 ps hc hp hk hh hl =>
    by_cases hi : p1.id = i
    · exact .published a p1 v (by simp) hi
    · refine .same ?_ ?_ ?_ ?_
      · simp [State.go, State.setPlh, Function.update_of_ne (Ne.symm hi)]
      · intro a' k' p' hm
        simp only [List.mem_cons, reduceCtorEq, false_or] at hm
        exact absurd hm (not_mem_flatWakes rfl)
      · intro a' p' v' hm
        simp only [List.mem_cons, Ev.published.injEq] at hm
        rcases hm with hm | hm
        · rw [hm.2.1]; exact hi
        · exact absurd hm (not_mem_flatWakes rfl)
      · intro a' k' p' hm
        simp only [List.mem_cons, reduceCtorEq, false_or] at hm
        exact absurd hm (not_mem_flatWakes rfl)
  case giveUp a k1 p1 ps sh hc hp hk hh hl hb he =>
    by_cases hi : p1.id = i
    · exact .dropped a k1 p1 (by simp) hi
    · refine .same ?_ ?_ ?_ ?_
      · simp [State.go, State.setPlh, State.unlockWrite, Function.update_of_ne (Ne.symm hi)]
      · simp
      · simp
      · intro a' k' p' hm
        simp only [List.mem_cons, reduceCtorEq, List.not_mem_nil, or_false, false_or, Ev.dropped.injEq] at hm
        rw [hm.2.2]; exact hi
  case handOver a b1 k1 p1 ps hc hp hk hh hl hb =>
    refine .same ?_ ?_ ?_ ?_
    · exact core_set hp rfl
    · intro a' k' p' hm
      simp only [List.mem_cons, reduceCtorEq, false_or] at hm
      exact absurd hm (not_mem_wakes rfl)
    · intro a' k' p' hm
      simp only [List.mem_cons, reduceCtorEq, false_or] at hm
      exact absurd hm (not_mem_wakes rfl)
    · intro a' k' p' hm
      simp only [List.mem_cons, reduceCtorEq, false_or] at hm
      exact absurd hm (not_mem_wakes rfl)
  case enlist k1 p1 ps hc hp hk hh hl => exact .same (core_set hp rfl) (by simp) (by simp) (by simp)
  case timeout k1 p1 tid ps ws hc hk hf hp hh hws => exact .same (core_set hp rfl) (by simp) (by simp) (by simp)
  case cancel k1 p1 ps ws hc hk hf hp hh hws => exact .same (core_set hp rfl) (by simp) (by simp) (by simp)
  case enter =>
    refine .same rfl ?_ ?_ ?_ <;> (intro _ _ _ hm; exact absurd hm (not_mem_poll (by simp)))
  case guard w _ => cases w <;> exact .same rfl (by simp) (by simp) (by simp)
  all_goals exact .same rfl (by simp) (by simp) (by simp)

/-! ### Positions -/

theorem Eff.to_guard (he : Eff c s act s' evs) {b : Nat} {k : K} {p : Plh} (hb : s'.ctl b = .guard k p) :
    s.ctl b = .guard k p ∨ .gotGuard b k p ∈ evs := by
  cases he
  case guard =>
    split at hb <;> simp only [State.go, State.unlockWrite, State.unlockRead, Function.update_apply] at hb <;>
      split at hb <;> simp_all
  case load =>
    simp only [State.go, Function.update_apply] at hb
    split at hb
    · split at hb <;> cases hb
    · exact Or.inl hb
  all_goals first
    | exact Or.inl hb
    | (simp only [State.go, State.setPlh, State.notify, State.unlockWrite, State.unlockRead, Function.update_apply] at hb
       split at hb
       · cases hb
       · exact Or.inl hb)

theorem Eff.to_inserting (he : Eff c s act s' evs) {b : Nat} {k : K} {p : Plh} {v : V} {r : Bool}
    (hb : s'.ctl b = .inserting k p v r) :
    s.ctl b = .inserting k p v r ∨ s.ctl b = .guard k p ∧ .published b p v ∈ evs := by
  cases he
  case guard =>
    split at hb <;> simp only [State.go, State.unlockWrite, State.unlockRead, Function.update_apply] at hb <;>
      split at hb <;> simp_all
  case load =>
    simp only [State.go, Function.update_apply] at hb
    split at hb
    · split at hb <;> cases hb
    · exact Or.inl hb
  case publish =>
    simp only [State.go, State.setPlh, Function.update_apply] at hb
    split at hb <;> simp_all
  all_goals first
    | exact Or.inl hb
    | (simp only [State.go, State.setPlh, State.notify, State.unlockWrite, State.unlockRead, Function.update_apply] at hb
       split at hb
       · cases hb
       · exact Or.inl hb)

/-! ### The trace and the loads -/

/-- What the trace says about the loads. -/
structure TInv (c : Cfg K V RS) (target : Nat) (tr : List (Ev K V)) (s : State K V) : Prop where
  beg : ∀ a k p, .began a k p ∈ tr → ∃ l, (s.plh p.id).map core = some (k, p, l)
  begun : ∀ i k p l, (s.plh i).map core = some (k, p, l) → ∃ a, .began a k p ∈ tr
  pub : ∀ p v, (∃ a, .published a p v ∈ tr) ↔ ∃ k, (s.plh p.id).map core = some (k, p, .inserted v)
  pub1 : ∀ a b p v w, .published a p v ∈ tr → .published b p w ∈ tr → a = b
  drp : ∀ k p, (∃ a, .dropped a k p ∈ tr) ↔ (s.plh p.id).map core = some (k, p, .terminated)
  grd : ∀ a k p, s.ctl a = .guard k p → .gotGuard a k p ∈ tr
  ins : ∀ a k p v r, s.ctl a = .inserting k p v r → .published a p v ∈ tr
  live : ∀ k p, (s.plh p.id).map core = some (k, p, .loading) → PLive c s.shard k p ∨ Superseded c target tr k p
  insLive : ∀ a k p v r, s.ctl a = .inserting k p v r → PLive c s.shard k p ∨ Superseded c target tr k p
  dead : ∀ k p, PLive c s.shard k p → ¬ Superseded c target tr k p

omit [DecidableEq K] in
theorem core_id {s : State K V} {c : Cfg K V RS} {sh : Shard K V} {r w : Nat → Option Plh} (h : PInv c sh s.plh r w)
    {i : Nat} {k : K} {p : Plh} {l : Loading V} (hc : (s.plh i).map core = some (k, p, l)) : p.id = i := by
  cases hp : s.plh i with
  | none => rw [hp] at hc; cases hc
  | some ps =>
    rw [hp] at hc
    cases hc
    exact (h.id i ps hp).2

omit [DecidableEq K] in
theorem TInv.new (target cap gcap : Nat) :
    TInv c target [] (State.new (Shard.new target cap gcap : Shard K V)) := by
  refine ⟨?_, ?_, ?_, ?_, ?_, ?_, ?_, ?_, ?_, ?_⟩
  · simp
  · simp [State.new]
  · simp [State.new]
  · simp
  · simp [State.new]
  · simp [State.new]
  · simp [State.new]
  · simp [State.new]
  · simp [State.new]
  · rintro k p - h
    obtain ⟨a, ha⟩ := h.began
    cases ha

omit [DecidableEq K] in
theorem TInv.relayout {target : Nat} (h : TInv c target tr s) {m : List (UInt64 × Nat)} {p : UInt64 → UInt64 → Bool}
    (hm : m.Perm s.shard.map) : TInv c target tr { s with shard := s.shard.relayout m p } :=
  ⟨h.beg, h.begun, h.pub, h.pub1, h.drp, h.grd, h.ins, fun k p hl => (h.live k p hl).imp_left (PLive.relayout hm).mpr,
    fun a k p v r hc => (h.insLive a k p v r hc).imp_left (PLive.relayout hm).mpr,
    fun k p hl => h.dead k p ((PLive.relayout hm).mp hl)⟩

theorem TInv.step {target : Nat} (h : TInv c target tr s) (hi : CInv c s) (ht : s.shard.weightTargetHot = target)
    (he : Eff c s act s' evs) : TInv c target (tr ++ evs) s' := by
  have hi' := he.keeps hi
  -- what the events say about the loading state
  have keep : ∀ i k p l, l ≠ .loading → (s.plh i).map core = some (k, p, l) → (s'.plh i).map core = some (k, p, l) := by
    intro i k p l hl hc
    have hid := core_id hi.pl hc
    cases he.fate i with
    | same h1 => rw [h1]; exact hc
    | began a k' p' hm hp =>
      have := (he.began hi hm).1
      rw [hp] at this; rw [this] at hc; cases hc
    | published a p' v hm hp =>
      obtain ⟨k', r, -, -, h3, -⟩ := he.published hm
      have := h3.core; rw [hp, hc] at this
      cases this; exact absurd rfl hl
    | dropped a k' p' hm hp =>
      obtain ⟨-, -, h3, -⟩ := he.dropped hm
      have := h3.core; rw [hp, hc] at this
      cases this; exact absurd rfl hl
  have back : ∀ i k p l, (s'.plh i).map core = some (k, p, l) → (∃ a, .began a k p ∈ evs ∧ l = .loading) ∨
      (s.plh i).map core = some (k, p, l) ∨
      ((s.plh i).map core = some (k, p, .loading) ∧ ((∃ a v, .published a p v ∈ evs ∧ l = .inserted v) ∨
        (∃ a, .dropped a k p ∈ evs ∧ l = .terminated))) := by
    intro i k p l hc
    cases he.fate i with
    | same h1 => rw [h1] at hc; exact Or.inr (Or.inl hc)
    | began a k' p' hm hp =>
      have := (he.began hi hm).2.1
      rw [hp] at this; rw [this] at hc; cases hc
      exact Or.inl ⟨a, hm, rfl⟩
    | published a p' v hm hp =>
      obtain ⟨k', r, -, -, h3, h4, -⟩ := he.published hm
      have h3 := h3.core; have h4 := h4.core
      rw [hp] at h3 h4; rw [hc] at h4; cases h4
      exact Or.inr (Or.inr ⟨h3, Or.inl ⟨a, v, hm, rfl⟩⟩)
    | dropped a k' p' hm hp =>
      obtain ⟨-, -, h3, h4⟩ := he.dropped hm
      have h3 := h3.core; have h4 := h4.core
      rw [hp] at h3 h4; rw [hc] at h4; cases h4
      exact Or.inr (Or.inr ⟨h3, Or.inr ⟨a, hm, rfl⟩⟩)
  have pub : ∀ p v, (∃ a, .published a p v ∈ tr ++ evs) ↔ ∃ k, (s'.plh p.id).map core = some (k, p, .inserted v) := by
    intro p v
    constructor
    · rintro ⟨a, hm⟩
      rcases List.mem_append.mp hm with hm | hm
      · obtain ⟨k, hk⟩ := (h.pub p v).mp ⟨a, hm⟩
        exact ⟨k, keep _ _ _ _ (by simp) hk⟩
      · obtain ⟨k, r, -, -, -, h4, -⟩ := he.published hm
        exact ⟨k, h4.core⟩
    · rintro ⟨k, hk⟩
      rcases back _ _ _ _ hk with ⟨a, -, h1⟩ | h1 | ⟨h1, ⟨a, w, h2, h3⟩ | ⟨a, -, h2⟩⟩
      · cases h1
      · obtain ⟨a, ha⟩ := (h.pub p v).mpr ⟨k, h1⟩
        exact ⟨a, List.mem_append_left _ ha⟩
      · cases h3; exact ⟨a, List.mem_append_right _ h2⟩
      · cases h2
  have notPub : ∀ {a p v}, .published a p v ∈ evs → ∀ b w, .published b p w ∉ tr := by
    intro a p v hm b w hb
    obtain ⟨k, r, -, -, h3, -⟩ := he.published hm
    obtain ⟨k', hk'⟩ := (h.pub p w).mp ⟨b, hb⟩
    rw [h3.core] at hk'; cases hk'
  have stays : ∀ k p, PLive c s.shard k p → (∀ a k', .insertDone a k' p none ∉ evs) → (∀ a k', .dropped a k' p ∉ evs) →
      (∃ a, .began a k p ∈ tr) → PLive c s'.shard k p ∨ Superseded c target (tr ++ evs) k p := by
    intro k p hl h1 h2 ⟨a, h3⟩
    by_cases hsup : ∃ e ∈ evs, Supersedes c s.shard.weightTargetHot k e
    · obtain ⟨e, hm, hs⟩ := hsup
      rw [ht] at hs
      exact Or.inr (.new h3 hm hs)
    · exact Or.inl ((he.live hi k p).mpr (Or.inl ⟨hl, fun e hm hs => hsup ⟨e, hm, hs⟩, h1, h2⟩))
  have insCore : ∀ {a k p v r}, s.ctl a = .inserting k p v r → (s.plh p.id).map core = some (k, p, .inserted v) := by
    intro a k p v r hc
    have hA : AOK c s.shard s.plh (.inserting k p v r) := hi.at hc
    exact At.core hA
  have notDropped : ∀ {k p l}, l ≠ .loading → (s.plh p.id).map core = some (k, p, l) → ∀ a k', .dropped a k' p ∉ evs := by
    intro k p l hl hc a k' hm
    obtain ⟨-, -, h3, -⟩ := he.dropped hm
    have := h3.core
    rw [hc] at this; cases this; exact hl rfl
  refine ⟨?_, ?_, pub, ?_, ?_, ?_, ?_, ?_, ?_, ?_⟩
  · intro a k p hm
    rcases List.mem_append.mp hm with hm | hm
    · obtain ⟨l, hl⟩ := h.beg a k p hm
      cases he.fate p.id with
      | same h1 => exact ⟨l, by rw [h1]; exact hl⟩
      | began a k' p' hm hp =>
        have := (he.began hi hm).1
        rw [hp] at this; rw [this] at hl; cases hl
      | published a p' v hm hp =>
        obtain ⟨k', r, -, -, h3, h4, -⟩ := he.published hm
        have h3 := h3.core; have h4 := h4.core
        rw [hp] at h3 h4; rw [hl] at h3; cases h3
        exact ⟨_, h4⟩
      | dropped a k' p' hm hp =>
        obtain ⟨-, -, h3, h4⟩ := he.dropped hm
        have h3 := h3.core; have h4 := h4.core
        rw [hp] at h3 h4; rw [hl] at h3; cases h3
        exact ⟨_, h4⟩
    · have := (he.began hi hm).2.1
      exact ⟨.loading, by rw [this]; rfl⟩
  · intro i k p l hc
    rcases back _ _ _ _ hc with ⟨a, h1, -⟩ | h1 | ⟨h1, -⟩
    · exact ⟨a, List.mem_append_right _ h1⟩
    · obtain ⟨a, ha⟩ := h.begun _ _ _ _ h1
      exact ⟨a, List.mem_append_left _ ha⟩
    · obtain ⟨a, ha⟩ := h.begun _ _ _ _ h1
      exact ⟨a, List.mem_append_left _ ha⟩
  · intro a b p v w ha hb
    rcases List.mem_append.mp ha with ha | ha <;> rcases List.mem_append.mp hb with hb | hb
    · exact h.pub1 a b p v w ha hb
    · exact absurd ha (notPub hb a v)
    · exact absurd hb (notPub ha b w)
    · obtain ⟨k, r, -, -, -, -, h5⟩ := he.published ha
      exact (h5 b p w hb).1.symm
  · intro k p
    constructor
    · rintro ⟨a, hm⟩
      rcases List.mem_append.mp hm with hm | hm
      · exact keep _ _ _ _ (by simp) ((h.drp k p).mp ⟨a, hm⟩)
      · exact (he.dropped hm).2.2.2.core
    · intro hk
      rcases back _ _ _ _ hk with ⟨a, -, h1⟩ | h1 | ⟨h1, ⟨a, w, h2, h3⟩ | ⟨a, h2, -⟩⟩
      · cases h1
      · obtain ⟨a, ha⟩ := (h.drp k p).mpr h1
        exact ⟨a, List.mem_append_left _ ha⟩
      · cases h3
      · exact ⟨a, List.mem_append_right _ h2⟩
  · intro a k p hc
    rcases he.to_guard hc with h1 | h1
    · exact List.mem_append_left _ (h.grd a k p h1)
    · exact List.mem_append_right _ h1
  · intro a k p v r hc
    rcases he.to_inserting hc with h1 | ⟨-, h1⟩
    · exact List.mem_append_left _ (h.ins a k p v r h1)
    · exact List.mem_append_right _ h1
  · intro k p hc
    rcases back _ _ _ _ hc with ⟨a, h1, -⟩ | h1 | ⟨-, ⟨a, w, -, h3⟩ | ⟨a, -, h2⟩⟩
    · exact Or.inl ((he.live hi k p).mpr (Or.inr ⟨a, h1⟩))
    · rcases h.live k p h1 with h2 | h2
      · refine stays k p h2 ?_ ?_ (h.begun _ _ _ _ h1)
        · intro a k' hm
          obtain ⟨v, r, h3, -⟩ := he.insertDone hm
          have := insCore h3
          rw [h1] at this; cases this
        · intro a k' hm
          have := (he.dropped hm).2.2.2.core
          rw [hc] at this; cases this
      · exact Or.inr h2.append
    · cases h3
    · cases h2
  · intro a k p v r hc
    have before : (PLive c s.shard k p ∨ Superseded c target tr k p) ∧ (∃ b, .began b k p ∈ tr) ∧
        (∀ b k', .dropped b k' p ∉ evs) ∧ (∀ b k', .insertDone b k' p none ∉ evs) := by
      rcases he.to_inserting hc with h1 | ⟨h1, h2⟩
      · refine ⟨h.insLive a k p v r h1, h.begun _ _ _ _ (insCore h1), notDropped (by simp) (insCore h1), ?_⟩
        intro b k' hm
        obtain ⟨w, r', h3, h4, -⟩ := he.insertDone hm
        have := h.pub1 _ _ _ _ _ (h.ins _ _ _ _ _ h1) (h.ins _ _ _ _ _ h3)
        subst this
        rw [hc] at h4; cases h4
      · have hA : AOK c s.shard s.plh (.guard k p) := hi.at h1
        have hA : (s.plh p.id).map core = some (k, p, .loading) := At.core hA
        refine ⟨h.live k p hA, h.begun _ _ _ _ hA, ?_, ?_⟩
        · intro b k' hm
          have h5 := (he.dropped hm).2.2.2.core
          obtain ⟨k2, r', -, -, -, h6, -⟩ := he.published h2
          rw [h6.core] at h5; cases h5
        · intro b k' hm
          obtain ⟨w, r', h3, -⟩ := he.insertDone hm
          have := insCore h3
          rw [hA] at this; cases this
    obtain ⟨h1, h2, h3, h4⟩ := before
    rcases h1 with h1 | h1
    · exact stays k p h1 h4 h3 h2
    · exact Or.inr h1.append
  · intro k p hl hsup
    rcases (he.live hi k p).mp hl with ⟨h1, h2, -⟩ | ⟨a, hm⟩
    · rcases hsup.of_append with h3 | ⟨e, h3, h4⟩
      · exact h.dead k p h1 h3
      · rw [ht] at h2; exact h2 e h3 h4
    · obtain ⟨h1, -, h2⟩ := he.began hi hm
      rcases hsup.of_append with h3 | ⟨e, h3, h4⟩
      · obtain ⟨b, hb⟩ := h3.began
        obtain ⟨l, hl⟩ := h.beg b k p hb
        rw [h1] at hl; cases hl
      · rw [h2] at h3
        simp only [List.mem_cons, List.not_mem_nil, or_false] at h3
        rcases h3 with rfl | rfl <;> cases h4

theorem Run.tinv {target cap gcap : Nat} (hr : Run c (State.new (Shard.new target cap gcap)) tr s) (hq : c.ptrEq = true) :
    TInv c target tr s :=
  hr.induct hq (CReach.new c target cap gcap) (.new target cap gcap) (fun _ _ _ _ _ h hm => h.relayout hm)
    (fun _ _ _ _ _ hre h he => h.step hre.inv hre.reach.target he)

end
end QuickCache.Conc
