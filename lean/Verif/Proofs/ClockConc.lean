import Verif.Proofs.ClockRun
import Verif.Proofs.ConcTrace
import Verif.Spec.ClockConc

/-!
# The concurrent cache follows the clock policy
-/

namespace QuickCache
variable {K V RS : Type} [DecidableEq K] {c : Cfg K V RS} {s : Shard K V} {R : RingId → List Nat} {F : List Nat}
open Spec Shard

theorem Spec.Clock.Sect.mono {G G' : K → Plh → Prop} {m m' : Clock K V} {sec : Section K V} {out : SOut K V}
    {log : List (Event K V)} (h : Clock.Sect c G m sec out log m')
    (hf : ∀ k p b v, sec = .fill k p b v → (G k p ↔ G' k p)) (ha : ∀ k p, sec = .abandon k p → (G k p ↔ G' k p)) :
    Clock.Sect c G' m sec out log m' := by
  cases h with
  | call step => exact .call step
  | found look => exact .found look
  | began idle look => exact .began idle look
  | joined pending look => exact .joined pending look
  | filled here fill => exact .filled (fun h => here ((hf _ _ _ _ rfl).mpr h)) fill
  | superseded gone => exact .superseded ((hf _ _ _ _ rfl).mp gone)
  | abandoned here => exact .abandoned (fun h => here ((ha _ _ rfl).mpr h))
  | abandonedLate gone => exact .abandonedLate ((ha _ _ rfl).mp gone)
  | find value => exact .find value
  | load here => exact .load here
  | bump here => exact .bump here
  | count => exact .count

/-- What a section does to the shard is what it does to the abstract cache. -/
theorem sect_sim (hi : Inv c s) (hr : s.HasRings c R F) (hq : c.ptrEq = true) {sec : Section K V} (hok : SecOK c s sec) :
    Res.Sat (Sync.step c s sec)
      (fun x => ∃ m', x.1.Implements c m' ∧
        Clock.Sect c (fun k p => ¬ PLive c s k p) (s.abs R) sec x.2.1 x.2.2.log m') (fun _ => True) := by
  have h := hi.toInv0
  have here : s.Implements c (s.abs R) := ⟨R, F, hr, rfl⟩
  cases sec with
  | call op =>
    simp only [Sync.step]
    refine Res.Sat.bind (step_sim h hr op) ?_
    rintro ⟨s', out, q⟩ ⟨m', h1, h2⟩
    exact .ok ⟨m', h1, .call h2⟩
  | upsert k =>
    simp only [Sync.step]
    refine Res.Sat.bind (upsertPlaceholder_spec h (Lawful.key c k) (by simp)).free ?_
    rintro ⟨s1, u⟩ hx
    have hx' := hx
    obtain ⟨R', F', e1, e2⟩ := hx.sim h hr
    cases hx' with
    | found t r s' ht hk wrote hits misses np => exact .ok ⟨_, ⟨R', F', e1, rfl⟩, .found e2⟩
    | join t ph ht hk hm hno =>
      subst hk
      have hp := abs_pending (R := R) h ht ⟨_, hm⟩
      exact .ok ⟨_, ⟨R, F, hr, rfl⟩, .joined hp (.loading (abs_none h hno) hp)⟩
    | ghost t s' ht hno wrote hits misses np => exact .ok ⟨_, ⟨R', F', e1, rfl⟩, .began (abs_idle h hno) e2⟩
    | fresh t s' hno hg wrote hits misses np => exact .ok ⟨_, ⟨R', F', e1, rfl⟩, .began (abs_idle h hno) e2⟩
  | fill k p b v =>
    simp only [Sync.step]
    have hown : ∀ ph, Holds c s p ph → ph.key = k ∧ PLive c s k p := by
      intro ph hh
      obtain ⟨h1, h2⟩ := Holds.slot h hq hh
      exact (hok _ _ h1 h2).2
    have hash : ∀ {ph}, Holds c s p ph → p.hash = c.hash ph.key ∧ (p.hash, p.idx) ∈ s.map := by
      intro ph hh
      obtain ⟨h2, h3⟩ := hown ph hh
      have := (h3.1.hash h).1
      exact ⟨by rw [this, h2], by rw [this]; exact h3.2⟩
    refine Res.Sat.bind (replacePlaceholder_spec h c.begin b v (fun ph hh => hash hh)).free ?_
    rintro ⟨s', q, r⟩ hx
    by_cases hh : ∃ ph, Holds c s p ph
    · obtain ⟨ph, hh⟩ := hh
      obtain ⟨h2, h3⟩ := hown ph hh
      obtain ⟨m', e1, e2⟩ := hx.sim h hr hh ⟨_, (hash hh).2⟩
      have hn : r = none := by
        cases hx with
        | gone hg => exact absurd hh (hg ph)
        | _ => rfl
      subst hn
      rw [h2] at e2
      exact .ok ⟨m', e1, .filled (not_not.mpr h3) e2⟩
    · cases hx with
      | gone hg =>
        refine .ok ⟨_, here, .superseded (fun hl => ?_)⟩
        obtain ⟨ph, h1, -⟩ := hl.1.holds (c := c)
        exact hg ph h1
      | direct ph' st s3 s' q' hp' => exact absurd ⟨ph', hp'⟩ hh
      | shrunk ph' st q1 v1 s3 s' q' hp' => exact absurd ⟨ph', hp'⟩ hh
      | rejected ph' q1 v1 s' hp' => exact absurd ⟨ph', hp'⟩ hh
  | abandon k p =>
    simp only [Sync.step]
    by_cases hl : PLive c s k p
    · obtain ⟨⟨ph, h1, h2, h3⟩, h4⟩ := hl
      obtain ⟨s', e1, e2⟩ := removePlaceholder_sim h hr h1 h3 ⟨_, h4⟩
      rw [e1]
      rw [h2] at e2
      exact .ok ⟨_, e2, .abandoned (not_not.mpr ⟨⟨ph, h1, h2, h3⟩, h4⟩)⟩
    · have hown : ∀ ph, s.entries.item p.idx = some (.placeholder ph) → c.sameAs ph.shared p = true →
          ph.shared = p ∧ ph.key = k := by
        intro ph h1 h2
        obtain ⟨a, b⟩ := Holds.slot h hq (p := p) ⟨h1, h2⟩
        exact hok _ _ a b
      obtain ⟨s', h1, -, -, -, -, -, -, h8, h9⟩ := removePlaceholder_spec h (p := p) (by
        intro ph g1 g2
        rw [(hown ph g1 g2).1])
      have hs' : s' = s := by
        have hmap : s'.map = s.map := by
          by_cases hx : ∃ ph, s.entries.item p.idx = some (.placeholder ph) ∧ c.sameAs ph.shared p = true
          · rw [h8 hx, List.filter_eq_self]
            rintro ⟨g, t⟩ hm
            rw [bne_iff_ne]
            rintro rfl
            obtain ⟨ph, g1, g2⟩ := hx
            obtain ⟨g3, g4⟩ := hown ph g1 g2
            refine hl ⟨⟨ph, g1, g4, g3⟩, ?_⟩
            obtain ⟨e, i1, i2⟩ := h.idx.hashed _ _ hm
            rw [g1] at i1
            cases i1
            rw [← g4]
            exact (show c.hash ph.key = g from i2) ▸ hm
          · exact h9 hx
        unfold removePlaceholder at h1
        split at h1
        · cases h1
        · cases h1
          exact congrArg (fun m => { s with map := m }) hmap
      rw [h1, hs']
      exact .ok ⟨_, here, .abandonedLate hl⟩
  | find k =>
    simp only [Sync.step]
    rcases searchResident_spec hi.idx (Lawful.key c k) with ⟨t, r, h1, h2, h3⟩ | ⟨h1, h2⟩
    · rw [h1]
      simp only [beq_iff_eq] at h3
      subst h3
      exact .ok ⟨_, here, .find (h.abs_value_some h2)⟩
    · rw [h1]
      exact .ok ⟨_, here, .find (h.abs_value_none (fun t r ht hk => by have := h2 t r ht; simp [hk] at this))⟩
  | load k t =>
    obtain ⟨r, hr', rfl⟩ := hok
    simp only [Sync.step, Slab.get_eq, hr', Option.map_some]
    exact .ok ⟨_, here, .load (h.abs_item R hr')⟩
  | bump k t =>
    obtain ⟨r, hr', rfl⟩ := hok
    simp only [Sync.step, Slab.get_eq, hr', Option.map_some]
    have hw := setRef_wrote h hr' ((r.referenced + 1) % 2 ^ 16) (s' := s.setEntry t (.resident
      { r with referenced := (r.referenced + 1) % 2 ^ 16 })) rfl
    obtain ⟨R', F', e1, e2⟩ := hw.sim_rewrite h rfl rfl hr
    refine .ok ⟨_, ⟨R', F', e1, rfl⟩, ?_⟩
    rw [e2, Clock.relist_same]
    exact .bump (h.abs_item R hr')
  | count hit =>
    simp only [Sync.step]
    refine .ok ⟨s.abs R, ?_, .count⟩
    cases hit <;> exact ⟨R, F, hr, rfl⟩

/-! ### Actions -/

namespace Conc
variable {s s' : State K V} {act : Act K V} {evs : List (Ev K V)}

omit [DecidableEq K] in
theorem isSect_flatWakes {l : List Nat} {e : Ev K V} (h : e ∈ l.flatMap s.wakes) : isSect e = false := by
  obtain ⟨b, -, rfl, -⟩ := mem_flatWakes h
  rfl

/-- An action executes at most one critical section, and enters it as the protocol demands. -/
theorem exec_sect (h : CInv c s) (hq : c.ptrEq = true) (hx : exec c s act = some (.ok (s', evs))) :
    (s'.shard = s.shard ∧ ∀ e ∈ evs, isSect e = false) ∨
    ∃ sec out q rest, evs = .sect sec out q.log :: rest ∧ (∀ e ∈ rest, isSect e = false) ∧
      Sync.step c s.shard sec = .ok (s'.shard, out, q) ∧ SecOK c s.shard sec ∧
      (∀ k p b v, sec = .fill k p b v → ∃ a, s.ctl a = .inserting k p v b) ∧
      (∀ k p, sec = .abandon k p → (s.plh p.id).map core = some (k, p, .loading)) := by
  have he := h.eff hq hx
  cases act with
  | find a =>
    simp only [exec, find] at hx
    split at hx
    · rename_i k hc
      rcases hy : Sync.step c s.shard (.find k) with e | ⟨sh, out, q⟩
      · rw [hy] at hx; cases hx
      · rw [hy] at hx
        cases hx
        exact Or.inr ⟨_, _, q, [], rfl, by simp, hy, trivial, by simp, by simp⟩
    · cases hx
  | load a old =>
    simp only [exec, load] at hx
    split at hx
    · rename_i k t v hc
      have hA : AOK c s.shard s.plh (.saw k t v) := h.at hc
      obtain ⟨r, h1, h2, -⟩ := hA
      rcases hy : Sync.step c s.shard (.load k t) with e | ⟨sh, out, q⟩
      · rw [hy] at hx; cases hx
      · rw [hy] at hx
        cases hx
        exact Or.inr ⟨_, _, q, [], rfl, by simp, hy, ⟨r, h1, h2⟩, by simp, by simp⟩
    · cases hx
  | bump a =>
    simp only [exec, Conc.bump] at hx
    split at hx
    · rename_i k t v hc
      have hA : AOK c s.shard s.plh (.bump k t v) := h.at hc
      obtain ⟨r, h1, h2, -⟩ := hA
      rcases hy : Sync.step c s.shard (.bump k t) with e | ⟨sh, out, q⟩
      · rw [hy] at hx; cases hx
      · rw [hy] at hx
        cases hx
        exact Or.inr ⟨_, _, q, [], rfl, by simp, hy, ⟨r, h1, h2⟩, by simp, by simp⟩
    · cases hx
  | tally a =>
    simp only [exec, tally] at hx
    split at hx
    · rename_i k r hc
      rcases hy : Sync.step c s.shard (.count r.isSome) with e | ⟨sh, out, q⟩
      · rw [hy] at hx; cases hx
      · rw [hy] at hx
        cases hx
        refine Or.inr ⟨_, _, q, _, rfl, ?_, hy, trivial, by simp, by simp⟩
        cases r with
        | some v => simp [isSect]
        | none => by_cases hk : s.kind a = .get <;> simp [hk, isSect]
    · cases hx
  | upsert a =>
    simp only [exec, upsert] at hx
    split at hx
    · rename_i k hc
      split at hx
      · rcases hy : Sync.step c s.shard (.upsert k) with e | ⟨sh, out, q⟩
        · rw [hy] at hx; cases hx
        · rw [hy] at hx
          simp only [Res.ok_bind, Option.some.injEq] at hx
          split at hx <;> cases hx
          · exact Or.inr ⟨_, _, q, _, rfl, by simp [isSect], hy, trivial, by simp, by simp⟩
          · exact Or.inr ⟨_, _, q, _, rfl, by simp [isSect], hy, trivial, by simp, by simp⟩
          · exact Or.inr ⟨_, _, q, _, rfl, by simp [isSect], hy, trivial, by simp, by simp⟩
      · cases hx
    · cases hx
  | store a =>
    simp only [exec, store] at hx
    split at hx
    · rename_i k p v b hc
      split at hx
      · obtain ⟨ps, h1, h2, h3, h4⟩ := h.at hc
        have hok : SecOK c s.shard (.fill k p b v) := by
          intro k' p' hs hid
          obtain ⟨qs, g1, g2, g3, g4⟩ := h.pl.slot k' p' hs
          rw [hid, h1] at g1
          cases g1
          rw [h3] at g3
          rw [h2] at g2
          subst g2 g3
          exact ⟨rfl, rfl, g4.mpr (by rw [h4]; simp)⟩
        rcases hy : Sync.step c s.shard (.fill k p b v) with e | ⟨sh, out, q⟩
        · rw [hy] at hx; cases hx
        · rw [hy] at hx
          cases hx
          refine Or.inr ⟨_, _, q, _, rfl, by simp [isSect], hy, hok, ?_, by simp⟩
          intro k' p' b' v' he
          cases he
          exact ⟨a, hc⟩
      · cases hx
    · cases hx
  | finishDrop a =>
    simp only [exec, finishDrop] at hx
    split at hx
    · rename_i k p hc
      have hA : AOK c s.shard s.plh (.dropping k p) := h.at hc
      have hcore := At.core hA
      obtain ⟨ps, h1, h2, h3, h4⟩ := hA
      rw [h1] at hx
      simp only at hx
      split at hx
      · rename_i b hb
        split at hx
        · cases hx
          refine Or.inl ⟨rfl, ?_⟩
          intro e he
          rcases List.mem_cons.mp he with rfl | he
          · rfl
          · obtain ⟨rfl, -⟩ := mem_wakes he
            rfl
        · cases hx
      · have hok : SecOK c s.shard (.abandon k p) := by
          intro k' p' hs hid
          obtain ⟨qs, g1, g2, g3, g4⟩ := h.pl.slot k' p' hs
          rw [hid, h1] at g1
          cases g1
          rw [h3] at g3
          rw [h2] at g2
          exact ⟨g3.symm, g2.symm⟩
        rcases hy : Sync.step c s.shard (.abandon k p) with e | ⟨sh, out, q⟩
        · rw [hy] at hx; cases hx
        · rw [hy] at hx
          cases hx
          refine Or.inr ⟨_, _, q, _, rfl, by simp [isSect], hy, hok, by simp, ?_⟩
          intro k' p' he
          cases he
          exact hcore
    · cases hx
  | call op =>
    have hop : op.shared := by
      cases he with
      | read hop he => cases he; assumption
      | write hop hw hr he => cases he; assumption
    simp only [exec, call] at hx
    have fin : ∀ b : Bool, (if b = true then some (do
        let x ← Sync.step c s.shard (.call op)
        .ok ({ s with shard := x.1 }, [.sect (.call op) x.2.1 x.2.2.log])) else none) =
          some (Except.ok (s', evs) : Res (State K V × List (Ev K V))) → ∃ sec out q rest, evs = .sect sec out q.log :: rest ∧
        (∀ e ∈ rest, isSect e = false) ∧ Sync.step c s.shard sec = .ok (s'.shard, out, q) ∧ SecOK c s.shard sec ∧
        (∀ k p b v, sec = .fill k p b v → ∃ a, s.ctl a = .inserting k p v b) ∧
        (∀ k p, sec = .abandon k p → (s.plh p.id).map core = some (k, p, .loading)) := by
      intro b hb
      cases b with
      | false => cases hb
      | true =>
        rw [if_pos rfl] at hb
        rcases hy : Sync.step c s.shard (.call op) with e | ⟨sh, out, q⟩
        · rw [hy] at hb; cases hb
        · rw [hy] at hb
          cases hb
          exact ⟨_, _, q, [], rfl, by simp, hy, hop, by simp, by simp⟩
    exact Or.inr (fin _ hx)
  | begin kind k => cases he; exact Or.inl ⟨rfl, by simp⟩
  | enter a w =>
    cases he
    refine Or.inl ⟨rfl, ?_⟩
    intro e he
    split at he
    · simp only [List.mem_singleton] at he; subst he; rfl
    · cases he
  | join a => cases he <;> exact Or.inl ⟨rfl, by simp [isSect]⟩
  | startLoading a => cases he with | @guard a k p w h => cases w <;> exact Or.inl ⟨rfl, by simp [isSect]⟩
  | wake a => cases he; exact Or.inl ⟨rfl, by simp⟩
  | poll a w => cases he <;> exact Or.inl ⟨rfl, by simp [isSect]⟩
  | timeout a => cases he <;> exact Or.inl ⟨rfl, by simp [isSect]⟩
  | relock a => cases he; exact Or.inl ⟨rfl, by simp⟩
  | rejoin a => cases he <;> exact Or.inl ⟨rfl, by simp [isSect]⟩
  | publish a v =>
    cases he
    refine Or.inl ⟨rfl, ?_⟩
    intro e he
    rcases List.mem_cons.mp he with rfl | he
    · rfl
    · exact isSect_flatWakes he
  | drop a => cases he; exact Or.inl ⟨rfl, by simp⟩
  | lockDrop a => cases he; exact Or.inl ⟨rfl, by simp⟩
  | cancel a => cases he <;> exact Or.inl ⟨rfl, by simp [isSect]⟩
  | abandon a => cases he; exact Or.inl ⟨rfl, by simp⟩

omit [DecidableEq K] in
theorem _root_.QuickCache.Spec.Clock.Trace.others [DecidableEq K] {m0 m : Clock K V} {tr : List (Ev K V)}
    (h : Clock.Trace c m0 tr m) : ∀ (l : List (Ev K V)), (∀ e ∈ l, isSect e = false) → Clock.Trace c m0 (tr ++ l) m
  | [], _ => by rwa [List.append_nil]
  | e :: l, hl => by
    have := (h.other (hl e (by simp))).others l (fun x hx => hl x (by simp [hx]))
    rwa [List.append_assoc] at this

/-- Traces of the concurrent cache are traces of the abstract machine. -/
theorem Run.clock {target cap gcap : Nat} {tr : List (Ev K V)} (hr : Run c (State.new (Shard.new target cap gcap)) tr s)
    (hq : c.ptrEq = true) : ∃ m, Clock.Trace c (.empty target cap gcap) tr m ∧ s.shard.Implements c m := by
  induction hr with
  | start => exact ⟨_, .start, new_sim c target cap gcap⟩
  | @layout tr s m p hr hperm hp ih =>
    obtain ⟨m1, h1, R, F, h2, rfl⟩ := ih
    have hi := (hr.reach hq (.new c target cap gcap)).inv
    exact ⟨_, h1, R, F, h2, (Shard.abs_relayout hi.shard.toInv0 hperm hp).symm⟩
  | @act tr s s' act evs hr hs ih =>
    obtain ⟨m1, h1, R, F, h2, rfl⟩ := ih
    have hi := (hr.reach hq (.new c target cap gcap)).inv
    have ht := hr.tinv hq
    rcases exec_sect hi hq hs with ⟨e1, e2⟩ | ⟨sec, out, q, rest, rfl, e2, e3, hok, hf, ha⟩
    · exact ⟨_, h1.others evs e2, R, F, by rw [e1]; exact h2, by rw [e1]⟩
    · obtain ⟨m', g1, g2⟩ := (sect_sim hi.shard h2 hq hok).of_ok e3
      refine ⟨m', ?_, g1⟩
      have := (h1.sect (g2.mono (G' := Superseded c target tr) ?_ ?_)).others rest e2
      · rwa [List.append_assoc] at this
      · intro k p b v he
        obtain ⟨a, hc⟩ := hf k p b v he
        exact ⟨fun hn => (ht.insLive a k p v b hc).resolve_left hn, fun hs hl => ht.dead k p hl hs⟩
      · intro k p he
        exact ⟨fun hn => (ht.live k p (ha k p he)).resolve_left hn, fun hs hl => ht.dead k p hl hs⟩

end Conc
end QuickCache
