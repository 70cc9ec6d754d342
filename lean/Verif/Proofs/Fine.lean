import Verif.Model.Fine
import Verif.Proofs.ConcProgress
import Mathlib.Data.List.Basic

/-!
# Notification and parking at the granularity of atomic accesses: invariant

The state of the fine model, with what notifiers have done so far added, is always one of the coarse model; a waiting thread
whose flag is set finds its token, or is about to get it.
-/

set_option linter.unusedSimpArgs false

namespace QuickCache.Conc
variable {K V RS : Type} [DecidableEq K] {c : Cfg K V RS} {s s' : State K V} {act : Act K V} {evs : List (Ev K V)}
open Function (update)

/-- Who acts. -/
def who (s : State K V) : Act K V → Option Nat
  | .begin _ _ => some s.next
  | .enter a _ | .find a | .load a _ | .bump a | .tally a | .upsert a | .join a | .startLoading a | .wake a | .poll a _
  | .timeout a | .relock a | .rejoin a | .publish a _ | .store a | .drop a | .lockDrop a | .finishDrop a | .cancel a
  | .abandon a => some a
  | .call _ => none

/-- Actions that change a placeholder under its state lock. -/
def changes : Act K V → Bool
  | .join _ | .timeout _ | .publish _ _ | .finishDrop _ | .cancel _ => true
  | _ => false

/-- Actions that notify nobody. -/
def Quiet (s : State K V) : Act K V → Prop
  | .publish _ _ => False
  | .finishDrop a => ∀ p ps, (s.ctl a).plh = some p → s.plh p.id = some ps → ps.waiters = []
  | _ => True

/-- What an action leaves alone. -/
structure Frame (s : State K V) (act : Act K V) (s' : State K V) : Prop where
  ctl : ∀ b, who s act ≠ some b → s'.ctl b = s.ctl b
  kind : ∀ b, s.ctl b ≠ .idle → s'.kind b = s.kind b
  plh : ∀ i ps, s.plh i = some ps →
    (∀ a p, who s act = some a → (s.ctl a).plh = some p → changes act = true → p.id ≠ i) → s'.plh i = some ps
  writer : s.writer = none → s'.writer = none ∨ ∃ a, act = .upsert a ∨ act = .lockDrop a
  waits : ∀ b k p, s'.ctl b = .waiting k p →
    (s.ctl b = .waiting k p ∧ (Quiet s act → s'.flag b = s.flag b)) ∨
      (act = .join b ∧ s.ctl b = .joining k p ∧ s'.flag b = false)

theorem Eff.frame (he : Eff c s act s' evs) (h : CInv c s) : Frame s act s' := by
  have hctl : ∀ {act : Act K V} {s' : State K V} {a : Nat} {x : Ctl K V}, who s act = some a → s'.ctl = update s.ctl a x →
      ∀ b, who s act ≠ some b → s'.ctl b = s.ctl b := by
    intro act s' a x h1 h2 b hb
    rw [h2, Function.update_of_ne]
    rintro rfl
    exact hb h1
  -- an agent that goes on, to a place where it does not wait
  have go : ∀ {act : Act K V} {s' : State K V} {a : Nat} {x : Ctl K V}, who s act = some a → s'.ctl = update s.ctl a x →
      s'.kind = s.kind → (∀ k p, x ≠ .waiting k p) → s'.plh = s.plh →
      (s.writer = none → s'.writer = none ∨ ∃ a, act = .upsert a ∨ act = .lockDrop a) →
      (Quiet s act → ∀ b, b ≠ a → s'.flag b = s.flag b) → Frame s act s' := by
    intro act s' a x h1 h2 h3 h4 h5 h6 h7
    refine ⟨hctl h1 h2, fun b _ => by rw [h3], fun i ps hp _ => by rw [h5]; exact hp, h6, fun b k p hb => ?_⟩
    by_cases hba : b = a
    · subst hba; rw [h2, Function.update_self] at hb; exact absurd hb (h4 k p)
    · rw [h2, Function.update_of_ne hba] at hb
      exact Or.inl ⟨hb, fun hq => h7 hq b hba⟩
  have set : ∀ {act : Act K V} {s' : State K V} {a : Nat} {x : Ctl K V} {p : Plh} {ps : PState K V}, who s act = some a →
      s'.ctl = update s.ctl a x → s'.kind = s.kind → (∀ k p, x ≠ .waiting k p) → (s.ctl a).plh = some p →
      changes act = true → s'.plh = update s.plh p.id (some ps) →
      (s.writer = none → s'.writer = none) →
      (Quiet s act → ∀ b, b ≠ a → s'.flag b = s.flag b) → Frame s act s' := by
    intro act s' a x p ps h1 h2 h3 h4 h5 h6 h7 h8 h9
    refine ⟨hctl h1 h2, fun b _ => by rw [h3], fun i ps' hp hn => ?_, fun hw => Or.inl (h8 hw), fun b k q hb => ?_⟩
    · rw [h7, Function.update_of_ne (Ne.symm (hn a p h1 h5 h6))]; exact hp
    · by_cases hba : b = a
      · subst hba; rw [h2, Function.update_self] at hb; exact absurd hb (h4 k q)
      · rw [h2, Function.update_of_ne hba] at hb
        exact Or.inl ⟨hb, fun hq => h9 hq b hba⟩
  cases he
  case begin kind k hk =>
    have hidle : s.ctl s.next = .idle := by
      by_contra hn
      exact absurd (h.lt_next rfl hn) (by omega)
    refine ⟨hctl rfl rfl, fun b hb => ?_, fun i ps hp _ => hp, fun hw => Or.inl hw, fun b k' p hb => ?_⟩
    · have : b ≠ s.next := by rintro rfl; exact hb hidle
      show update s.kind s.next kind b = _
      rw [Function.update_of_ne this]
    · by_cases hba : b = s.next
      · subst hba
        simp only [Function.update_self] at hb
        cases hb
      · simp only [Function.update_of_ne hba] at hb ⊢
        exact Or.inl ⟨hb, fun _ => trivial⟩
  case read => exact ⟨fun _ _ => rfl, fun _ _ => rfl, fun i ps hp _ => hp, fun hw => Or.inl hw, fun b k p hb => Or.inl ⟨hb, fun _ => rfl⟩⟩
  case write => exact ⟨fun _ _ => rfl, fun _ _ => rfl, fun i ps hp _ => hp, fun hw => Or.inl hw, fun b k p hb => Or.inl ⟨hb, fun _ => rfl⟩⟩
  case pending => exact ⟨fun _ _ => rfl, fun _ _ => rfl, fun i ps hp _ => hp, fun hw => Or.inl hw, fun b k p hb => Or.inl ⟨hb, fun _ => rfl⟩⟩
  case enlist a k p ps hc hp hk hh hl =>
    refine ⟨hctl rfl rfl, fun _ _ => rfl, fun i ps' hi hn => ?_, fun _ => Or.inl rfl, fun b k' p' hb => ?_⟩
    · show update s.plh p.id _ i = _
      rw [Function.update_of_ne (Ne.symm (hn a p rfl (by rw [hc]; rfl) rfl))]; exact hi
    · simp only [State.go, State.unlockWrite, State.setPlh] at hb ⊢
      by_cases hba : b = a
      · subst hba
        simp only [Function.update_self] at hb ⊢
        cases hb
        exact Or.inr ⟨trivial, hc, trivial⟩
      · simp only [Function.update_of_ne hba] at hb ⊢
        exact Or.inl ⟨hb, fun _ => trivial⟩
  case created a k p sh hc hw hr hs =>
    refine ⟨hctl rfl rfl, fun _ _ => rfl, fun i ps' hi hn => ?_, fun _ => Or.inr ⟨a, Or.inl rfl⟩, fun b k' p' hb => ?_⟩
    · show update s.plh p.id _ i = _
      rw [Function.update_of_ne]
      · exact hi
      · rintro rfl
        cases hs with
        | created hp hno plh id np =>
          have := (h.pl.id _ _ hi).1
          omega
    · simp only [State.go, State.setPlh] at hb ⊢
      by_cases hba : b = a
      · subst hba
        simp only [Function.update_self] at hb
        cases hb
      · simp only [Function.update_of_ne hba] at hb
        exact Or.inl ⟨hb, fun _ => trivial⟩
  case guard a k p w hc =>
    cases w
    · exact go rfl rfl rfl (by simp) rfl (fun hw => Or.inl hw) (fun _ _ _ => rfl)
    · exact go rfl rfl rfl (by simp) rfl (fun _ => Or.inl rfl) (fun _ _ _ => rfl)
  case load a k t v hc n old =>
    exact go (x := if old.getD n < MAX_F then .bump k t v else .tally k (some v)) rfl rfl rfl (by intro k p; split <;> simp) rfl
      (fun hw => Or.inl hw) (fun _ _ _ => rfl)
  case claim a w k p hc hk hf =>
    exact go rfl rfl rfl (by simp) rfl (fun hw => Or.inl hw) (fun _ b hb => Function.update_of_ne hb _ _)
  case publish a v k p ps hc hp hk hh hl =>
    exact set rfl rfl rfl (by simp) (by rw [hc]; rfl) rfl rfl (fun hw => hw) (fun hq => hq.elim)
  case timeout a k p tid ps ws hc hk hf hp hh hws =>
    exact set rfl rfl rfl (by simp) (by rw [hc]; rfl) rfl rfl (fun hw => hw) (fun _ _ _ => rfl)
  case cancel a k p ps ws hc hk hf hp hh hws =>
    exact set rfl rfl rfl (by simp) (by rw [hc]; rfl) rfl rfl (fun hw => hw) (fun _ _ _ => rfl)
  case giveUp a k p ps sh hc hp hk hh hl hb hs =>
    exact set rfl rfl rfl (by simp) (by rw [hc]; rfl) rfl rfl (fun _ => rfl) (fun _ _ _ => rfl)
  case handOver a b k p ps hc hp hk hh hl hb =>
    refine set rfl rfl rfl (by simp) (by rw [hc]; rfl) rfl rfl (fun _ => rfl) (fun hq => ?_)
    have := hq p ps (by rw [hc]; rfl) hp
    rw [this] at hb; cases hb
  case found a k v sh hc hw hr hs => exact go rfl rfl rfl (by simp) rfl (fun hw => Or.inl hw) (fun _ _ _ => rfl)
  case joining a k p sh hc hw hr hs => exact go rfl rfl rfl (by simp) rfl (fun hw => Or.inr ⟨a, Or.inl rfl⟩) (fun _ _ _ => rfl)
  case lockDrop a k p hc hw hr => exact go rfl rfl rfl (by simp) rfl (fun hw => Or.inr ⟨a, Or.inr rfl⟩) (fun _ _ _ => rfl)
  case late a k p ps v hc hp hk hh hl => exact go rfl rfl rfl (by simp) rfl (fun hw => Or.inl rfl) (fun _ _ _ => rfl)
  all_goals exact go rfl rfl rfl (by simp) rfl (fun hw => Or.inl hw) (fun _ _ _ => rfl)

end QuickCache.Conc

namespace QuickCache.Fine
variable {K V RS : Type}
open Conc (Act Ctl Kind Outcome Ev PState exec CReach CInv Eff)
open Function (update)

/-! ### Lists of steps -/

/-- The second step of notifying `b`. -/
def second (kind : Nat → Kind) (b : Nat) : Note :=
  match kind b with
  | .task => .wake b
  | _ => .unpark b

theorem notes_eq (kind : Nat → Kind) (b : Nat) : notes kind b = [.flag b, second kind b] := by
  unfold notes second; cases kind b <;> rfl

theorem second_ne_flag (kind : Nat → Kind) (a b : Nat) : second kind a ≠ .flag b := by unfold second; split <;> simp

theorem second_inj {kind : Nat → Kind} {a b : Nat} (h : second kind a = second kind b) : a = b := by
  unfold second at h
  split at h <;> split at h <;> (injection h)

theorem mem_notes {kind : Nat → Kind} {l : List Nat} {x : Note} (h : x ∈ l.flatMap (notes kind)) :
    ∃ b ∈ l, x = .flag b ∨ x = second kind b := by
  obtain ⟨b, hb, hx⟩ := List.mem_flatMap.mp h
  rw [notes_eq] at hx
  exact ⟨b, hb, by simpa using hx⟩

theorem flag_mem {kind : Nat → Kind} {l : List Nat} {b : Nat} : Note.flag b ∈ l.flatMap (notes kind) ↔ b ∈ l := by
  constructor
  · intro h
    obtain ⟨a, ha, h1 | h1⟩ := mem_notes h
    · cases h1; exact ha
    · exact absurd h1.symm (second_ne_flag _ _ _)
  · intro h
    exact List.mem_flatMap.mpr ⟨b, h, by rw [notes_eq]; simp⟩

theorem notes_nodup {kind : Nat → Kind} {l : List Nat} (h : l.Nodup) : (l.flatMap (notes kind)).Nodup := by
  induction l with
  | nil => simp
  | cons a l ih =>
    obtain ⟨h1, h2⟩ := List.nodup_cons.mp h
    rw [List.flatMap_cons, notes_eq]
    simp only [List.cons_append, List.nil_append, List.nodup_cons, List.mem_cons, not_or]
    refine ⟨⟨fun he => second_ne_flag _ _ _ he.symm, fun hm => h1 (flag_mem.mp hm)⟩, fun hm => ?_, ih h2⟩
    obtain ⟨b, hb, hx | hx⟩ := mem_notes hm
    · exact second_ne_flag _ _ _ hx
    · rw [second_inj hx] at h1; exact h1 hb

/-- After the flag the second step is still to be done. -/
theorem suffix_second {kind : Nat → Kind} {l : List Nat} {b : Nat} {rest : List Note}
    (h : .flag b :: rest <:+ l.flatMap (notes kind)) : second kind b ∈ rest := by
  induction l with
  | nil => simp at h
  | cons a l ih =>
    rw [List.flatMap_cons, notes_eq] at h
    simp only [List.cons_append, List.nil_append] at h
    rcases List.suffix_cons_iff.mp h with h | h
    · cases h; simp
    · rcases List.suffix_cons_iff.mp h with h | h
      · injection h with h1 h2
        exact absurd h1.symm (second_ne_flag _ _ _)
      · exact ih h

theorem notes_congr {kind kind' : Nat → Kind} {l : List Nat} (h : ∀ b ∈ l, kind' b = kind b) :
    l.flatMap (notes kind') = l.flatMap (notes kind) := by
  induction l with
  | nil => rfl
  | cons a l ih =>
    rw [List.flatMap_cons, List.flatMap_cons, ih (fun b hb => h b (List.mem_cons_of_mem _ hb))]
    unfold notes
    rw [h a (by simp)]

theorem called_sub {v : Option V} {l : List Nat} {b : Nat} (h : b ∈ called v l) : b ∈ l := by
  cases v with
  | some v => exact h
  | none =>
    simp only [called, Option.mem_toList] at h
    exact List.mem_of_getLast? h

theorem called_nodup {v : Option V} {l : List Nat} (h : l.Nodup) : (called v l).Nodup := by
  cases v with
  | some v => exact h
  | none =>
    simp only [called]
    cases l.getLast? <;> simp

/-! ### The invariant -/

/-- A notifier: the holder of the guard, with the waiters it found. -/
structure HoldOK (s : Conc.State K V) (i : Nat) (h : Hold V) (ps : PState K V) : Prop where
  plh : s.plh i = some ps
  ctl : ∃ k, s.ctl h.agent = match h.value with
    | some _ => .guard k ps.handle
    | none => .dropping k ps.handle
  some : h.value = none → ps.waiters ≠ []
  todo : h.todo <:+ (called h.value ps.waiters).flatMap (notes s.kind)

/-- The flag of `b` was set by a notifier that still holds the state. -/
def Marked (f : State K V) (b : Nat) : Prop :=
  ∃ i h ps, f.hold i = some h ∧ f.base.plh i = some ps ∧ b ∈ called h.value ps.waiters ∧ .flag b ∉ h.todo

/-- Where a thread needs its token, or will get it, if its flag is set: it will park before it sees that. -/
def Asleep (pc : Pc) (fresh : Bool) : Prop := pc = .about ∨ pc = .parked ∨ (pc = .awake ∧ fresh = false)

section
variable [DecidableEq K] {c : Cfg K V RS} {target cap gcap : Nat} {f f' : State K V} {ev tr : List (Ev K V)}

/-- The invariant. -/
structure FInv (c : Cfg K V RS) (target cap gcap : Nat) (f : State K V) : Prop where
  reach : CReach c target cap gcap f.base
  hold : ∀ i h, f.hold i = some h → ∃ ps, HoldOK f.base i h ps
  raised : ∀ b, f.raised b = true ↔ Marked f b
  early : ∀ b, f.early b ≠ none → f.raised b = true
  readers : ∀ b ∈ f.readers, f.early b ≠ none
  writer : f.readers ≠ [] → f.base.writer = none
  token : ∀ b t m k p, f.base.kind b = .thread t m → f.base.ctl b = .waiting k p → f.early b = none →
    Asleep (f.pc b) (f.fresh b) → f.flag b = true →
      f.token t = true ∨ ∃ i h, f.hold i = some h ∧ .unpark b ∈ h.todo
  late : ∀ b t m k p, f.base.kind b = .thread t m → f.base.ctl b = .waiting k p → f.pc b = .late → m = true
  mail : ∀ b t m k p, f.base.kind b = .thread t m → f.base.ctl b = .waiting k p → f.early b = none → f.flag b = true →
    f.mailed b = true ∨ ∃ i h, f.hold i = some h ∧ .unpark b ∈ h.todo

theorem FInv.new (c : Cfg K V RS) (target cap gcap : Nat) : FInv c target cap gcap (State.new (Shard.new target cap gcap)) where
  reach := .new c target cap gcap
  hold := by intro i h hh; cases hh
  raised := by
    intro b
    constructor
    · intro h; cases h
    · rintro ⟨i, h, ps, hh, -⟩; cases hh
  early := fun b h => absurd rfl h
  readers := by intro b hb; cases hb
  writer := fun h => absurd rfl h
  token := by intro b t m k p _ hc; cases hc
  late := by intro b t m k p _ hc; cases hc
  mail := by intro b t m k p _ hc; cases hc

/-- Who is marked waits, and is not notified in `base`. -/
theorem FInv.marked (h : FInv c target cap gcap f) {b : Nat} (hb : f.raised b = true) :
    ∃ k p i hd ps, f.base.ctl b = .waiting k p ∧ f.base.flag b = false ∧ p.id = i ∧ f.hold i = some hd ∧
      HoldOK f.base i hd ps ∧ ps.handle = p ∧ b ∈ called hd.value ps.waiters ∧ .flag b ∉ hd.todo := by
  obtain ⟨i, hd, ps, h1, h2, h3, h4⟩ := (h.raised b).mp hb
  obtain ⟨ps', h5⟩ := h.hold i hd h1
  have := h5.plh
  rw [h2] at this
  obtain rfl := Option.some.inj this
  obtain ⟨⟨k, hk⟩, hf⟩ := h.reach.inv.waiter h2 (called_sub h3)
  exact ⟨k, ps.handle, i, hd, ps, hk, hf, (h.reach.inv.pl.id _ _ h2).2, h1, h5, rfl, h3, h4⟩

/-- The flag of who is called to and waits has not been set yet, or is marked. -/
theorem HoldOK.waits (h : CInv c f.base) {i : Nat} {hd : Hold V} {ps : PState K V} (hk : HoldOK f.base i hd ps) {b : Nat}
    (hb : b ∈ called hd.value ps.waiters) : (∃ k, f.base.ctl b = .waiting k ps.handle) ∧ f.base.flag b = false :=
  h.waiter hk.plh (called_sub hb)

/-- A change of `base` that leaves the notifiers and those who wait alone. -/
theorem FInv.change (h : FInv c target cap gcap f) {s' : Conc.State K V} {pc' : Nat → Pc} (hre : CReach c target cap gcap s')
    (hh : ∀ i hd, f.hold i = some hd → s'.ctl hd.agent = f.base.ctl hd.agent ∧
      ∀ ps, f.base.plh i = some ps → s'.plh i = some ps)
    (hk : ∀ b, f.base.ctl b ≠ .idle → s'.kind b = f.base.kind b) (hw : f.readers ≠ [] → s'.writer = none)
    (ht : ∀ b k p, s'.ctl b = .waiting k p →
      (f.base.ctl b = .waiting k p ∧ s'.flag b = f.base.flag b ∧ pc' b = f.pc b) ∨
        (s'.flag b = false ∧ f.raised b = false ∧ pc' b = .about)) :
    FInv c target cap gcap { f with base := s', pc := pc' } where
  reach := hre
  hold := by
    intro i hd hi
    obtain ⟨ps, h1⟩ := h.hold i hd hi
    refine ⟨ps, (hh i hd hi).2 ps h1.plh, ?_, h1.some, ?_⟩
    · obtain ⟨k, hc⟩ := h1.ctl
      exact ⟨k, ((hh i hd hi).1).trans hc⟩
    · show hd.todo <:+ (called hd.value ps.waiters).flatMap (notes s'.kind)
      rw [notes_congr (kind := f.base.kind)]
      · exact h1.todo
      · intro b hb
        obtain ⟨⟨k, hc⟩, -⟩ := h1.waits h.reach.inv hb
        exact hk b (by rw [hc]; simp)
  raised := by
    intro b
    refine (h.raised b).trans ⟨?_, ?_⟩
    · rintro ⟨i, hd, ps, h1, h2, h3⟩
      exact ⟨i, hd, ps, h1, (hh i hd h1).2 ps h2, h3⟩
    · rintro ⟨i, hd, ps, h1, h2, h3⟩
      obtain ⟨ps', h4⟩ := h.hold i hd h1
      have h5 : s'.plh i = some ps' := (hh i hd h1).2 ps' h4.plh
      have h2 : s'.plh i = some ps := h2
      rw [h2] at h5
      obtain rfl := Option.some.inj h5
      exact ⟨i, hd, ps, h1, h4.plh, h3⟩
  early := h.early
  readers := h.readers
  writer := hw
  token := by
    intro b t m k p hkind hc he hpc hf
    rcases ht b k p hc with ⟨h1, h2, h3⟩ | ⟨h1, h2, -⟩
    · refine h.token b t m k p ?_ h1 he ?_ ?_
      · rw [← hk b (by rw [h1]; simp)]; exact hkind
      · rw [← h3]; exact hpc
      · unfold State.flag at hf ⊢
        rw [← h2]; exact hf
    · simp [State.flag, h1, h2] at hf
  late := by
    intro b t m k p hkind hc hpc
    rcases ht b k p hc with ⟨h1, h2, h3⟩ | ⟨h1, h2, h3⟩
    · refine h.late b t m k p ?_ h1 ?_
      · rw [← hk b (by rw [h1]; simp)]; exact hkind
      · rw [← h3]; exact hpc
    · have hpc : pc' b = .late := hpc
      rw [h3] at hpc; cases hpc
  mail := by
    intro b t m k p hkind hc he hf
    rcases ht b k p hc with ⟨h1, h2, -⟩ | ⟨h1, h2, -⟩
    · refine h.mail b t m k p ?_ h1 he ?_
      · rw [← hk b (by rw [h1]; simp)]; exact hkind
      · unfold State.flag at hf ⊢
        rw [← h2]; exact hf
    · simp [State.flag, h1, h2] at hf

/-! ### Actions as in `Conc` -/

theorem perform_append (s : Conc.State K V) (xs ys : List (Act K V)) {s1 s2 : Conc.State K V} {e1 e2 : List (Ev K V)}
    (h1 : perform c s xs = some (.ok (s1, e1))) (h2 : perform c s1 ys = some (.ok (s2, e2))) :
    perform c s (xs ++ ys) = some (.ok (s2, e1 ++ e2)) := by
  induction xs generalizing s e1 with
  | nil => cases h1; exact h2
  | cons x xs ih =>
    simp only [perform] at h1
    rw [List.cons_append]
    simp only [perform]
    split at h1
    · cases h1
    · cases h1
    · rename_i s3 e3 hx
      split at h1
      · cases h1
      · cases h1
      · rename_i s4 e4 hxs
        cases h1
        rw [ih _ hxs, List.append_assoc]

theorem perform_one {s s' : Conc.State K V} {x : Act K V} (h : perform c s [x] = some (.ok (s', ev))) :
    exec c s x = some (.ok (s', ev)) := by
  simp only [perform] at h
  split at h
  · cases h
  · cases h
  · rename_i s3 e3 hx
    rw [List.append_nil] at h
    rw [hx, h]

theorem perform_one_of {s s' : Conc.State K V} {x : Act K V} (h : exec c s x = some (.ok (s', ev))) :
    perform c s [x] = some (.ok (s', ev)) := by
  simp only [perform, h, List.append_nil]

theorem lift_ok {xs : List (Act K V)} {g : Conc.State K V → State K V} (h : lift c f xs g = some (.ok (f', ev))) :
    ∃ s, perform c f.base xs = some (.ok (s, ev)) ∧ f' = g s := by
  unfold lift at h
  split at h
  · cases h
  · cases h
  · rename_i s e hp
    cases h
    exact ⟨s, hp, rfl⟩

omit [DecidableEq K] in
theorem allowed_free {x : Act K V} (ha : allowed f x = true) {a : Nat} (hw : Conc.who f.base x = some a)
    (hc : Conc.changes x = true) : f.stateFree a = true := by
  cases x <;> simp only [Conc.changes, Bool.false_eq_true] at hc <;> simp only [Conc.who, Option.some.injEq] at hw <;>
    subst hw <;> simp only [allowed, Bool.and_eq_true, Bool.false_eq_true] at ha
  · exact ha
  · exact ha.1
  · exact ha

/-- The holder of a state lock takes no action as in `Conc`. -/
theorem FInv.holder (h : FInv c target cap gcap f) {x : Act K V} (ha : allowed f x = true) {s' : Conc.State K V}
    (he : Eff c f.base x s' ev) {i : Nat} {hd : Hold V} (hi : f.hold i = some hd) :
    Conc.who f.base x ≠ some hd.agent := by
  obtain ⟨ps, hk⟩ := h.hold i hd hi
  obtain ⟨k, hc⟩ := hk.ctl
  have hid := (h.reach.inv.pl.id _ _ hk.plh).2
  have key : ∀ {a : Nat} {y : Ctl K V}, f.base.ctl a = y → (∀ k p, y ≠ .guard k p) → (∀ k p, y ≠ .dropping k p) →
      some a ≠ some hd.agent := by
    intro a y hy h1 h2 hs
    cases hs
    rw [hy] at hc
    cases hv : hd.value with
    | some v => rw [hv] at hc; exact h1 _ _ hc
    | none => rw [hv] at hc; exact h2 _ _ hc
  cases he
  case begin kind k hk' =>
    have hidle : f.base.ctl f.base.next = .idle := by
      by_contra hn
      exact absurd (h.reach.inv.lt_next rfl hn) (by omega)
    exact key hidle (by simp) (by simp)
  case publish => simp [allowed] at ha
  case drop a k' p' hc' =>
    intro hs
    cases hs
    simp only [allowed, State.busy, hc', Conc.Ctl.plh] at ha
    rw [hc'] at hc
    cases hv : hd.value with
    | some v =>
      rw [hv] at hc
      cases hc
      rw [hid, hi] at ha
      simp at ha
    | none => rw [hv] at hc; cases hc
  case handOver a b k' p' ps' hc' hp hk' hh hl hb =>
    intro hs
    cases hs
    simp only [allowed, State.stateFree, hc', Conc.Ctl.plh] at ha
    rw [hc'] at hc
    cases hv : hd.value with
    | some v => rw [hv] at hc; cases hc
    | none =>
      rw [hv] at hc
      cases hc
      rw [hid, hi] at ha
      simp at ha
  case giveUp a k' p' ps' sh hc' hp hk' hh hl hb hs' =>
    intro hs
    cases hs
    simp only [allowed, State.stateFree, hc', Conc.Ctl.plh] at ha
    rw [hc'] at hc
    cases hv : hd.value with
    | some v => rw [hv] at hc; cases hc
    | none =>
      rw [hv] at hc
      cases hc
      rw [hid, hi] at ha
      simp at ha
  case read => simp [Conc.who]
  case write => simp [Conc.who]
  all_goals exact key ‹_› (by simp) (by simp)

theorem FInv.plain (h : FInv c target cap gcap f) (hq : c.ptrEq = true) {x : Act K V}
    (hs : Fine.plain c f x = some (.ok (f', ev))) : FInv c target cap gcap f' := by
  unfold Fine.plain at hs
  split at hs
  case isFalse => cases hs
  rename_i ha
  obtain ⟨s', hp, rfl⟩ := lift_ok hs
  have hx := perform_one hp
  have he := h.reach.inv.eff hq hx
  have hf := he.frame h.reach.inv
  have hquiet : Conc.Quiet f.base x := by
    cases x <;> simp only [Conc.Quiet] <;> simp only [allowed, Bool.false_eq_true] at ha
    intro p ps hpl hps
    simp only [hpl, hps, Option.all_some, Bool.and_eq_true, List.isEmpty_iff] at ha
    exact ha.2
  refine h.change (h.reach.step he) (fun i hd hi => ⟨hf.ctl _ (h.holder ha he hi), fun ps hps => ?_⟩) hf.kind ?_ ?_
  · refine hf.plh i ps hps (fun a p hw hpl hc hid => ?_)
    have := allowed_free ha hw hc
    simp only [State.stateFree, hpl, hid, hi] at this
    cases this
  · intro hr
    rcases hf.writer (h.writer hr) with hw | ⟨a, rfl | rfl⟩
    · exact hw
    · exact absurd (by simpa [allowed] using ha) hr
    · exact absurd (by simpa [allowed] using ha) hr
  · intro b k p hb
    rcases hf.waits b k p hb with ⟨h1, h2⟩ | ⟨rfl, h1, h2⟩
    · by_cases hj : x = .join b
      · subst hj
        -- joining is not waiting
        cases he <;> simp_all
      · refine Or.inl ⟨h1, h2 hquiet, ?_⟩
        cases x <;> try rfl
        rename_i a
        show update f.pc a .about b = _
        rw [Function.update_of_ne]
        rintro rfl; exact hj rfl
    · refine Or.inr ⟨h2, ?_, Function.update_self _ _ _⟩
      by_contra hr
      obtain ⟨k', p', -, -, -, hw, -⟩ := h.marked (b := b) (by simpa using hr)
      rw [h1] at hw; cases hw

/-- An action of a waiting agent in `base` that notifies nobody and takes no lock of the shard. -/
theorem FInv.own (h : FInv c target cap gcap f) {x : Act K V} {s' : Conc.State K V} (he : Eff c f.base x s' ev) {a : Nat}
    {k : K} {p : Plh} (hw : Conc.who f.base x = some a) (hc : f.base.ctl a = .waiting k p) (hquiet : Conc.Quiet f.base x)
    (hfree : Conc.changes x = true → f.stateFree a = true) (hx : ∀ a, x ≠ .upsert a ∧ x ≠ .lockDrop a) :
    FInv c target cap gcap { f with base := s' } := by
  have hf := he.frame h.reach.inv
  refine h.change (pc' := f.pc) (h.reach.step he) (fun i hd hi => ⟨hf.ctl _ ?_, fun ps hps => ?_⟩) hf.kind ?_ ?_
  · rw [hw]
    intro hs
    cases hs
    obtain ⟨ps, hk⟩ := h.hold i hd hi
    obtain ⟨k', hc'⟩ := hk.ctl
    rw [hc] at hc'
    cases hv : hd.value <;> rw [hv] at hc' <;> cases hc'
  · refine hf.plh i ps hps (fun b q hw' hpl hc' hid => ?_)
    rw [hw] at hw'
    cases hw'
    have := hfree hc'
    simp only [State.stateFree, hpl, hid, hi] at this
    cases this
  · intro hr
    rcases hf.writer (h.writer hr) with hw | ⟨b, h1 | h1⟩
    · exact hw
    · exact absurd h1 (hx b).1
    · exact absurd h1 (hx b).2
  · intro b k' p' hb
    rcases hf.waits b k' p' hb with ⟨h1, h2⟩ | ⟨rfl, h1, h2⟩
    · exact Or.inl ⟨h1, h2 hquiet, rfl⟩
    · simp only [Conc.who, Option.some.injEq] at hw
      subst hw
      rw [h1] at hc; cases hc

omit [DecidableEq K] in
theorem waits_some {a t : Nat} {m : Bool} (h : waits f a = some (t, m)) :
    (∃ k p, f.base.ctl a = .waiting k p) ∧ f.base.kind a = .thread t m ∧ f.early a = none := by
  unfold waits at h
  split at h
  · rename_i k p t' m' hc hk he
    cases h
    exact ⟨⟨k, p, hc⟩, hk, he⟩
  · cases h

/-- Two waiting agents are not the same thread. -/
theorem FInv.thread (h : FInv c target cap gcap f) {a b t : Nat} {m m' : Bool} (ha : ∃ k p, f.base.ctl a = .waiting k p)
    (hb : ∃ k p, f.base.ctl b = .waiting k p) (hka : f.base.kind a = .thread t m) (hkb : f.base.kind b = .thread t m') :
    a = b := by
  obtain ⟨k, p, ha⟩ := ha
  obtain ⟨k', p', hb⟩ := hb
  exact h.reach.inv.thr a b t m m' hka hkb (by rw [ha]; rfl) (by rw [hb]; rfl)

/-- A change of a waiting thread's place, and of its token. -/
theorem FInv.move (h : FInv c target cap gcap f) {a t : Nat} {m : Bool} {pc : Pc} {token fresh : Nat → Bool}
    (hw : waits f a = some (t, m)) (ht : ∀ t', t' ≠ t → token t' = f.token t') (hfr : ∀ b, b ≠ a → fresh b = f.fresh b)
    (hpc : Asleep pc (fresh a) → f.flag a = true → token t = true ∨ ∃ i h, f.hold i = some h ∧ .unpark a ∈ h.todo)
    (hl : pc = .late → m = true) :
    FInv c target cap gcap { f with pc := update f.pc a pc, token := token, fresh := fresh } where
  reach := h.reach
  hold := h.hold
  raised := h.raised
  early := h.early
  readers := h.readers
  writer := h.writer
  token := by
    intro b t' m' k p hk hc he hp hf
    obtain ⟨h1, h2, h3⟩ := waits_some hw
    by_cases hb : b = a
    · subst hb
      have h2' : f.base.kind b = .thread t' m' := hk
      rw [h2] at h2'
      cases h2'
      simp only [Function.update_self] at hp
      exact hpc hp hf
    · simp only [Function.update_of_ne hb, hfr b hb] at hp
      have hne : t' ≠ t := by
        rintro rfl
        exact hb (h.thread ⟨k, p, hc⟩ h1 hk h2)
      have := h.token b t' m' k p hk hc he hp hf
      show token t' = true ∨ _
      rw [ht t' hne]
      exact this
  late := by
    intro b t' m' k p hk hc hp
    obtain ⟨h1, h2, h3⟩ := waits_some hw
    by_cases hb : b = a
    · subst hb
      have h2' : f.base.kind b = .thread t' m' := hk
      rw [h2] at h2'
      cases h2'
      simp only [Function.update_self] at hp
      exact hl hp
    · simp only [Function.update_of_ne hb] at hp
      exact h.late b t' m' k p hk hc hp
  mail := h.mail

/-- A thread takes its token. -/
theorem FInv.takes (h : FInv c target cap gcap f) {a t : Nat} {m : Bool} (hw : waits f a = some (t, m)) :
    FInv c target cap gcap (Fine.take f a t) := by
  obtain ⟨⟨k, p, h1⟩, h2, h3⟩ := waits_some hw
  refine h.move hw (fun t' ht => Function.update_of_ne ht _ _) (fun b hb => Function.update_of_ne hb _ _) ?_ (by simp)
  intro ha hf
  rcases h.mail a t m k p h2 h1 h3 hf with h4 | h4
  · simp [Asleep, h4] at ha
  · exact Or.inr h4

theorem FInv.park (h : FInv c target cap gcap f) {a : Nat} (hs : Fine.park f a = some (.ok (f', ev))) :
    FInv c target cap gcap f' := by
  unfold Fine.park at hs
  split at hs
  case h_2 => cases hs
  rename_i t m hw hpc
  obtain ⟨⟨k, p, h1⟩, h2, h3⟩ := waits_some hw
  cases hs
  split
  · exact h.takes hw
  · exact h.move hw (fun t' ht => rfl) (fun _ _ => rfl) (fun _ hf => h.token a t m k p h2 h1 h3 (Or.inl hpc) hf) (by simp)

theorem FInv.unparked (h : FInv c target cap gcap f) {a : Nat} (hs : Fine.unparked f a = some (.ok (f', ev))) :
    FInv c target cap gcap f' := by
  unfold Fine.unparked at hs
  split at hs
  case h_2 => cases hs
  rename_i t m hw hpc
  split at hs
  case isFalse => cases hs
  cases hs
  exact h.takes hw

theorem FInv.spurious (h : FInv c target cap gcap f) {a : Nat} (hs : Fine.spurious f a = some (.ok (f', ev))) :
    FInv c target cap gcap f' := by
  unfold Fine.spurious at hs
  split at hs
  case h_2 => cases hs
  rename_i x hw hpc
  obtain ⟨t, m⟩ := x
  obtain ⟨⟨k, p, h1⟩, h2, h3⟩ := waits_some hw
  cases hs
  exact h.move hw (fun t' ht => rfl) (fun _ _ => rfl)
    (fun _ hf => h.token a t m k p h2 h1 h3 (Or.inr (Or.inl hpc)) hf) (by simp)

/-- A caller notices that its flag is set. -/
theorem FInv.notice (h : FInv c target cap gcap f) (hq : c.ptrEq = true) {a w : Nat} {k : K} {p : Plh} {x : Act K V}
    (hw : Conc.who f.base x = some a) (hc : f.base.ctl a = .waiting k p) (hx : x = .wake a ∨ x = .poll a w)
    (hfl : f.flag a = true) (hs : Fine.notice c f a w x = some (.ok (f', ev))) : FInv c target cap gcap f' := by
  unfold Fine.notice at hs
  split at hs
  · obtain ⟨s', hp, rfl⟩ := lift_ok hs
    have he := h.reach.inv.eff hq (perform_one hp)
    refine h.own he hw hc ?_ ?_ ?_ <;> rcases hx with rfl | rfl <;> simp [Conc.Quiet, Conc.changes]
  · rename_i hb
    have hr : f.raised a = true := by simpa [State.flag, hb] using hfl
    cases hs
    refine ⟨h.reach, h.hold, h.raised, fun b hb => ?_, fun b hb => ?_, h.writer, fun b t m k' p' h1 h2 h3 h4 h5 => ?_, h.late,
      fun b t m k' p' h1 h2 h3 h4 => ?_⟩
    · by_cases hba : b = a
      · subst hba; exact hr
      · simp only [Function.update_of_ne hba] at hb
        exact h.early b hb
    · by_cases hba : b = a
      · subst hba; simp
      · simp only [Function.update_of_ne hba]
        exact h.readers b hb
    · by_cases hba : b = a
      · subst hba; simp at h3
      · simp only [Function.update_of_ne hba] at h3
        exact h.token b t m k' p' h1 h2 h3 h4 h5
    · by_cases hba : b = a
      · subst hba; simp at h3
      · simp only [Function.update_of_ne hba] at h3
        exact h.mail b t m k' p' h1 h2 h3 h4

theorem FInv.look (h : FInv c target cap gcap f) (hq : c.ptrEq = true) {a : Nat} {over : Bool}
    (hs : Fine.look c f a over = some (.ok (f', ev))) : FInv c target cap gcap f' := by
  unfold Fine.look at hs
  split at hs
  case h_2 => cases hs
  rename_i t m hw hpc
  obtain ⟨⟨k, p, h1⟩, h2, h3⟩ := waits_some hw
  split at hs
  · rename_i hf
    exact h.notice hq rfl h1 (Or.inl rfl) hf hs
  · rename_i hf
    cases hs
    exact h.move hw (fun t' ht => rfl) (fun _ _ => rfl) (fun _ hf' => absurd hf' hf) (by cases m <;> cases over <;> simp)

theorem FInv.miss (h : FInv c target cap gcap f) {a : Nat} {over : Bool}
    (hs : Fine.miss f a over = some (.ok (f', ev))) : FInv c target cap gcap f' := by
  unfold Fine.miss at hs
  split at hs
  case h_2 => cases hs
  rename_i t m hw hpc
  obtain ⟨⟨k, p, h1⟩, h2, h3⟩ := waits_some hw
  split at hs
  case isFalse => cases hs
  rename_i hf
  simp only [Bool.and_eq_true, Bool.not_eq_eq_eq_not, Bool.not_true] at hf
  cases hs
  exact h.move hw (fun t' ht => rfl) (fun _ _ => rfl)
    (fun _ hf' => h.token a t m k p h2 h1 h3 (Or.inr (Or.inr ⟨hpc, hf.2⟩)) hf') (by cases m <;> cases over <;> simp)

theorem FInv.expire (h : FInv c target cap gcap f) (hq : c.ptrEq = true) {a : Nat}
    (hs : Fine.expire c f a = some (.ok (f', ev))) : FInv c target cap gcap f' := by
  unfold Fine.expire at hs
  split at hs
  case h_2 => cases hs
  rename_i x hw hpc
  obtain ⟨t, m⟩ := x
  obtain ⟨⟨k, p, h1⟩, h2, h3⟩ := waits_some hw
  split at hs
  case isFalse => cases hs
  rename_i hfree
  obtain ⟨s', hp, rfl⟩ := lift_ok hs
  exact h.own (h.reach.inv.eff hq (perform_one hp)) rfl h1 trivial (fun _ => hfree) (by simp)

theorem FInv.poll (h : FInv c target cap gcap f) (hq : c.ptrEq = true) {a w : Nat}
    (hs : Fine.poll c f a w = some (.ok (f', ev))) : FInv c target cap gcap f' := by
  unfold Fine.poll at hs
  split at hs
  case h_2 => cases hs
  rename_i k p hc hk he
  split at hs
  · cases hs
  · split at hs
    · rename_i hf
      exact h.notice hq rfl hc (Or.inr rfl) hf hs
    · obtain ⟨s', hp, rfl⟩ := lift_ok hs
      exact h.own (h.reach.inv.eff hq (perform_one hp)) rfl hc trivial (by simp [Conc.changes]) (by simp)

theorem FInv.relock (h : FInv c target cap gcap f) {a : Nat} (hs : Fine.relock f a = some (.ok (f', ev))) :
    FInv c target cap gcap f' := by
  unfold Fine.relock at hs
  split at hs
  case isFalse => cases hs
  rename_i hb
  simp only [Bool.and_eq_true, Option.isSome_iff_ne_none, Option.isNone_iff_eq_none] at hb
  cases hs
  refine ⟨h.reach, h.hold, h.raised, h.early, fun b hb' => ?_, fun _ => hb.2, h.token, h.late, h.mail⟩
  rcases List.mem_cons.mp hb' with rfl | hm
  · exact hb.1.1
  · exact h.readers b hm

/-- Taking a state lock. -/
theorem FInv.take (h : FInv c target cap gcap f) {i : Nat} {hd : Hold V} {ps : PState K V} (hn : f.hold i = none)
    (hk : HoldOK f.base i hd ps) (ht : hd.todo = (called hd.value ps.waiters).flatMap (notes f.base.kind)) :
    FInv c target cap gcap { f with hold := update f.hold i (some hd) } where
  reach := h.reach
  hold := by
    intro j hd' hj
    by_cases hji : j = i
    · subst hji
      simp only [Function.update_self] at hj
      cases hj
      exact ⟨ps, hk⟩
    · simp only [Function.update_of_ne hji] at hj
      exact h.hold j hd' hj
  raised := by
    intro b
    refine (h.raised b).trans ⟨?_, ?_⟩
    · rintro ⟨j, hd', ps', h1, h2⟩
      refine ⟨j, hd', ps', ?_, h2⟩
      have : j ≠ i := by rintro rfl; rw [hn] at h1; cases h1
      simp only [Function.update_of_ne this]
      exact h1
    · rintro ⟨j, hd', ps', h1, h2, h3, h4⟩
      by_cases hji : j = i
      · subst hji
        simp only [Function.update_self] at h1
        cases h1
        have h2 : f.base.plh j = some ps' := h2
        rw [hk.plh] at h2
        cases h2
        rw [ht] at h4
        exact absurd (flag_mem.mpr h3) h4
      · simp only [Function.update_of_ne hji] at h1
        exact ⟨j, hd', ps', h1, h2, h3, h4⟩
  early := h.early
  readers := h.readers
  writer := h.writer
  token := by
    intro b t m k p h1 h2 h3 h4 h5
    rcases h.token b t m k p h1 h2 h3 h4 h5 with h6 | ⟨j, hd', h6, h7⟩
    · exact Or.inl h6
    · refine Or.inr ⟨j, hd', ?_, h7⟩
      have : j ≠ i := by rintro rfl; rw [hn] at h6; cases h6
      simp only [Function.update_of_ne this]
      exact h6
  late := h.late
  mail := by
    intro b t m k p h1 h2 h3 h4
    rcases h.mail b t m k p h1 h2 h3 h4 with h6 | ⟨j, hd', h6, h7⟩
    · exact Or.inl h6
    · refine Or.inr ⟨j, hd', ?_, h7⟩
      have : j ≠ i := by rintro rfl; rw [hn] at h6; cases h6
      simp only [Function.update_of_ne this]
      exact h6

theorem FInv.lock (h : FInv c target cap gcap f) {a : Nat} {v : Option V} (hs : Fine.lock f a v = some (.ok (f', ev))) :
    FInv c target cap gcap f' := by
  unfold Fine.lock at hs
  split at hs
  · rename_i k p v hc
    simp only at hs
    split at hs
    · rename_i ps hn hp
      cases hs
      have hA : Conc.AOK c f.base.shard f.base.plh (.guard k p) := h.reach.inv.at hc
      obtain ⟨ps', hp', -, hh, -⟩ := hA
      rw [hp] at hp'
      obtain rfl := Option.some.inj hp'
      exact h.take (ps := ps) hn ⟨hp, ⟨k, by rw [hh]; exact hc⟩, by simp, List.suffix_refl _⟩ rfl
    · cases hs
  · rename_i k p hc
    simp only at hs
    split at hs
    · cases hs
    · rename_i hne
      split at hs
      · rename_i ps hn hp
        cases hs
        have hA : Conc.AOK c f.base.shard f.base.plh (.dropping k p) := h.reach.inv.at hc
        obtain ⟨ps', hp', -, hh, -⟩ := hA
        rw [hp] at hp'
        obtain rfl := Option.some.inj hp'
        refine h.take (ps := ps) hn ⟨hp, ⟨k, by rw [hh]; exact hc⟩, fun _ => ?_, List.suffix_refl _⟩ rfl
        simpa [hp] using hne
      · cases hs
  · cases hs

theorem FInv.note (h : FInv c target cap gcap f) {i : Nat} (hs : Fine.note f i = some (.ok (f', ev))) :
    FInv c target cap gcap f' := by
  unfold Fine.note at hs
  split at hs
  case h_2 => cases hs
  rename_i a v x rest hi
  obtain ⟨ps, hk⟩ := h.hold i _ hi
  have hnd := h.reach.inv.pl.nodup _ _ hk.plh
  have htodo : x :: rest <:+ (called v ps.waiters).flatMap (notes f.base.kind) := hk.todo
  have hrest : rest <:+ (called v ps.waiters).flatMap (notes f.base.kind) := (List.suffix_cons x rest).trans htodo
  have hnod : (x :: rest).Nodup := (notes_nodup (called_nodup hnd)).sublist htodo.sublist
  have hhold : ∀ j hd, update f.hold i (some ⟨a, v, rest⟩) j = some hd → ∃ ps, HoldOK f.base j hd ps := by
    intro j hd hj
    by_cases hji : j = i
    · subst hji
      simp only [Function.update_self] at hj
      cases hj
      exact ⟨ps, hk.plh, hk.ctl, hk.some, hrest⟩
    · simp only [Function.update_of_ne hji] at hj
      exact h.hold j hd hj
  -- the marks, if the step is not the flag of `b`
  have hmark : ∀ b, x ≠ .flag b → ∀ f' : State K V, f'.base = f.base → f'.hold = update f.hold i (some ⟨a, v, rest⟩) →
      (f.raised b = true ↔ Marked f' b) := by
    intro b hx f' hb' hf'
    refine (h.raised b).trans ⟨?_, ?_⟩
    · rintro ⟨j, hd, ps', h1, h2, h3, h4⟩
      by_cases hji : j = i
      · subst hji
        rw [hi] at h1
        cases h1
        refine ⟨j, ⟨a, v, rest⟩, ps', by rw [hf']; simp, by rw [hb']; exact h2, h3, fun hm => h4 (List.mem_cons_of_mem _ hm)⟩
      · exact ⟨j, hd, ps', by rw [hf', Function.update_of_ne hji]; exact h1, by rw [hb']; exact h2, h3, h4⟩
    · rintro ⟨j, hd, ps', h1, h2, h3, h4⟩
      rw [hf'] at h1
      rw [hb'] at h2
      by_cases hji : j = i
      · subst hji
        simp only [Function.update_self] at h1
        cases h1
        refine ⟨j, ⟨a, v, x :: rest⟩, ps', hi, h2, h3, fun hm => ?_⟩
        rcases List.mem_cons.mp hm with rfl | hm
        · exact hx rfl
        · exact h4 hm
      · simp only [Function.update_of_ne hji] at h1
        exact ⟨j, hd, ps', h1, h2, h3, h4⟩
  -- who is about to be unparked, if it is not `b`
  have hun : ∀ b, x ≠ .unpark b → (∃ j hd, f.hold j = some hd ∧ .unpark b ∈ hd.todo) →
      ∃ j hd, update f.hold i (some ⟨a, v, rest⟩) j = some hd ∧ .unpark b ∈ hd.todo := by
    rintro b hx ⟨j, hd, h1, h2⟩
    by_cases hji : j = i
    · subst hji
      rw [hi] at h1
      cases h1
      refine ⟨j, ⟨a, v, rest⟩, by simp, ?_⟩
      rcases List.mem_cons.mp h2 with rfl | hm
      · exact absurd rfl hx
      · exact hm
    · exact ⟨j, hd, by rw [Function.update_of_ne hji]; exact h1, h2⟩
  simp only at hs
  split at hs
  · -- the flag
    rename_i b
    cases hs
    have hbm : b ∈ called v ps.waiters := flag_mem.mp (htodo.subset List.mem_cons_self)
    refine ⟨h.reach, hhold, fun b' => ?_, fun b' hb' => ?_, h.readers, h.writer, fun b' t m k p h1 h2 h3 h4 h5 => ?_, h.late,
      fun b' t m k p h1 h2 h3 h5 => ?_⟩
    · by_cases hbb : b' = b
      · subst hbb
        simp only [Function.update_self, true_iff]
        exact ⟨i, ⟨a, v, rest⟩, ps, by simp, hk.plh, hbm, (List.nodup_cons.mp hnod).1⟩
      · simp only [Function.update_of_ne hbb]
        exact hmark b' (by simpa using Ne.symm hbb) _ rfl rfl
    · by_cases hbb : b' = b
      · subst hbb; simp
      · simp only [Function.update_of_ne hbb]
        exact h.early b' hb'
    · by_cases hbb : b' = b
      · subst hbb
        refine Or.inr ⟨i, ⟨a, v, rest⟩, by simp, ?_⟩
        have := suffix_second htodo
        have h1 : f.base.kind b' = .thread t m := h1
        unfold second at this
        rw [h1] at this
        exact this
      · have h5 : f.flag b' = true := by
          simpa [State.flag, Function.update_of_ne hbb] using h5
        rcases h.token b' t m k p h1 h2 h3 h4 h5 with h6 | h6
        · exact Or.inl h6
        · exact Or.inr (hun b' (by simp) h6)
    · by_cases hbb : b' = b
      · subst hbb
        refine Or.inr ⟨i, ⟨a, v, rest⟩, by simp, ?_⟩
        have := suffix_second htodo
        have h1 : f.base.kind b' = .thread t m := h1
        unfold second at this
        rw [h1] at this
        exact this
      · have h5 : f.flag b' = true := by
          simpa [State.flag, Function.update_of_ne hbb] using h5
        rcases h.mail b' t m k p h1 h2 h3 h5 with h6 | h6
        · exact Or.inl h6
        · exact Or.inr (hun b' (by simp) h6)
  · -- unparking
    rename_i b
    split at hs
    case h_2 => cases hs
    rename_i t' m' hkind
    cases hs
    refine ⟨h.reach, hhold, fun b' => hmark b' (by simp) _ rfl rfl, h.early, h.readers, h.writer,
      fun b' t m k p h1 h2 h3 h4 h5 => ?_, h.late, fun b' t m k p h1 h2 h3 h5 => ?_⟩
    · by_cases ht : t = t'
      · subst ht; exact Or.inl (by simp)
      · rcases h.token b' t m k p h1 h2 h3 h4 h5 with h6 | h6
        · exact Or.inl (by simp only [Function.update_of_ne ht]; exact h6)
        · refine Or.inr (hun b' ?_ h6)
          rintro hb
          cases hb
          have h1 : f.base.kind b = .thread t m := h1
          rw [hkind] at h1
          cases h1
          exact ht rfl
    · by_cases hbb : b' = b
      · subst hbb; exact Or.inl (by simp)
      · rcases h.mail b' t m k p h1 h2 h3 h5 with h6 | h6
        · exact Or.inl (by simp only [Function.update_of_ne hbb]; exact h6)
        · exact Or.inr (hun b' (by simpa using Ne.symm hbb) h6)
  · cases hs
    refine ⟨h.reach, hhold, fun b' => hmark b' (by simp) _ rfl rfl, h.early, h.readers, h.writer,
      fun b' t m k p h1 h2 h3 h4 h5 => ?_, h.late, fun b' t m k p h1 h2 h3 h5 => ?_⟩
    · rcases h.token b' t m k p h1 h2 h3 h4 h5 with h6 | h6
      · exact Or.inl h6
      · exact Or.inr (hun b' (by simp) h6)
    · rcases h.mail b' t m k p h1 h2 h3 h5 with h6 | h6
      · exact Or.inl h6
      · exact Or.inr (hun b' (by simp) h6)

/-! ### The end of a critical section -/

/-- The notifier's action in `base`. -/
theorem FInv.first (h : FInv c target cap gcap f) (hq : c.ptrEq = true) {i a : Nat} {v : Option V} {ps : PState K V}
    (hk : HoldOK f.base i ⟨a, v, []⟩ ps) :
    ∃ s1 e1, exec c f.base (ending a v) = some (.ok (s1, e1)) ∧
      CReach c target cap gcap s1 ∧ (∀ b, b ≠ a → s1.ctl b = f.base.ctl b) ∧ (∀ j, j ≠ i → s1.plh j = f.base.plh j) ∧
      s1.kind = f.base.kind ∧ (f.base.writer = none → s1.writer = none) ∧
      (∀ b, s1.flag b = if b ∈ called v ps.waiters then true else f.base.flag b) ∧
      (s1.ctl a = .idle ∨ (v ≠ none ∧ ∃ k p w r, s1.ctl a = .inserting k p w r)) ∧ s1.next = f.base.next := by
  obtain ⟨k, hc⟩ := hk.ctl
  have hid := (h.reach.inv.pl.id _ _ hk.plh).2
  have hp := hk.plh
  cases v with
  | some v =>
    have hc : f.base.ctl a = .guard k ps.handle := hc
    have hx : ∃ s1 e1, exec c f.base (.publish a v) = some (.ok (s1, e1)) := by
      simp only [exec, Conc.publish, hc, hid, hp]
      exact ⟨_, _, rfl⟩
    obtain ⟨s1, e1, hx⟩ := hx
    have he := h.reach.inv.eff hq hx
    refine ⟨s1, e1, hx, h.reach.step he, ?_⟩
    cases he
    rename_i k' p' ps' hp' hk' hh hl hc'
    rw [hc] at hc'
    cases hc'
    rw [hid, hp] at hp'
    cases hp'
    refine ⟨fun b hb => Function.update_of_ne hb _ _, fun j hj => ?_, rfl, fun hw => hw, fun b => rfl,
      Or.inr ⟨by simp, _, _, _, _, Function.update_self _ _ _⟩, rfl⟩
    · show update f.base.plh ps.handle.id _ j = _
      rw [hid, Function.update_of_ne hj]
  | none =>
    have hc : f.base.ctl a = .dropping k ps.handle := hc
    have hne := hk.some rfl
    obtain ⟨b, hb⟩ : ∃ b, ps.waiters.getLast? = some b := by
      rw [← Option.isSome_iff_exists, List.getLast?_isSome]; exact hne
    have hl := h.reach.inv.pl.idle _ _ hp hne
    have hx : ∃ s1 e1, exec c f.base (.finishDrop a) = some (.ok (s1, e1)) := by
      simp only [exec, Conc.finishDrop, hc, hid, hp, hb, hl]
      exact ⟨_, _, rfl⟩
    obtain ⟨s1, e1, hx⟩ := hx
    have he := h.reach.inv.eff hq hx
    refine ⟨s1, e1, hx, h.reach.step he, ?_⟩
    cases he
    · rename_i b' k' p' ps' hp' hk' hh hl' hb' hc'
      rw [hc] at hc'
      cases hc'
      rw [hid, hp] at hp'
      cases hp'
      rw [hb] at hb'
      cases hb'
      refine ⟨fun b hb => Function.update_of_ne hb _ _, fun j hj => ?_, rfl, fun hw => rfl, fun b' => ?_,
        Or.inl (Function.update_self _ _ _), rfl⟩
      · show update f.base.plh ps.handle.id _ j = _
        rw [hid, Function.update_of_ne hj]
      · show update f.base.flag b true b' = _
        by_cases hbb : b' = b
        · subst hbb; simp [called, hb]
        · simp [called, hb, Function.update_of_ne hbb, hbb]
    · rename_i k' p' ps' sh hp' hk' hh hl' hb' hs hc'
      rw [hc] at hc'
      cases hc'
      rw [hid, hp] at hp'
      cases hp'
      exact absurd hb' hne

/-- What the callers notified early did meanwhile is possible in `base`. -/
theorem catch_one (hq : c.ptrEq = true) {b w : Nat} {s : Conc.State K V} (hre : CReach c target cap gcap s)
    (hc : ∃ k p, s.ctl b = .waiting k p) (hf : s.flag b = true) (he : f.early b = some w) (hkind : s.kind b = f.base.kind b)
    (hw : b ∈ f.readers → s.writer = none) :
    ∃ s' e, perform c s (catchUp f b) = some (.ok (s', e)) ∧ CReach c target cap gcap s' ∧ s'.plh = s.plh ∧
      s'.kind = s.kind ∧ s'.writer = s.writer ∧ (∀ b', b' ≠ b → s'.ctl b' = s.ctl b' ∧ s'.flag b' = s.flag b') ∧
      s'.next = s.next ∧ (∃ k p, s'.ctl b = if b ∈ f.readers then .rejoining k p else .claimed k p) := by
  obtain ⟨k, p, hc⟩ := hc
  have hng := hre.inv.kindOf hc rfl
  -- waking up
  obtain ⟨x, s1, e1, hcat, hx, hs1⟩ : ∃ (x : Act K V) (s1 : Conc.State K V) (e1 : List (Ev K V)),
      catchUp f b = x :: (if f.readers.contains b then [.relock b] else []) ∧
      exec c s x = some (.ok (s1, e1)) ∧ s1.plh = s.plh ∧ s1.kind = s.kind ∧ s1.writer = s.writer ∧
      (∀ b', b' ≠ b → s1.ctl b' = s.ctl b' ∧ s1.flag b' = s.flag b') ∧ s1.next = s.next ∧ s1.ctl b = .claimed k p := by
    cases hk : s.kind b with
    | get => exact absurd hk hng
    | thread t m =>
      refine ⟨.wake b, s.go b (.claimed k p), [], ?_, ?_, rfl, rfl, rfl,
        fun b' hb => ⟨Function.update_of_ne hb _ _, rfl⟩, rfl, Function.update_self _ _ _⟩
      · simp only [catchUp, he, ← hkind, hk]
      · simp only [exec, Conc.wake, hc, hk, hf, if_true]
    | task =>
      refine ⟨.poll b w, { s.go b (.claimed k p) with flag := update s.flag b false }, [.polled b w], ?_, ?_, rfl, rfl, rfl,
        fun b' hb => ⟨Function.update_of_ne hb _ _, Function.update_of_ne hb _ _⟩, rfl, Function.update_self _ _ _⟩
      · simp only [catchUp, he, ← hkind, hk]
      · simp only [exec, Conc.poll, hc, hk, hf, if_true]
  have hr1 := hre.step (hre.inv.eff hq hx)
  obtain ⟨h1, h2, h3, h4, h6, h5⟩ := hs1
  by_cases hm : b ∈ f.readers
  · have hw1 : s1.writer = none := by rw [h3]; exact hw hm
    have hy : ∃ s2 : Conc.State K V, exec c s1 (.relock b) = some (.ok (s2, [])) ∧ s2.plh = s1.plh ∧ s2.kind = s1.kind ∧
        s2.writer = s1.writer ∧ (∀ b', b' ≠ b → s2.ctl b' = s1.ctl b' ∧ s2.flag b' = s1.flag b') ∧
        s2.next = s1.next ∧ s2.ctl b = .rejoining k p := by
      refine ⟨{ s1.go b (.rejoining k p) with readers := b :: s1.readers }, ?_, rfl, rfl, rfl,
        fun b' hb => ⟨Function.update_of_ne hb _ _, rfl⟩, rfl, Function.update_self _ _ _⟩
      simp only [exec, Conc.relock, h5, hw1, Option.isNone_none, if_true]
    obtain ⟨s2, hy, g1, g2, g3, g4, g6, g5⟩ := hy
    refine ⟨s2, e1 ++ ([] ++ []), ?_, hr1.step (hr1.inv.eff hq hy), g1.trans h1, g2.trans h2, g3.trans h3,
      fun b' hb => ⟨(g4 b' hb).1.trans (h4 b' hb).1, (g4 b' hb).2.trans (h4 b' hb).2⟩, g6.trans h6, k, p,
      by rw [if_pos hm]; exact g5⟩
    rw [hcat, if_pos (by simpa using hm)]
    simp only [perform, hx, hy]
  · refine ⟨s1, e1 ++ [], ?_, hr1, h1, h2, h3, h4, h6, k, p, by rw [if_neg hm]; exact h5⟩
    rw [hcat, if_neg (by simpa using hm)]
    simp only [perform, hx]

theorem catch_all (hq : c.ptrEq = true) :
    ∀ (ws : List Nat) (s : Conc.State K V), ws.Nodup → CReach c target cap gcap s →
      (∀ b ∈ ws, (∃ k p, s.ctl b = .waiting k p) ∧ s.flag b = true) → s.kind = f.base.kind →
      (f.readers ≠ [] → s.writer = none) →
      ∃ s' e, perform c s (ws.flatMap (catchUp f)) = some (.ok (s', e)) ∧ CReach c target cap gcap s' ∧ s'.plh = s.plh ∧
        s'.kind = s.kind ∧ s'.writer = s.writer ∧ s'.next = s.next ∧
        (∀ b, b ∉ ws ∨ f.early b = none → s'.ctl b = s.ctl b ∧ s'.flag b = s.flag b) ∧
        (∀ b ∈ ws, f.early b ≠ none → ∃ k p, s'.ctl b = if b ∈ f.readers then .rejoining k p else .claimed k p) := by
  intro ws
  induction ws with
  | nil => exact fun s _ hre _ _ _ => ⟨s, [], rfl, hre, rfl, rfl, rfl, rfl, fun _ _ => ⟨rfl, rfl⟩, by simp⟩
  | cons b ws ih =>
    intro s hnd hre hw hk hwr
    obtain ⟨hn1, hn2⟩ := List.nodup_cons.mp hnd
    cases he : f.early b with
    | none =>
      obtain ⟨s', e, h1, h2, h3, h4, h5, h8, h6, h7⟩ := ih s hn2 hre (fun b' hb => hw b' (List.mem_cons_of_mem _ hb)) hk hwr
      refine ⟨s', e, ?_, h2, h3, h4, h5, h8, fun b' hb => h6 b' ?_, fun b' hb hb' => ?_⟩
      · rw [List.flatMap_cons]
        have : catchUp f b = [] := by simp [catchUp, he]
        rw [this]; exact h1
      · rcases hb with hb | hb
        · exact Or.inl (fun hm => hb (List.mem_cons_of_mem _ hm))
        · exact Or.inr hb
      · rcases List.mem_cons.mp hb with rfl | hm
        · exact absurd he hb'
        · exact h7 b' hm hb'
    | some w =>
      obtain ⟨hc, hf⟩ := hw b List.mem_cons_self
      obtain ⟨s1, e1, g1, g2, g3, g4, g5, g6, g8, k, p, g7⟩ := catch_one (f := f) hq hre hc hf he (by rw [hk])
        (fun hm => hwr (List.ne_nil_of_mem hm))
      have hne : ∀ b' ∈ ws, b' ≠ b := by rintro b' hb rfl; exact hn1 hb
      obtain ⟨s', e, h1, h2, h3, h4, h5, h8, h6, h7⟩ := ih s1 hn2 g2
        (fun b' hb => by
          rw [(g6 b' (hne b' hb)).1, (g6 b' (hne b' hb)).2]
          exact hw b' (List.mem_cons_of_mem _ hb)) (g4.trans hk) (fun hr => g5.trans (hwr hr))
      refine ⟨s', e1 ++ e, ?_, h2, h3.trans g3, h4.trans g4, h5.trans g5, h8.trans g8, fun b' hb => ?_, fun b' hb hb' => ?_⟩
      · rw [List.flatMap_cons]
        exact perform_append s _ _ g1 h1
      · have hbb : b' ≠ b := by
          rintro rfl
          rcases hb with hb | hb
          · exact hb List.mem_cons_self
          · rw [he] at hb; cases hb
        have := h6 b' (hb.imp (fun hb hm => hb (List.mem_cons_of_mem _ hm)) id)
        exact ⟨this.1.trans (g6 b' hbb).1, this.2.trans (g6 b' hbb).2⟩
      · rcases List.mem_cons.mp hb with rfl | hm
        · exact ⟨k, p, ((h6 b' (Or.inl hn1)).1).trans g7⟩
        · exact h7 b' hm hb'

theorem perform_cons (s : Conc.State K V) (x : Act K V) (xs : List (Act K V)) {s1 s2 : Conc.State K V} {e1 e2 : List (Ev K V)}
    (h1 : exec c s x = some (.ok (s1, e1))) (h2 : perform c s1 xs = some (.ok (s2, e2))) :
    perform c s (x :: xs) = some (.ok (s2, e1 ++ e2)) := by
  simp only [perform, h1, h2]

/-- The state after the end of a critical section. -/
def ended (f : State K V) (i : Nat) (ws : List Nat) (s' : Conc.State K V) : State K V :=
  { f with
    base := s'
    hold := update f.hold i none
    raised := fun b => !ws.contains b && f.raised b
    early := fun b => if ws.contains b then none else f.early b
    readers := f.readers.filter (fun b => !ws.contains b) }

/-- What the end of a critical section does. -/
structure Ended (c : Cfg K V RS) (target cap gcap : Nat) (f : State K V) (i a : Nat) (v : Option V) (ps : PState K V)
    (s' : Conc.State K V) : Prop where
  reach : CReach c target cap gcap s'
  wait : ∀ b ∈ called v ps.waiters, (∃ k, f.base.ctl b = .waiting k ps.handle) ∧ f.base.flag b = false
  nwait : ∀ k p, f.base.ctl a ≠ .waiting k p
  plh : ∀ j, j ≠ i → s'.plh j = f.base.plh j
  kind : s'.kind = f.base.kind
  next : s'.next = f.base.next
  writer : f.base.writer = none → s'.writer = none
  own : s'.ctl a = .idle ∨ (v ≠ none ∧ ∃ k p w r, s'.ctl a = .inserting k p w r)
  other : ∀ b, b ≠ a → b ∉ called v ps.waiters ∨ f.early b = none → s'.ctl b = f.base.ctl b
  flag : ∀ b, b ≠ a → b ∉ called v ps.waiters → s'.flag b = f.base.flag b
  flagged : ∀ b ∈ called v ps.waiters, f.early b = none → s'.flag b = true
  early : ∀ b ∈ called v ps.waiters, f.early b ≠ none →
    ∃ k p, s'.ctl b = if b ∈ f.readers then .rejoining k p else .claimed k p

/-- The end of a critical section is always possible. -/
theorem FInv.ended (h : FInv c target cap gcap f) (hq : c.ptrEq = true) {i a : Nat} {v : Option V} {ps : PState K V}
    (hi : f.hold i = some ⟨a, v, []⟩) (hk : HoldOK f.base i ⟨a, v, []⟩ ps) :
    ∃ s' ev, Fine.unlock c f i = some (.ok (Fine.ended f i (called v ps.waiters) s', ev)) ∧
      Ended c target cap gcap f i a v ps s' := by
  have hid := (h.reach.inv.pl.id _ _ hk.plh).2
  obtain ⟨s1, e1, hx, hre1, hctl, hplh, hkind, hwr, hflag, hown, hnext⟩ := h.first hq hk
  have hnd := called_nodup (v := v) (h.reach.inv.pl.nodup _ _ hk.plh)
  have hwait : ∀ b ∈ called v ps.waiters, (∃ k, f.base.ctl b = .waiting k ps.handle) ∧ f.base.flag b = false :=
    fun b hb => hk.waits h.reach.inv hb
  obtain ⟨k0, hca⟩ := hk.ctl
  have hna : ∀ k p, f.base.ctl a ≠ .waiting k p := by
    intro k p hc
    have hca : f.base.ctl a = _ := hca
    rw [hc] at hca
    cases v <;> cases hca
  have hba : ∀ {b k p}, f.base.ctl b = .waiting k p → b ≠ a := by
    rintro b k p hc rfl; exact hna _ _ hc
  obtain ⟨s', e2, hp, hre, hplh', hkind', hwr', hnext', hother, hearly⟩ := catch_all (f := f) hq (called v ps.waiters) s1 hnd
    hre1
    (fun b hb => by
      obtain ⟨⟨k, hc⟩, -⟩ := hwait b hb
      exact ⟨⟨k, ps.handle, by rw [hctl b (hba hc)]; exact hc⟩, by rw [hflag b, if_pos hb]⟩)
    hkind (fun hr => hwr (h.writer hr))
  have han : a ∉ called v ps.waiters := by
    intro hm
    obtain ⟨⟨k, hc⟩, -⟩ := hwait a hm
    exact hna _ _ hc
  refine ⟨s', e1 ++ e2, ?_, hre, hwait, hna, fun j hj => by rw [hplh', hplh j hj], hkind'.trans hkind, hnext'.trans hnext,
    fun hw => hwr'.trans (hwr hw), ?_, fun b hb ho => ((hother b ho).1).trans (hctl b hb), fun b hb hm => ?_,
    fun b hb he => ?_, hearly⟩
  · unfold Fine.unlock
    simp only [hi, hk.plh]
    unfold lift
    rw [perform_cons f.base _ _ hx hp]
    rfl
  · rw [(hother a (Or.inl han)).1]; exact hown
  · rw [(hother b (Or.inl hm)).2, hflag b, if_neg hm]
  · rw [(hother b (Or.inr he)).2, hflag b, if_pos hb]

theorem FInv.unlock (h : FInv c target cap gcap f) (hq : c.ptrEq = true) {i a : Nat} {v : Option V}
    (hi : f.hold i = some ⟨a, v, []⟩) :
    ∃ f' ev, Fine.unlock c f i = some (.ok (f', ev)) ∧ FInv c target cap gcap f' := by
  obtain ⟨ps, hk⟩ := h.hold i _ hi
  have hid := (h.reach.inv.pl.id _ _ hk.plh).2
  obtain ⟨s', ev, hun, hE⟩ := h.ended hq hi hk
  obtain ⟨k0, hca⟩ := hk.ctl
  have hwait := hE.wait
  have hna := hE.nwait
  have hba : ∀ {b k p}, f.base.ctl b = .waiting k p → b ≠ a := by
    rintro b k p hc rfl; exact hna _ _ hc
  have hnw : ∀ k p, s'.ctl a ≠ .waiting k p := by
    intro k p hc
    rcases hE.own with h1 | ⟨-, _, _, _, _, h1⟩ <;> rw [hc] at h1 <;> cases h1
  refine ⟨_, _, hun, ?_⟩
  unfold Fine.ended
  -- other notifiers
  have hoth : ∀ j hd, j ≠ i → f.hold j = some hd → ∃ ps', HoldOK f.base j hd ps' ∧ HoldOK s' j hd ps' := by
    intro j hd hj hh
    obtain ⟨ps', hk'⟩ := h.hold j hd hh
    have hid' := (h.reach.inv.pl.id _ _ hk'.plh).2
    refine ⟨ps', hk', ?_, ?_, hk'.some, ?_⟩
    · rw [hE.plh j hj]; exact hk'.plh
    · obtain ⟨k', hc'⟩ := hk'.ctl
      refine ⟨k', ?_⟩
      rw [hE.other hd.agent ?_ (Or.inl fun hm => ?_)]
      · exact hc'
      · rintro heq
        rw [heq] at hc'
        have hca : f.base.ctl a = _ := hca
        rw [hca] at hc'
        have : ps.handle = ps'.handle := by
          cases v <;> cases hv : hd.value <;> rw [hv] at hc' <;> injection hc'
        rw [this, hid'] at hid
        exact hj hid
      · obtain ⟨⟨k, hc⟩, -⟩ := hwait _ hm
        rw [hc] at hc'
        cases hv : hd.value <;> rw [hv] at hc' <;> cases hc'
    · rw [hE.kind]; exact hk'.todo
  have hdis : ∀ j hd ps' b, j ≠ i → HoldOK f.base j hd ps' → b ∈ called hd.value ps'.waiters → b ∉ called v ps.waiters := by
    intro j hd ps' b hj hk' hb hm
    obtain ⟨⟨k, hc⟩, -⟩ := hwait b hm
    obtain ⟨⟨k', hc'⟩, -⟩ := hk'.waits h.reach.inv hb
    rw [hc] at hc'
    have hid' := (h.reach.inv.pl.id _ _ hk'.plh).2
    have : ps.handle = ps'.handle := by injection hc'
    rw [this, hid'] at hid
    exact hj hid
  have hmv : ∀ {b k p}, s'.ctl b = .waiting k p → (if (called v ps.waiters).contains b then none else f.early b) = none →
      (Fine.ended f i (called v ps.waiters) s').flag b = true →
      f.base.ctl b = .waiting k p ∧ f.early b = none ∧ f.flag b = true := by
    intro b k p h2 h3 h5
    by_cases hm : b ∈ called v ps.waiters
    · have hen : f.early b = none := by
        by_contra hen
        obtain ⟨k', p', hc⟩ := hE.early b hm hen
        rw [h2] at hc
        split at hc <;> cases hc
      have hra : f.raised b = true := (h.raised b).mpr ⟨i, _, ps, hi, hk.plh, hm, by simp⟩
      refine ⟨?_, hen, by simp [State.flag, hra]⟩
      obtain ⟨⟨k', hc⟩, -⟩ := hwait b hm
      rw [← hE.other b (hba hc) (Or.inr hen)]; exact h2
    · have hen : f.early b = none := by simpa [hm] using h3
      have hnea : b ≠ a := by
        rintro rfl
        exact hnw _ _ h2
      refine ⟨by rw [← hE.other b hnea (Or.inl hm)]; exact h2, hen, ?_⟩
      simpa [State.flag, Fine.ended, hE.flag b hnea hm, hm] using h5
  have hup : ∀ {b}, (∃ j hd, f.hold j = some hd ∧ .unpark b ∈ hd.todo) →
      ∃ j hd, update f.hold i none j = some hd ∧ .unpark b ∈ hd.todo := by
    rintro b ⟨j, hd, h6, h7⟩
    refine ⟨j, hd, ?_, h7⟩
    have : j ≠ i := by
      rintro rfl
      rw [hi] at h6
      cases h6
      cases h7
    simp only [Function.update_of_ne this]
    exact h6
  refine ⟨hE.reach, fun j hd hj => ?_, fun b => ⟨fun hb => ?_, ?_⟩, fun b hb => ?_, fun b hb => ?_, fun hr => ?_, ?_, ?_, ?_⟩
  · by_cases hji : j = i
    · subst hji; simp at hj
    · simp only [Function.update_of_ne hji] at hj
      obtain ⟨ps', -, h1⟩ := hoth j hd hji hj
      exact ⟨ps', h1⟩
  · simp only [Bool.and_eq_true, Bool.not_eq_eq_eq_not, Bool.not_true, List.contains_eq_mem, decide_eq_false_iff_not] at hb
    obtain ⟨j, hd, ps', h1, h2, h3, h4⟩ := (h.raised b).mp hb.2
    by_cases hji : j = i
    · subst hji
      rw [hi] at h1
      cases h1
      rw [hk.plh] at h2
      cases h2
      exact absurd h3 hb.1
    · exact ⟨j, hd, ps', by simp only [Function.update_of_ne hji]; exact h1, by
        show s'.plh j = _
        rw [hE.plh j hji]; exact h2, h3, h4⟩
  · rintro ⟨j, hd, ps', h1, h2, h3, h4⟩
    by_cases hji : j = i
    · subst hji; simp at h1
    · simp only [Function.update_of_ne hji] at h1
      have h2 : s'.plh j = some ps' := h2
      rw [hE.plh j hji] at h2
      obtain ⟨ps'', hk', -⟩ := hoth j hd hji h1
      have := hk'.plh
      rw [h2] at this
      cases this
      have hnm := hdis j hd ps' b hji hk' h3
      have := (h.raised b).mpr ⟨j, hd, ps', h1, h2, h3, h4⟩
      simp [hnm, this]
  · by_cases hm : b ∈ called v ps.waiters
    · simp [hm] at hb
    · simp only [List.contains_eq_mem, hm, decide_false, Bool.false_eq_true, if_false] at hb
      simp [hm, h.early b hb]
  · simp only [List.mem_filter, List.contains_eq_mem, Bool.not_eq_eq_eq_not, Bool.not_true, decide_eq_false_iff_not] at hb
    simp [hb.2, h.readers b hb.1]
  · show s'.writer = none
    refine hE.writer (h.writer (fun hn => hr ?_))
    simp [Fine.ended, hn]
  · intro b t m k p h1 h2 h3 h4 h5
    have h1 : s'.kind b = .thread t m := h1
    have h2 : s'.ctl b = .waiting k p := h2
    rw [hE.kind] at h1
    obtain ⟨g1, g2, g3⟩ := hmv h2 h3 h5
    exact (h.token b t m k p h1 g1 g2 h4 g3).imp_right hup
  · intro b t m k p h1 h2 h3
    have h1 : s'.kind b = .thread t m := h1
    have h2 : s'.ctl b = .waiting k p := h2
    rw [hE.kind] at h1
    refine h.late b t m k p h1 ?_ h3
    by_cases hm : b ∈ called v ps.waiters ∧ f.early b ≠ none
    · obtain ⟨k', p', hc⟩ := hE.early b hm.1 hm.2
      rw [h2] at hc
      split at hc <;> cases hc
    · have hnea : b ≠ a := by
        rintro rfl
        exact hnw _ _ h2
      rw [← hE.other b hnea (by
        by_cases hb : b ∈ called v ps.waiters
        · exact Or.inr (by simpa [hb] using hm)
        · exact Or.inl hb)]
      exact h2
  · intro b t m k p h1 h2 h3 h5
    have h1 : s'.kind b = .thread t m := h1
    have h2 : s'.ctl b = .waiting k p := h2
    rw [hE.kind] at h1
    obtain ⟨g1, g2, g3⟩ := hmv h2 h3 h5
    exact (h.mail b t m k p h1 g1 g2 g3).imp_right hup

theorem FInv.stray (h : FInv c target cap gcap f) {t : Nat} (hs : Fine.stray f t = some (.ok (f', ev))) :
    FInv c target cap gcap f' := by
  cases hs
  refine ⟨h.reach, h.hold, h.raised, h.early, h.readers, h.writer, fun b t' m k p h1 h2 h3 h4 h5 => ?_, h.late, h.mail⟩
  by_cases ht : t' = t
  · subst ht; exact Or.inl (by simp)
  · simp only [Function.update_of_ne ht]
    exact h.token b t' m k p h1 h2 h3 h4 h5

theorem FInv.steal (h : FInv c target cap gcap f) {t : Nat} (hs : Fine.steal f t = some (.ok (f', ev))) :
    FInv c target cap gcap f' := by
  unfold Fine.steal at hs
  split at hs
  · cases hs
  · rename_i hno
    cases hs
    refine ⟨h.reach, h.hold, h.raised, h.early, h.readers, h.writer, fun b t' m k p h1 h2 h3 h4 h5 => ?_, h.late, h.mail⟩
    by_cases ht : t' = t
    · subst ht
      refine absurd ?_ hno
      rw [List.any_eq_true]
      refine ⟨b, List.mem_range.mpr (h.reach.inv.lt_next h2 (by simp)), ?_⟩
      have h1 : f.base.kind b = .thread t' m := h1
      have h2 : f.base.ctl b = .waiting k p := h2
      have h3 : f.early b = none := h3
      have h4 : Asleep (f.pc b) (f.fresh b) := h4
      simp only [waits, h1, h2, h3]
      rcases h4 with h4 | h4 | ⟨h4, -⟩ <;> simp [h4]
    · simp only [Function.update_of_ne ht]
      exact h.token b t' m k p h1 h2 h3 h4 h5

theorem FInv.step (h : FInv c target cap gcap f) (hq : c.ptrEq = true) {act : FAct K V}
    (hs : Fine.step c f act = some (.ok (f', ev))) : FInv c target cap gcap f' := by
  cases act with
  | act x => exact h.plain hq hs
  | park a => exact h.park hs
  | unparked a => exact h.unparked hs
  | spurious a => exact h.spurious hs
  | look a o => exact h.look hq hs
  | miss a o => exact h.miss hs
  | expire a => exact h.expire hq hs
  | poll a w => exact h.poll hq hs
  | relock a => exact h.relock hs
  | lock a v => exact h.lock hs
  | note i => exact h.note hs
  | unlock i =>
    have hs : Fine.unlock c f i = some (.ok (f', ev)) := hs
    have : ∃ a v, f.hold i = some ⟨a, v, []⟩ := by
      unfold Fine.unlock at hs
      split at hs
      · rename_i a v ps h1 h2; exact ⟨a, v, h1⟩
      · cases hs
    obtain ⟨a, v, hi⟩ := this
    obtain ⟨f2, ev2, h1, h2⟩ := h.unlock hq hi
    rw [hs] at h1
    cases h1
    exact h2
  | stray t => exact h.stray hs
  | steal t => exact h.steal hs

theorem FInv.layout (h : FInv c target cap gcap f) {m : List (UInt64 × Nat)} {p : UInt64 → UInt64 → Bool}
    (hm : m.Perm f.base.shard.map) (hp : ∀ x, p x x = true) :
    FInv c target cap gcap { f with base := { f.base with shard := f.base.shard.relayout m p } } :=
  h.change (pc' := f.pc) (h.reach.relayout hm hp) (fun _ _ _ => ⟨rfl, fun _ h => h⟩) (fun _ _ => rfl) h.writer
    (fun _ _ _ hb => Or.inl ⟨hb, rfl, rfl⟩)

/-! ### Runs -/

theorem Run.inv {sh : State K V} (hr : Run c sh tr f) (hq : c.ptrEq = true) (h0 : FInv c target cap gcap sh) :
    FInv c target cap gcap f := by
  induction hr with
  | start => exact h0
  | layout m p hr hm hp ih => exact ih.layout hm hp
  | act hr hs ih => exact ih.step hq hs

theorem perform_run {s0 s s' : Conc.State K V} (hr : Conc.Run c s0 tr s) {xs : List (Act K V)}
    (hp : perform c s xs = some (.ok (s', ev))) : Conc.Run c s0 (tr ++ ev) s' := by
  induction xs generalizing s tr ev with
  | nil => cases hp; rw [List.append_nil]; exact hr
  | cons x xs ih =>
    simp only [perform] at hp
    split at hp
    · cases hp
    · cases hp
    · rename_i s1 e1 hx
      split at hp
      · cases hp
      · cases hp
      · rename_i s2 e2 hxs
        cases hp
        rw [← List.append_assoc]
        exact ih (hr.act hx) hxs

/-- The actions of `Conc` that an action performs. -/
theorem step_base {act : FAct K V} (hs : Fine.step c f act = some (.ok (f', ev))) :
    ∃ xs, perform c f.base xs = some (.ok (f'.base, ev)) := by
  have none : ∀ {f' : State K V} {ev : List (Ev K V)}, f'.base = f.base → ev = [] →
      ∃ xs, perform c f.base xs = some (.ok (f'.base, ev)) := by
    rintro f' ev h1 rfl
    exact ⟨[], by rw [h1]; rfl⟩
  have lifted : ∀ {xs : List (Act K V)} {g : Conc.State K V → State K V}, (∀ s, (g s).base = s) →
      lift c f xs g = some (.ok (f', ev)) → ∃ xs, perform c f.base xs = some (.ok (f'.base, ev)) := by
    intro xs g hg hl
    obtain ⟨s, h1, rfl⟩ := lift_ok hl
    exact ⟨xs, by rw [hg]; exact h1⟩
  have noticed : ∀ {a w : Nat} {x : Act K V}, Fine.notice c f a w x = some (.ok (f', ev)) →
      ∃ xs, perform c f.base xs = some (.ok (f'.base, ev)) := by
    intro a w x hn
    unfold Fine.notice at hn
    split at hn
    · exact lifted (by simp) hn
    · cases hn; exact none rfl rfl
  cases act with
  | act x =>
    have hs : Fine.plain c f x = _ := hs
    unfold Fine.plain at hs
    split at hs
    · exact lifted (by simp) hs
    · cases hs
  | park a =>
    have hs : Fine.park f a = _ := hs
    unfold Fine.park at hs
    split at hs
    · cases hs
      split <;> exact none rfl rfl
    · cases hs
  | unparked a =>
    have hs : Fine.unparked f a = _ := hs
    unfold Fine.unparked at hs
    split at hs
    · split at hs
      · cases hs; exact none rfl rfl
      · cases hs
    · cases hs
  | spurious a =>
    have hs : Fine.spurious f a = _ := hs
    unfold Fine.spurious at hs
    split at hs
    · cases hs; exact none rfl rfl
    · cases hs
  | look a o =>
    have hs : Fine.look c f a o = _ := hs
    unfold Fine.look at hs
    split at hs
    · split at hs
      · exact noticed hs
      · cases hs; exact none rfl rfl
    · cases hs
  | miss a o =>
    have hs : Fine.miss f a o = _ := hs
    unfold Fine.miss at hs
    split at hs
    · split at hs
      · cases hs; exact none rfl rfl
      · cases hs
    · cases hs
  | expire a =>
    have hs : Fine.expire c f a = _ := hs
    unfold Fine.expire at hs
    split at hs
    · split at hs
      · exact lifted (by simp) hs
      · cases hs
    · cases hs
  | poll a w =>
    have hs : Fine.poll c f a w = _ := hs
    unfold Fine.poll at hs
    split at hs
    · split at hs
      · cases hs
      · split at hs
        · exact noticed hs
        · exact lifted (by simp) hs
    · cases hs
  | relock a =>
    have hs : Fine.relock f a = _ := hs
    unfold Fine.relock at hs
    split at hs
    · cases hs; exact none rfl rfl
    · cases hs
  | lock a v =>
    have hs : Fine.lock f a v = _ := hs
    unfold Fine.lock at hs
    simp only at hs
    split at hs
    · split at hs
      · cases hs; exact none rfl rfl
      · cases hs
    · split at hs
      · cases hs
      · split at hs
        · cases hs; exact none rfl rfl
        · cases hs
    · cases hs
  | note i =>
    have hs : Fine.note f i = _ := hs
    unfold Fine.note at hs
    split at hs
    · simp only at hs
      split at hs
      · cases hs; exact none rfl rfl
      · split at hs
        · cases hs; exact none rfl rfl
        · cases hs
      · cases hs; exact none rfl rfl
    · cases hs
  | unlock i =>
    have hs : Fine.unlock c f i = _ := hs
    unfold Fine.unlock at hs
    split at hs
    · exact lifted (by simp) hs
    · cases hs
  | stray t =>
    cases hs; exact none rfl rfl
  | steal t =>
    have hs : Fine.steal f t = _ := hs
    unfold Fine.steal at hs
    split at hs
    · cases hs
    · cases hs; exact none rfl rfl

/-- The events of a run are those of a run of `Conc`. -/
theorem Run.base {f0 : State K V} (hr : Run c f0 tr f) : Conc.Run c f0.base tr f.base := by
  induction hr with
  | start => exact .start
  | layout m p hr hm hp ih => exact ih.layout m p hm hp
  | act hr hs ih =>
    obtain ⟨xs, hx⟩ := step_base hs
    exact perform_run ih hx

end
end QuickCache.Fine
