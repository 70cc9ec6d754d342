import Verif.Proofs.Sharded
import Verif.Proofs.ConcProgress
import Verif.Proofs.ConcFacts
import Verif.Spec.Nest
import Mathlib.Data.Fintype.Pigeonhole

/-!
# Strands, and who waits for whom
-/

set_option linter.unusedSimpArgs false

namespace QuickCache.Conc
variable {K V RS : Type} [DecidableEq K] {c : Cfg K V RS} {s s' : State K V} {act : Act K V} {evs : List (Ev K V)}
open Unsync Spec
open Function (update)

/-! ### One shard -/

/-- An action moves only the agent it belongs to, or a new one. -/
theorem Eff.ctl_other (he : Eff c s act s' evs) {b : Nat} (ha : act.agent ≠ some b)
    (hn : ∀ kind k, act = .begin kind k → b ≠ s.next) : s'.ctl b = s.ctl b := by
  have other : ∀ {f : Nat → Ctl K V} {a : Nat} {x : Ctl K V}, (some a : Option Nat) ≠ some b → update f a x b = f b := by
    intro f a x h
    exact Function.update_of_ne (fun hb => h (by rw [hb])) _ _
  cases he
  case begin kind k hk => exact Function.update_of_ne (hn kind k rfl) _ _
  case read => rfl
  case write => rfl
  case pending => rfl
  case guard a k q w hc => cases w <;> exact other ha
  all_goals exact other ha

/-- A caller that waits for a load goes on waiting unless the holder of the guard does something or it gives up. -/
theorem Eff.waits_stay (he : Eff c s act s' evs) (hi : CInv c s) {a b : Nat} {k : K} {p : Plh} (hw : Waits s a p)
    (hg : s.ctl b = .guard k p) (hb : act.agent ≠ some b) (ht : act ≠ .timeout a) (hc : act ≠ .cancel a) : Waits s' a p := by
  obtain ⟨⟨k', ha⟩, hf⟩ := id hw
  have keep : ∀ {s' : State K V} {d : Nat} {x : Ctl K V}, s'.ctl = update s.ctl d x → s'.flag a = s.flag a → d ≠ a →
      Waits s' a p := by
    intro s' d x h1 h2 h3
    refine ⟨⟨k', ?_⟩, h2.trans hf⟩
    rw [h1, Function.update_of_ne (Ne.symm h3)]
    exact ha
  have ne : ∀ {d : Nat} {x : Ctl K V}, s.ctl d = x → x ≠ .waiting k' p → d ≠ a := by
    rintro d x h1 h2 rfl
    exact h2 (h1.symm.trans ha)
  have ne' : ∀ {d : Nat}, s.flag d = true → d ≠ a := by
    rintro d h1 rfl
    rw [hf] at h1
    cases h1
  have hb' : Entitled s b p := .guard k hg
  have lt : a < s.next := hi.lt_next ha (by simp)
  have notified : ∀ {d : Nat} {q : Plh} {ps : PState K V}, s.plh q.id = some ps → ps.handle = q → Entitled s d q → d ≠ b →
      a ∉ ps.waiters := by
    intro d q ps h1 h2 h3 h4 h5
    obtain ⟨⟨k2, h6⟩, -⟩ := (hi.mem_waits h1 h2).1 h5
    rw [ha] at h6
    cases h6
    exact h4 (hi.entitled_one h3 hb')
  cases he
  case begin kind k2 hk =>
    refine keep rfl (Function.update_of_ne (by omega) _ _) (by omega)
  case read => exact hw
  case write => exact hw
  case pending d w k2 q hc1 hk hf1 => exact hw
  case guard d k2 q w hc1 => cases w <;> exact keep rfl rfl (ne hc1 (by simp))
  case enlist d k2 q ps hc1 h1 h2 h3 h4 =>
    have := ne hc1 (by simp)
    exact keep rfl (Function.update_of_ne (Ne.symm this) _ _) this
  case wake d k2 q tid t h1 h2 h3 => exact keep rfl rfl (ne' h3)
  case claim d w k2 q h1 h2 h3 => exact keep rfl (Function.update_of_ne (Ne.symm (ne' h3)) _ _) (ne' h3)
  case timely d k2 q tid h1 h2 h3 => exact keep rfl rfl (ne' h3)
  case timeout d k2 q tid ps ws h1 h2 h3 h4 h5 h6 => exact keep rfl rfl (fun h => ht (by rw [h]))
  case cancel d k2 q ps ws h1 h2 h3 h4 h5 h6 => exact keep rfl rfl (fun h => hc (by rw [h]))
  case cancelOwner d k2 q ps h1 h2 h3 h4 h5 h6 => exact keep rfl rfl (ne' h3)
  case cancelDone d k2 q ps h1 h2 h3 h4 h5 h6 => exact keep rfl rfl (ne' h3)
  case publish d v k2 q ps h1 h2 h3 h4 h5 =>
    have := notified h2 h4 (.guard _ h1) (fun h => hb (by rw [h]; rfl))
    exact keep rfl (if_neg this) (ne h1 (by simp))
  case handOver d e k2 q ps h1 h2 h3 h4 h5 h6 =>
    have := notified h2 h4 (.dropping _ h1) (fun h => hb (by rw [h]; rfl))
    refine keep rfl (Function.update_of_ne ?_ _ _) (ne h1 (by simp))
    rintro rfl
    exact this (List.mem_of_getLast? h6)
  case load d k2 t v h1 n old => exact keep rfl rfl (ne h1 (by simp))
  all_goals exact keep rfl rfl (ne (by assumption) (by simp))

/-- Whether an agent can take its next step: it holds the shard's lock, or nobody does; and it is not waiting. -/
theorem CInv.agent_due (h : CInv c s) {a : Nat} (ha : s.ctl a ≠ .idle) (hw : ∀ p, ¬ Waits s a p)
    (hl : (s.writer = none ∧ s.readers = []) ∨ (s.ctl a).reads = true ∨ (s.ctl a).writes = true) :
    ∃ act, Due s act ∧ act.agent = some a ∧ exec c s act ≠ none := by
  have free : (s.ctl a).reads = false → (s.ctl a).writes = false → s.writer = none ∧ s.readers = [] := by
    intro h1 h2
    rcases hl with h | h | h
    · exact h
    · rw [h1] at h; cases h
    · rw [h2] at h; cases h
  cases hc : s.ctl a with
  | idle => exact absurd hc ha
  | start k =>
    have hf := free (by rw [hc]; rfl) (by rw [hc]; rfl)
    exact ⟨.enter a 0, .enter a 0, rfl, by simp [exec, enter, hc, hf.1]⟩
  | seek k => exact ⟨.find a, .find a, rfl, by simp [exec, find, hc]⟩
  | saw k t v => exact ⟨.load a, .load a none, rfl, by simp [exec, load, hc]⟩
  | bump k t v => exact ⟨.bump a, .bump a, rfl, by simp [exec, Conc.bump, hc]⟩
  | tally k r => exact ⟨.tally a, .tally a, rfl, by simp [exec, tally, hc]⟩
  | created k =>
    have hf := free (by rw [hc]; rfl) (by rw [hc]; rfl)
    exact ⟨.upsert a, .upsert a, rfl, by simp [exec, upsert, hc, State.unlocked, hf.1, hf.2]⟩
  | joining k p =>
    refine ⟨.join a, .join a, rfl, ?_⟩
    simp only [exec, join, hc]
    split
    · simp
    · split <;> simp
  | starting k p w => exact ⟨.startLoading a, .startLoading a, rfl, by simp only [exec, startLoading, hc]; split <;> simp⟩
  | waiting k p =>
    have hf : s.flag a = true := by
      cases hf : s.flag a with
      | true => rfl
      | false => exact absurd ⟨⟨k, hc⟩, hf⟩ (hw p)
    have hk := h.kindOf hc rfl
    cases hkind : s.kind a with
    | get => exact absurd hkind hk
    | thread tid t => exact ⟨.wake a, .wake a, rfl, by simp [exec, wake, hc, hkind, hf]⟩
    | task => exact ⟨.poll a 0, .poll a 0 hf, rfl, by simp [exec, poll, hc, hkind, hf]⟩
  | claimed k p =>
    have hf := free (by rw [hc]; rfl) (by rw [hc]; rfl)
    exact ⟨.relock a, .relock a, rfl, by simp [exec, relock, hc, hf.1]⟩
  | rejoining k p => exact ⟨.rejoin a, .rejoin a, rfl, by simp only [exec, rejoin, hc]; split <;> simp⟩
  | guard k p => exact ⟨.drop a, .drop a, rfl, by simp [exec, drop, hc]⟩
  | inserting k p v r =>
    have hf := free (by rw [hc]; rfl) (by rw [hc]; rfl)
    exact ⟨.store a, .store a, rfl, by simp [exec, store, hc, State.unlocked, hf.1, hf.2]⟩
  | leaving k p =>
    have hf := free (by rw [hc]; rfl) (by rw [hc]; rfl)
    exact ⟨.lockDrop a, .lockDrop a, rfl, by simp [exec, lockDrop, hc, State.unlocked, hf.1, hf.2]⟩
  | dropping k p =>
    refine ⟨.finishDrop a, .finishDrop a, rfl, ?_⟩
    simp only [exec, finishDrop, hc]
    split
    · simp
    · split
      · split <;> simp
      · simp
  | abandoning k p => exact ⟨.abandon a, .abandon a, rfl, by simp only [exec, abandon, hc]; split <;> simp⟩

omit [DecidableEq K] in
/-- Every action that is due is the next one of a call. -/
theorem due_agent {act : Act K V} (h : Due s act) : ∃ a, act.agent = some a := by
  cases h <;> exact ⟨_, rfl⟩

/-- Nothing is due of a call that waits. -/
theorem waits_none {a : Nat} {p : Plh} {act : Act K V} (hw : Waits s a p) (hd : Due s act) (ha : act.agent = some a) :
    exec c s act = none := by
  obtain ⟨⟨k, hc⟩, hf⟩ := hw
  cases hd <;> simp only [Act.agent, Option.some.injEq] at ha <;> subst ha
  case wake d => cases hk : s.kind d <;> simp [exec, wake, hc, hf, hk]
  all_goals
    simp_all [exec, enter, find, load, Conc.bump, tally, upsert, join, startLoading, wake, poll, relock, rejoin, publish, store, drop,
      lockDrop, finishDrop, abandon]

/-- Nothing is due of a call that has returned, and nothing of one that has not begun. -/
theorem idle_none {a : Nat} {act : Act K V} (hc : s.ctl a = .idle) (hd : Due s act) (ha : act.agent = some a) :
    exec c s act = none := by
  cases hd <;> simp only [Act.agent, Option.some.injEq] at ha <;> subst ha <;>
    simp [exec, enter, find, load, Conc.bump, tally, upsert, join, startLoading, wake, poll, relock, rejoin, publish, store, drop,
      lockDrop, finishDrop, abandon, hc]

/-- The lock is free, or its holder can go on. -/
theorem CInv.lock_or (h : CInv c s) : (s.writer = none ∧ s.readers = []) ∨
    ∃ a, (s.ctl a).engaged = true ∧ (∀ p, ¬ Waits s a p) ∧ ((s.ctl a).reads = true ∨ (s.ctl a).writes = true) := by
  have eng : ∀ {a : Nat}, ((s.ctl a).reads = true ∨ (s.ctl a).writes = true) → (s.ctl a).engaged = true ∧ ∀ p, ¬ Waits s a p := by
    intro a ha
    constructor
    · cases hc : s.ctl a <;> rw [hc] at ha <;> simp [Ctl.reads, Ctl.writes] at ha <;> rfl
    · rintro p ⟨⟨k, hc⟩, -⟩
      rw [hc] at ha
      simp [Ctl.reads, Ctl.writes] at ha
  by_cases hw : s.writer = none
  · by_cases hr : s.readers = []
    · exact .inl ⟨hw, hr⟩
    · obtain ⟨b, hb⟩ := List.exists_mem_of_ne_nil _ hr
      have := Or.inl (b := (s.ctl b).writes = true) ((h.lock.rd b).mp hb)
      exact .inr ⟨b, (eng this).1, (eng this).2, this⟩
  · obtain ⟨b, hb⟩ := Option.ne_none_iff_exists'.mp hw
    have := Or.inr (a := (s.ctl b).reads = true) ((h.lock.wr b).mp hb)
    exact .inr ⟨b, (eng this).1, (eng this).2, this⟩

/-- The key an agent asks for, before its call returns. -/
def Ctl.asks : Ctl K V → Option K
  | .start k | .seek k | .saw k _ _ | .bump k _ _ | .tally k _ | .created k | .joining k _ | .starting k _ _ | .waiting k _
  | .claimed k _ | .rejoining k _ => some k
  | _ => none

/-- Calls are begun by `begin` only. -/
theorem Eff.asks (he : Eff c s act s' evs) {a : Nat} {k : K} (h : (s'.ctl a).asks = some k) :
    (s.ctl a).asks = some k ∨ ∃ kind, act = .begin kind k ∧ a = s.next := by
  have key : ∀ {d : Nat} {x : Ctl K V}, (x.asks = some k → (s.ctl d).asks = some k) → (update s.ctl d x a).asks = some k →
      (s.ctl a).asks = some k := by
    intro d x h1 h2
    by_cases hd : a = d
    · subst hd
      rw [Function.update_self] at h2
      exact h1 h2
    · rw [Function.update_of_ne hd] at h2
      exact h2
  cases he
  case begin kind k' hk =>
    by_cases hd : a = s.next
    · subst hd
      simp only [Function.update_self, Ctl.asks, Option.some.injEq] at h
      subst h
      exact .inr ⟨kind, rfl, rfl⟩
    · simp only [Function.update_of_ne hd] at h
      exact .inl h
  case read => exact .inl h
  case write => exact .inl h
  case pending => exact .inl h
  case guard d k q w hc => cases w <;> exact .inl (key (fun h => by simp [Ctl.asks] at h) h)
  case load d k2 t v h1 n old =>
    refine .inl (key (fun h => ?_) h)
    rw [h1]
    split at h <;> exact h
  all_goals
    refine .inl (key (fun h => ?_) h)
    first
    | (simp [Ctl.asks] at h; done)
    | (rename_i h1 _ _; rw [h1]; exact h)
    | (rename_i h1 _ _ _; rw [h1]; exact h)
    | (rename_i h1 _ _ _ _; rw [h1]; exact h)
    | (rename_i h1 _ _ _ _ _; rw [h1]; exact h)

/-- The kind of a call never changes. -/
theorem Eff.kind_same (he : Eff c s act s' evs) {a : Nat} (ha : a < s.next) : s'.kind a = s.kind a := by
  cases he
  case begin kind k hk => exact Function.update_of_ne (by omega) _ _
  case guard d k q w hc => cases w <;> rfl
  all_goals rfl

/-- A call that cannot return as long as the load `p` of key `k` goes on. -/
def Held (s : State K V) (a : Nat) (k : K) (p : Plh) : Prop :=
  s.kind a ≠ .get ∧ (s.ctl a = .start k ∨ s.ctl a = .seek k ∨ s.ctl a = .tally k none ∨ s.ctl a = .created k ∨
    s.ctl a = .joining k p ∨ (s.ctl a = .waiting k p ∧ s.flag a = false))

omit [DecidableEq K] in
theorem Held.engaged {a : Nat} {k : K} {p : Plh} (h : Held s a k p) : (s.ctl a).engaged = true := by
  obtain ⟨-, h | h | h | h | h | h⟩ := h
  all_goals first | (rw [h]; rfl) | (rw [h.1]; rfl)

/-- It stays so. -/
theorem Eff.held (he : Eff c s act s' evs) (hi : CInv c s) {a b : Nat} {k : K} {p : Plh} (ha : Held s a k p)
    (hg : s.ctl b = .guard k p) (hl : PLive c s.shard k p) (hb : act.agent ≠ some b) (ht : act ≠ .timeout a)
    (hc : act ≠ .cancel a) : Held s' a k p := by
  have hlt : a < s.next := hi.lt_next rfl (by intro h; have := ha.engaged; rw [h] at this; cases this)
  refine ⟨by rw [he.kind_same hlt]; exact ha.1, ?_⟩
  by_cases hag : act.agent = some a
  · have noRes := hl.noRes hi.shard.toInv0
    have hat : At s.plh k p (· = .loading) := hi.at hg
    obtain ⟨ps, hp1, hp2, hp3, hp4⟩ := hat
    obtain ⟨hk, hpos⟩ := ha
    cases he <;> simp only [Act.agent, Option.some.injEq, reduceCtorEq] at hag <;> subst hag
    case enter d w k2 h1 h2 =>
      rw [h1] at hpos
      have hk2 : k2 = k := by simpa using hpos
      subst hk2
      exact .inr (.inl (Function.update_self ..))
    case located d k2 h1 t r h2 h3 =>
      rw [h1] at hpos
      have hk2 : k2 = k := by simpa using hpos
      exact absurd (h3.trans hk2) (noRes t r h2)
    case absent d k2 h1 h2 =>
      rw [h1] at hpos
      have hk2 : k2 = k := by simpa using hpos
      subst hk2
      exact .inr (.inr (.inl (Function.update_self ..)))
    case miss d k2 sh h1 h2 h3 => exact absurd h2 hk
    case goOn d k2 sh h1 h2 h3 =>
      rw [h1] at hpos
      have hk2 : k2 = k := by simpa using hpos
      subst hk2
      exact .inr (.inr (.inr (.inl (Function.update_self ..))))
    case found d k2 v sh h1 h2 h3 h4 =>
      rw [h1] at hpos
      have hk2 : k2 = k := by simpa using hpos
      cases h4 with
      | found t r hk wrote hits misses plh np => exact absurd (hk.trans hk2) (noRes t r wrote.upd.before)
    case created d k2 q sh h1 h2 h3 h4 =>
      rw [h1] at hpos
      have hk2 : k2 = k := by simpa using hpos
      cases h4 with
      | created hp hno plh id np => rw [hk2] at hno; exact absurd hno hl.noKey
    case joining d k2 q sh h1 h2 h3 h4 =>
      rw [h1] at hpos
      have hk2 : k2 = k := by simpa using hpos
      cases h4 with
      | joined hp hl' =>
        subst hk2
        rw [hl'.uniq hi.shard.toInv0 hl]
        exact .inr (.inr (.inr (.inr (.inl (Function.update_self ..)))))
    case enlist d k2 q ps2 h1 h2 h3 h4 h5 =>
      rw [h1] at hpos
      have hk2 : k2 = k ∧ q = p := by simpa using hpos
      obtain ⟨rfl, rfl⟩ := hk2
      exact .inr (.inr (.inr (.inr (.inr ⟨Function.update_self .., Function.update_self ..⟩))))
    case late d k2 q ps2 v h1 h2 h3 h4 h5 =>
      rw [h1] at hpos
      have hk2 : k2 = k ∧ q = p := by simpa using hpos
      obtain ⟨rfl, rfl⟩ := hk2
      rw [hp1] at h2
      cases h2
      rw [hp4] at h5
      cases h5
    case pending d w k2 q h1 h2 h3 => exact hpos
    case wake d k2 q tid t h1 h2 h3 => rw [h1, h3] at hpos; simp at hpos
    case claim d w k2 q h1 h2 h3 => rw [h1, h3] at hpos; simp at hpos
    case timely => exact absurd rfl ht
    case timeout => exact absurd rfl ht
    case unpolled => exact absurd rfl hc
    case cancelOwner => exact absurd rfl hc
    case cancelDone => exact absurd rfl hc
    case cancel => exact absurd rfl hc
    case load d k2 t v h1 n old => rw [h1] at hpos; simp at hpos
    case guard d k2 q w h1 => rw [h1] at hpos; simp at hpos
    all_goals
      exfalso
      first
      | (rename_i h1; rw [h1] at hpos; simp at hpos)
      | (rename_i h1 _; rw [h1] at hpos; simp at hpos)
      | (rename_i h1 _ _; rw [h1] at hpos; simp at hpos)
      | (rename_i h1 _ _ _; rw [h1] at hpos; simp at hpos)
      | (rename_i h1 _ _ _ _; rw [h1] at hpos; simp at hpos)
      | (rename_i h1 _ _ _ _ _; rw [h1] at hpos; simp at hpos)
      | (rename_i h1 _ _ _ _ _ _; rw [h1] at hpos; simp at hpos)
  · have hsame := he.ctl_other hag (fun _ _ _ => by omega)
    obtain ⟨hk, h | h | h | h | h | ⟨h, hf⟩⟩ := ha
    · exact .inl (hsame.trans h)
    · exact .inr (.inl (hsame.trans h))
    · exact .inr (.inr (.inl (hsame.trans h)))
    · exact .inr (.inr (.inr (.inl (hsame.trans h))))
    · exact .inr (.inr (.inr (.inr (.inl (hsame.trans h)))))
    · refine .inr (.inr (.inr (.inr (.inr ⟨hsame.trans h, ?_⟩))))
      exact (he.waits_stay hi ⟨⟨k, h⟩, hf⟩ hg hb ht hc).2

end QuickCache.Conc

namespace QuickCache.Nest
variable {K V RS : Type} [DecidableEq K] {c : Cfg K V RS} {s s' s0 : State K V} {act : Act K V} {P Q : State K V → Act K V → Prop}
  {evs tr : List (Nat × Conc.Ev K V)}
open Unsync Spec
open Conc (Ctl Cache Eff CInv)

/-! ### What actions do -/

omit [DecidableEq K] in
theorem free_iff {t i a : Nat} : free s t i a = true ↔ ∀ j st b, s.cache.shards[j]? = some st → b < st.next →
    (j = i ∧ b = a) ∨ s.owner j b ≠ t ∨ (st.ctl b).engaged = false := by
  simp only [free, List.all_eq_true, List.mem_range, Bool.or_eq_true, Bool.and_eq_true, beq_iff_eq, bne_iff_ne,
    Bool.not_eq_true', Prod.forall, List.mem_zipIdx_iff_getElem?]
  constructor
  · intro h j st b h1 h2
    rcases h st j h1 b h2 with (h | h) | h
    · exact .inl h
    · exact .inr (.inl h)
    · exact .inr (.inr h)
  · intro h st j h1 b h2
    rcases h j st b h1 h2 with h | h | h
    · exact .inl (.inl h)
    · exact .inl (.inr h)
    · exact .inr h

/-- An action that returns. -/
inductive Did (c : Cfg K V RS) (s : State K V) : Act K V → State K V → List (Nat × Conc.Ev K V) → Prop
  | begin {t i : Nat} {kind : Conc.Kind} {k : K} {y : Cache K V} {evs : List (Conc.Ev K V)} (hf : fits t kind = true)
      (ht : free s t i (fresh s i) = true) (hs : s.cache.exec c i (.begin kind k) = some (.ok (y, evs))) :
      Did c s (.begin t i kind k) ⟨y, fun j b => if j = i ∧ b = fresh s i then t else s.owner j b⟩
        (evs.map (fun e => (i, e)))
  | act {i : Nat} {x : Conc.Act K V} {y : Cache K V} {evs : List (Conc.Ev K V)} (hb : ∀ kind k, x ≠ .begin kind k)
      (ht : ∀ a, x.agent = some a → free s (s.owner i a) i a = true)
      (hs : s.cache.exec c i x = some (.ok (y, evs))) : Did c s (.act i x) ⟨y, s.owner⟩ (evs.map (fun e => (i, e)))

theorem lift_some {i : Nat} {x : Conc.Act K V} {o : Nat → Nat → Nat} (h : lift c s i x o = some (.ok (s', evs))) :
    ∃ y es, s.cache.exec c i x = some (.ok (y, es)) ∧ s' = ⟨y, o⟩ ∧ evs = es.map (fun e => (i, e)) := by
  unfold lift at h
  split at h
  · cases h
  · rename_i r hr
    cases r with
    | error e => cases h
    | ok z =>
      obtain ⟨y, es⟩ := z
      cases h
      exact ⟨y, es, hr, rfl, rfl⟩

theorem exec_did (h : exec c s act = some (.ok (s', evs))) : Did c s act s' evs := by
  cases act with
  | begin t i kind k =>
    simp only [exec] at h
    split at h
    · rename_i hc
      rw [Bool.and_eq_true] at hc
      obtain ⟨y, es, h1, rfl, rfl⟩ := lift_some h
      exact .begin hc.1 hc.2 h1
    · cases h
  | act i x =>
    simp only [exec] at h
    split at h
    · cases h
    · rename_i a hn ha
      split at h
      · rename_i hf
        obtain ⟨y, es, h1, rfl, rfl⟩ := lift_some h
        refine .act (fun kind k hx => hn kind k hx) ?_ h1
        intro b hb
        rw [ha] at hb
        cases hb
        exact hf
      · cases h
    · rename_i hn ha
      obtain ⟨y, es, h1, rfl, rfl⟩ := lift_some h
      refine .act (fun kind k hx => hn kind k hx) ?_ h1
      intro b hb
      rw [ha] at hb
      cases hb

theorem Did.cache (h : Did c s act s' evs) : ∃ i x es, s.cache.exec c i x = some (.ok (s'.cache, es)) ∧ evs = es.map (fun e => (i, e)) := by
  cases h with
  | begin hf ht hx => exact ⟨_, _, _, hx, rfl⟩
  | act hb ht hx => exact ⟨_, _, _, hx, rfl⟩

theorem Run.cache {s0 : State K V} (hr : Run c P s0 tr s) : Cache.Run c s0.cache tr s.cache := by
  induction hr with
  | start => exact .start
  | layout m p hr hi hm hp ih => exact .layout m p ih hi hm hp
  | act hr hP hs ih =>
    obtain ⟨i, x, es, h1, rfl⟩ := (exec_did hs).cache
    exact .act ih h1

theorem Run.weaken {s0 : State K V} (hr : Run c P s0 tr s) (hPQ : ∀ s act, P s act → Q s act) : Run c Q s0 tr s := by
  induction hr with
  | start => exact .start
  | layout m p hr hi hm hp ih => exact .layout m p ih hi hm hp
  | act hr hP hs ih => exact .act ih (hPQ _ _ hP) hs

theorem Run.append {s0 s1 : State K V} {t1 : List (Nat × Conc.Ev K V)} (h0 : Run c P s0 t1 s1) (hr : Run c P s1 tr s) :
    Run c P s0 (t1 ++ tr) s := by
  induction hr with
  | start => simpa using h0
  | layout m p hr hi hm hp ih => exact .layout m p ih hi hm hp
  | act hr hP hs ih => rw [← List.append_assoc]; exact .act ih hP hs

/-- The next step of an agent whose strand is free. -/
theorem exec_ne_none {i : Nat} {st : Conc.State K V} {x : Conc.Act K V} {a : Nat} (hi : s.cache.shards[i]? = some st)
    (ha : x.agent = some a) (hf : free s (s.owner i a) i a = true) (hx : Conc.exec c st x ≠ none) :
    exec c s (.act i x) ≠ none := by
  have h1 : s.cache.exec c i x ≠ none := by
    unfold Conc.Cache.exec
    have : s.cache.routes c i x = true := by
      unfold Conc.Cache.routes
      cases x <;> first | rfl | cases ha
    rw [if_pos this]
    simp only [hi]
    split
    · contradiction
    · simp
  have h2 : lift c s i x s.owner ≠ none := by
    unfold lift
    split
    · contradiction
    · simp
  simp only [exec]
  split
  · cases ha
  · rename_i b hn hb
    rw [ha] at hb
    cases hb
    rw [if_pos hf]
    exact h2
  · exact h2

theorem exec_some {i : Nat} {st : Conc.State K V} {x : Conc.Act K V} {a : Nat} (hi : s.cache.shards[i]? = some st)
    (ha : x.agent = some a) (h : exec c s (.act i x) ≠ none) : free s (s.owner i a) i a = true ∧ Conc.exec c st x ≠ none := by
  have key : ∀ o, Conc.exec c st x = none → lift c s i x o = none := by
    intro o hx
    have : s.cache.exec c i x = none := by
      unfold Conc.Cache.exec
      split
      · simp only [hi, hx]
      · rfl
    unfold lift
    rw [this]
  simp only [exec] at h
  split at h
  · exact absurd rfl h
  · rename_i b hn hb
    rw [ha] at hb
    cases hb
    split at h
    · rename_i hf
      exact ⟨hf, fun hx => h (key _ hx)⟩
    · exact absurd rfl h
  · rename_i hn hb
    rw [ha] at hb
    cases hb

/-! ### The invariant: a strand does one thing at a time -/

/-- No strand is in the middle of two calls. -/
def Single (s : State K V) : Prop :=
  ∀ i st a j st' b, s.cache.shards[i]? = some st → s.cache.shards[j]? = some st' → (st.ctl a).engaged = true →
    (st'.ctl b).engaged = true → s.owner i a = s.owner j b → i = j ∧ a = b

/-- The shards are reachable. -/
def AllInv (c : Cfg K V RS) (s : State K V) : Prop := ∀ (i : Nat) (st : Conc.State K V), s.cache.shards[i]? = some st → CInv c st

omit [DecidableEq K] in
theorem engaged_ne {x : Ctl K V} (h : x.engaged = true) : x ≠ .idle := by rintro rfl; cases h

/-- What an action changes. -/
structure Moved (c : Cfg K V RS) (s s' : State K V) (i : Nat) (x : Conc.Act K V) (st st' : Conc.State K V) : Prop where
  at_ : s.cache.shards[i]? = some st
  at_' : s'.cache.shards[i]? = some st'
  other : ∀ j, j ≠ i → s'.cache.shards[j]? = s.cache.shards[j]?
  eff : ∃ evs, Eff c st x st' evs

theorem moved (hS : AllInv c s) (hq : c.ptrEq = true) {i : Nat} {x : Conc.Act K V} {y : Cache K V} {es : List (Conc.Ev K V)}
    (hs : s.cache.exec c i x = some (.ok (y, es))) (hy : s'.cache = y) : ∃ st st', Moved c s s' i x st st' := by
  obtain ⟨-, st, st', hst, hex, rfl⟩ := Conc.Cache.exec_some hs
  have hl : i < s.cache.shards.length := (List.getElem?_eq_some_iff.1 hst).1
  refine ⟨st, st', hst, ?_, ?_, es, (hS i st hst).eff hq hex⟩
  · rw [hy]
    exact List.getElem?_set_self hl
  · intro j hj
    rw [hy]
    exact List.getElem?_set_ne (Ne.symm hj)

theorem Moved.sound {i : Nat} {x : Conc.Act K V} {st st' : Conc.State K V} (h : Moved c s s' i x st st') (hS : AllInv c s) :
    AllInv c s' := by
  intro j st1 hj
  by_cases hji : j = i
  · subst hji
    rw [h.at_'] at hj
    cases hj
    obtain ⟨evs, he⟩ := h.eff
    exact he.keeps (hS _ _ h.at_)
  · rw [h.other j hji] at hj
    exact hS j st1 hj

theorem Run.sound (hr : Run c P s0 tr s) (hq : c.ptrEq = true) (h0 : AllInv c s0) : AllInv c s := by
  induction hr with
  | start => exact h0
  | @layout tr s i st m p hr hi hm hp ih =>
    intro j st1 hj
    have hl : i < s.cache.shards.length := (List.getElem?_eq_some_iff.1 hi).1
    by_cases hji : j = i
    · subst hji
      simp only [List.getElem?_set_self hl] at hj
      cases hj
      exact (ih _ _ hi).relayout hm hp
    · simp only [List.getElem?_set_ne (Ne.symm hji)] at hj
      exact ih j st1 hj
  | act hr hP hs ih =>
    have hd := exec_did hs
    cases hd with
    | begin hf ht hx =>
      obtain ⟨st, st', hm⟩ := moved ih hq hx (s' := ⟨_, _⟩) rfl
      exact hm.sound ih
    | act hb ht hx =>
      obtain ⟨st, st', hm⟩ := moved ih hq hx (s' := ⟨_, _⟩) rfl
      exact hm.sound ih

/-- Where an agent that was engaged after the action was before. -/
theorem Single.step (h : Single s) (hS : AllInv c s) (hq : c.ptrEq = true) (hs : exec c s act = some (.ok (s', evs))) :
    Single s' := by
  have hd := exec_did hs
  cases hd with
  | @begin t i kind k y es hf ht hx =>
    obtain ⟨st, st', hm⟩ := moved hS hq hx (s' := ⟨y, fun j b => if j = i ∧ b = fresh s i then t else s.owner j b⟩) rfl
    obtain ⟨es', he⟩ := hm.eff
    have hfr : fresh s i = st.next := by unfold fresh; rw [hm.at_]
    rw [free_iff] at ht
    -- the engaged agents afterwards: those from before and the new one
    have back : ∀ {j : Nat} {st1 : Conc.State K V} {b : Nat}, y.shards[j]? = some st1 → (st1.ctl b).engaged = true →
        (j = i ∧ b = fresh s i) ∨ (¬ (j = i ∧ b = fresh s i) ∧ ∃ st2, s.cache.shards[j]? = some st2 ∧ (st2.ctl b).engaged = true) := by
      intro j st1 b h1 h2
      by_cases hji : j = i
      · subst hji
        have := hm.at_'
        rw [h1] at this
        cases this
        by_cases hb : b = fresh s j
        · exact .inl ⟨rfl, hb⟩
        · refine .inr ⟨fun h => hb h.2, st, hm.at_, ?_⟩
          rw [← he.ctl_other (by simp [Conc.Act.agent]) (fun _ _ _ => by rw [← hfr]; exact hb)]
          exact h2
      · refine .inr ⟨fun h => hji h.1, st1, ?_, h2⟩
        rw [← hm.other j hji]
        exact h1
    have clash : ∀ {j : Nat} {st2 : Conc.State K V} {b : Nat}, s.cache.shards[j]? = some st2 → (st2.ctl b).engaged = true →
        ¬ (j = i ∧ b = fresh s i) → s.owner j b ≠ t := by
      intro j st2 b h1 h2 h3
      have hl : b < st2.next := (hS j st2 h1).lt_next rfl (engaged_ne h2)
      rcases ht j st2 b h1 hl with h | h | h
      · exact absurd h h3
      · exact h
      · rw [h2] at h; cases h
    intro j st1 a j' st1' b h1 h2 h3 h4 ho
    simp only at ho
    rcases back h1 h3 with h5 | ⟨h5, st2, h6, h7⟩ <;> rcases back h2 h4 with h8 | ⟨h8, st3, h9, h10⟩
    · exact ⟨h5.1.trans h8.1.symm, h5.2.trans h8.2.symm⟩
    · rw [if_pos h5, if_neg h8] at ho
      exact absurd ho.symm (clash h9 h10 h8)
    · rw [if_neg h5, if_pos h8] at ho
      exact absurd ho (clash h6 h7 h5)
    · rw [if_neg h5, if_neg h8] at ho
      exact h j st2 a j' st3 b h6 h9 h7 h10 ho
  | @act i x y es hb ht hx =>
    obtain ⟨st, st', hm⟩ := moved hS hq hx (s' := ⟨y, s.owner⟩) rfl
    obtain ⟨es', he⟩ := hm.eff
    have back : ∀ {j : Nat} {st1 : Conc.State K V} {b : Nat}, y.shards[j]? = some st1 → (st1.ctl b).engaged = true →
        (j = i ∧ x.agent = some b) ∨ (¬ (j = i ∧ x.agent = some b) ∧ ∃ st2, s.cache.shards[j]? = some st2 ∧ (st2.ctl b).engaged = true) := by
      intro j st1 b h1 h2
      by_cases hji : j = i
      · subst hji
        have := hm.at_'
        rw [h1] at this
        cases this
        by_cases hb' : x.agent = some b
        · exact .inl ⟨rfl, hb'⟩
        · refine .inr ⟨fun h => hb' h.2, st, hm.at_, ?_⟩
          rw [← he.ctl_other hb' (fun kind k h => absurd h (hb kind k))]
          exact h2
      · refine .inr ⟨fun h => hji h.1, st1, ?_, h2⟩
        rw [← hm.other j hji]
        exact h1
    have clash : ∀ {a j : Nat} {st2 : Conc.State K V} {b : Nat}, x.agent = some a → s.cache.shards[j]? = some st2 →
        (st2.ctl b).engaged = true → ¬ (j = i ∧ b = a) → s.owner j b ≠ s.owner i a := by
      intro a j st2 b ha h1 h2 h3
      have ht := free_iff.1 (ht a ha)
      have hl : b < st2.next := (hS j st2 h1).lt_next rfl (engaged_ne h2)
      rcases ht j st2 b h1 hl with h | h | h
      · exact absurd h h3
      · exact h
      · rw [h2] at h; cases h
    intro j st1 a j' st1' b h1 h2 h3 h4 ho
    simp only at ho
    rcases back h1 h3 with ⟨h5, h6⟩ | ⟨h5, st2, h6, h7⟩ <;> rcases back h2 h4 with ⟨h8, h9⟩ | ⟨h8, st3, h9, h10⟩
    · rw [h6] at h9
      cases h9
      exact ⟨h5.trans h8.symm, rfl⟩
    · subst h5
      refine absurd ho.symm (clash h6 h9 h10 ?_)
      rintro ⟨rfl, rfl⟩
      exact h8 ⟨rfl, h6⟩
    · subst h8
      refine absurd ho (clash h9 h6 h7 ?_)
      rintro ⟨rfl, rfl⟩
      exact h5 ⟨rfl, h9⟩
    · exact h j st2 a j' st3 b h6 h9 h7 h10 ho

theorem Run.single (hr : Run c P s0 tr s) (hq : c.ptrEq = true) (hS : AllInv c s0) (h0 : Single s0) : Single s := by
  induction hr with
  | start => exact h0
  | @layout tr s i st m p hr hi hm hp ih =>
    have hl : i < s.cache.shards.length := (List.getElem?_eq_some_iff.1 hi).1
    have back : ∀ {j : Nat} {st1 : Conc.State K V},
        (s.cache.shards.set i { st with shard := st.shard.relayout m p })[j]? = some st1 →
        ∃ st2, s.cache.shards[j]? = some st2 ∧ st2.ctl = st1.ctl := by
      intro j st1 hj
      by_cases hji : j = i
      · subst hji
        simp only [List.getElem?_set_self hl] at hj
        cases hj
        exact ⟨st, hi, rfl⟩
      · simp only [List.getElem?_set_ne (Ne.symm hji)] at hj
        exact ⟨st1, hj, rfl⟩
    intro j st1 a j' st1' b h1 h2 h3 h4 ho
    obtain ⟨st2, h5, h6⟩ := back h1
    obtain ⟨st3, h7, h8⟩ := back h2
    rw [← h6] at h3
    rw [← h8] at h4
    exact ih j st2 a j' st3 b h5 h7 h3 h4 ho
  | act hr hP hs ih => exact ih.step (hr.sound hq hS) hq hs

/-! ### Somebody can go on, or there is a deadlock -/

/-- An agent that is not waiting and has the lock if it is not free, and whose strand is not elsewhere, can go on. -/
theorem can_go_on (hS : AllInv c s) {i : Nat} {st : Conc.State K V} (hi : s.cache.shards[i]? = some st) {a : Nat}
    (hf : free s (s.owner i a) i a = true) (ha : st.ctl a ≠ .idle) (hw : ∀ p, ¬ Waits st a p)
    (hl : (st.writer = none ∧ st.readers = []) ∨ (st.ctl a).reads = true ∨ (st.ctl a).writes = true) : CanGoOn c s := by
  obtain ⟨act, h1, h2, h3⟩ := (hS i st hi).agent_due ha hw hl
  exact ⟨i, st, act, hi, h1, exec_ne_none hi h2 hf h3⟩

omit [DecidableEq K] in
theorem Single.free (h : Single s) {i : Nat} {st : Conc.State K V} (hi : s.cache.shards[i]? = some st) {a : Nat}
    (ha : (st.ctl a).engaged = true) : Nest.free s (s.owner i a) i a = true := by
  rw [free_iff]
  intro j st' b hj hb
  cases he : (st'.ctl b).engaged with
  | false => exact .inr (.inr rfl)
  | true =>
    by_cases ho : s.owner j b = s.owner i a
    · exact .inl (h j st' b i st a hj hi he ha ho)
    · exact .inr (.inl ho)

/-- If nobody can go on, all active strands form a deadlock. -/
theorem stuck (hS : AllInv c s) (h1 : Single s) (hn : ¬ CanGoOn c s) {t : Nat} (ht : Active s t) :
    ∃ u, Active s u ∧ WaitsOn s t u := by
  have unlocked : ∀ (i : Nat) (st : Conc.State K V), s.cache.shards[i]? = some st → st.writer = none ∧ st.readers = [] := by
    intro i st hi
    rcases (hS i st hi).lock_or with h | ⟨a, h2, h3, h4⟩
    · exact h
    · exact absurd (can_go_on hS hi (h1.free hi h2) (engaged_ne h2) h3 (.inr h4)) hn
  have waits : ∀ (i : Nat) (st : Conc.State K V) (a : Nat), s.cache.shards[i]? = some st → (st.ctl a).engaged = true → ∃ p, Waits st a p := by
    intro i st a hi ha
    by_contra hw
    exact hn (can_go_on hS hi (h1.free hi ha) (engaged_ne ha) (fun p hp => hw ⟨p, hp⟩) (.inl (unlocked i st hi)))
  -- the strand is in a call
  have call : ∃ i st a, s.cache.shards[i]? = some st ∧ s.owner i a = t ∧ (st.ctl a).engaged = true := by
    by_contra hc
    obtain ⟨i, st, a, hi, ho, ha⟩ := ht
    refine hn (can_go_on hS hi (a := a) ?_ ha ?_ (.inl (unlocked i st hi)))
    · rw [free_iff]
      intro j st' b hj hb
      cases he : (st'.ctl b).engaged with
      | false => exact .inr (.inr rfl)
      | true =>
        refine .inr (.inl fun ho' => hc ⟨j, st', b, hj, ho'.trans ho, he⟩)
    · rintro p ⟨⟨k, hk⟩, -⟩
      exact hc ⟨i, st, a, hi, ho, by rw [hk]; rfl⟩
  obtain ⟨i, st, a, hi, ho, ha⟩ := call
  obtain ⟨p, hp⟩ := waits i st a hi ha
  have hc := hS i st hi
  obtain ⟨ps, h2, h3, -, h5⟩ := hc.waits hp
  obtain ⟨b, hb⟩ := hc.entitled_exists ⟨ps, h2, h3, h5⟩
  have nb : ∀ {x : Ctl K V}, st.ctl b = x → x.engaged = true → (∀ q, ¬ Waits st b q) → False := by
    intro x h6 h7 h8
    obtain ⟨q, h9⟩ := waits i st b hi (by rw [h6]; exact h7)
    exact h8 q h9
  cases hb with
  | guard k h => exact ⟨s.owner i b, ⟨i, st, b, hi, rfl, by rw [h]; simp⟩, i, st, a, b, k, p, hi, ho, rfl, hp, h⟩
  | starting k w h => exact (nb h rfl (by rintro q ⟨⟨k, h'⟩, -⟩; rw [h] at h'; cases h')).elim
  | leaving k h => exact (nb h rfl (by rintro q ⟨⟨k, h'⟩, -⟩; rw [h] at h'; cases h')).elim
  | dropping k h => exact (nb h rfl (by rintro q ⟨⟨k, h'⟩, -⟩; rw [h] at h'; cases h')).elim
  | abandoning k h => exact (nb h rfl (by rintro q ⟨⟨k, h'⟩, -⟩; rw [h] at h'; cases h')).elim
  | notified k h f pd => exact (nb h rfl (by rintro q ⟨-, h'⟩; rw [f] at h'; cases h')).elim
  | claimed k h pd => exact (nb h rfl (by rintro q ⟨⟨k, h'⟩, -⟩; rw [h] at h'; cases h')).elim
  | rejoining k h pd => exact (nb h rfl (by rintro q ⟨⟨k, h'⟩, -⟩; rw [h] at h'; cases h')).elim

/-- A strand that waits can do nothing else. -/
theorem waiting_stuck (hS : AllInv c s) {t u : Nat} (hw : WaitsOn s t u) {i a : Nat} {st : Conc.State K V} {x : Conc.Act K V}
    (hi : s.cache.shards[i]? = some st) (hx : Due st x) (ha : x.agent = some a) (ho : s.owner i a = t) :
    exec c s (.act i x) = none := by
  by_contra hn
  obtain ⟨hf, he⟩ := exec_some hi ha hn
  obtain ⟨j, st1, d, b, k, p, hj, hod, -, hw, -⟩ := hw
  obtain ⟨⟨k', hd⟩, -⟩ := id hw
  have hl : d < st1.next := (hS j st1 hj).lt_next hd (by simp)
  rcases free_iff.1 hf j st1 d hj hl with ⟨rfl, rfl⟩ | h | h
  · rw [hi] at hj
    cases hj
    exact he (Conc.waits_none hw hx ha)
  · exact h (hod.trans ho.symm)
  · rw [hd] at h
    cases h

/-! ### A deadlock stays -/

/-- Waiting is kept by every action if the other strand waits as well and the first one does not give up. -/
theorem waitsOn_step {T : Nat → Prop} (hS : AllInv c s) (hq : c.ptrEq = true) (hs : exec c s act = some (.ok (s', evs)))
    (hP : Patient T s act) {t u w : Nat} (ht : T t) (h : WaitsOn s t u) (h' : WaitsOn s u w) : WaitsOn s' t u := by
  obtain ⟨i, st, a, b, k, p, hi, ho, ho', hw, hg⟩ := h
  obtain ⟨j, st1, d, -, -, q, hj, hod, -, ⟨⟨kd, hd⟩, -⟩, -⟩ := h'
  have hC := hS i st hi
  have hwa : st.ctl a ≠ .idle := by obtain ⟨⟨k, h⟩, -⟩ := hw; rw [h]; simp
  have hla : a < st.next := hC.lt_next rfl hwa
  have hlb : b < st.next := hC.lt_next hg (by simp)
  have hld : d < st1.next := (hS j st1 hj).lt_next hd (by simp)
  have hd' := exec_did hs
  cases hd' with
  | @begin t' i' kind k' y es hf hfree hx =>
    obtain ⟨st2, st2', hm⟩ := moved hS hq hx
      (s' := ⟨y, fun j b => if j = i' ∧ b = fresh s i' then t' else s.owner j b⟩) rfl
    by_cases hii : i = i'
    · subst hii
      have h2 := hm.at_
      rw [hi] at h2
      cases h2
      obtain ⟨es', he⟩ := hm.eff
      have hfr : fresh s i = st.next := by unfold fresh; rw [hi]
      refine ⟨i, st2', a, b, k, p, hm.at_', ?_, ?_, he.waits_stay hC hw hg (by simp [Conc.Act.agent]) (by simp) (by simp), ?_⟩
      · simp only
        rw [if_neg (by rw [hfr]; omega)]
        exact ho
      · simp only
        rw [if_neg (by rw [hfr]; omega)]
        exact ho'
      · rw [he.ctl_other (by simp [Conc.Act.agent]) (fun _ _ _ => by omega)]
        exact hg
    · refine ⟨i, st, a, b, k, p, (hm.other i hii).trans hi, ?_, ?_, hw, hg⟩
      · simp only
        rw [if_neg (fun h => hii h.1)]
        exact ho
      · simp only
        rw [if_neg (fun h => hii h.1)]
        exact ho'
  | @act i' x y es hb hfree hx =>
    obtain ⟨st2, st2', hm⟩ := moved hS hq hx (s' := ⟨y, s.owner⟩) rfl
    by_cases hii : i = i'
    · subst hii
      have h2 := hm.at_
      rw [hi] at h2
      cases h2
      obtain ⟨es', he⟩ := hm.eff
      -- the holder of the guard is waiting elsewhere
      have hxb : x.agent ≠ some b := by
        intro hx
        rcases free_iff.1 (hfree b hx) j st1 d hj hld with ⟨h1, h2⟩ | h | h
        · subst h1 h2
          rw [hi] at hj
          cases hj
          rw [hg] at hd
          cases hd
        · exact h (hod.trans ho'.symm)
        · rw [hd] at h; cases h
      refine ⟨i, st2', a, b, k, p, hm.at_', ho, ho', he.waits_stay hC hw hg hxb ?_ ?_, ?_⟩
      · rintro rfl
        exact hP (by rw [ho]; exact ht)
      · rintro rfl
        exact hP (by rw [ho]; exact ht)
      · rw [he.ctl_other hxb (fun kind k h => absurd h (hb kind k))]
        exact hg
    · exact ⟨i, st, a, b, k, p, (hm.other i hii).trans hi, ho, ho', hw, hg⟩

omit [DecidableEq K] in
theorem waitsOn_layout {i : Nat} {st : Conc.State K V} {m : List (UInt64 × Nat)} {p : UInt64 → UInt64 → Bool}
    (hi : s.cache.shards[i]? = some st) {t u : Nat} (h : WaitsOn s t u) :
    WaitsOn { s with cache := { s.cache with shards := s.cache.shards.set i { st with shard := st.shard.relayout m p } } } t u := by
  obtain ⟨j, st1, a, b, k, q, hj, ho, ho', hw, hg⟩ := h
  have hl : i < s.cache.shards.length := (List.getElem?_eq_some_iff.1 hi).1
  by_cases hji : j = i
  · subst hji
    rw [hi] at hj
    cases hj
    exact ⟨j, _, a, b, k, q, List.getElem?_set_self hl, ho, ho', hw, hg⟩
  · exact ⟨j, st1, a, b, k, q, (List.getElem?_set_ne (Ne.symm hji)).trans hj, ho, ho', hw, hg⟩

theorem Run.deadlock {T : Nat → Prop} (hr : Run c (Patient T) s0 tr s) (hq : c.ptrEq = true) (hS : AllInv c s0)
    (h0 : Deadlock s0 T) : ∀ t u, T t → T u → WaitsOn s0 t u → WaitsOn s t u := by
  induction hr with
  | start => exact fun t u _ _ h => h
  | layout m p hr hi hm hp ih => exact fun t u h1 h2 h => waitsOn_layout hi (ih t u h1 h2 h)
  | act hr hP hs ih =>
    intro t u h1 h2 h
    obtain ⟨w, h3, h4⟩ := h0.2 u h2
    exact waitsOn_step (hr.sound hq hS) hq hs hP h1 (ih t u h1 h2 h) (ih u w h2 h3 h4)

/-! ### Circles -/

omit [DecidableEq K] in
/-- The strands that are active are finitely many. -/
theorem active_finite (hS : ∀ (i : Nat) (st : Conc.State K V), s.cache.shards[i]? = some st → ∀ a, st.ctl a ≠ .idle → a < st.next) :
    ∃ l : List Nat, ∀ t, Active s t → t ∈ l := by
  refine ⟨s.cache.shards.zipIdx.flatMap (fun x => (List.range x.1.next).map (fun a => s.owner x.2 a)), ?_⟩
  rintro t ⟨i, st, a, hi, ho, ha⟩
  rw [List.mem_flatMap]
  refine ⟨(st, i), List.mem_zipIdx_iff_getElem?.2 hi, ?_⟩
  rw [List.mem_map]
  exact ⟨a, List.mem_range.2 (hS i st hi a ha), ho⟩

omit [DecidableEq K] in
theorem WaitsOn.active {t u : Nat} (h : WaitsOn s t u) : Active s t := by
  obtain ⟨i, st, a, b, k, p, hi, ho, ho', ⟨⟨k', h'⟩, -⟩, hg⟩ := h
  exact ⟨i, st, a, hi, ho, by rw [h']; simp⟩

theorem circle_of_deadlock (hS : AllInv c s) {T : Nat → Prop} (h : Deadlock s T) : ∃ t, T t ∧ Circle s t := by
  obtain ⟨l, hl⟩ := active_finite (s := s) (fun i st hi a ha => (hS i st hi).lt_next rfl ha)
  obtain ⟨⟨t0, h0⟩, h1⟩ := h
  choose f hf using h1
  let F : {t // T t} → {t // T t} := fun t => ⟨f t.1 t.2, (hf t.1 t.2).1⟩
  have hF : ∀ t, WaitsOn s t.1 (F t).1 := fun t => (hf t.1 t.2).2
  have path : ∀ (n : Nat) (t : {t // T t}), Relation.TransGen (WaitsOn s) t.1 (F^[n + 1] t).1 := by
    intro n
    induction n with
    | zero => exact fun t => .single (hF t)
    | succ n ih =>
      intro t
      rw [Function.iterate_succ_apply]
      exact .head (hF t) (ih (F t))
  -- two of the strands reached are the same
  let g : Nat → {t // t ∈ l.toFinset} := fun n => ⟨(F^[n] ⟨t0, h0⟩).1, List.mem_toFinset.2 (hl _ (WaitsOn.active (hF _)))⟩
  obtain ⟨m, n, hmn, he⟩ := Finite.exists_ne_map_eq_of_infinite g
  have key : ∀ {m n : Nat}, m < n → g m = g n → ∃ t, T t ∧ Circle s t := by
    intro m n hlt he
    obtain ⟨d, rfl⟩ := Nat.exists_eq_add_of_lt hlt
    refine ⟨_, (F^[m] ⟨t0, h0⟩).2, ?_⟩
    have h2 := path d (F^[m] ⟨t0, h0⟩)
    rw [← Function.iterate_add_apply] at h2
    have h3 : (F^[m] ⟨t0, h0⟩).1 = (F^[m + d + 1] ⟨t0, h0⟩).1 := by
      have := congrArg Subtype.val he
      exact this
    have h4 : d + 1 + m = m + d + 1 := by omega
    rw [h4, ← h3] at h2
    exact h2
  rcases Nat.lt_or_gt_of_ne hmn with h | h
  · exact key h he
  · exact key h he.symm

omit [DecidableEq K] in
theorem deadlock_of_circle {t : Nat} (h : Circle s t) :
    Deadlock s (fun u => Relation.TransGen (WaitsOn s) t u ∧ Relation.TransGen (WaitsOn s) u t) := by
  refine ⟨⟨t, h, h⟩, ?_⟩
  rintro u ⟨h1, h2⟩
  obtain ⟨v, h3, h4⟩ := Relation.TransGen.head'_iff.1 h2
  exact ⟨v, ⟨h1.tail h3, Relation.TransGen.trans_right h4 h⟩, h3⟩

/-! ### Ordered keys -/

/-- Every call but `get` asks for a key of higher rank than those its strand has guards of. -/
def Ordered (rank : K → Nat) (s : State K V) : Prop :=
  ∀ i st a j st' b k k' p, s.cache.shards[i]? = some st → s.cache.shards[j]? = some st' → (st.ctl a).asks = some k →
    st.kind a ≠ .get → st'.ctl b = .guard k' p → s.owner i a = s.owner j b → rank k' < rank k

omit [DecidableEq K] in
theorem asks_engaged {x : Ctl K V} {k : K} (h : x.asks = some k) : x.engaged = true := by
  cases x <;> simp [Ctl.asks] at h <;> rfl

theorem Ordered.step {rank : K → Nat} (h : Ordered rank s) (hS : AllInv c s) (hq : c.ptrEq = true)
    (hP : Climbs rank s act) (hs : exec c s act = some (.ok (s', evs))) : Ordered rank s' := by
  have hd := exec_did hs
  cases hd with
  | @begin t i kind k y es hf ht hx =>
    obtain ⟨st, st', hm⟩ := moved hS hq hx (s' := ⟨y, fun j b => if j = i ∧ b = fresh s i then t else s.owner j b⟩) rfl
    obtain ⟨es', he⟩ := hm.eff
    have hfr : fresh s i = st.next := by unfold fresh; rw [hm.at_]
    have asks : ∀ {j : Nat} {st1 : Conc.State K V} {a : Nat} {k1 : K}, y.shards[j]? = some st1 → (st1.ctl a).asks = some k1 →
        ((j = i ∧ a = fresh s i) ∧ k1 = k ∧ st1.kind a = kind) ∨
          (¬ (j = i ∧ a = fresh s i) ∧ ∃ st2, s.cache.shards[j]? = some st2 ∧ (st2.ctl a).asks = some k1 ∧
            st1.kind a = st2.kind a) := by
      intro j st1 a k1 h1 h2
      by_cases hji : j = i
      · subst hji
        have := hm.at_'
        rw [h1] at this
        cases this
        rcases he.asks h2 with h3 | ⟨kind', h3, h4⟩
        · have : a < st.next := (hS j st hm.at_).lt_next rfl (engaged_ne (asks_engaged h3))
          exact .inr ⟨by rw [hfr]; omega, st, hm.at_, h3, he.kind_same this⟩
        · cases h3
          refine .inl ⟨⟨rfl, by rw [hfr]; exact h4⟩, rfl, ?_⟩
          subst h4
          cases he
          simp only [Function.update_self]
      · refine .inr ⟨fun h => hji h.1, st1, ?_, h2, rfl⟩
        rw [← hm.other j hji]
        exact h1
    have guards : ∀ {j : Nat} {st1 : Conc.State K V} {b : Nat} {k1 : K} {p : Plh}, y.shards[j]? = some st1 →
        st1.ctl b = .guard k1 p →
          ¬ (j = i ∧ b = fresh s i) ∧ ∃ st2, s.cache.shards[j]? = some st2 ∧ st2.ctl b = .guard k1 p := by
      intro j st1 b k1 p h1 h2
      by_cases hji : j = i
      · subst hji
        have := hm.at_'
        rw [h1] at this
        cases this
        by_cases hb : b = st.next
        · subst hb
          cases he
          simp only [Function.update_self] at h2
          cases h2
        · refine ⟨by rw [hfr]; exact fun h => hb h.2, st, hm.at_, ?_⟩
          rw [← he.ctl_other (by simp [Conc.Act.agent]) (fun _ _ _ => hb)]
          exact h2
      · refine ⟨fun h => hji h.1, st1, ?_, h2⟩
        rw [← hm.other j hji]
        exact h1
    intro j st1 a j' st1' b k1 k1' p h1 h2 h3 hk h4 ho
    simp only at ho
    obtain ⟨h5, st3, h6, h7⟩ := guards h2 h4
    rw [if_neg h5] at ho
    rcases asks h1 h3 with ⟨h8, rfl, h9⟩ | ⟨h8, st2, h9, h10, h11⟩
    · rw [if_pos h8] at ho
      rcases hP with hP | hP
      · exact absurd (h9.trans hP) hk
      · exact hP k1' ⟨j', st3, b, p, h6, ho.symm, h7⟩
    · rw [if_neg h8] at ho
      exact h j st2 a j' st3 b k1 k1' p h9 h6 h10 (h11 ▸ hk) h7 ho
  | @act i x y es hb ht hx =>
    obtain ⟨st, st', hm⟩ := moved hS hq hx (s' := ⟨y, s.owner⟩) rfl
    obtain ⟨es', he⟩ := hm.eff
    have asks : ∀ {j : Nat} {st1 : Conc.State K V} {a : Nat} {k1 : K}, y.shards[j]? = some st1 → (st1.ctl a).asks = some k1 →
        ∃ st2, s.cache.shards[j]? = some st2 ∧ (st2.ctl a).asks = some k1 ∧ st1.kind a = st2.kind a := by
      intro j st1 a k1 h1 h2
      by_cases hji : j = i
      · subst hji
        have := hm.at_'
        rw [h1] at this
        cases this
        rcases he.asks h2 with h3 | ⟨kind', h3, h4⟩
        · exact ⟨st, hm.at_, h3, he.kind_same ((hS j st hm.at_).lt_next rfl (engaged_ne (asks_engaged h3)))⟩
        · exact absurd h3 (hb _ _)
      · refine ⟨st1, ?_, h2, rfl⟩
        rw [← hm.other j hji]
        exact h1
    have guards : ∀ {j : Nat} {st1 : Conc.State K V} {b : Nat} {k1 : K} {p : Plh}, y.shards[j]? = some st1 →
        st1.ctl b = .guard k1 p →
          (j = i ∧ x.agent = some b) ∨ ∃ st2, s.cache.shards[j]? = some st2 ∧ st2.ctl b = .guard k1 p := by
      intro j st1 b k1 p h1 h2
      by_cases hji : j = i
      · subst hji
        have := hm.at_'
        rw [h1] at this
        cases this
        by_cases hb' : x.agent = some b
        · exact .inl ⟨rfl, hb'⟩
        · refine .inr ⟨st, hm.at_, ?_⟩
          rw [← he.ctl_other hb' (fun kind k h => absurd h (hb kind k))]
          exact h2
      · refine .inr ⟨st1, ?_, h2⟩
        rw [← hm.other j hji]
        exact h1
    intro j st1 a j' st1' b k1 k1' p h1 h2 h3 hk h4 ho
    simp only at ho
    obtain ⟨st2, h5, h6, hkk⟩ := asks h1 h3
    rcases guards h2 h4 with ⟨rfl, h8⟩ | ⟨st3, h8, h9⟩
    · -- the strand of a new guard is in no other call
      have hl : a < st2.next := (hS j st2 h5).lt_next rfl (engaged_ne (asks_engaged h6))
      rcases free_iff.1 (ht b h8) j st2 a h5 hl with ⟨rfl, rfl⟩ | h | h
      · rw [h1] at h2
        cases h2
        rw [h4] at h3
        cases h3
      · exact absurd ho h
      · rw [asks_engaged h6] at h
        cases h
    · exact h j st2 a j' st3 b k1 k1' p h5 h8 h6 (hkk ▸ hk) h9 ho

theorem Run.ordered {rank : K → Nat} (hr : Run c (Climbs rank) s0 tr s) (hq : c.ptrEq = true) (hS : AllInv c s0)
    (h0 : Ordered rank s0) : Ordered rank s := by
  induction hr with
  | start => exact h0
  | @layout tr s i st m p hr hi hm hp ih =>
    have hl : i < s.cache.shards.length := (List.getElem?_eq_some_iff.1 hi).1
    have back : ∀ {j : Nat} {st1 : Conc.State K V},
        (s.cache.shards.set i { st with shard := st.shard.relayout m p })[j]? = some st1 →
        ∃ st2, s.cache.shards[j]? = some st2 ∧ st2.ctl = st1.ctl ∧ st2.kind = st1.kind := by
      intro j st1 hj
      by_cases hji : j = i
      · subst hji
        simp only [List.getElem?_set_self hl] at hj
        cases hj
        exact ⟨st, hi, rfl, rfl⟩
      · simp only [List.getElem?_set_ne (Ne.symm hji)] at hj
        exact ⟨st1, hj, rfl, rfl⟩
    intro j st1 a j' st1' b k1 k1' q h1 h2 h3 hk h4 ho
    obtain ⟨st2, h5, h6, hkk⟩ := back h1
    obtain ⟨st3, h7, h8, -⟩ := back h2
    rw [← h6] at h3
    rw [← h8] at h4
    rw [← hkk] at hk
    exact ih j st2 a j' st3 b k1 k1' q h5 h7 h3 hk h4 ho
  | act hr hP hs ih => exact ih.step (hr.sound hq hS) hq hP hs

/-- The key for which a strand waits. -/
def Awaits (s : State K V) (t : Nat) (k : K) : Prop :=
  ∃ i st a p, s.cache.shards[i]? = some st ∧ s.owner i a = t ∧ st.ctl a = .waiting k p

theorem Ordered.lower {rank : K → Nat} (h : Ordered rank s) (hS : AllInv c s) {t u : Nat} (hw : WaitsOn s t u) {k : K}
    (hk : Awaits s u k) : ∃ k', rank k' < rank k ∧ Awaits s t k' := by
  obtain ⟨i, st, a, b, k1, p, hi, ho, ho', ⟨⟨k2, h1⟩, -⟩, hg⟩ := hw
  obtain ⟨j, st', d, q, hj, hd, h2⟩ := hk
  have hC := hS i st hi
  obtain ⟨ps, h3, h4, -, -⟩ := hC.at h1
  obtain ⟨ps', h5, h6, -, -⟩ := hC.at hg
  rw [h3] at h5
  cases h5
  refine ⟨k2, ?_, i, st, a, p, hi, ho, h1⟩
  rw [← h4, h6]
  exact h j st' d i st b k k1 p hj hi (by rw [h2]; rfl) ((hS j st' hj).kindOf h2 rfl) hg (hd.trans ho'.symm)

theorem Ordered.no_circle {rank : K → Nat} (h : Ordered rank s) (hS : AllInv c s) {t : Nat} : ¬ Circle s t := by
  have path : ∀ {u v : Nat}, Relation.TransGen (WaitsOn s) u v → ∀ k, Awaits s v k →
      ∃ k', rank k' < rank k ∧ Awaits s u k' := by
    intro u v huv
    induction huv with
    | single h1 => exact fun k hk => h.lower hS h1 hk
    | tail h1 h2 ih =>
      intro k hk
      obtain ⟨k', h3, h4⟩ := h.lower hS h2 hk
      obtain ⟨k'', h5, h6⟩ := ih k' h4
      exact ⟨k'', by omega, h6⟩
  intro hc
  have desc : ∀ n k, rank k = n → ¬ Awaits s t k := by
    intro n
    induction n using Nat.strongRecOn with
    | ind n ih =>
      intro k hn hk
      obtain ⟨k', h1, h2⟩ := path hc k hk
      exact ih _ (by omega) k' rfl h2
  obtain ⟨u, h1, -⟩ := Relation.TransGen.head'_iff.1 hc
  obtain ⟨i, st, a, b, k1, p, hi, ho, ho', ⟨⟨k2, h2⟩, -⟩, hg⟩ := h1
  exact desc _ k2 rfl ⟨i, st, a, p, hi, ho, h2⟩

/-! ### Asking for the key one is loading -/

theorem Run.sinv {n : Nat} {mask : UInt64} {target cap gcap : Nat} {tr0 : List (Nat × Conc.Ev K V)} (hr : Run c P s0 tr s)
    (hq : c.ptrEq = true) (h0 : Cache.SInv c n mask target cap gcap tr0 s0.cache) :
    Cache.SInv c n mask target cap gcap (tr0 ++ tr) s.cache := by
  induction hr with
  | start => rw [List.append_nil]; exact h0
  | layout m p hr hi hm hp ih => exact ih.relayout hi hm hp
  | act hr hP hs ih =>
    obtain ⟨i, x, es, h1, rfl⟩ := (exec_did hs).cache
    rw [← List.append_assoc]
    exact ih.step hq h1

omit [DecidableEq K] in
theorem onShard_append (i : Nat) (t1 t2 : List (Nat × Conc.Ev K V)) :
    onShard i (t1 ++ t2) = onShard i t1 ++ onShard i t2 := by
  unfold onShard
  rw [List.filterMap_append]

/-- A call of the strand that has the guard, for the same key, does not return as long as the load goes on. -/
theorem Run.held {n : Nat} {mask : UInt64} {target cap gcap : Nat} {tr0 : List (Nat × Conc.Ev K V)} {t i a b : Nat} {k : K}
    {p : Plh} {st0 : Conc.State K V} (hr : Run c (Patient (· = t)) s0 tr s) (hq : c.ptrEq = true)
    (h0 : Cache.SInv c n mask target cap gcap tr0 s0.cache) (hi : s0.cache.shards[i]? = some st0) (ha : Conc.Held st0 a k p)
    (hg : st0.ctl b = .guard k p) (oa : s0.owner i a = t) (ob : s0.owner i b = t) :
    Superseded c target (onShard i (tr0 ++ tr)) k p ∨
      ∃ st, s.cache.shards[i]? = some st ∧ Conc.Held st a k p ∧ st.ctl b = .guard k p ∧ s.owner i a = t ∧ s.owner i b = t := by
  induction hr with
  | start => exact .inr ⟨st0, hi, ha, hg, oa, ob⟩
  | @layout tr s j st m q hr hj hm hp ih =>
    rcases ih with h | ⟨st1, h1, h2, h3, h4, h5⟩
    · exact .inl h
    · right
      have hl : j < s.cache.shards.length := (List.getElem?_eq_some_iff.1 hj).1
      by_cases hji : i = j
      · subst hji
        rw [h1] at hj
        cases hj
        exact ⟨_, List.getElem?_set_self hl, h2, h3, h4, h5⟩
      · exact ⟨st1, (List.getElem?_set_ne (Ne.symm hji)).trans h1, h2, h3, h4, h5⟩
  | @act tr s s' act evs hr hP hs ih =>
    rw [← List.append_assoc, onShard_append]
    rcases ih with h | ⟨st1, h1, h2, h3, h4, h5⟩
    · exact .inl h.append
    have hin := hr.sinv hq h0
    have hS : AllInv c s := fun j st hj => ((hin.run j st hj).reach hq (.new ..)).inv
    rcases (hin.run i st1 h1).loads hq (.guard h3) with hl | h
    swap
    · exact .inl h.append
    right
    have hC := hS i st1 h1
    have hla : a < st1.next := hC.lt_next rfl (engaged_ne h2.engaged)
    have hlb : b < st1.next := hC.lt_next h3 (by simp)
    have hd := exec_did hs
    cases hd with
    | @begin t' j kind k' y es hf ht hx =>
      obtain ⟨st, st', hm⟩ := moved hS hq hx (s' := ⟨y, fun i' b => if i' = j ∧ b = fresh s j then t' else s.owner i' b⟩) rfl
      by_cases hji : i = j
      · subst hji
        have := hm.at_
        rw [h1] at this
        cases this
        obtain ⟨es', he⟩ := hm.eff
        have hfr : fresh s i = st1.next := by unfold fresh; rw [h1]
        refine ⟨st', hm.at_', he.held hC h2 h3 hl (by simp [Conc.Act.agent]) (by simp) (by simp), ?_, ?_, ?_⟩
        · rw [he.ctl_other (by simp [Conc.Act.agent]) (fun _ _ _ => by omega)]
          exact h3
        · simp only
          rw [if_neg (by rw [hfr]; omega)]
          exact h4
        · simp only
          rw [if_neg (by rw [hfr]; omega)]
          exact h5
      · refine ⟨st1, (hm.other i hji).trans h1, h2, h3, ?_, ?_⟩
        · simp only
          rw [if_neg (fun h => hji h.1)]
          exact h4
        · simp only
          rw [if_neg (fun h => hji h.1)]
          exact h5
    | @act j x y es hb ht hx =>
      obtain ⟨st, st', hm⟩ := moved hS hq hx (s' := ⟨y, s.owner⟩) rfl
      by_cases hji : i = j
      · subst hji
        have := hm.at_
        rw [h1] at this
        cases this
        obtain ⟨es', he⟩ := hm.eff
        have hxb : x.agent ≠ some b := by
          intro hx'
          rcases free_iff.1 (ht b hx') i st1 a h1 hla with ⟨-, rfl⟩ | h | h
          · have := h2.engaged
            rw [h3] at this
            cases this
          · exact h (h4.trans h5.symm)
          · rw [h2.engaged] at h
            cases h
        refine ⟨st', hm.at_', he.held hC h2 h3 hl hxb ?_ ?_, ?_, h4, h5⟩
        · rintro rfl
          exact hP h4
        · rintro rfl
          exact hP h4
        · rw [he.ctl_other hxb (fun kind k h => absurd h (hb kind k))]
          exact h3
      · exact ⟨st1, (hm.other i hji).trans h1, h2, h3, h4, h5⟩

end QuickCache.Nest
