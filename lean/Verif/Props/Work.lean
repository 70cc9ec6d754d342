import Verif.Proofs.Work
import Verif.Props.Example

/-!
# Property C77: the work of eviction
-/

namespace QuickCache.Props
open Unsync Spec

section
variable {K V RS : Type} [DecidableEq K] {c : Cfg K V RS} {target cap gcap n : Nat} {h : List (Unsync.Call K V)}
  {s s' : Shard K V} {ops : List (Op K V)} {op : Op K V}

/-- C77: without pinned items, the number of items that eviction looks at during any history is at most three for every
item there at its start, and what the calls of the history account for: three for each call that stores or changes a value,
one for each lookup or load, nothing for other calls. -/
theorem C77_total (hr : Run c (Shard.new target cap gcap) h s) (hp : ∀ k v, c.pinned k v = false) (w : Work c s ops n s') :
    n ≤ 3 * s.len + (ops.map credit).sum := by
  have h1 := w.pot hp hr
  have h2 := pot_le (hr.reach (.new ..)).inv hr.refOK
  omega

/-- In the lifetime of a cache, eviction looks at no more than three items per call on average, whatever the size of the
cache and the pattern of calls. -/
theorem C77_average (hp : ∀ k v, c.pinned k v = false) (w : Work c (Shard.new target cap gcap) ops n s) :
    n ≤ 3 * ops.length := by
  have h1 := C77_total .start hp w
  have h2 : (ops.map credit).sum ≤ 3 * ops.length := by
    clear w h1
    induction ops with
    | nil => simp
    | cons op ops ih =>
      have : credit op ≤ 3 := by cases op <;> simp [credit]
      simp only [List.map_cons, List.sum_cons, List.length_cons]
      omega
  have h3 : (Shard.new target cap gcap : Shard K V).len = 0 := rfl
  omega

/-- A single call looks at no more than three times as many items as the cache holds, plus three. -/
theorem C77_call (hr : Run c (Shard.new target cap gcap) h s) (hp : ∀ k v, c.pinned k v = false) {out : Out K V}
    {q : Req K V RS} (hs : step c s op = .ok (s', out, q)) : examined c s op ≤ 3 * s.len + credit op := by
  have := C77_total hr hp (Work.call .start hs)
  simpa using this

/-- The histories whose work is counted are the histories of the other properties. -/
theorem C77_histories {s0 : Shard K V} :
    (∃ n, Work c s0 ops n s) ↔ ∃ h, Run c s0 h s ∧ h.map (·.op) = ops := by
  constructor
  · rintro ⟨n, w⟩
    induction w with
    | start => exact ⟨_, .start, rfl⟩
    | layout m p hr hm hp ih => obtain ⟨h, ih, rfl⟩ := ih; exact ⟨_, .layout m p ih hm hp, rfl⟩
    | call hr hs ih => obtain ⟨h, ih, rfl⟩ := ih; exact ⟨_, .call ih hs, by simp⟩
  · rintro ⟨h, hr, rfl⟩
    induction hr with
    | start => exact ⟨_, .start⟩
    | layout m p hr hm hp ih => obtain ⟨n, ih⟩ := ih; exact ⟨_, .layout m p ih hm hp⟩
    | call hr hs ih => obtain ⟨n, ih⟩ := ih; exact ⟨_, by simpa using ih.call hs⟩

end

/-! ### Examples -/

/-- Values are their own weight. -/
def wkCfg (pin : Bool) : Cfg Nat Nat Unit where
  hash k := UInt64.ofNat k
  weight _ v := v
  pinned _ _ := pin
  beginReq := ()
  beforeEvict st _ v := (st, v)
  onEvict st _ _ := st
  ptrEq := true

/-- The number of items looked at in a list of calls. -/
def workOf (c : Cfg Nat Nat Unit) (s : Shard Nat Nat) : List (Op Nat Nat) → Res (Nat × Shard Nat Nat)
  | [] => .ok (0, s)
  | op :: ops => do
    let (s1, _, _) ← step c s op
    let (n, s2) ← workOf c s1 ops
    .ok (examined c s op + n, s2)

theorem workOf_work {c : Cfg Nat Nat Unit} {s0 : Shard Nat Nat} : ∀ {ops ops0 : List (Op Nat Nat)} {s s' : Shard Nat Nat} {n0 n : Nat},
    Work c s0 ops0 n0 s → workOf c s ops = .ok (n, s') → Work c s0 (ops0 ++ ops) (n0 + n) s' := by
  intro ops
  induction ops with
  | nil => intro ops0 s s' n0 n w h; cases h; simpa using w
  | cons op ops ih =>
    intro ops0 s s' n0 n w h
    unfold workOf at h
    rcases hs : step c s op with p | ⟨s1, out, q⟩
    · rw [hs] at h; cases h
    · rw [hs] at h
      simp only [Res.ok_bind] at h
      rcases hr : workOf c s1 ops with p | ⟨n1, s2⟩
      · rw [hr] at h; cases h
      · rw [hr] at h
        cases h
        have := ih (w.call hs) hr
        simpa [Nat.add_assoc] using this

theorem workOf_start {c : Cfg Nat Nat Unit} {s0 : Shard Nat Nat} {ops : List (Op Nat Nat)} {n : Nat}
    (h : (workOf c s0 ops).toOption.map (·.1) = some n) : ∃ s, Work c s0 ops n s := by
  rcases hr : workOf c s0 ops with p | ⟨n1, s2⟩
  · rw [hr] at h; cases h
  · rw [hr] at h
    cases h
    exact ⟨s2, by simpa using workOf_work .start hr⟩

/-- Three items, each looked up twice. -/
def wkUsed : List (Op Nat Nat) :=
  [.insert 1 2, .insert 2 2, .insert 3 2, .get 1, .get 1, .get 2, .get 2, .get 3, .get 3]

/-- The bound is reached: a call that evicts everything looks at every item three times, in a history of ten calls in which
eviction had nothing to do before. -/
example : (∃ s, Work (wkCfg false) (Shard.new 6 6 6) wkUsed 0 s) ∧
    ∃ s, Work (wkCfg false) (Shard.new 6 6 6) (wkUsed ++ [.insert 4 6]) 9 s :=
  ⟨workOf_start (by decide +kernel), workOf_start (by decide +kernel)⟩

example : ∃ n s, Work (wkCfg false) (Shard.new 6 6 6) (wkUsed ++ [.insert 4 6]) n s ∧ n ≤ 30 := by
  obtain ⟨s, hs⟩ := workOf_start (c := wkCfg false) (s0 := Shard.new 6 6 6) (ops := wkUsed ++ [.insert 4 6]) (n := 9)
    (by decide +kernel)
  exact ⟨9, s, hs, C77_average (fun _ _ => rfl) hs⟩

/-- With pinned items there is no such bound: each further insert goes through all of the items. -/
theorem C77_pinned_false : ¬ ∀ (c : Cfg Nat Nat Unit) (target cap gcap n : Nat) (ops : List (Op Nat Nat)) (s : Shard Nat Nat),
    Work c (Shard.new target cap gcap) ops n s → n ≤ 3 * ops.length := by
  intro h
  obtain ⟨s, hs⟩ := workOf_start (c := wkCfg true) (s0 := Shard.new 6 6 6)
    (ops := (List.range 12).map (fun k => .insert k 1)) (n := 51) (by decide +kernel)
  have := h _ _ _ _ _ _ _ hs
  simp at this

end QuickCache.Props
