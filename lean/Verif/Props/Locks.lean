import Verif.Proofs.Locks
import Mathlib.Order.Defs.Unbundled
import Mathlib.Logic.Relation

/-!
# Locks cannot deadlock (C53), and where user code may call the cache (C68)
-/

namespace QuickCache.Props
open Locks Spec

/-- C53: the locks are always acquired in the order shard, placeholder state, task waiter, at most one of each: a thread
about to acquire a lock only holds locks of a lower level. -/
theorem C53_order {dbg : Bool} {s : Sys} (h : Reach dbg s) {t : Nat} {l l' : Lock} {m m' : Mode}
    (hw : Wants s t l m) (hh : (l', m') ∈ (s t).held) : level l' < level l := by
  obtain ⟨rest, hw⟩ := hw
  have := h.ordered t
  rw [hw] at this
  exact this.1 _ hh

/-- C53: no call returns with a lock held. -/
theorem C53_released {dbg : Bool} {s : Sys} (h : Reach dbg s) {t : Nat} (ht : (s t).todo = []) : (s t).held = [] := by
  have := h.ordered t
  rw [ht] at this
  exact this

/-- C53: callers never wait for each other in a circle (nor for themselves), whatever order locks are granted in. -/
theorem C53_acyclic {dbg : Bool} {s : Sys} (h : Reach dbg s) (first : Nat → Nat → Prop) [IsStrictOrder Nat first]
    (t : Nat) : ¬ Relation.TransGen (WaitsFor first s) t t := by
  have uniq : ∀ {u l m l' m'}, Wants s u l m → Wants s u l' m' → l = l' := by
    rintro u l m l' m' ⟨r, h1⟩ ⟨r', h2⟩
    rw [h1] at h2; simp at h2; exact h2.1.1
  have one : ∀ {a b l l' m m'}, WaitsFor first s a b → Wants s a l m → Wants s b l' m' →
      level l < level l' ∨ (l = l' ∧ first b a) := by
    intro a b l l' m m' hab ha hb
    cases hab with
    | holder l0 m0 m1 w hd _ =>
      rw [uniq ha w]
      exact .inl (C53_order h hb hd)
    | queue l0 m0 m1 w bf f => exact .inr ⟨(uniq ha w).trans (uniq bf hb), f⟩
  have wants : ∀ {a b}, WaitsFor first s a b → ∃ l m, Wants s a l m := by
    intro a b hab
    cases hab with
    | holder l m _ w => exact ⟨l, m, w⟩
    | queue l m _ w => exact ⟨l, m, w⟩
  have many : ∀ {a b}, Relation.TransGen (WaitsFor first s) a b → ∀ {l l' m m'}, Wants s a l m → Wants s b l' m' →
      level l < level l' ∨ (l = l' ∧ first b a) := by
    intro a b hab
    induction hab with
    | single h1 => intro l l' m m' ha hb; exact one h1 ha hb
    | tail h1 h2 ih =>
      intro l l' m m' ha hb
      obtain ⟨l1, m1, hc⟩ := wants h2
      rcases ih ha hc with h3 | ⟨h3, h4⟩ <;> rcases one h2 hc hb with h5 | ⟨h5, h6⟩
      · exact .inl (Nat.lt_trans h3 h5)
      · exact .inl (h5 ▸ h3)
      · exact .inl (h3 ▸ h5)
      · exact .inr ⟨h3.trans h5, _root_.trans h6 h4⟩
  intro hc
  obtain ⟨l, m, hw⟩ : ∃ l m, Wants s t l m := by
    rcases Relation.TransGen.head'_iff.1 hc with ⟨b, h1, -⟩
    exact wants h1
  rcases many hc hw hw with h1 | ⟨-, h1⟩
  · exact absurd h1 (Nat.lt_irrefl _)
  · exact irrefl _ h1

/-- C53: as long as some caller is inside a call and not parked, some caller can go on: it releases a lock, it is granted
one, or it is in user code. -/
theorem C53_progress {dbg : Bool} {s : Sys} (h : Reach dbg s) {granted : Nat → Prop} (hg : GrantsFree s granted) {t : Nat}
    (ht : (s t).todo ≠ []) (hp : ¬ Parked s t) :
    ∃ u s', Next s u s' ∧ ((∃ l rest, (s u).todo = .release l :: rest) ∨ granted u ∨ ∃ x, Runs s u x) := by
  have key : ∀ n t l m, Wants s t l m → 2 - level l ≤ n →
      ∃ u s', Next s u s' ∧ ((∃ l rest, (s u).todo = .release l :: rest) ∨ granted u ∨ ∃ x, Runs s u x) := by
    intro n
    induction n with
    | zero =>
      intro t l m hw hl
      by_cases hf : ∃ u m, (l, m) ∈ (s u).held
      · obtain ⟨u, m', hu⟩ := hf
        match hd : (s u).todo with
        | [] => rw [C53_released h hd] at hu; simp at hu
        | .release l' :: rest => exact ⟨u, _, .release hd, .inl ⟨_, _, hd⟩⟩
        | .user x :: rest => exact ⟨u, _, .user hd, .inr (.inr ⟨x, rest, hd⟩)⟩
        | .park :: rest =>
          have := h.ordered u
          rw [hd] at this
          rw [this.1] at hu; simp at hu
        | .acquire l' m1 :: rest =>
          have := C53_order h ⟨rest, hd⟩ hu
          have : level l' ≤ 2 := by cases l' <;> simp [level]
          omega
      · simp only [not_exists] at hf
        obtain ⟨u, m', ⟨rest, hu⟩, hgr⟩ := hg l hf ⟨t, m, hw⟩
        exact ⟨u, _, .acquire hu (fun v m1 hv => absurd hv (hf v m1)), .inr (.inl hgr)⟩
    | succ n ih =>
      intro t l m hw hl
      by_cases hf : ∃ u m, (l, m) ∈ (s u).held
      · obtain ⟨u, m', hu⟩ := hf
        match hd : (s u).todo with
        | [] => rw [C53_released h hd] at hu; simp at hu
        | .release l' :: rest => exact ⟨u, _, .release hd, .inl ⟨_, _, hd⟩⟩
        | .user x :: rest => exact ⟨u, _, .user hd, .inr (.inr ⟨x, rest, hd⟩)⟩
        | .park :: rest =>
          have := h.ordered u
          rw [hd] at this
          rw [this.1] at hu; simp at hu
        | .acquire l' m1 :: rest =>
          have := C53_order h ⟨rest, hd⟩ hu
          exact ih u l' m1 ⟨rest, hd⟩ (by omega)
      · simp only [not_exists] at hf
        obtain ⟨u, m', ⟨rest, hu⟩, hgr⟩ := hg l hf ⟨t, m, hw⟩
        exact ⟨u, _, .acquire hu (fun v m1 hv => absurd hv (hf v m1)), .inr (.inl hgr)⟩
  match hd : (s t).todo with
  | [] => exact absurd hd ht
  | .release l :: rest => exact ⟨t, _, .release hd, .inl ⟨_, _, hd⟩⟩
  | .user x :: rest => exact ⟨t, _, .user hd, .inr (.inr ⟨x, rest, hd⟩)⟩
  | .park :: rest => exact absurd ⟨rest, hd⟩ hp
  | .acquire l m :: rest => exact key _ t l m ⟨rest, hd⟩ (Nat.le_refl _)

/-- C68: loaders, `begin_request`, `end_request` and the hashing of the key asked for run with no lock held. They may call
the cache: the states that C53 speaks about include all those in which they do. -/
theorem C68_outside {dbg : Bool} {s : Sys} (h : Reach dbg s) {t : Nat} {u : Outside} (hu : Runs s t (.outside u)) :
    (s t).held = [] ∧ ∀ c, Reach dbg (Calls dbg s t c) := by
  obtain ⟨rest, hr⟩ := hu
  exact ⟨h.placed ⟨rest, hr⟩, fun c => h.nest c hr⟩

/-- C68: no thread is parked with a lock held. -/
theorem C68_parked {dbg : Bool} {s : Sys} (h : Reach dbg s) {t : Nat} (hp : Parked s t) : (s t).held = [] := by
  obtain ⟨rest, hp⟩ := hp
  have := h.ordered t
  rw [hp] at this
  exact this.1

/-- C68: keys are compared, and values found are cloned, with the lock of one shard held and no other. -/
theorem C68_reading {dbg : Bool} {s : Sys} (h : Reach dbg s) {t : Nat} {u : Reading} (hu : Runs s t (.reading u)) :
    ∃ i m, (s t).held = [(.shard i, m)] := h.placed hu

/-- C68: the weighter, the callbacks, `is_pinned`, `ToOwned`, the closure of `retain`, `Drop` and the rehashing of keys run
with the write lock of one shard held and no other: no two threads run them for the same shard at once. -/
theorem C68_writing {dbg : Bool} {s : Sys} (h : Reach dbg s) {t : Nat} {u : Writing} (hu : Runs s t (.writing u)) :
    ∃ i, (s t).held = [(.shard i, .write)] := h.placed hu

/-- C68: a value loaded is cloned with the state of its placeholder locked; no future's waiter is locked then. -/
theorem C68_publish {dbg : Bool} {s : Sys} (h : Reach dbg s) {t : Nat} (hu : Runs s t .publish) :
    (∃ p m, (.state p, m) ∈ (s t).held) ∧ ∀ b m, (.waiter b, m) ∉ (s t).held := by
  obtain ⟨p, m, h1, h2⟩ := h.placed hu
  exact ⟨⟨p, m, h1⟩, fun b m hb => absurd (h2 _ hb) (by simp [level])⟩

/-- C68: a waker is cloned with the state of the placeholder or the waiter of its future locked. -/
theorem C68_waker {dbg : Bool} {s : Sys} (h : Reach dbg s) {t : Nat} (hu : Runs s t .newWaker ∨ Runs s t .setWaker) :
    (∃ p, (.state p, .write) ∈ (s t).held) ∨ ∃ b, (s t).held = [(.waiter b, .write)] := by
  rcases hu with hu | hu
  · obtain ⟨p, h1, -⟩ := h.placed hu; exact .inl ⟨p, h1⟩
  · exact .inr (h.placed hu)

/-- C68: a future is woken with the state of the placeholder and the future's waiter locked. -/
theorem C68_wake {dbg : Bool} {s : Sys} (h : Reach dbg s) {t : Nat} (hu : Runs s t .wake) :
    ∃ p b, (.state p, .write) ∈ (s t).held ∧ (.waiter b, .write) ∈ (s t).held := h.placed hu

private theorem entersFirst_acts {c : Call} {i : Nat} {m : Mode} (hc : EntersFirst c i m) (dbg : Bool) :
    ∃ us tl, (∀ a ∈ us, ∃ u, a = LAct.user u) ∧ c.acts dbg = us ++ .acquire (.shard i) m :: tl := by
  cases hc with
  | look r => exact ⟨[_], _, by simp, rfl⟩
  | remove w => exact ⟨[_], _, by simp, rfl⟩
  | store w ends => exact ⟨[_, _], _, by simp, rfl⟩
  | join r w u => exact ⟨[_], _, by simp, rfl⟩
  | wait r w p how => exact ⟨[_], _, by simp, rfl⟩

/-- C68: user code that runs with a lock of a shard held must not ask for a key of that shard (unless both only read): the
call never returns, whatever else happens. -/
theorem C68_stuck {dbg : Bool} {s s' : Sys} {t i : Nat} {m m' : Mode} {c : Call} (hh : (.shard i, m) ∈ (s t).held)
    (hc : EntersFirst c i m') (hx : compatible m' m = false)
    (hs : Relation.ReflTransGen (Goes dbg) (Calls dbg s t c) s') : Within s' t (s t).todo := by
  obtain ⟨us, tl, h1, h2⟩ := entersFirst_acts hc dbg
  have key : (.shard i, m) ∈ (s' t).held ∧ ∃ vs, (∀ a ∈ vs, ∃ u, a = LAct.user u) ∧
      (s' t).todo = vs ++ .acquire (.shard i) m' :: (tl ++ (s t).todo) := by
    induction hs with
    | refl => exact ⟨by simpa [Calls] using hh, us, h1, by simp [Calls, h2]⟩
    | tail _ hg ih =>
      obtain ⟨h3, vs, h4, h5⟩ := ih
      cases hg with
      | @call u c' hu =>
        by_cases e : t = u
        · subst e; rw [hu] at h5; simp at h5
        · simp only [Calls, Function.update_of_ne e]; exact ⟨h3, vs, h4, h5⟩
      | @next u _ hn =>
        by_cases e : t = u
        · subst e
          cases vs with
          | nil =>
            cases hn with
            | acquire hu free =>
              rw [hu] at h5; simp at h5
              obtain ⟨⟨rfl, rfl⟩, -⟩ := h5
              exact absurd (free _ _ h3) (by simp [hx])
            | release hu => rw [hu] at h5; simp at h5
            | user hu => rw [hu] at h5; simp at h5
            | unpark hu => rw [hu] at h5; simp at h5
          | cons a vs =>
            obtain ⟨x, rfl⟩ := h4 a (by simp)
            cases hn with
            | acquire hu free => rw [hu] at h5; simp at h5
            | release hu => rw [hu] at h5; simp at h5
            | user hu =>
              rw [hu] at h5; simp only [List.cons_append, List.cons.injEq] at h5
              rw [Function.update_self]
              exact ⟨h3, vs, fun b hb => h4 b (by simp [hb]), h5.2⟩
            | unpark hu => rw [hu] at h5; simp at h5
        · cases hn <;> rw [Function.update_of_ne e] <;> exact ⟨h3, vs, h4, h5⟩
  obtain ⟨-, vs, -, h5⟩ := key
  exact ⟨vs ++ .acquire (.shard i) m' :: tl, by simp, by simp [h5]⟩

/-! ### Examples -/

/-- A system of finitely many threads inside the cache. -/
private def sysOf (l : List Thread) : Sys := fun t => l.getD t ⟨[], []⟩

/-- What happens in an example. -/
private inductive Move where
  | call (t : Nat) (c : Call)
  | nest (t : Nat) (c : Call)
  | go (t : Nat)

/-- Performs a move, if possible. -/
private def Move.play (l : List Thread) : Move → Option (List Thread)
  | .call t c => do
    let x ← l[t]?
    if x.todo = [] then some (l.set t ⟨c.acts true, x.held⟩) else none
  | .nest t c => do
    let x ← l[t]?
    match x.todo with
    | .user (.outside _) :: _ => some (l.set t ⟨c.acts true ++ x.todo, x.held⟩)
    | _ => none
  | .go t => do
    let x ← l[t]?
    match x.todo with
    | .acquire k m :: rest =>
      if l.all (fun y => y.held.all fun z => z.1 ≠ k || compatible m z.2) then some (l.set t ⟨rest, (k, m) :: x.held⟩)
      else none
    | .release k :: rest => some (l.set t ⟨rest, x.held.filter (fun z => z.1 ≠ k)⟩)
    | .user _ :: rest => some (l.set t ⟨rest, x.held⟩)
    | .park :: rest => some (l.set t ⟨rest, x.held⟩)
    | [] => none

private theorem sysOf_set {l : List Thread} {t : Nat} {x y : Thread} (h : l[t]? = some x) :
    sysOf (l.set t y) = Function.update (sysOf l) t y := by
  have ht : t < l.length := (List.getElem?_eq_some_iff.1 h).1
  funext u
  by_cases e : u = t
  · subst e; simp [sysOf, ht]
  · rw [Function.update_of_ne e]; simp [sysOf, Ne.symm e]

private theorem sysOf_at {l : List Thread} {t : Nat} {x : Thread} (h : l[t]? = some x) : sysOf l t = x := by
  simp [sysOf, h]

private theorem play_reach {l l' : List Thread} (mv : Move) (h : Reach true (sysOf l)) (hm : mv.play l = some l') :
    Reach true (sysOf l') := by
  cases mv with
  | call t c =>
    simp only [Move.play, Option.bind_eq_bind, Option.bind_eq_some_iff] at hm
    obtain ⟨x, hx, hm⟩ := hm
    split at hm
    · rename_i h0
      cases hm
      rw [sysOf_set hx, ← sysOf_at hx]
      exact h.call c (by rw [sysOf_at hx]; exact h0)
    · cases hm
  | nest t c =>
    simp only [Move.play, Option.bind_eq_bind, Option.bind_eq_some_iff] at hm
    obtain ⟨x, hx, hm⟩ := hm
    split at hm
    · rename_i h0
      cases hm
      rw [sysOf_set hx]
      have := h.nest (t := t) c (by rw [sysOf_at hx]; exact h0)
      rw [sysOf_at hx] at this
      exact this
    · cases hm
  | go t =>
    simp only [Move.play, Option.bind_eq_bind, Option.bind_eq_some_iff] at hm
    obtain ⟨x, hx, hm⟩ := hm
    have ha := sysOf_at hx
    split at hm
    · rename_i k m rest h0
      split at hm
      · rename_i hf
        cases hm
        rw [sysOf_set hx, ← ha]
        refine h.step (.acquire (by rw [ha]; exact h0) fun u m' hu => ?_)
        rw [sysOf, List.getD_eq_getElem?_getD] at hu
        rcases hy : l[u]? with _ | y
        · rw [hy] at hu; simp at hu
        · rw [hy] at hu
          have h1 := List.all_eq_true.1 (List.all_eq_true.1 hf y (List.mem_of_getElem? hy)) _ hu
          simpa using h1
      · cases hm
    · rename_i h0
      cases hm
      rw [sysOf_set hx, ← ha]
      exact h.step (.release (by rw [ha]; exact h0))
    · rename_i h0
      cases hm
      rw [sysOf_set hx, ← ha]
      exact h.step (.user (by rw [ha]; exact h0))
    · rename_i h0
      cases hm
      rw [sysOf_set hx, ← ha]
      exact h.step (.unpark (by rw [ha]; exact h0))
    · cases hm

private theorem plays_reach {ms : List Move} {l l' : List Thread} (h : Reach true (sysOf l))
    (hm : ms.foldlM Move.play l = some l') : Reach true (sysOf l') := by
  induction ms generalizing l with
  | nil => cases hm; exact h
  | cons mv ms ih =>
    simp only [List.foldlM_cons, Option.bind_eq_bind, Option.bind_eq_some_iff] at hm
    obtain ⟨l1, h1, h2⟩ := hm
    exact ih (play_reach mv h h1) h2

private theorem idle_reach (n : Nat) : Reach true (sysOf (List.replicate n ⟨[], []⟩)) := by
  refine cast (congrArg (Reach true) ?_) Reach.init
  funext t
  simp [sysOf, init, List.getElem?_replicate]
  split <;> rfl

/-! Thread 0 drops a guard of placeholder 5 on which the future 7 waits, and holds the locks of shard 3 and of the state;
thread 1 drops the future and waits for the state; thread 2 calls `get` and waits for the shard. -/

/-- The state described. -/
private def exSys : List Thread :=
  [⟨[.acquire (.waiter 7) .write, .user .wake, .release (.waiter 7), .release (.state 5), .release (.shard 3)],
     [(.state 5, .write), (.shard 3, .write)]⟩,
   ⟨Call.acts true (.dropFuture 3 5 7 (some none)), []⟩,
   ⟨readShard 3 [.eq, .clone], []⟩, ⟨[], []⟩]

private theorem exSys_reach : Reach true (sysOf exSys) :=
  plays_reach (ms := [.call 0 (.dropGuard 3 5 (some (.task 7))), .go 0, .go 0, .call 1 (.dropFuture 3 5 7 (some none)),
    .call 2 (.look 3 [.eq, .clone]), .go 2]) (idle_reach 4) (by decide)

/-- Writers before readers. -/
private def writersFirst (s : Sys) (u t : Nat) : Prop :=
  ∃ l, Wants s u l .write ∧ Wants s t l .read

private instance (s : Sys) : IsStrictOrder Nat (writersFirst s) where
  irrefl := by rintro a ⟨l, ⟨r, h1⟩, r', h2⟩; rw [h1] at h2; simp at h2
  trans := by rintro a b c ⟨l, -, r, h1⟩ ⟨l', ⟨r', h2⟩, -⟩; rw [h1] at h2; simp at h2

/-- Thread 1 waits for thread 0, and so does thread 2; thread 0 can go on. -/
example : Reach true (sysOf exSys) ∧ Wants (sysOf exSys) 0 (.waiter 7) .write ∧
    (.shard 3, .write) ∈ (sysOf exSys 0).held ∧
    WaitsFor (writersFirst (sysOf exSys)) (sysOf exSys) 1 0 ∧ WaitsFor (writersFirst (sysOf exSys)) (sysOf exSys) 2 0 ∧
    (sysOf exSys 3).todo = [] ∧ (sysOf exSys 1).todo ≠ [] ∧ ¬ Parked (sysOf exSys) 1 :=
  ⟨exSys_reach, ⟨_, rfl⟩, by decide, .holder (.state 5) .write .write ⟨_, rfl⟩ (by decide) rfl,
    .holder (.shard 3) .read .write ⟨_, rfl⟩ (by decide) rfl, rfl, by decide, by rintro ⟨_, h⟩; cases h⟩

example : GrantsFree (sysOf exSys) (fun _ => True) := fun _ _ ⟨u, m, h⟩ => ⟨u, m, h, trivial⟩

/-! Thread 0 has a guard of placeholder 5 in shard 3 and runs its loader, which calls `insert` for a key of the same shard,
whose `begin_request` calls `get`. Thread 1 waits for the load, as does the future 7. Thread 2 runs `on_evict` in shard 4,
thread 3 compares keys in shard 3. -/

private def exUser : List Thread :=
  [⟨lookup 3 [] ++ Call.acts true (.store 3 [] true) ++ Call.acts true (.load 3 5 (.stored [.thread, .task 7] [] true)), []⟩,
   ⟨.park :: rejoin true 3 5 false, []⟩,
   ⟨[.user (.writing .onEvict), .release (.shard 4), .user (.outside .endRequest)], [(.shard 4, .write)]⟩,
   ⟨[.user (.reading .eq), .release (.shard 3)], [(.shard 3, .read)]⟩]

private theorem exUser_reach : Reach true (sysOf exUser) :=
  plays_reach (ms := [.call 1 (.wait 3 [] [] 5 (.notified false)), .go 1, .go 1, .go 1, .go 1, .go 1, .go 1, .go 1,
    .call 2 (.store 4 [.inr .onEvict] true), .go 2, .go 2, .go 2, .call 3 (.look 3 [.eq]), .go 3, .go 3,
    .call 0 (.load 3 5 (.stored [.thread, .task 7] [] true)), .nest 0 (.store 3 [] true), .nest 0 (.look 3 [])])
    (idle_reach 4) (by decide)

example : Reach true (sysOf exUser) ∧ Runs (sysOf exUser) 0 (.outside .hash) ∧ Parked (sysOf exUser) 1 ∧
    Runs (sysOf exUser) 2 (.writing .onEvict) ∧ Runs (sysOf exUser) 3 (.reading .eq) :=
  ⟨exUser_reach, ⟨_, rfl⟩, ⟨_, rfl⟩, ⟨_, rfl⟩, ⟨_, rfl⟩⟩

/-- If `on_evict` in thread 2 calls `get` for a key of its shard, it is stuck. -/
example {s' : Sys} (h : Relation.ReflTransGen (Goes true) (Calls true (sysOf exUser) 2 (.look 4 [])) s') :
    Within s' 2 (sysOf exUser 2).todo :=
  C68_stuck (m := .write) (by decide) (.look 4 []) rfl h

/-- A guard of placeholder 5 is dropped on which the future 7 waits: the future is woken with all three locks held. -/
private def exWake : List Thread :=
  [⟨[.user .wake, .release (.waiter 7), .release (.state 5), .release (.shard 3)],
     [(.waiter 7, .write), (.state 5, .write), (.shard 3, .write)]⟩]

example : Reach true (sysOf exWake) ∧ Runs (sysOf exWake) 0 .wake :=
  ⟨plays_reach (ms := [.call 0 (.dropGuard 3 5 (some (.task 7))), .go 0, .go 0, .go 0]) (idle_reach 1) (by decide),
    ⟨_, rfl⟩⟩

/-- Thread 0 inserts with its guard and clones the value; the future 8 of thread 1 clones its waker on a later poll; the
future of thread 2 begins to wait for placeholder 6 and clones its waker. -/
private def exClone : List Thread :=
  [⟨.user .publish :: (notify (.task 7) ++ [.release (.state 5), .user (.outside .beginRequest)] ++ writeShard 3 [] ++ ending true),
     [(.state 5, .write)]⟩,
   ⟨[.user .setWaker, .release (.waiter 8)], [(.waiter 8, .write)]⟩,
   ⟨[.user .newWaker, .release (.state 6), .release (.shard 3)], [(.state 6, .write), (.shard 3, .write)]⟩]

example : Reach true (sysOf exClone) ∧ Runs (sysOf exClone) 0 .publish ∧ Runs (sysOf exClone) 1 .setWaker ∧
    Runs (sysOf exClone) 2 .newWaker :=
  ⟨plays_reach (ms := [.call 0 (.insert 3 5 [.task 7] [] true), .go 0, .call 1 (.poll 3 6 8 none), .go 1,
    .call 2 (.join 3 [] [] (.existing 6 .task)), .go 2, .go 2, .go 2, .go 2, .go 2]) (idle_reach 3) (by decide),
    ⟨_, rfl⟩, ⟨_, rfl⟩, ⟨_, rfl⟩⟩

end QuickCache.Props
