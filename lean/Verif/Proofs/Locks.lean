import Verif.Spec.Locks

/-!
# The order of locks
-/

namespace QuickCache.Locks
open Spec

/-- Where user code may run. -/
def Placed (held : List (Lock × Mode)) : User → Prop
  | .outside _ => held = []
  | .reading _ => ∃ i m, held = [(.shard i, m)]
  | .writing _ => ∃ i, held = [(.shard i, .write)]
  | .publish => ∃ p m, (.state p, m) ∈ held ∧ ∀ x ∈ held, level x.1 ≤ 1
  | .newWaker => ∃ p, (.state p, .write) ∈ held ∧ ∀ x ∈ held, level x.1 ≤ 1
  | .setWaker => ∃ b, held = [(.waiter b, .write)]
  | .wake => ∃ p b, (.state p, .write) ∈ held ∧ (.waiter b, .write) ∈ held

/-- With the locks `held`, these acts obey the order, and release everything. -/
def Ordered : List (Lock × Mode) → List LAct → Prop
  | held, [] => held = []
  | held, .acquire l m :: rest => (∀ x ∈ held, level x.1 < level l) ∧ Ordered ((l, m) :: held) rest
  | held, .release l :: rest => (∃ m, (l, m) ∈ held) ∧ Ordered (held.filter (fun x => x.1 ≠ l)) rest
  | held, .user u :: rest => Placed held u ∧ Ordered held rest
  | held, .park :: rest => held = [] ∧ Ordered held rest

/-- A piece of code that obeys the order and releases what it takes. -/
def Fine (held : List (Lock × Mode)) (body : List LAct) : Prop :=
  ∀ rest, Ordered held rest → Ordered held (body ++ rest)

theorem Fine.nil {held} : Fine held [] := fun _ h => h

theorem Fine.append {held a b} (ha : Fine held a) (hb : Fine held b) : Fine held (a ++ b) := fun rest h => by
  rw [List.append_assoc]; exact ha _ (hb _ h)

theorem Fine.user {held u} (h : Placed held u) : Fine held [.user u] := fun _ h' => ⟨h, h'⟩

theorem Fine.cons {held u b} (h : Placed held u) (hb : Fine held b) : Fine held (.user u :: b) :=
  Fine.append (a := [_]) (.user h) hb

theorem Fine.park {b} (hb : Fine [] b) : Fine [] (.park :: b) := fun _ h => ⟨rfl, hb _ h⟩

theorem Fine.flatMap {α : Type _} {held} {l : List α} {f : α → List LAct} (h : ∀ x ∈ l, Fine held (f x)) :
    Fine held (l.flatMap f) := by
  induction l with
  | nil => exact .nil
  | cons x l ih =>
    rw [List.flatMap_cons]
    exact (h x (by simp)).append (ih fun y hy => h y (by simp [hy]))

theorem Fine.map {α : Type _} {held} {l : List α} {f : α → LAct} (h : ∀ x, Fine held [f x]) : Fine held (l.map f) := by
  induction l with
  | nil => exact .nil
  | cons x l ih => exact Fine.append (a := [f x]) (h x) ih

theorem Fine.locked {held l m body} (hl : ∀ x ∈ held, level x.1 < level l) (hb : Fine ((l, m) :: held) body) :
    Fine held (locked l m body) := by
  intro rest h
  rw [Locks.locked, List.cons_append, List.append_assoc]
  refine ⟨hl, hb _ ⟨⟨m, by simp⟩, ?_⟩⟩
  have : ((l, m) :: held).filter (fun x => x.1 ≠ l) = held := by
    rw [List.filter_cons_of_neg (by simp), List.filter_eq_self]
    intro x hx
    have := hl x hx
    simp only [decide_eq_true_eq]
    intro e; rw [e] at this; omega
  rw [this]; exact h

theorem Fine.readShard {i} (r : ReadCode) : Fine [] (readShard i r) :=
  .locked (by simp) (.map fun _ => .user ⟨i, .read, rfl⟩)

theorem Fine.writeActs {i} (w : WriteCode) : Fine [(.shard i, .write)] (writeActs w) := by
  refine .map fun x => ?_
  cases x with
  | inl u => exact .user ⟨i, .write, rfl⟩
  | inr u => exact .user ⟨i, rfl⟩

theorem Fine.writeShard {i} (w : WriteCode) : Fine [] (writeShard i w) := .locked (by simp) (.writeActs w)

theorem Fine.ending (ends : Bool) : Fine [] (ending ends) := by
  cases ends with
  | false => exact .nil
  | true => exact .user (u := .outside _) rfl

theorem Fine.startLoading {held p} (dbg : Bool) (h : ∀ x ∈ held, level x.1 < 1) : Fine held (startLoading dbg p) := by
  unfold Locks.startLoading
  split
  · exact .locked h .nil
  · exact .nil

theorem Fine.notify {held p} (w : Waiter) (h : ∀ x ∈ held, level x.1 < 2) (hp : (.state p, .write) ∈ held) :
    Fine held (notify w) := by
  cases w with
  | thread => exact .nil
  | task b => exact .locked h (.user ⟨p, b, by simp [hp], by simp⟩)

theorem Fine.joinNotified {held p} (dbg loading : Bool) (h : ∀ x ∈ held, level x.1 < 1) :
    Fine held (joinNotified dbg p loading) := by
  unfold Locks.joinNotified
  split
  · exact .append (.locked h .nil) (.startLoading dbg h)
  · refine .locked h (.user ⟨p, .read, by simp, fun x hx => ?_⟩)
    rcases List.mem_cons.1 hx with rfl | hx
    · exact Nat.le_refl _
    · exact Nat.le_of_lt (h _ hx)

theorem Fine.lookup {i} (r : ReadCode) : Fine [] (lookup i r) := .cons rfl (.readShard r)

theorem Fine.upsert {i} (dbg : Bool) (w : WriteCode) (u : Upsert) : Fine [] (upsert dbg i w u) := by
  refine .locked (by simp) (.append (.writeActs w) ?_)
  cases u with
  | value => exact .user ⟨i, .write, rfl⟩
  | new p => exact .startLoading dbg (by simp [level])
  | existing p f =>
    refine .locked (by simp [level]) ?_
    cases f with
    | value => exact .user ⟨p, .write, by simp, by simp [level]⟩
    | thread => exact .nil
    | task => exact .user ⟨p, by simp, by simp [level]⟩

theorem Fine.rejoin {i p} (dbg loading : Bool) : Fine [] (rejoin dbg i p loading) :=
  .locked (by simp) (.joinNotified dbg loading (by simp [level]))

theorem Fine.dropUninserted {i p} (w : Option Waiter) : Fine [] (dropUninserted i p w) := by
  refine .locked (by simp) (.locked (by simp [level]) ?_)
  cases w with
  | none => exact .nil
  | some w => exact .notify (p := p) w (by simp [level]) (by simp)

theorem Fine.guardInsert {i p} (ws : List Waiter) (w : WriteCode) (ends : Bool) : Fine [] (guardInsert i p ws w ends) := by
  refine .append (.locked (by simp) (.cons ⟨p, .write, by simp, by simp [level]⟩ (.flatMap fun x _ => ?_)))
    (.cons (u := .outside _) rfl (.append (.writeShard w) (.ending ends)))
  exact .notify (p := p) x (by simp [level]) (by simp)

theorem Call.fine (dbg : Bool) (c : Call) : Fine [] (c.acts dbg) := by
  have lk : ∀ (l : Lock) (m : Mode), Fine [] (Locks.locked l m []) := fun l m => .locked (by simp) .nil
  cases c with
  | sizes l => exact .flatMap fun i _ => .readShard []
  | sweep l => exact .flatMap fun x _ => .writeShard _
  | look i r => exact .lookup r
  | remove i w => exact .cons (u := .outside _) rfl (.writeShard w)
  | store i w ends =>
    exact .cons (u := .outside _) rfl (.cons (u := .outside _) rfl (.append (.writeShard w) (.ending ends)))
  | join i r w u => exact (Fine.lookup r).append (.upsert dbg w u)
  | wait i r w p how =>
    refine ((Fine.lookup r).append (.upsert dbg w _)).append ?_
    cases how with
    | notified b => exact .park (.rejoin dbg b)
    | timely b => exact .park ((lk _ _).append (.rejoin dbg b))
    | timeout => exact .park (lk _ _)
  | poll i p b n =>
    cases n with
    | none => exact .locked (by simp) (.user ⟨b, rfl⟩)
    | some loading => exact (lk _ _).append (.locked (by simp) (.joinNotified dbg loading (by simp [level])))
  | dropFuture i p b w =>
    have h1 : Fine [] (Locks.locked (.state p) .write (Locks.locked (.waiter b) .read [])) :=
      .locked (by simp) (.locked (by simp [level]) .nil)
    cases w with
    | none => exact h1
    | some w => exact (h1.append (.startLoading dbg (by simp))).append (.dropUninserted w)
  | insert i p ws w ends => exact .guardInsert ws w ends
  | dropGuard i p w => exact .dropUninserted w
  | load i p l =>
    cases l with
    | stored ws w ends => exact .cons (u := .outside _) rfl (.cons (u := .outside _) rfl (.guardInsert ws w ends))
    | failed w => exact .cons (u := .outside _) rfl (.dropUninserted w)

theorem Reach.ordered {dbg : Bool} {s : Sys} (h : Reach dbg s) (t : Nat) : Ordered (s t).held (s t).todo := by
  induction h generalizing t with
  | init => rfl
  | @call s u c h hu ih =>
    by_cases e : t = u
    · subst e
      rw [Function.update_self]
      have h0 := ih t
      rw [hu] at h0
      simp only [Ordered] at h0
      have := Call.fine dbg c [] rfl
      simp only [h0]; simpa using this
    · rw [Function.update_of_ne e]; exact ih t
  | @nest s u x rest c h hu ih =>
    by_cases e : t = u
    · subst e
      rw [Function.update_self]
      have h0 := ih t
      have h1 := h0
      rw [hu] at h1
      have h2 : (s t).held = [] := h1.1
      rw [h2] at h0
      simp only [h2]
      exact Call.fine dbg c _ h0
    · rw [Function.update_of_ne e]; exact ih t
  | @step s s' u h hs ih =>
    cases hs with
    | acquire hu free =>
      by_cases e : t = u
      · subst e
        rw [Function.update_self]
        have h0 := ih t
        rw [hu] at h0
        exact h0.2
      · rw [Function.update_of_ne e]; exact ih t
    | release hu =>
      by_cases e : t = u
      · subst e
        rw [Function.update_self]
        have h0 := ih t
        rw [hu] at h0
        exact h0.2
      · rw [Function.update_of_ne e]; exact ih t
    | user hu =>
      by_cases e : t = u
      · subst e
        rw [Function.update_self]
        have h0 := ih t
        rw [hu] at h0
        exact h0.2
      · rw [Function.update_of_ne e]; exact ih t
    | unpark hu =>
      by_cases e : t = u
      · subst e
        rw [Function.update_self]
        have h0 := ih t
        rw [hu] at h0
        exact h0.2
      · rw [Function.update_of_ne e]; exact ih t

theorem Reach.placed {dbg : Bool} {s : Sys} (h : Reach dbg s) {t : Nat} {u : User} (hu : Runs s t u) :
    Placed (s t).held u := by
  obtain ⟨rest, hu⟩ := hu
  have := h.ordered t
  rw [hu] at this
  exact this.1

end QuickCache.Locks
