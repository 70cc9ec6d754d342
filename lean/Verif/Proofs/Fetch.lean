import Verif.Spec.Fetch
import Verif.Proofs.ConcHistory
import Verif.Proofs.ConcProgress
import Verif.Proofs.Sharded

/-!
# Proofs about `get_or_insert_with` and `get_or_insert_async`
-/

namespace QuickCache.Fetch
variable {K V RS E : Type}
open Conc Spec Function

/-! ### What an action of the protocol does to an agent -/

/-- How an agent goes on in an action that ends none of its calls. -/
inductive Moves (act : Conc.Act K V) (n b : Nat) (kind : Kind) : Ctl K V → Ctl K V → Prop
  | call {x x' : Ctl K V} (h : x.calling = true) (h' : x'.calling = true ∨ ∃ k p, x' = .guard k p) (hk : x'.key = x.key) :
      Moves act n b kind x x'
  | publish {k : K} {p : Plh} {v : V} {r : Bool} (ha : act = .publish b v) : Moves act n b kind (.guard k p) (.inserting k p v r)
  | drop {k : K} {p : Plh} (ha : act = .drop b) : Moves act n b kind (.guard k p) (.leaving k p)
  | lock {k : K} {p : Plh} : Moves act n b kind (.leaving k p) (.dropping k p)
  | abandon {k : K} {p : Plh} : Moves act n b kind (.abandoning k p) (.leaving k p)
  | miss {x : Ctl K V} (hk : kind = .get) : Moves act n b kind x .idle
  | begin {kind' : Kind} {k : K} (ha : act = .begin kind' k) (hb : b = n) : Moves act n b kind .idle (.start k)

/-- How an agent's call ends with an event. -/
inductive EndsAt (a : Nat) (kind : Kind) : Ctl K V → Conc.Ev K V → Ctl K V → Prop
  | hit {x : Ctl K V} {k : K} {v : V} (h : x.calling = true) (hk : x.key = some k) : EndsAt a kind x (.hit a k v) .idle
  | received {x : Ctl K V} {k : K} {p : Plh} {v : V} (h : x.calling = true) (hk : x.key = some k) :
      EndsAt a kind x (.received a k p v) .idle
  | inserted {k : K} {p : Plh} {v : V} {r : Bool} {err : Option V} :
      EndsAt a kind (.inserting k p v r) (.insertDone a k p err) .idle
  | handedOver {k : K} {p : Plh} {b : Nat} : EndsAt a kind (.dropping k p) (.handedOver a p b) .idle
  | dropped {k : K} {p : Plh} : EndsAt a kind (.dropping k p) (.dropped a k p) .idle
  | timedOut {x : Ctl K V} {tid : Nat} (h : x.calling = true) (hk : kind = .thread tid true) :
      EndsAt a kind x (.timedOut a) .idle
  | cancelled {x x' : Ctl K V} (h : x.calling = true) (h' : x' = .idle ∨ ∃ k p, x.key = some k ∧ x' = .abandoning k p) :
      EndsAt a kind x (.cancelled a) x'

/-- What an action does to the agents. -/
inductive Turn (s : Conc.State K V) (act : Conc.Act K V) (s' : Conc.State K V) : List (Conc.Ev K V) → Prop
  | quiet {evs : List (Conc.Ev K V)} (h : ∀ e ∈ evs, ender e = none)
      (hm : ∀ b, s'.ctl b = s.ctl b ∨ Moves act s.next b (s.kind b) (s.ctl b) (s'.ctl b)) : Turn s act s' evs
  | ends {pre post : List (Conc.Ev K V)} {a : Nat} {e : Conc.Ev K V} (hpre : ∀ e ∈ pre, ender e = none)
      (hpost : ∀ e ∈ post, ender e = none) (he : EndsAt a (s.kind a) (s.ctl a) e (s'.ctl a))
      (hm : ∀ b, b ≠ a → s'.ctl b = s.ctl b) : Turn s act s' (pre ++ e :: post)

theorem moves_go {act : Conc.Act K V} {s : Conc.State K V} {a : Nat} {x x' : Ctl K V} (hx : s.ctl a = x)
    (h : Moves act s.next a (s.kind a) x x') :
    ∀ b, (update s.ctl a x') b = s.ctl b ∨ Moves act s.next b (s.kind b) (s.ctl b) ((update s.ctl a x') b) := by
  intro b
  by_cases hb : b = a
  · subst hb; rw [update_self, hx]; exact .inr h
  · rw [update_of_ne hb]; exact .inl rfl

theorem quiet_wakes (s : Conc.State K V) (b : Nat) : ∀ e ∈ s.wakes b, ender e = none := by
  intro e he
  unfold Conc.State.wakes at he
  split at he
  · simp only [List.mem_singleton] at he; subst he; rfl
  · cases he

section
variable [DecidableEq K] {c : Cfg K V RS} {s s' : Conc.State K V} {act : Conc.Act K V} {evs : List (Conc.Ev K V)}

theorem turn (hi : CInv c s) (he : Eff c s act s' evs) : Turn s act s' evs := by
  have hn : ∀ {a x}, ∀ b, b ≠ a → (update s.ctl a x) b = s.ctl b := fun b hb => update_of_ne hb ..
  cases he with
  | begin kind k hk =>
    exact .quiet (by simp) (moves_go (s := s) (hi.fresh _ (Nat.le_refl _)) (.begin rfl rfl))
  | enter w h hw =>
    refine .quiet ?_ (moves_go (s := s) h (.call rfl (.inl rfl) rfl))
    intro e he
    split at he
    · simp only [List.mem_singleton] at he; subst he; rfl
    · cases he
  | located h t r ht hk => exact .quiet (by simp [ender]) (moves_go (s := s) h (.call rfl (.inl rfl) rfl))
  | absent h hno => exact .quiet (by simp [ender]) (moves_go (s := s) h (.call rfl (.inl rfl) rfl))
  | load h n _ =>
    refine .quiet (by simp [ender]) (moves_go (s := s) h ?_)
    split
    · exact .call rfl (.inl rfl) rfl
    · exact .call rfl (.inl rfl) rfl
  | bump h he => exact .quiet (by simp [ender]) (moves_go (s := s) h (.call rfl (.inl rfl) rfl))
  | @hit a k v sh h he =>
    refine .ends (a := a) (pre := [_]) (post := []) (by simp [ender]) (by simp) ?_ (hn (x := .idle))
    simp only [Conc.State.go, update_self]
    rw [h]; exact .hit rfl rfl
  | @miss a k sh h hk he => exact .quiet (by simp [ender]) (moves_go (s := s) h (.miss hk))
  | goOn h hk he => exact .quiet (by simp [ender]) (moves_go (s := s) h (.call rfl (.inl rfl) rfl))
  | @found a k v sh h hw hr he =>
    refine .ends (a := a) (pre := [_]) (post := []) (by simp [ender]) (by simp) ?_ (hn (x := .idle))
    simp only [Conc.State.go, update_self]
    rw [h]; exact .hit rfl rfl
  | created h hw hr he => exact .quiet (by simp [ender]) (moves_go (s := s) h (.call rfl (.inl rfl) rfl))
  | joining h hw hr he => exact .quiet (by simp [ender]) (moves_go (s := s) h (.call rfl (.inl rfl) rfl))
  | enlist h hp hk hh hl => exact .quiet (by simp [ender]) (moves_go (s := s) h (.call rfl (.inl rfl) rfl))
  | @late a k p ps v h hp hk hh hl =>
    refine .ends (a := a) (pre := []) (post := []) (by simp) (by simp) ?_ (hn (x := .idle))
    simp only [Conc.State.go, Conc.State.unlockWrite, update_self]
    rw [h]; exact .received rfl rfl
  | @guard a k p w h =>
    have e : (if w then (s.go a (.guard k p)).unlockWrite else (s.go a (.guard k p)).unlockRead a).ctl =
        update s.ctl a (.guard k p) := by cases w <;> rfl
    refine .quiet (by simp [ender]) ?_
    rw [e]
    exact moves_go (s := s) h (.call rfl (.inr ⟨k, p, rfl⟩) rfl)
  | wake h hk hf => exact .quiet (by simp) (moves_go (s := s) h (.call rfl (.inl rfl) rfl))
  | claim w h hk hf => exact .quiet (by simp [ender]) (moves_go (s := s) h (.call rfl (.inl rfl) rfl))
  | pending w h hk hf => exact .quiet (by simp [ender]) (fun b => .inl rfl)
  | timely h hk hf => exact .quiet (by simp) (moves_go (s := s) h (.call rfl (.inl rfl) rfl))
  | @timeout a k p tid ps ws h hk hf hp hh hws =>
    refine .ends (a := a) (pre := []) (post := []) (by simp) (by simp) ?_ (hn (x := .idle))
    simp only [Conc.State.go, Conc.State.setPlh, update_self]
    rw [h]; exact .timedOut rfl hk
  | relock h hw => exact .quiet (by simp) (moves_go (s := s) h (.call rfl (.inl rfl) rfl))
  | retry h hp hk hh hl => exact .quiet (by simp) (moves_go (s := s) h (.call rfl (.inl rfl) rfl))
  | @received a k p ps v h hp hk hh hl =>
    refine .ends (a := a) (pre := []) (post := []) (by simp) (by simp) ?_ (hn (x := .idle))
    simp only [Conc.State.go, Conc.State.unlockRead, update_self]
    rw [h]; exact .received rfl rfl
  | publish v h hp hk hh hl =>
    refine .quiet ?_ (moves_go (s := s) h (.publish rfl))
    intro e he
    rcases List.mem_cons.1 he with rfl | he
    · rfl
    · obtain ⟨b, -, hb⟩ := List.mem_flatMap.1 he
      exact quiet_wakes s b e hb
  | @superseded a k p v r h hw hr hg =>
    refine .ends (a := a) (pre := [_]) (post := []) (by simp [ender]) (by simp) ?_ (hn (x := .idle))
    simp only [Conc.State.go, update_self]
    rw [h]; exact .inserted
  | @store a k p v r sh q h hw hr hl he =>
    refine .ends (a := a) (pre := [_]) (post := []) (by simp [ender]) (by simp) ?_ (hn (x := .idle))
    simp only [Conc.State.go, update_self]
    rw [h]; exact .inserted
  | drop h => exact .quiet (by simp) (moves_go (s := s) h (.drop rfl))
  | lockDrop h hw hr => exact .quiet (by simp) (moves_go (s := s) h (.lock))
  | @handOver a b k p ps h hp hk hh hl hb =>
    refine .ends (a := a) (pre := []) (by simp) (quiet_wakes s b) ?_ (hn (x := .idle))
    simp only [Conc.State.go, Conc.State.setPlh, Conc.State.unlockWrite, Conc.State.notify, update_self]
    rw [h]; exact .handedOver
  | @giveUp a k p ps sh h hp hk hh hl hb he =>
    refine .ends (a := a) (pre := [_]) (post := []) (by simp [ender]) (by simp) ?_ (hn (x := .idle))
    simp only [Conc.State.go, Conc.State.setPlh, Conc.State.unlockWrite, update_self]
    rw [h]; exact .dropped
  | @unpolled a k h hk =>
    refine .ends (a := a) (pre := []) (post := []) (by simp) (by simp) ?_ (hn (x := .idle))
    simp only [Conc.State.go, update_self]
    rw [h]; exact .cancelled rfl (.inl rfl)
  | @cancelOwner a k p ps h hk hf hp hh hl =>
    refine .ends (a := a) (pre := []) (post := []) (by simp) (by simp) ?_ (hn (x := .abandoning k p))
    simp only [Conc.State.go, update_self]
    rw [h]; exact .cancelled rfl (.inr ⟨k, p, rfl, rfl⟩)
  | @cancelDone a k p ps h hk hf hp hh hl =>
    refine .ends (a := a) (pre := []) (post := []) (by simp) (by simp) ?_ (hn (x := .idle))
    simp only [Conc.State.go, update_self]
    rw [h]; exact .cancelled rfl (.inl rfl)
  | @cancel a k p ps ws h hk hf hp hh hws =>
    refine .ends (a := a) (pre := []) (post := []) (by simp) (by simp) ?_ (hn (x := .idle))
    simp only [Conc.State.go, Conc.State.setPlh, update_self]
    rw [h]; exact .cancelled rfl (.inl rfl)
  | abandon h => exact .quiet (by simp) (moves_go (s := s) h (.abandon))
  | read hop he => exact .quiet (by simp [ender]) (fun b => .inl rfl)
  | write hop hw hr he => exact .quiet (by simp [ender]) (fun b => .inl rfl)

theorem kinds (he : Eff c s act s' evs) : (s'.kind = s.kind ∧ s'.next = s.next) ∨
    ∃ kind k, act = .begin kind k ∧ s'.kind = update s.kind s.next kind ∧ s'.next = s.next + 1 := by
  cases he with
  | begin kind k hk => exact .inr ⟨kind, k, rfl, rfl, rfl⟩
  | @guard a k p w h => left; cases w <;> exact ⟨rfl, rfl⟩
  | _ => exact .inl ⟨rfl, rfl⟩

end

/-! ### The reaction -/

theorem react_quiet {prog : Nat → Prog V E} : ∀ {es : List (Conc.Ev K V)}, (∀ e ∈ es, ender e = none) →
    react prog es = .ok (prog, es.map .base)
  | [], _ => rfl
  | e :: es, h => by
    unfold react
    rw [h e (by simp), react_quiet (fun x hx => h x (by simp [hx]))]
    rfl

theorem react_pre {prog : Nat → Prog V E} {l : List (Conc.Ev K V)} : ∀ {pre : List (Conc.Ev K V)},
    (∀ e ∈ pre, ender e = none) → react prog (pre ++ l) = (react prog l).map (fun x => (x.1, pre.map .base ++ x.2))
  | [], _ => by
    rw [List.nil_append]
    cases react prog l <;> rfl
  | e :: pre, h => by
    rw [List.cons_append]
    conv => lhs; unfold react
    rw [h e (by simp)]
    simp only
    rw [react_pre (fun x hx => h x (by simp [hx]))]
    cases react prog l <;> rfl

theorem react_ends {prog : Nat → Prog V E} {pre post : List (Conc.Ev K V)} {e : Conc.Ev K V} {a : Nat}
    (hpre : ∀ e ∈ pre, ender e = none) (hpost : ∀ e ∈ post, ender e = none) (he : ender e = some a) :
    (prog a = .asking ∧ e = .timedOut a ∧ react prog (pre ++ e :: post) = .error .unreachable) ∨
    (outcome (prog a) e = none ∧ react prog (pre ++ e :: post) = .ok (prog, (pre ++ e :: post).map .base)) ∨
    (∃ r, outcome (prog a) e = some r ∧ react prog (pre ++ e :: post) = .ok (update prog a .done,
      pre.map .base ++ (.base e :: (r.map (fun r => Ev.returned a r)).toList ++ post.map .base))) := by
  rw [react_pre hpre]
  conv => enter [1, 2, 2, 1, 2]; unfold react
  conv => enter [2, 1, 2, 1, 2]; unfold react
  conv => enter [2, 2, 1, r, 2, 1, 2]; unfold react
  simp only [he, react_quiet hpost]
  by_cases ht : prog a = .asking ∧ e = .timedOut a
  · left
    obtain ⟨h1, rfl⟩ := ht
    simp only [h1]
    exact ⟨trivial, trivial, rfl⟩
  · right
    cases ho : outcome (prog a) e with
    | none =>
      left
      refine ⟨rfl, ?_⟩
      split
      · rename_i h1
        cases he
        exact absurd ⟨h1, rfl⟩ ht
      · simp [Except.map, ho]
    | some r =>
      right
      refine ⟨r, rfl, ?_⟩
      split
      · rename_i h1
        cases he
        exact absurd ⟨h1, rfl⟩ ht
      · simp [Except.map, ho]

theorem baseEvs_base (es : List (Conc.Ev K V)) : baseEvs (es.map (Ev.base (E := E))) = es := by
  induction es with
  | nil => rfl
  | cons e es ih => simp [baseEvs]

theorem baseEvs_append (t1 t2 : List (Ev K V E)) : baseEvs (t1 ++ t2) = baseEvs t1 ++ baseEvs t2 := by
  simp [baseEvs]

theorem react_base {es : List (Conc.Ev K V)} : ∀ {prog prog' : Nat → Prog V E} {evs : List (Ev K V E)},
    react prog es = .ok (prog', evs) → baseEvs evs = es := by
  induction es with
  | nil => intro prog prog' evs h; cases h; rfl
  | cons e es ih =>
    intro prog prog' evs h
    have go : ∀ {prog1 : Nat → Prog V E} {l : List (Ev K V E)} (hl : baseEvs l = [])
        (h : (react prog1 es >>= fun x => Except.ok (x.1, Ev.base e :: l ++ x.2)) = .ok (prog', evs)),
        baseEvs evs = e :: es := by
      intro prog1 l hl h
      cases h1 : react prog1 es with
      | error p => rw [h1] at h; cases h
      | ok x =>
        rw [h1] at h
        cases h
        have := ih (prog' := x.1) h1
        rw [baseEvs_append, this, show baseEvs (Ev.base e :: l) = e :: baseEvs l from rfl, hl]
        rfl
    unfold react at h
    split at h
    · exact go (l := []) rfl h
    · split at h
      · cases h
      · split at h
        · exact go (l := []) rfl h
        · refine go (l := _) ?_ h
          rename_i r _
          cases r <;> rfl

/-! ### The protocol underneath -/

section
variable [DecidableEq K] {c : Cfg K V RS} {s s' : State K V E} {tr evs : List (Ev K V E)} {act : Act K V E}

/-- An action is an action of the protocol, or does nothing to it. -/
theorem lift_some {bact : Conc.Act K V} {r : Res (State K V E × List (Ev K V E))} (h : lift c s bact = some r) :
    ∃ b, Conc.exec c s.base bact = some b ∧ r = (do
      let (b, es) ← b
      let (prog, evs) ← react s.prog es
      .ok (⟨b, prog⟩, evs)) := by
  unfold lift at h
  cases hb : Conc.exec c s.base bact with
  | none => rw [hb] at h; cases h
  | some b => rw [hb] at h; cases h; exact ⟨b, rfl, rfl⟩

theorem lift_ok {bact : Conc.Act K V} (h : lift c s bact = some (.ok (s', evs))) :
    ∃ es, Conc.exec c s.base bact = some (.ok (s'.base, es)) ∧ react s.prog es = .ok (s'.prog, evs) := by
  obtain ⟨b, hb, h⟩ := lift_some h
  cases b with
  | error p => cases h
  | ok x =>
    obtain ⟨b, es⟩ := x
    simp only [Res.ok_bind] at h
    cases hr : react s.prog es with
    | error p => rw [hr] at h; cases h
    | ok y => rw [hr] at h; cases h; exact ⟨es, hb, hr⟩

theorem begin_ok {kind : Kind} {k : K} (h : begin c s kind k = some (.ok (s', evs))) :
    Conc.exec c s.base (.begin kind k) = some (.ok (s'.base, [])) ∧ s'.prog = update s.prog s.base.next .asking ∧
      evs = [.called s.base.next k] ∧ s'.base.ctl = update s.base.ctl s.base.next (.start k) ∧
      s'.base.kind = update s.base.kind s.base.next kind ∧ s'.base.next = s.base.next + 1 := by
  unfold begin at h
  cases hb : Conc.exec c s.base (.begin kind k) with
  | none => rw [hb] at h; cases h
  | some r =>
    rw [hb] at h
    have ite : ∀ {α : Type} (b : Bool) (x r : α), (if b = true then some x else none) = some r → r = x := by
      intro α b x r h
      cases b
      · cases h
      · cases h; rfl
    simp only [Conc.exec, Conc.begin] at hb
    obtain rfl := ite _ _ _ hb
    cases h
    exact ⟨rfl, rfl, rfl, rfl, rfl, rfl⟩

/-- The action of the protocol that an action performs. -/
inductive Does (s : State K V E) : Act K V E → Conc.Act K V → Prop
  | base {a : Conc.Act K V} (h : usesGuard s.prog a = false) : Does s (.base a) a
  | insert {a : Nat} {v : V} (h : s.prog a = .loaded v) : Does s (.insert a) (.publish a v)
  | giveUp {a : Nat} {e : Option E} (h : s.prog a = .failed e) : Does s (.giveUp a) (.drop a)

/-- An action is one of four things. -/
theorem exec_cases (h : exec c s act = some (.ok (s', evs))) :
    (∃ bact es, Does s act bact ∧ Conc.exec c s.base bact = some (.ok (s'.base, es)) ∧ react s.prog es = .ok (s'.prog, evs)) ∨
    (∃ kind k, (kind = .task ∨ ∃ tid, kind = .thread tid false) ∧ begin c s kind k = some (.ok (s', evs))) ∨
    (∃ a k p, s.prog a = .asking ∧ s.base.ctl a = .guard k p ∧ s' = { s with prog := update s.prog a .loading } ∧
      evs = [.loader a k]) ∨
    (∃ a r x, s.prog a = .loading ∧ s' = { s with prog := update s.prog a x } ∧ evs = [.loaded a r] ∧
      ((∃ v, r = some (.ok v) ∧ x = .loaded v) ∨ (∃ e, r = some (.error e) ∧ x = .failed (some e)) ∨
        (r = none ∧ x = .failed none))) := by
  cases act with
  | base bact =>
    simp only [exec] at h
    split at h
    · cases h
    · rename_i hu
      obtain ⟨es, h1, h2⟩ := lift_ok h
      exact .inl ⟨bact, es, .base (by simpa using hu), h1, h2⟩
  | call tid k => exact .inr (.inl ⟨_, k, .inr ⟨tid, rfl⟩, h⟩)
  | callAsync k => exact .inr (.inl ⟨_, k, .inl rfl, h⟩)
  | load a =>
    simp only [exec] at h
    split at h
    · rename_i k p h1 h2
      cases h
      exact .inr (.inr (.inl ⟨a, k, p, h1, h2, rfl, rfl⟩))
    · cases h
  | finish a r =>
    simp only [exec] at h
    split at h
    · rename_i h1
      cases h
      refine .inr (.inr (.inr ⟨a, r, _, h1, rfl, rfl, ?_⟩))
      rcases r with _ | ⟨e | v⟩
      · exact .inr (.inr ⟨rfl, rfl⟩)
      · exact .inr (.inl ⟨e, rfl, rfl⟩)
      · exact .inl ⟨v, rfl, rfl⟩
    · cases h
  | insert a =>
    simp only [exec] at h
    split at h
    · rename_i v h1
      obtain ⟨es, h2, h3⟩ := lift_ok h
      exact .inl ⟨_, es, .insert h1, h2, h3⟩
    · cases h
  | giveUp a =>
    simp only [exec] at h
    split at h
    · rename_i e h1
      obtain ⟨es, h2, h3⟩ := lift_ok h
      exact .inl ⟨_, es, .giveUp h1, h2, h3⟩
    · cases h

theorem Run.base {s0 : State K V E} (hr : Run c s0 tr s) : Conc.Run c s0.base (baseEvs tr) s.base := by
  induction hr with
  | start => exact .start
  | layout m p hr hm hp ih => exact .layout m p ih hm hp
  | act hr hs ih =>
    rw [baseEvs_append]
    rcases exec_cases hs with ⟨bact, es, -, h1, h2⟩ | ⟨kind, k, -, h⟩ | ⟨a, k, p, -, -, rfl, rfl⟩ | ⟨a, r, x, -, rfl, rfl, -⟩
    · rw [react_base h2]; exact .act ih h1
    · obtain ⟨h1, -, rfl, -⟩ := begin_ok h
      have := Conc.Run.act ih h1
      rw [List.append_nil] at this
      rw [show baseEvs [Ev.called (E := E) _ k] = ([] : List (Conc.Ev K V)) from rfl, List.append_nil]
      exact this
    · rw [show baseEvs [Ev.loader (E := E) a k] = ([] : List (Conc.Ev K V)) from rfl, List.append_nil]; exact ih
    · rw [show baseEvs [Ev.loaded a r] = ([] : List (Conc.Ev K V)) from rfl, List.append_nil]; exact ih

end

/-! ### The stories -/

/-- Where a call is, what its agent is doing, and its story so far. -/
inductive Place (a : Nat) (k : K) : Prog V E → Ctl K V → List (Ev K V E) → Prop
  | asking {x : Ctl K V} (h : x.calling = true) (hk : x.key = some k) : Place a k .asking x [.called a k]
  | asked {p : Plh} : Place a k .asking (.guard k p) [.called a k]
  | loading {p : Plh} : Place a k .loading (.guard k p) [.called a k, .loader a k]
  | loaded {p : Plh} {v : V} {x : Ctl K V} (h : x = .guard k p ∨ ∃ r, x = .inserting k p v r) :
      Place a k (.loaded v) x [.called a k, .loader a k, .loaded a (some (.ok v))]
  | failed {p : Plh} {e : Option E} {x : Ctl K V} (h : x = .guard k p ∨ x = .leaving k p ∨ x = .dropping k p) :
      Place a k (.failed e) x [.called a k, .loader a k, .loaded a (e.map .error)]
  | done {x : Ctl K V} {l : List (Ev K V E)} (h : x = .idle ∨ ∃ p, x = .abandoning k p ∨ x = .leaving k p ∨ x = .dropping k p)
      (ht : Told a k l) : Place a k .done x l

/-- The invariant. -/
structure FInv (tr : List (Ev K V E)) (s : State K V E) : Prop where
  fresh : ∀ a, s.base.next ≤ a → s.prog a = .raw
  kind : ∀ a, s.prog a ≠ .raw → s.base.kind a = .task ∨ ∃ tid, s.base.kind a = .thread tid false
  told : ∀ e ∈ tr, ∀ a, ofCall a e = true → a < s.base.next
  raw : ∀ a, s.prog a = .raw → ∀ e ∈ tr, ofCall a e = true → ∃ b, e = .base b
  call : ∀ a, s.prog a ≠ .raw → ∃ k, Place a k (s.prog a) (s.base.ctl a) (story a tr)

theorem ofCall_ender {a : Nat} {e : Conc.Ev K V} (h : ender e = none) : ofCall a (Ev.base (E := E) e) = false := by
  cases e <;> first | rfl | cases h

theorem story_append (a : Nat) (t1 t2 : List (Ev K V E)) : story a (t1 ++ t2) = story a t1 ++ story a t2 := by
  simp [story]

theorem story_quiet (a : Nat) {es : List (Conc.Ev K V)} (h : ∀ e ∈ es, ender e = none) :
    story a (es.map (Ev.base (E := E))) = [] := by
  unfold story
  rw [List.filter_eq_nil_iff]
  intro e he
  obtain ⟨b, hb, rfl⟩ := List.mem_map.1 he
  rw [ofCall_ender (h b hb)]
  simp

theorem EndsAt.ender {a : Nat} {kind : Kind} {x x' : Ctl K V} {e : Conc.Ev K V} (h : EndsAt a kind x e x') :
    Fetch.ender e = some a := by
  cases h <;> rfl

/-- An event that ends a call of `a` is not about another. -/
theorem EndsAt.other {a b : Nat} {kind : Kind} {x x' : Ctl K V} {e : Conc.Ev K V} (h : EndsAt a kind x e x') (hb : b ≠ a) :
    ofCall b (Ev.base (E := E) e) = false := by
  cases h <;> simp [ofCall, Ne.symm hb]

theorem Place.move {bact : Conc.Act K V} {n a : Nat} {k : K} {x x' : Ctl K V} {kind : Kind} {y : Prog V E}
    {l : List (Ev K V E)} (hp : Place a k y x l) (hm : Moves bact n a kind x x') (hk : kind ≠ .get) (hn : a ≠ n)
    (hpub : ∀ v, bact = .publish a v → y = .loaded v) (hdr : bact = .drop a → ∃ e, y = .failed e) : Place a k y x' l := by
  cases hm with
  | call h h' hkey =>
    cases hp with
    | asking h1 hk1 =>
      rcases h' with h' | ⟨k', p, rfl⟩
      · exact .asking h' (hkey.trans hk1)
      · rw [← hkey] at hk1
        cases hk1
        exact .asked
    | asked => cases h
    | loading => cases h
    | loaded h1 => rcases h1 with rfl | ⟨r, rfl⟩ <;> cases h
    | failed h1 => rcases h1 with rfl | rfl | rfl <;> cases h
    | done h1 ht => rcases h1 with rfl | ⟨p, rfl | rfl | rfl⟩ <;> cases h
  | publish ha =>
    obtain rfl := hpub _ ha
    cases hp with
    | loaded h =>
      rcases h with h | ⟨r, h⟩
      · cases h; exact .loaded (.inr ⟨_, rfl⟩)
      · cases h
  | drop ha =>
    obtain ⟨e, rfl⟩ := hdr ha
    cases hp with
    | failed h =>
      rcases h with h | h | h
      · cases h; exact .failed (.inr (.inl rfl))
      · cases h
      · cases h
  | lock =>
    cases hp with
    | asking h1 hk1 => cases h1
    | loaded h1 => rcases h1 with h1 | ⟨r, h1⟩ <;> cases h1
    | failed h1 =>
      rcases h1 with h1 | h1 | h1
      · cases h1
      · cases h1; exact .failed (.inr (.inr rfl))
      · cases h1
    | done h1 ht =>
      rcases h1 with h1 | ⟨p, h1 | h1 | h1⟩
      · cases h1
      · cases h1
      · cases h1; exact .done (.inr ⟨_, .inr (.inr rfl)⟩) ht
      · cases h1
  | abandon =>
    cases hp with
    | asking h1 hk1 => cases h1
    | loaded h1 => rcases h1 with h1 | ⟨r, h1⟩ <;> cases h1
    | failed h1 => rcases h1 with h1 | h1 | h1 <;> cases h1
    | done h1 ht =>
      rcases h1 with h1 | ⟨p, h1 | h1 | h1⟩
      · cases h1
      · cases h1; exact .done (.inr ⟨_, .inr (.inl rfl)⟩) ht
      · cases h1
      · cases h1
  | miss h => exact absurd h hk
  | begin ha hb => exact absurd hb hn

/-- The end of a call. -/
theorem Place.ends {a : Nat} {k : K} {x x' : Ctl K V} {kind : Kind} {y : Prog V E} {e : Conc.Ev K V}
    {l : List (Ev K V E)} (hp : Place a k y x l) (he : EndsAt a kind x e x') (ht : ∀ tid, kind ≠ .thread tid true) :
    (outcome y e = none ∧ ofCall a (Ev.base (E := E) e) = false ∧ Place a k y x' l) ∨
    ∃ r, outcome y e = some r ∧ Place a k .done x'
      (l ++ ([Ev.base e].filter (ofCall a) ++ (r.map (fun r => Ev.returned a r)).toList)) := by
  cases he with
  | hit h hk =>
    cases hp with
    | asking h1 hk1 =>
      rw [hk] at hk1; cases hk1
      refine .inr ⟨_, rfl, ?_⟩
      simp only [List.filter, ofCall, beq_self_eq_true]
      exact .done (.inl rfl) (.found _)
    | asked => cases h
    | loading => cases h
    | loaded h1 => rcases h1 with rfl | ⟨r, rfl⟩ <;> cases h
    | failed h1 => rcases h1 with rfl | rfl | rfl <;> cases h
    | done h1 ht => rcases h1 with rfl | ⟨p, rfl | rfl | rfl⟩ <;> cases h
  | received h hk =>
    cases hp with
    | asking h1 hk1 =>
      rw [hk] at hk1; cases hk1
      refine .inr ⟨_, rfl, ?_⟩
      simp only [List.filter, ofCall, beq_self_eq_true]
      exact .done (.inl rfl) (.received _ _)
    | asked => cases h
    | loading => cases h
    | loaded h1 => rcases h1 with rfl | ⟨r, rfl⟩ <;> cases h
    | failed h1 => rcases h1 with rfl | rfl | rfl <;> cases h
    | done h1 ht => rcases h1 with rfl | ⟨p, rfl | rfl | rfl⟩ <;> cases h
  | inserted =>
    cases hp with
    | asking h1 hk1 => cases h1
    | loaded h1 =>
      rcases h1 with h1 | ⟨r, h1⟩
      · cases h1
      · cases h1
        refine .inr ⟨_, rfl, ?_⟩
        simp only [List.filter, ofCall]
        exact .done (.inl rfl) (.loaded _)
    | failed h1 => rcases h1 with h1 | h1 | h1 <;> cases h1
    | done h1 ht => rcases h1 with h1 | ⟨p, h1 | h1 | h1⟩ <;> cases h1
  | handedOver =>
    cases hp with
    | asking h1 hk1 => cases h1
    | loaded h1 => rcases h1 with h1 | ⟨r, h1⟩ <;> cases h1
    | @failed p e x h1 =>
      refine .inr ⟨_, rfl, ?_⟩
      simp only [List.filter, ofCall]
      cases e with
      | none => exact .done (.inl rfl) .broken
      | some e => exact .done (.inl rfl) (.failed e)
    | done h1 ht => exact .inl ⟨rfl, rfl, .done (.inl rfl) ht⟩
  | dropped =>
    cases hp with
    | asking h1 hk1 => cases h1
    | loaded h1 => rcases h1 with h1 | ⟨r, h1⟩ <;> cases h1
    | @failed p e x h1 =>
      refine .inr ⟨_, rfl, ?_⟩
      simp only [List.filter, ofCall]
      cases e with
      | none => exact .done (.inl rfl) .broken
      | some e => exact .done (.inl rfl) (.failed e)
    | done h1 ht => exact .inl ⟨rfl, rfl, .done (.inl rfl) ht⟩
  | timedOut h hk => exact absurd hk (ht _)
  | cancelled h h' =>
    cases hp with
    | asking h1 hk1 =>
      refine .inr ⟨_, rfl, ?_⟩
      simp only [List.filter, ofCall, beq_self_eq_true]
      rcases h' with rfl | ⟨k', p, hk', rfl⟩
      · exact .done (.inl rfl) .cancelled
      · rw [hk1] at hk'; cases hk'
        exact .done (.inr ⟨p, .inl rfl⟩) .cancelled
    | asked => cases h
    | loading => cases h
    | loaded h1 => rcases h1 with rfl | ⟨r, rfl⟩ <;> cases h
    | failed h1 => rcases h1 with rfl | rfl | rfl <;> cases h
    | done h1 ht => rcases h1 with rfl | ⟨p, rfl | rfl | rfl⟩ <;> cases h

section
variable [DecidableEq K] {c : Cfg K V RS} {s s' : State K V E} {tr evs : List (Ev K V E)} {act : Act K V E}

omit [DecidableEq K] in
theorem FInv.kindOK (h : FInv tr s) {a : Nat} (ha : s.prog a ≠ .raw) :
    s.base.kind a ≠ .get ∧ ∀ tid, s.base.kind a ≠ .thread tid true := by
  rcases h.kind a ha with hk | ⟨t, hk⟩ <;> rw [hk] <;> exact ⟨by simp, by simp⟩

omit [DecidableEq K] in
theorem FInv.lt (h : FInv tr s) {a : Nat} (ha : s.prog a ≠ .raw) : a < s.base.next := by
  by_contra hn
  exact ha (h.fresh a (by omega))

/-- Events of the protocol that end a call are those of an agent that exists. -/
theorem EndsAt.lt {s s' : Conc.State K V} {a : Nat} {e : Conc.Ev K V} (h : EndsAt a (s.kind a) (s.ctl a) e (s'.ctl a))
    (hi : CInv c s) : a < s.next := by
  by_contra hn
  have hx := hi.fresh a (by omega)
  rw [hx] at h
  generalize s'.ctl a = y at h
  cases h with
  | hit h _ => cases h
  | received h _ => cases h
  | timedOut h _ => cases h
  | cancelled h _ => cases h

omit [DecidableEq K] in
/-- A call tells one more event. -/
theorem FInv.tell (h : FInv tr s) (hb : s'.base = s.base) {a : Nat} {x : Prog V E} {e : Ev K V E} (ha : s.prog a ≠ .raw) (hx : x ≠ .raw) (hp : s'.prog = update s.prog a x)
    (hno : ∀ b, b ≠ a → ofCall b e = false)
    (hc : ∃ k, Place a k x (s.base.ctl a) (story a tr ++ [e].filter (ofCall a))) :
    FInv (tr ++ [e]) s' := by
  constructor <;> (try rw [hb]) <;> try simp only [hp]
  · intro b hb
    have := h.lt ha
    have hba : b ≠ a := by rintro rfl; omega
    rw [update_of_ne hba]; exact h.fresh b hb
  · intro b hb
    by_cases hba : b = a
    · subst hba; exact h.kind b ha
    · rw [update_of_ne hba] at hb; exact h.kind b hb
  · intro x hx b ho
    rcases List.mem_append.1 hx with hx | hx
    · exact h.told x hx b ho
    · rw [List.mem_singleton.1 hx] at ho
      by_cases hba : b = a
      · subst hba; exact h.lt ha
      · rw [hno b hba] at ho; cases ho
  · intro b hb x hx ho
    by_cases hba : b = a
    · subst hba; simp only [update_self] at hb; contradiction
    · rw [update_of_ne hba] at hb
      rcases List.mem_append.1 hx with hx | hx
      · exact h.raw b hb x hx ho
      · rw [List.mem_singleton.1 hx, hno b hba] at ho; cases ho
  · intro b hb
    by_cases hba : b = a
    · subst hba
      rw [update_self, story_append]
      exact hc
    · rw [update_of_ne hba] at hb ⊢
      obtain ⟨k, hk⟩ := h.call b hb
      refine ⟨k, ?_⟩
      have : story b [e] = [] := by simp [story, hno b hba]
      rw [story_append, this, List.append_nil]
      exact hk

theorem FInv.step (h : FInv tr s) (hi : CInv c s.base) (hq : c.ptrEq = true) (hs : exec c s act = some (.ok (s', evs))) :
    FInv (tr ++ evs) s' := by
  rcases exec_cases hs with ⟨bact, es, hd, h1, h2⟩ | ⟨kind, k, hkind, hb⟩ | ⟨a, k, p, ha, hc, rfl, rfl⟩ |
    ⟨a, r, x, ha, rfl, rfl, hx⟩
  · have he := hi.eff hq h1
    have hnext : s.base.next ≤ s'.base.next := by
      rcases kinds he with ⟨-, h⟩ | ⟨_, _, -, -, h⟩ <;> omega
    have hkinds : ∀ a, a ≠ s.base.next → s'.base.kind a = s.base.kind a := by
      intro a ha
      rcases kinds he with ⟨h, -⟩ | ⟨kind, _, -, h, -⟩
      · rw [h]
      · rw [h, update_of_ne ha]
    cases turn hi he with
    | quiet hquiet hm =>
      rw [react_quiet hquiet] at h2
      have hp : s'.prog = s.prog := by injection h2 with h2; injection h2 with h2 h3; exact h2.symm
      have hevs : evs = es.map .base := by injection h2 with h2; injection h2 with h2 h3; exact h3.symm
      subst hevs
      have hno : ∀ e ∈ es.map (Ev.base (E := E)), ∀ a, ofCall a e = false := by
        intro e he a
        obtain ⟨b, hb, rfl⟩ := List.mem_map.1 he
        exact ofCall_ender (hquiet b hb)
      constructor
      · intro a ha; rw [hp]; exact h.fresh a (by omega)
      · intro a ha
        rw [hp] at ha
        rw [hkinds a (Nat.ne_of_lt (h.lt ha))]
        exact h.kind a ha
      · intro e he a ho
        rcases List.mem_append.1 he with he | he
        · exact Nat.lt_of_lt_of_le (h.told e he a ho) hnext
        · rw [hno e he a] at ho; cases ho
      · intro a ha e he ho
        rw [hp] at ha
        rcases List.mem_append.1 he with he | he
        · exact h.raw a ha e he ho
        · rw [hno e he a] at ho; cases ho
      · intro a ha
        rw [hp] at ha ⊢
        obtain ⟨k, hk⟩ := h.call a ha
        rw [story_append, story_quiet a hquiet, List.append_nil]
        refine ⟨k, ?_⟩
        rcases hm a with hm | hm
        · rw [hm]; exact hk
        · refine hk.move hm (h.kindOK ha).1 (Nat.ne_of_lt (h.lt ha)) ?_ ?_
          · intro v hv
            subst hv
            cases hd with
            | base hu => simp [usesGuard] at hu
            | insert hl => exact hl
          · intro hv
            subst hv
            cases hd with
            | base hu => simp [usesGuard] at hu
            | giveUp hl => exact ⟨_, hl⟩
    | @ends pre post a e hpre hpost hend hm =>
      have halt := hend.lt hi
      have hother : ∀ b, b ≠ a → ∀ x ∈ (pre ++ e :: post).map (Ev.base (E := E)), ofCall b x = false := by
        intro b hb x hx
        obtain ⟨y, hy, rfl⟩ := List.mem_map.1 hx
        rcases List.mem_append.1 hy with hy | hy
        · exact ofCall_ender (hpre y hy)
        · rcases List.mem_cons.1 hy with rfl | hy
          · exact hend.other hb
          · exact ofCall_ender (hpost y hy)
      have hstory : ∀ b, b ≠ a → story b ((pre ++ e :: post).map (Ev.base (E := E))) = [] := by
        intro b hb
        unfold story
        rw [List.filter_eq_nil_iff]
        intro x hx
        rw [hother b hb x hx]
        simp
      -- whatever happens, the other calls are not concerned
      have finish : ∀ {l : List (Ev K V E)}, evs = l → (∀ b, b ≠ a → s'.prog b = s.prog b) →
          (s'.prog a = .raw ↔ s.prog a = .raw) →
          (∀ b, b ≠ a → ∀ x ∈ l, ofCall b x = false) → (s.prog a = .raw → l = (pre ++ e :: post).map .base) →
          (s.prog a ≠ .raw → ∃ k, Place a k (s'.prog a) (s'.base.ctl a) (story a (tr ++ l))) → FInv (tr ++ l) s' := by
        intro l hl hp hpa hno hraw hcall
        constructor
        · intro b hb
          have hba : b ≠ a := by omega
          rw [hp b hba]; exact h.fresh b (by omega)
        · intro b hb
          have hb' : s.prog b ≠ .raw := by
            by_cases hba : b = a
            · subst hba; rwa [Ne, hpa] at hb
            · rwa [hp b hba] at hb
          rw [hkinds b (Nat.ne_of_lt (h.lt hb'))]
          exact h.kind b hb'
        · intro x hx b ho
          rcases List.mem_append.1 hx with hx | hx
          · exact Nat.lt_of_lt_of_le (h.told x hx b ho) hnext
          · by_cases hba : b = a
            · subst hba; omega
            · rw [hno b hba x hx] at ho; cases ho
        · intro b hb x hx ho
          by_cases hba : b = a
          · subst hba
            rw [hpa] at hb
            rcases List.mem_append.1 hx with hx | hx
            · exact h.raw b hb x hx ho
            · rw [hraw hb] at hx
              obtain ⟨y, -, rfl⟩ := List.mem_map.1 hx
              exact ⟨y, rfl⟩
          · rw [hp b hba] at hb
            rcases List.mem_append.1 hx with hx | hx
            · exact h.raw b hb x hx ho
            · rw [hno b hba x hx] at ho; cases ho
        · intro b hb
          by_cases hba : b = a
          · subst hba
            rw [Ne, hpa] at hb
            exact hcall hb
          · rw [hp b hba] at hb ⊢
            obtain ⟨k, hk⟩ := h.call b hb
            refine ⟨k, ?_⟩
            have : story b l = [] := by
              unfold story
              rw [List.filter_eq_nil_iff]
              intro x hx
              rw [hno b hba x hx]
              simp
            rw [story_append, this, List.append_nil, hm b hba]
            exact hk
      have hsplit : ∀ mid : List (Ev K V E), story a (pre.map .base ++ (mid ++ post.map .base)) = story a mid := by
        intro mid
        rw [story_append, story_append, story_quiet a hpre, story_quiet a hpost, List.nil_append, List.append_nil]
      have hbase : (pre ++ e :: post).map (Ev.base (E := E)) = pre.map .base ++ ([.base e] ++ post.map .base) := by simp
      rcases react_ends (prog := s.prog) hpre hpost hend.ender with ⟨-, -, hr⟩ | ⟨ho, hr⟩ | ⟨r, ho, hr⟩
      · rw [hr] at h2; cases h2
      · rw [hr] at h2
        have hp : s'.prog = s.prog := by injection h2 with h2; injection h2 with h2 h3; exact h2.symm
        have hevs : evs = (pre ++ e :: post).map .base := by injection h2 with h2; injection h2 with h2 h3; exact h3.symm
        subst hevs
        refine finish rfl (fun b _ => by rw [hp]) (by rw [hp]) hother (fun _ => rfl) ?_
        intro ha
        obtain ⟨k, hk⟩ := h.call a ha
        rcases hk.ends hend (h.kindOK ha).2 with ⟨-, h3, h4⟩ | ⟨r, h3, -⟩
        · refine ⟨k, ?_⟩
          have : story a [Ev.base (E := E) e] = [] := by unfold story; simp [h3]
          rw [story_append, hbase, hsplit, this, List.append_nil, hp]
          exact h4
        · rw [ho] at h3; cases h3
      · rw [hr] at h2
        have hp : s'.prog = update s.prog a .done := by injection h2 with h2; injection h2 with h2 h3; exact h2.symm
        have hevs : evs = pre.map .base ++ (.base e :: (r.map (fun r => Ev.returned a r)).toList ++ post.map .base) := by
          injection h2 with h2; injection h2 with h2 h3; exact h3.symm
        subst hevs
        have hraw : s.prog a ≠ .raw := by
          intro hra
          rw [hra] at ho
          cases ho
        refine finish rfl (fun b hb => by rw [hp, update_of_ne hb]) (by rw [hp, update_self]; simp [hraw]) ?_
          (fun hra => absurd hra hraw) ?_
        · intro b hb x hx
          have hx' : x ∈ (pre ++ e :: post).map (Ev.base (E := E)) ∨ x ∈ (r.map (fun r => Ev.returned a r)).toList := by
            simp only [List.mem_append, List.mem_cons, List.map_append, List.map_cons] at hx ⊢
            rcases hx with hx | (hx | hx) | hx
            · exact .inl (.inl hx)
            · exact .inl (.inr (.inl hx))
            · exact .inr hx
            · exact .inl (.inr (.inr hx))
          rcases hx' with hx | hx
          · exact hother b hb x hx
          · cases r with
            | none => simp at hx
            | some r =>
              simp only [Option.map_some, Option.toList_some, List.mem_singleton] at hx
              subst hx
              simp [ofCall, Ne.symm hb]
        · intro ha
          obtain ⟨k, hk⟩ := h.call a ha
          rcases hk.ends hend (h.kindOK ha).2 with ⟨h3, -, -⟩ | ⟨r', h3, h4⟩
          · rw [ho] at h3; cases h3
          · rw [ho] at h3; cases h3
            refine ⟨k, ?_⟩
            have e2 : story a (Ev.base e :: (r.map (fun r => Ev.returned a r)).toList) =
                [Ev.base (E := E) e].filter (ofCall a) ++ (r.map (fun r => Ev.returned a r)).toList := by
              rw [← List.singleton_append, story_append]
              congr 1
              cases r with
              | none => rfl
              | some r => simp [story, ofCall]
            rw [story_append, hsplit, e2, hp, update_self]
            exact h4
  · obtain ⟨h1, h2, rfl, h4, h5, h6⟩ := begin_ok hb
    have hraw := h.fresh s.base.next (Nat.le_refl _)
    have hno : ∀ b, b ≠ s.base.next → ofCall b (Ev.called (V := V) (E := E) s.base.next k) = false := by
      intro b hb; simp [ofCall, Ne.symm hb]
    constructor
    · intro a ha
      rw [h2, update_of_ne (by omega)]
      exact h.fresh a (by omega)
    · intro a ha
      rw [h5]
      by_cases haa : a = s.base.next
      · subst haa; rw [update_self]; exact hkind
      · rw [h2, update_of_ne haa] at ha
        rw [update_of_ne haa]
        exact h.kind a ha
    · intro e he a ho
      rcases List.mem_append.1 he with he | he
      · have := h.told e he a ho; omega
      · simp only [List.mem_singleton] at he
        subst he
        by_cases haa : a = s.base.next
        · omega
        · rw [hno a haa] at ho; cases ho
    · intro a ha e he ho
      by_cases haa : a = s.base.next
      · subst haa; rw [h2, update_self] at ha; cases ha
      · rw [h2, update_of_ne haa] at ha
        rcases List.mem_append.1 he with he | he
        · exact h.raw a ha e he ho
        · simp only [List.mem_singleton] at he
          subst he
          rw [hno a haa] at ho; cases ho
    · intro a ha
      rw [story_append]
      by_cases haa : a = s.base.next
      · subst haa
        refine ⟨k, ?_⟩
        have h7 : story s.base.next tr = [] := by
          unfold story
          rw [List.filter_eq_nil_iff]
          intro e he ho
          exact absurd (h.told e he _ ho) (Nat.lt_irrefl _)
        rw [h7, h2, h4, update_self, update_self]
        simp only [story, List.filter, ofCall, beq_self_eq_true, List.nil_append]
        exact .asking rfl rfl
      · rw [h2, update_of_ne haa] at ha
        obtain ⟨k', hk⟩ := h.call a ha
        refine ⟨k', ?_⟩
        rw [h2, h4, update_of_ne haa, update_of_ne haa]
        have : story a [Ev.called (V := V) (E := E) s.base.next k] = [] := by simp [story, hno a haa]
        rw [this, List.append_nil]
        exact hk
  · -- the loader is started
    have hraw : s.prog a ≠ .raw := by rw [ha]; simp
    have hno : ∀ b, b ≠ a → ofCall b (Ev.loader (V := V) (E := E) a k) = false := by
      intro b hb; simp [ofCall, Ne.symm hb]
    obtain ⟨k', hk⟩ := h.call a hraw
    rw [ha, hc] at hk
    refine h.tell (s' := { s with prog := update s.prog a .loading }) (x := .loading) rfl hraw (by simp) rfl hno ?_
    generalize hst : story a tr = l at hk
    cases hk with
    | asking h1 _ => cases h1
    | asked =>
      refine ⟨k, ?_⟩
      rw [hc]
      simp only [List.filter, ofCall, beq_self_eq_true]
      exact .loading
  · have hraw : s.prog a ≠ .raw := by rw [ha]; simp
    have hno : ∀ b, b ≠ a → ofCall b (Ev.loaded (K := K) (E := E) a r) = false := by
      intro b hb; simp [ofCall, Ne.symm hb]
    obtain ⟨k, hk⟩ := h.call a hraw
    rw [ha] at hk
    refine h.tell (s' := { s with prog := update s.prog a x }) (x := x) rfl hraw (by rcases hx with ⟨v, -, rfl⟩ | ⟨e, -, rfl⟩ | ⟨-, rfl⟩ <;> simp) rfl hno ?_
    generalize hst : story a tr = l at hk
    generalize hct : s.base.ctl a = x at hk
    cases hk with
    | loading =>
      refine ⟨k, ?_⟩
      simp only [List.filter, ofCall, beq_self_eq_true]
      rcases hx with ⟨v, rfl, rfl⟩ | ⟨e, rfl, rfl⟩ | ⟨rfl, rfl⟩
      · exact .loaded (.inl rfl)
      · exact .failed (e := some e) (.inl rfl)
      · exact .failed (e := none) (.inl rfl)

theorem Run.finv {target cap gcap : Nat} (hr : Run c (State.new (Shard.new target cap gcap)) tr s) (hq : c.ptrEq = true) :
    FInv tr s := by
  generalize h0 : (State.new (Shard.new target cap gcap) : State K V E) = s0 at hr
  induction hr with
  | start =>
    subst h0
    exact ⟨fun _ _ => rfl, fun _ h => absurd rfl h, by simp, by simp, fun _ h => absurd rfl h⟩
  | layout m p hr hm hp ih => exact ⟨ih.fresh, ih.kind, ih.told, ih.raw, ih.call⟩
  | act hr hs ih =>
    subst h0
    exact ih.step (hr.base.reach hq (.new ..)).inv hq hs

end
end QuickCache.Fetch
