import Verif.Proofs.Fetch
import Verif.Proofs.ConcFacts

/-!
# Facts about `get_or_insert_with` and `get_or_insert_async`
-/

namespace QuickCache.Fetch
variable {K V RS E : Type}
open Conc Spec Function

theorem bind_ok {α β : Type _} {x : Res α} {f : α → Res β} {y : β} (h : (x >>= f) = .ok y) : ∃ a, x = .ok a ∧ f a = .ok y := by
  cases x with
  | error p => cases h
  | ok a => exact ⟨a, rfl, h⟩

/-- Where an event of a longer trace is. -/
theorem split_append {α : Type _} {l l' t1 t2 : List α} {x : α} (h : l ++ l' = t1 ++ x :: t2) :
    (∃ u, t1 = l ++ u ∧ l' = u ++ x :: t2) ∨ ∃ u, l = t1 ++ x :: u := by
  rcases List.append_eq_append_iff.1 h with h | ⟨u, h1, h2⟩
  · exact .inl h
  · cases u with
    | nil => exact .inl ⟨[], by simpa using h1.symm, h2.symm⟩
    | cons y u =>
      rw [List.cons_append] at h2
      cases h2
      exact .inr ⟨u, h1⟩

/-! ### Stories -/

section
variable {s : State K V E} {tr : List (Ev K V E)}

theorem Place.upto {a : Nat} {k : K} {x : Prog V E} {y : Ctl K V} {l : List (Ev K V E)}
    (h : Place a k x y l) : ∃ l', Told a k l' ∧ l <+: l' := by
  cases h with
  | asking => exact ⟨_, .cancelled, by simp⟩
  | asked => exact ⟨_, .cancelled, by simp⟩
  | loading => exact ⟨_, .broken, by simp⟩
  | @loaded p v _ h => exact ⟨_, .loaded v, by simp⟩
  | @failed p e _ h =>
    cases e with
    | none => exact ⟨_, .broken, by simp⟩
    | some e => exact ⟨_, .failed e, by simp⟩
  | done h ht => exact ⟨_, ht, List.prefix_rfl⟩

theorem FInv.place (h : FInv tr s) {a : Nat} {k : K} (ha : .called a k ∈ tr) :
    Place a k (s.prog a) (s.base.ctl a) (story a tr) := by
  have h0 : s.prog a ≠ .raw := by
    intro h0
    obtain ⟨b, hb⟩ := h.raw a h0 _ ha (by simp [ofCall])
    cases hb
  obtain ⟨k', hk⟩ := h.call a h0
  have : .called a k ∈ story a tr := List.mem_filter.2 ⟨ha, by simp [ofCall]⟩
  obtain ⟨l, ht, hp⟩ := hk.upto
  have hm := hp.subset this
  have : k = k' := by
    cases ht <;> simp at hm <;> exact hm
  rw [this]
  exact hk

theorem FInv.running (h : FInv tr s) {a : Nat} {k : K} (ha : Running tr a k) :
    ∃ p, s.base.ctl a = .guard k p := by
  obtain ⟨h1, h2⟩ := ha
  have h0 : s.prog a ≠ .raw := by
    intro h0
    obtain ⟨b, hb⟩ := h.raw a h0 _ h1 (by simp [ofCall])
    cases hb
  obtain ⟨k', hk⟩ := h.call a h0
  have hm : .loader a k ∈ story a tr := List.mem_filter.2 ⟨h1, by simp [ofCall]⟩
  have hn : ∀ r, .loaded a r ∉ story a tr := fun r hr => h2 r (List.mem_filter.1 hr).1
  generalize story a tr = l at hk hm hn
  generalize s.prog a = x at hk
  generalize s.base.ctl a = y at hk
  cases hk with
  | asking => simp at hm
  | asked => simp at hm
  | @loading p =>
    have : k = k' := by simpa using hm
    exact ⟨p, by rw [this]⟩
  | @loaded p v _ _ => exact absurd (by simp) (hn (some (.ok v)))
  | @failed p e _ _ => exact absurd (by simp) (hn (e.map .error))
  | done _ ht =>
    cases ht with
    | loaded v => exact absurd (by simp) (hn (some (.ok v)))
    | failed e => exact absurd (by simp) (hn (some (.error e)))
    | broken => exact absurd (by simp) (hn none)
    | _ => simp at hm

end

/-! ### Panics -/

section
variable [DecidableEq K] {c : Cfg K V RS} {s s' : State K V E} {tr evs : List (Ev K V E)} {act : Act K V E}

omit [DecidableEq K] in
theorem mem_baseEvs {e : Conc.Ev K V} : e ∈ baseEvs tr ↔ .base e ∈ tr := by
  unfold baseEvs
  rw [List.mem_filterMap]
  constructor
  · rintro ⟨x, hx, he⟩
    cases x with
    | base e' => cases he; exact hx
    | _ => cases he
  · intro h; exact ⟨_, h, rfl⟩

/-- The reaction to the events of an action of the protocol does not fail. -/
theorem FInv.react (h : FInv tr s) (hi : CInv c s.base) {bact : Conc.Act K V} {b : Conc.State K V} {es : List (Conc.Ev K V)}
    (he : Eff c s.base bact b es) : ∃ x, Fetch.react s.prog es = .ok x := by
  cases turn hi he with
  | quiet hquiet hm => exact ⟨_, react_quiet hquiet⟩
  | @ends pre post a e hpre hpost hend hm =>
    rcases react_ends (prog := s.prog) hpre hpost hend.ender with ⟨h1, h2, -⟩ | ⟨-, h2⟩ | ⟨r, -, h2⟩
    · subst h2
      have ha : s.prog a ≠ .raw := by rw [h1]; simp
      generalize hk : s.base.kind a = kind at hend
      generalize s.base.ctl a = x at hend
      generalize b.ctl a = y at hend
      cases hend with
      | timedOut _ hk' => exact absurd (hk.trans hk') ((h.kindOK ha).2 _)
    · exact ⟨_, h2⟩
    · exact ⟨_, h2⟩

theorem FInv.lift (h : FInv tr s) (hi : CInv c s.base) (hq : c.ptrEq = true) {bact : Conc.Act K V} {e : Panic}
    (hs : Fetch.lift c s bact = some (.error e)) : Conc.exec c s.base bact = some (.error e) := by
  obtain ⟨b, hb, hr⟩ := lift_some hs
  cases b with
  | error p =>
    cases hr
    exact hb
  | ok x =>
    obtain ⟨b, es⟩ := x
    obtain ⟨y, hy⟩ := h.react hi (hi.eff hq hb)
    simp only [Res.ok_bind, hy] at hr
    cases hr

/-- A panic of an action is one of an action of the protocol. -/
theorem FInv.error (h : FInv tr s) (hi : CInv c s.base) (hq : c.ptrEq = true) {e : Panic}
    (hs : exec c s act = some (.error e)) : ∃ bact, Conc.exec c s.base bact = some (.error e) := by
  have begins : ∀ {kind k}, Fetch.begin c s kind k = some (.error e) → ∃ bact, Conc.exec c s.base bact = some (.error e) := by
    intro kind k hs
    unfold Fetch.begin at hs
    split at hs
    · cases hs
    · rename_i r hr
      cases r with
      | error p => cases hs; exact ⟨_, hr⟩
      | ok x => cases hs
  cases act with
  | base bact =>
    simp only [exec] at hs
    split at hs
    · cases hs
    · exact ⟨_, h.lift hi hq hs⟩
  | call tid k => exact begins (kind := .thread tid false) (k := k) hs
  | callAsync k => exact begins (kind := .task) (k := k) hs
  | load a => simp only [exec] at hs; split at hs <;> cases hs
  | finish a r => simp only [exec] at hs; split at hs <;> cases hs
  | insert a =>
    simp only [exec] at hs
    split at hs
    · exact ⟨_, h.lift hi hq hs⟩
    · cases hs
  | giveUp a =>
    simp only [exec] at hs
    split at hs
    · exact ⟨_, h.lift hi hq hs⟩
    · cases hs

/-! ### Where values come from -/

/-- A value is published only by the action that does so. -/
theorem published_act {b b' : Conc.State K V} {bact : Conc.Act K V} {es : List (Conc.Ev K V)} {a : Nat} {p : Plh} {v : V}
    (he : Eff c b bact b' es) (hm : .published a p v ∈ es) : bact = .publish a v ∧ ∃ k, b.ctl a = .guard k p := by
  have wake : ∀ {x}, .published a p v ∉ b.wakes x := by
    intro x hx
    unfold State.wakes at hx
    split at hx <;> simp at hx
  cases he <;> simp at hm
  case publish h _ _ _ _ =>
    rcases hm with ⟨rfl, rfl, rfl⟩ | ⟨x, -, hx⟩
    · exact ⟨rfl, _, h⟩
    · exact absurd hx wake
  case handOver => exact absurd hm wake

omit [DecidableEq K] in
theorem react_prog {es : List (Conc.Ev K V)} : ∀ {prog prog' : Nat → Prog V E} {evs : List (Ev K V E)},
    react prog es = .ok (prog', evs) → ∀ a, prog' a = prog a ∨ (prog' a = .done ∧ prog a ≠ .raw) := by
  induction es with
  | nil => intro prog prog' evs h a; cases h; exact .inl rfl
  | cons e es ih =>
    intro prog prog' evs h a
    unfold react at h
    split at h
    · obtain ⟨⟨p, l⟩, h1, h2⟩ := bind_ok h
      cases h2
      exact ih h1 a
    · rename_i b hb
      split at h
      · cases h
      · split at h
        · obtain ⟨⟨p, l⟩, h1, h2⟩ := bind_ok h
          cases h2
          exact ih h1 a
        · rename_i r hr
          obtain ⟨⟨p, l⟩, h1, h2⟩ := bind_ok h
          cases h2
          by_cases hab : a = b
          · subst hab
            have : prog a ≠ .raw := by
              intro h0; rw [h0] at hr; cases hr
            rcases ih h1 a with h3 | ⟨h3, -⟩
            · rw [update_self] at h3; exact .inr ⟨h3, this⟩
            · exact .inr ⟨h3, this⟩
          · have := ih h1 a
            rwa [update_of_ne hab] at this

/-- No action makes an existing agent a call, and no call becomes something else. -/
theorem exec_prog (hs : exec c s act = some (.ok (s', evs))) {a : Nat} (ha : a ≠ s.base.next) :
    s'.prog a = .raw ↔ s.prog a = .raw := by
  rcases exec_cases hs with ⟨bact, es, -, -, h2⟩ | ⟨kind, k, -, hb⟩ | ⟨b, k, p, hb, -, rfl, -⟩ | ⟨b, r, x, hb, rfl, -, hx⟩
  · rcases react_prog h2 a with h | ⟨h, h'⟩
    · rw [h]
    · rw [h]; simp [h']
  · obtain ⟨-, h2, -⟩ := begin_ok hb
    rw [h2, update_of_ne ha]
  · by_cases hab : a = b
    · subst hab; simp [hb]
    · simp [update_of_ne hab]
  · by_cases hab : a = b
    · subst hab
      rcases hx with ⟨v, -, rfl⟩ | ⟨e, -, rfl⟩ | ⟨-, rfl⟩ <;> simp [hb]
    · simp [update_of_ne hab]

/-- Published values are those of loaders. -/
def Sources (tr : List (Ev K V E)) (s : State K V E) : Prop :=
  ∀ t1 b p v t2, tr = t1 ++ .base (.published b p v) :: t2 → b < s.base.next ∧
    ∃ k, (∃ d, .base (.began d k p) ∈ t1) ∧ (s.prog b = .raw ∨ (.loader b k ∈ t1 ∧ .loaded b (some (.ok v)) ∈ t1))

theorem Sources.step (h : Sources tr s) (hf : FInv tr s) (hi : CInv c s.base) {target : Nat} (hT : TInv c target (baseEvs tr) s.base)
    (hq : c.ptrEq = true) (hs : exec c s act = some (.ok (s', evs))) : Sources (tr ++ evs) s' := by
  have hnext : s.base.next ≤ s'.base.next := by
    rcases exec_cases hs with ⟨bact, es, -, h1, -⟩ | ⟨kind, k, -, hb⟩ | ⟨b, k, p, hb, -, rfl, -⟩ | ⟨b, r, x, hb, rfl, -, hx⟩
    · rcases kinds (hi.eff hq h1) with ⟨-, h⟩ | ⟨_, _, -, -, h⟩ <;> omega
    · obtain ⟨-, -, -, -, -, h⟩ := begin_ok hb
      omega
    · exact Nat.le_refl _
    · exact Nat.le_refl _
  intro t1 b p v t2 ht
  rcases split_append ht with ⟨u, h1, h2⟩ | ⟨u, h1⟩
  · -- in the new part
    have hm : .base (.published b p v) ∈ evs := by rw [h2]; simp
    rcases exec_cases hs with ⟨bact, es, hd, h3, h4⟩ | ⟨kind, k, -, hb⟩ | ⟨b', k, p, hb, -, -, rfl⟩ | ⟨b', r, x, hb, -, rfl, -⟩
    · have hm' : .published b p v ∈ es := by
        rw [← react_base h4]; exact mem_baseEvs.2 hm
      have he := hi.eff hq h3
      obtain ⟨rfl, k, hc⟩ := published_act he hm'
      obtain ⟨d, hd'⟩ : ∃ d, .began d k p ∈ baseEvs tr := by
        have hA := hi.at hc
        exact hT.begun _ _ _ _ hA.core
      have hlt : b < s.base.next := by
        by_contra hn
        rw [hi.fresh b (by omega)] at hc
        cases hc
      refine ⟨by omega, k, ⟨d, by rw [h1]; exact List.mem_append_left _ (mem_baseEvs.1 hd')⟩, ?_⟩
      rw [exec_prog hs (Nat.ne_of_lt hlt)]
      cases hd with
      | base hu =>
        left
        by_contra hr
        simp [usesGuard] at hu
      | insert hl =>
        right
        obtain ⟨k', hk⟩ := hf.call b (by rw [hl]; simp)
        rw [hl, hc] at hk
        generalize hst : story b tr = l at hk
        have : ∀ e ∈ l, e ∈ tr := by
          intro e he; rw [← hst] at he; exact (List.mem_filter.1 he).1
        cases hk with
        | loaded h =>
          have hkk : k' = k := by
            rcases h with h | ⟨r, h⟩
            · cases h; rfl
            · cases h
          subst hkk
          exact ⟨by rw [h1]; exact List.mem_append_left _ (this _ (by simp)),
            by rw [h1]; exact List.mem_append_left _ (this _ (by simp))⟩
    · obtain ⟨-, -, rfl, -⟩ := begin_ok hb
      simp at hm
    · simp at hm
    · simp at hm
  · -- in the old part
    obtain ⟨h3, k, h4, h5⟩ := h t1 b p v u h1
    refine ⟨by omega, k, h4, ?_⟩
    rw [exec_prog hs (Nat.ne_of_lt h3)]
    exact h5

theorem Run.sources {target cap gcap : Nat} (hr : Run c (State.new (Shard.new target cap gcap)) tr s) (hq : c.ptrEq = true) :
    Sources tr s := by
  generalize h0 : (State.new (Shard.new target cap gcap) : State K V E) = s0 at hr
  induction hr with
  | start => intro t1 b p v t2 h; simp at h
  | layout m p hr hm hp ih => exact ih
  | act hr hs ih =>
    subst h0
    exact ih.step (hr.finv hq) (hr.base.reach hq (.new ..)).inv (hr.base.tinv hq) hq hs

/-! ### Calls end -/

/-- As long as some agent is not done, something that is due can be done. -/
theorem FInv.progress (h : FInv tr s) (hi : CInv c s.base) {a : Nat} (ha : s.base.ctl a ≠ .idle) :
    ∃ act, FetchDue s act ∧ exec c s act ≠ none := by
  obtain ⟨bact, hd, hb⟩ := hi.progress ha
  have lifts : ∀ {x : Conc.Act K V}, Conc.exec c s.base x ≠ none → Fetch.lift c s x ≠ none := by
    intro x hx
    unfold Fetch.lift
    cases hy : Conc.exec c s.base x with
    | none => exact absurd hy hx
    | some y => simp
  by_cases hu : usesGuard s.prog bact = true
  · -- the holder of a guard is a call
    have holder : ∀ {b : Nat} {k : K} {p : Plh}, s.prog b ≠ .raw → s.base.ctl b = .guard k p →
        ∃ act, FetchDue s act ∧ exec c s act ≠ none := by
      intro b k p hp hc
      have h1 : ∀ v, Conc.exec c s.base (.publish b v) ≠ none := by
        intro v
        simp only [Conc.exec, Conc.publish, hc]
        split <;> simp
      have h2 : Conc.exec c s.base (.drop b) ≠ none := by simp [Conc.exec, Conc.drop, hc]
      obtain ⟨k', hk⟩ := h.call b hp
      rw [hc] at hk
      generalize hx : s.prog b = x at hk
      generalize story b tr = l at hk
      cases hk with
      | asking h3 _ => cases h3
      | asked => exact ⟨.load b, .load b, by simp [exec, hx, hc]⟩
      | loading => exact ⟨.finish b none, .finish b none, by simp [exec, hx]⟩
      | loaded _ => exact ⟨.insert b, .insert b, by simp only [exec, hx]; exact lifts (h1 _)⟩
      | failed _ => exact ⟨.giveUp b, .giveUp b, by simp only [exec, hx]; exact lifts h2⟩
      | done h3 _ => rcases h3 with h3 | ⟨p, h3 | h3 | h3⟩ <;> cases h3
    cases bact with
    | publish b v =>
      simp only [Conc.exec, Conc.publish] at hb
      split at hb
      · rename_i k p hc
        refine holder ?_ hc
        intro hr
        simp [usesGuard, hr] at hu
      · exact absurd rfl hb
    | drop b =>
      simp only [Conc.exec, Conc.drop] at hb
      split at hb
      · rename_i k p hc
        refine holder ?_ hc
        intro hr
        simp [usesGuard, hr] at hu
      · exact absurd rfl hb
    | _ => cases hu
  · refine ⟨.base bact, .base bact hd, ?_⟩
    simp only [exec]
    rw [if_neg hu]
    exact lifts hb

/-- How much a call still has to do by itself. -/
def todo : Prog V E → Nat
  | .asking => 2
  | .loading => 1
  | _ => 0

/-- The sum over the agents so far. -/
def todos (s : State K V E) : Nat := ((List.range s.base.next).map (fun a => todo (s.prog a))).sum

omit [DecidableEq K] in
theorem todos_le (s : State K V E) : todos s ≤ 2 * s.base.next := by
  unfold todos
  generalize s.base.next = n
  induction n with
  | zero => simp
  | succ n ih =>
    rw [List.range_succ, List.map_append, List.sum_append]
    simp only [List.map_cons, List.map_nil, List.sum_cons, List.sum_nil, Nat.add_zero]
    have : todo (s.prog n) ≤ 2 := by cases s.prog n <;> simp [todo]
    omega

theorem sum_mono {f g : Nat → Nat} (h : ∀ a, f a ≤ g a) (n : Nat) : ((List.range n).map f).sum ≤ ((List.range n).map g).sum := by
  induction n with
  | zero => simp
  | succ n ih =>
    rw [List.range_succ, List.map_append, List.map_append, List.sum_append, List.sum_append]
    simp only [List.map_cons, List.map_nil, List.sum_cons, List.sum_nil, Nat.add_zero]
    have := h n
    omega

omit [DecidableEq K] in
theorem todos_react {prog' : Nat → Prog V E} (h : ∀ a, prog' a = s.prog a ∨ (prog' a = .done ∧ s.prog a ≠ .raw))
    (hn : s'.base.next = s.base.next) (hp : s'.prog = prog') : todos s' ≤ todos s := by
  unfold todos
  rw [hn, hp]
  refine sum_mono (fun a => ?_) _
  rcases h a with h | ⟨h, -⟩ <;> rw [h]
  simp [todo]

omit [DecidableEq K] in
theorem todos_update {a : Nat} {x : Prog V E} (ha : a < s.base.next) (hx : todo x < todo (s.prog a)) :
    todos { s with prog := update s.prog a x } + 1 ≤ todos s := by
  unfold todos
  have : (fun b => todo (update s.prog a x b)) = update (fun b => todo (s.prog b)) a (todo x) := by
    funext b
    by_cases hb : b = a
    · subst hb; simp
    · simp [update_of_ne hb]
  simp only [this]
  exact sum_update_lt hx ha

theorem lift_work (hi : CInv c s.base) (hq : c.ptrEq = true) {bact : Conc.Act K V} (hb : ∀ kind k, bact ≠ .begin kind k)
    (hs : Fetch.lift c s bact = some (.ok (s', evs))) :
    s'.base.next = s.base.next ∧ todos s' ≤ todos s ∧ (Extra s.base bact → work s'.base = work s.base) ∧
      (¬ Extra s.base bact → work s'.base + 1 ≤ work s.base) := by
  obtain ⟨es, h1, h2⟩ := lift_ok hs
  have hw := (hi.eff hq h1).work hi hb
  exact ⟨hw.1, todos_react (react_prog h2) hw.1 rfl, hw.2.1, hw.2.2⟩

/-- Without new calls, what is left to be done only decreases. -/
theorem Run.steps {target cap gcap n : Nat} {s0 : State K V E} (hr : Run c (State.new (Shard.new target cap gcap)) tr s0)
    (hq : c.ptrEq = true) (hs : FetchSteps c s0 n s) :
    (∃ tr', Run c (State.new (Shard.new target cap gcap)) tr' s) ∧ s.base.next = s0.base.next ∧
      n + work s.base + todos s ≤ work s0.base + todos s0 := by
  induction hs with
  | start => exact ⟨⟨_, hr⟩, rfl, by omega⟩
  | layout m p h hm hp ih =>
    obtain ⟨⟨tr', h1⟩, h2, h3⟩ := ih
    exact ⟨⟨_, .layout m p h1 hm hp⟩, h2, h3⟩
  | extra h hx hs ih =>
    obtain ⟨⟨tr', h1⟩, h2, h3⟩ := ih
    have hi := (h1.base.reach hq (.new ..)).inv
    refine ⟨⟨_, .act h1 hs⟩, ?_⟩
    simp only [exec] at hs
    split at hs
    · cases hs
    · obtain ⟨h4, h5, h6, -⟩ := lift_work hi hq (by rintro kind k rfl; exact hx) hs
      have := h6 hx
      exact ⟨h4.trans h2, by omega⟩
  | act h hx hb hc ha hs ih =>
    obtain ⟨⟨tr', h1⟩, h2, h3⟩ := ih
    have hi := (h1.base.reach hq (.new ..)).inv
    have hf := h1.finv hq
    refine ⟨⟨_, .act h1 hs⟩, ?_⟩
    rename_i n1 s1 s2 act ev
    have fin : ∀ {a : Nat} (x : Prog V E), s1.prog a ≠ .raw → todo x < todo (s1.prog a) → s1.base.next = s0.base.next ∧
        n1 + 1 + work s1.base + todos { s1 with prog := update s1.prog a x } ≤ work s0.base + todos s0 := by
      intro a x h4 h5
      have := todos_update (hf.lt h4) h5
      exact ⟨h2, by omega⟩
    cases act with
    | base bact =>
      simp only [exec] at hs
      split at hs
      · cases hs
      · obtain ⟨h4, h5, -, h6⟩ := lift_work hi hq (by rintro kind k rfl; exact hb _ _ rfl) hs
        have := h6 (hx _ rfl)
        exact ⟨h4.trans h2, by omega⟩
    | call tid k => exact absurd rfl (hc _ _)
    | callAsync k => exact absurd rfl (ha _)
    | load a =>
      simp only [exec] at hs
      split at hs
      · rename_i k p h4 h5
        cases hs
        exact fin .loading (by rw [h4]; simp) (by rw [h4]; simp [todo])
      · cases hs
    | finish a r =>
      simp only [exec] at hs
      split at hs
      · rename_i h4
        cases hs
        exact fin _ (by rw [h4]; simp) (by rw [h4]; rcases r with _ | ⟨e | v⟩ <;> simp [todo])
      · cases hs
    | insert a =>
      simp only [exec] at hs
      split at hs
      · obtain ⟨h4, h5, -, h6⟩ := lift_work hi hq (by simp) hs
        have := h6 (by simp [Extra])
        exact ⟨h4.trans h2, by omega⟩
      · cases hs
    | giveUp a =>
      simp only [exec] at hs
      split at hs
      · obtain ⟨h4, h5, -, h6⟩ := lift_work hi hq (by simp) hs
        have := h6 (by simp [Extra])
        exact ⟨h4.trans h2, by omega⟩
      · cases hs

end
end QuickCache.Fetch
