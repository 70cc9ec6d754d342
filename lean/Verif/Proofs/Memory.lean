import Verif.Proofs.Calls

/-!
# Slots in use
-/

namespace QuickCache
variable {K V RS : Type _}
open Shard Unsync Spec

theorem Slab.sumBy_range {T : Type _} (f : Option T → Nat) (hf : f none = 0) (s : Slab T) :
    ∀ n, s.entries.length ≤ n → Slab.sumBy f s = ((List.range n).map (fun t => f (s.item t))).sum := by
  intro n hn
  unfold Slab.sumBy Slab.item Slab.items
  generalize s.entries = l at hn ⊢
  induction l generalizing n with
  | nil =>
    have : (fun t : Nat => f (([] : List (SEntry T))[t]?.bind (fun e : SEntry T => e.item))) = fun _ => 0 := by funext t; simp [hf]
    rw [this]
    have h0 : ∀ l : List Nat, (l.map (fun _ => 0)).sum = 0 := by
      intro l
      induction l with
      | nil => rfl
      | cons a l ih => simp [ih]
    rw [h0]
    rfl
  | cons a l ih =>
    cases n with
    | zero => simp at hn
    | succ n =>
      rw [List.range_succ_eq_map]
      rw [List.map_cons, List.map_cons, List.sum_cons, ih n (by simpa using hn), List.map_cons, List.sum_cons,
        List.map_map]
      rfl

theorem sum_range_le {f g : Nat → Nat} : ∀ n, (∀ t, f t ≤ g t) → ((List.range n).map f).sum ≤ ((List.range n).map g).sum := by
  intro n h
  induction n with
  | zero => simp
  | succ n ih =>
    have := h n
    simp only [List.range_succ, List.map_append, List.sum_append, List.map_cons, List.map_nil, List.sum_cons,
      List.sum_nil]
    omega

theorem sum_range_lt {f g : Nat → Nat} {t : Nat} : ∀ n, t < n → (∀ t, f t ≤ g t) → f t < g t →
    ((List.range n).map f).sum < ((List.range n).map g).sum := by
  intro n ht h hlt
  induction n with
  | zero => omega
  | succ n ih =>
    have h1 := h n
    simp only [List.range_succ, List.map_append, List.sum_append, List.map_cons, List.map_nil, List.sum_cons,
      List.sum_nil]
    by_cases hn : t = n
    · subst hn
      have := sum_range_le (f := f) (g := g) t h
      omega
    · have := ih (by omega)
      omega

theorem Slab.sumBy_le {T : Type _} {f : Option T → Nat} (hf : f none = 0) {s s' : Slab T}
    (h : ∀ t, f (s'.item t) ≤ f (s.item t)) : Slab.sumBy f s' ≤ Slab.sumBy f s := by
  rw [Slab.sumBy_range f hf s' (max s.entries.length s'.entries.length) (by omega),
    Slab.sumBy_range f hf s (max s.entries.length s'.entries.length) (by omega)]
  exact sum_range_le _ h

theorem Slab.sumBy_lt {T : Type _} {f : Option T → Nat} (hf : f none = 0) {s s' : Slab T}
    (h : ∀ t, f (s'.item t) ≤ f (s.item t)) {t : Nat} (ht : f (s'.item t) < f (s.item t)) :
    Slab.sumBy f s' < Slab.sumBy f s := by
  rw [Slab.sumBy_range f hf s' (max s.entries.length s'.entries.length) (by omega),
    Slab.sumBy_range f hf s (max s.entries.length s'.entries.length) (by omega)]
  refine sum_range_lt (t := t) _ ?_ h ht
  have hne : (s.item t).isSome := by
    cases hi : s.item t with
    | none => rw [hi, hf] at ht; omega
    | some x => rfl
  have : t < s.entries.length := by
    unfold Slab.item at hne
    cases hg : s.entries[t]? with
    | none => rw [hg] at hne; simp at hne
    | some e => exact (List.getElem?_eq_some_iff.mp hg).1
  omega

/-- Whether a slot holds a placeholder. -/
def plhF : Option (Entry K V) → Nat
  | some (.placeholder _) => 1
  | _ => 0

/-- Whether a slot is in use. -/
def occF : Option (Entry K V) → Nat
  | some _ => 1
  | none => 0

theorem sum_iter (f : Option (Entry K V) → Nat) (hf : f none = 0) (s : Shard K V) :
    Slab.sumBy f s.entries = (s.entries.iter.map (fun e => f (some e))).sum := by
  unfold Slab.sumBy Slab.items Slab.iter
  generalize s.entries.entries = l
  induction l with
  | nil => rfl
  | cons a l ih =>
    simp only [List.map_cons, List.sum_cons, List.filterMap_cons, ih]
    cases ha : a.item with
    | none => simp [hf]
    | some x => simp

theorem slots_sum (s : Shard K V) : s.slots = Slab.sumBy occF s.entries := by
  rw [sum_iter _ rfl]
  unfold Shard.slots
  generalize s.entries.iter = l
  induction l with
  | nil => rfl
  | cons a l ih => simp only [List.length_cons, List.map_cons, List.sum_cons, ih, occF]; omega

theorem ghosts_sum (s : Shard K V) : s.ghosts = Slab.sumBy ghostF s.entries := by
  rw [sum_iter _ rfl]
  unfold Shard.ghosts
  generalize s.entries.iter = l
  induction l with
  | nil => rfl
  | cons a l ih =>
    rw [List.map_cons, List.sum_cons, ← ih]
    cases a <;> simp [ghostF] <;> omega

theorem placeholders_sum (s : Shard K V) : s.placeholders = Slab.sumBy plhF s.entries := by
  rw [sum_iter _ rfl]
  unfold Shard.placeholders
  generalize s.entries.iter = l
  induction l with
  | nil => rfl
  | cons a l ih =>
    rw [List.map_cons, List.sum_cons, ← ih]
    cases a <;> simp [plhF] <;> omega

section
variable {c : Cfg K V RS} {s s' : Shard K V}

theorem Inv0.ghosts_eq (h : Inv0 c s) : s.ghosts = s.numNonResident := by rw [ghosts_sum, h.cnt.ghost]

/-- Every slot in use holds an item, a ghost or a placeholder. -/
theorem Inv0.slots_eq (h : Inv0 c s) : s.slots = s.len + s.ghosts + s.placeholders := by
  rw [slots_sum, ghosts_sum, placeholders_sum, h.len_sum]
  unfold Slab.sumBy
  generalize s.entries.items = l
  induction l with
  | nil => rfl
  | cons a l ih =>
    simp only [List.map_cons, List.sum_cons]
    have : occF a = lenF a + ghostF a + plhF a := by
      rcases a with _ | (r | _ | _) <;> simp [occF, lenF, numF, ghostF, plhF]
      cases r.state <;> simp
    omega

/-- Placeholder slots of `s'` are placeholder slots of `s`, and if they were in the index they still are. -/
def PlhSub (s s' : Shard K V) : Prop :=
  ∀ t ph, s'.entries.item t = some (.placeholder ph) →
    s.entries.item t = some (.placeholder ph) ∧ ∀ hh, (hh, t) ∈ s.map → (hh, t) ∈ s'.map

theorem PlhSub.refl (s : Shard K V) : PlhSub s s := fun _ _ h => ⟨h, fun _ h => h⟩

theorem PlhSub.trans {s1 : Shard K V} (h1 : PlhSub s s1) (h2 : PlhSub s1 s') : PlhSub s s' := by
  intro t ph ht
  obtain ⟨a1, a2⟩ := h2 t ph ht
  obtain ⟨b1, b2⟩ := h1 t ph a1
  exact ⟨b1, fun hh hm => a2 hh (b2 hh hm)⟩

theorem PlhSub.pointwise (h : PlhSub s s') (t : Nat) : plhF (s'.entries.item t) ≤ plhF (s.entries.item t) := by
  cases hi : s'.entries.item t with
  | none => simp [plhF]
  | some e =>
    cases e with
    | placeholder ph => rw [(h t ph hi).1]; exact Nat.le_refl _
    | resident r => simp [plhF]
    | ghost g => simp [plhF]

theorem PlhSub.count (h : PlhSub s s') : s'.placeholders ≤ s.placeholders := by
  rw [placeholders_sum, placeholders_sum]
  exact Slab.sumBy_le rfl h.pointwise

theorem EvPost.plhSub {q q' : Req K V RS} (h : EvPost c s q s' q') : PlhSub s s' := by
  obtain ⟨L, h1, hev⟩ := h.log
  intro t ph ht
  exact ⟨(hev.frame.1 t ph).mpr ht, fun hh hm => (h.map _).mpr ⟨hm, by rw [ht]; rfl⟩⟩

theorem Wrote.plhSub {t : Nat} {old new : Option (Entry K V)} (h : Wrote c s s' t old new)
    (h2 : ∀ p, new ≠ some (.placeholder p)) : PlhSub s s' := by
  intro u ph hu
  by_cases hut : u = t
  · subst hut; rw [h.upd.after] at hu; exact absurd hu (h2 ph)
  · rw [h.upd.other hut] at hu
    exact ⟨hu, fun hh hm => (h.map _).mpr (Or.inl ⟨hut, hm⟩)⟩

theorem StoreEff.plhSub {q : Req K V RS} {k : K} {v : V} {str : Strategy} {x : Shard K V × Req K V RS × Option V}
    (h : StoreEff c s q k v str x) : PlhSub s x.1 := by
  cases h with
  | put q1 v1 he adm hp =>
    obtain ⟨s1, s2, qa, qb, t, old, r, pre, wrote, hk, hv, href, hold, post, fits, fresh, done, same, once⟩ := hp
    exact pre.plhSub.trans ((wrote.plhSub (by simp)).trans post.plhSub)
  | reject q1 v1 hw hp hb hw1 hrej =>
    have : ∀ {s' : Shard K V} {q' : Req K V RS}, RejEff c s q1 k s' q' → PlhSub s s' := by
      intro s' q' hrej
      cases hrej with
      | old t r hk same wrote => exact wrote.plhSub (by simp)
      | plh t ph hk hno same wrote => exact wrote.plhSub (by simp)
      | none => exact .refl s
    cases str <;> exact this hrej
  | absent => exact .refl s

/-- Filling the pending placeholder: no placeholder more than before it was made. -/
theorem Pending.filled {k : K} {s1 : Shard K V} {p : Plh} (h : Pending c s k s1 p) (hs : PlhSub s1 s')
    (ht : Taken s' k) : s'.placeholders ≤ s.placeholders := by
  have h1 := h.count plhF rfl (fun _ => rfl)
  obtain ⟨ph, g1, g2, g3⟩ := h.holds
  have h2 : Slab.sumBy plhF s'.entries < Slab.sumBy plhF s1.entries := by
    refine Slab.sumBy_lt rfl hs.pointwise (t := p.idx) ?_
    rw [g1]
    cases hi : s'.entries.item p.idx with
    | none => simp [plhF]
    | some e =>
      cases e with
      | placeholder ph' =>
        exfalso
        obtain ⟨a1, a2⟩ := hs _ _ hi
        rw [g1] at a1
        cases a1
        exact ht p.idx ph _ hi (a2 _ h.mapped) g3
      | resident r => simp [plhF]
      | ghost g => simp [plhF]
  rw [placeholders_sum, placeholders_sum]
  omega

theorem StepEff.placeholders [DecidableEq K] {op : Op K V} {x : Shard K V × Out K V × Req K V RS} (h : StepEff c s op x)
    (hi : Inv0 c s) (L : List (Event K V)) :
    x.1.placeholders ≤ s.placeholders + if givesUp ⟨op, x.2.1, L⟩ then 1 else 0 := by
  have le : ∀ {a b : Nat} {e : Bool}, a ≤ b → a ≤ b + if e then 1 else 0 := by intro a b e h; split <;> omega
  have empty : ∀ {s' : Shard K V}, (∀ t, s'.entries.item t = none) → s'.placeholders ≤ s.placeholders := by
    intro s' h0
    exact PlhSub.count (fun t ph ht => by rw [h0] at ht; cases ht)
  cases h with
  | insert h => exact le h.plhSub.count
  | replace h => exact le h.plhSub.count
  | removeHit t r hk wrote same => exact le (wrote.plhSub (by simp)).count
  | removeIdle t e he hno wrote same => exact le (wrote.plhSub (by simp)).count
  | removeNone => exact le (Nat.le_refl _)
  | hit hop t r hk wrote hits misses => exact le (wrote.plhSub (by simp)).count
  | miss hop hno => exact le (Nat.le_refl _)
  | peek => exact le (Nat.le_refl _)
  | contains => exact le (Nat.le_refl _)
  | retain inv same ghosts drop keep map =>
    refine le (PlhSub.count ?_)
    intro t ph ht
    have old : s.entries.item t = some (.placeholder ph) := by
      by_cases hk : ∀ r, s.entries.item t = some (.resident r) → ‹K → V → Bool› r.key r.value = true
      · rwa [keep t hk] at ht
      · simp only [Classical.not_forall, Bool.not_eq_true] at hk
        obtain ⟨r0, h0, h1⟩ := hk
        rw [drop t r0 h0 h1] at ht; cases ht
    exact ⟨old, fun hh hm => (map _).mpr ⟨hm, by simp [ht]⟩⟩
  | clear =>
    obtain ⟨-, -, h0, -⟩ := drain_spec hi
    exact le (empty (fun t => h0 t))
  | drain =>
    obtain ⟨-, -, h0, -⟩ := drain_spec hi
    exact le (empty (fun t => h0 t))
  | reserve => exact le (Nat.le_refl _)
  | leave hop hp =>
    have h1 := hp.count plhF rfl (fun _ => rfl)
    rw [← placeholders_sum, ← placeholders_sum] at h1
    cases hop <;> exact h1
  | drop hop hp inv same entries wgt ghosts map =>
    have h1 := hp.count plhF rfl (fun _ => rfl)
    rw [← entries, ← placeholders_sum, ← placeholders_sum] at h1
    cases hop <;> exact h1
  | fill hop hp h taken => exact le (hp.filled h.plhSub taken)
  | fillMutOut hp h hno taken => exact le (hp.filled h.plhSub taken)
  | fillMut hp h taken t r hk wrote same =>
    refine le (hp.filled (h.plhSub.trans (wrote.plhSub (by simp))) ?_)
    intro u ph hh hu hm
    by_cases hut : u = t
    · subst hut; rw [wrote.upd.after] at hu; cases hu
    · rw [wrote.upd.other hut] at hu
      rcases (wrote.map _).mp hm with ⟨-, hm⟩ | ⟨h', -⟩
      · exact taken u ph hh hu hm
      · exact absurd h' hut
end

section
variable [DecidableEq K] {c : Cfg K V RS} {s : Shard K V} {target cap gcap : Nat} {h : List (Call K V)}

theorem Unsync.Run.placeholders (hr : Run c (Shard.new target cap gcap) h s) :
    s.placeholders ≤ ((sinceClear h).filter givesUp).length := by
  generalize h0 : (Shard.new target cap gcap : Shard K V) = s0 at hr
  induction hr with
  | start => subst h0; exact Nat.le_refl _
  | layout m p hr hm hp ih => exact ih
  | @call h s s' op out q hr hs ih =>
    subst h0
    have hre := hr.reach_new
    have he := (step_eff hre.inv hs).placeholders hre.inv.toInv0 q.log
    rcases sinceClear_append h ⟨op, out, q.log⟩ with ⟨h1, h2⟩ | h2
    · rw [h2]
      have hnone : ∀ t, s'.entries.item t = none := by
        obtain ⟨-, -, h0, -⟩ := drain_spec hre.inv.toInv0
        simp only at h1
        rcases h1 with rfl | rfl
        · cases hs; exact h0
        · cases hs; exact h0
      have : s'.placeholders ≤ (Shard.new target cap gcap : Shard K V).placeholders :=
        PlhSub.count (fun t ph ht => by rw [hnone] at ht; cases ht)
      exact this
    · rw [h2, List.filter_append, List.length_append]
      have e : (List.filter givesUp [(⟨op, out, q.log⟩ : Call K V)]).length = if givesUp ⟨op, out, q.log⟩ then 1 else 0 := by
        rw [List.filter_cons]; split <;> rfl
      rw [e]
      simp only at he
      omega

/-! ### The leak -/

/-- The slot left behind by the `i`-th dropped guard. -/
def leakSlot (c : Cfg K V RS) (k : K) (i : Nat) : SEntry (Entry K V) :=
  ⟨some (.placeholder { key := k, hot := .cold, shared := { id := i, hash := c.hash k, idx := i } }), i, i⟩

/-- A new cache after `n` lookups of `k` whose guards were dropped. -/
def leaked (c : Cfg K V RS) (k : K) (target cap gcap n : Nat) : Shard K V :=
  { (Shard.new target cap gcap : Shard K V) with
    entries := { entries := (List.range n).map (leakSlot c k), nextFree := n }
    nextPlh := n
    misses := n }

omit [DecidableEq K] in
theorem leaked_get (c : Cfg K V RS) (k : K) (target cap gcap : Nat) {n t : Nat} (ht : t < n) :
    (leaked c k target cap gcap n : Shard K V).entries.get t =
      some (.placeholder { key := k, hot := .cold, shared := { id := t, hash := c.hash k, idx := t } }, t) := by
  have : (leaked c k target cap gcap n : Shard K V).entries.entries[t]? = some (leakSlot c k t) := by
    simp only [leaked, List.getElem?_map, List.getElem?_range ht, Option.map_some]
  unfold Slab.get
  rw [this]
  rfl

theorem leaked_step (c : Cfg K V RS) (k : K) (target cap gcap n : Nat) (hn : n + 2 < 2 ^ 32) :
    step c (leaked c k target cap gcap n) (.getRefOrGuard k .drop) =
      .ok (leaked c k target cap gcap (n + 1), .orGuard none, c.begin) := by
  have hne : n + 2 ≠ 2 ^ 32 := by omega
  have hins : (leaked c k target cap gcap n).entries.insert
      (.placeholder { key := k, hot := .cold, shared := { id := n, hash := c.hash k, idx := n } }) =
      .ok ((leaked c k target cap gcap (n + 1) : Shard K V).entries, n) := by
    have h0 : ((List.range n).map (leakSlot c k : Nat → SEntry (Entry K V)))[n]? = none := by
      rw [List.getElem?_eq_none_iff]; simp
    simp only [leaked, Slab.insert, h0, List.length_map, List.length_range, ne_eq, not_true, if_false, hne,
      List.range_succ, List.map_append, List.map_cons, List.map_nil, leakSlot]
  have h1 : (leaked c k target cap gcap n).upsertPlaceholder c (c.hash k) (fun x => x == k) k =
      .ok ({ leaked c k target cap gcap (n + 1) with map := [(c.hash k, n)] },
        .pending { id := n, hash := c.hash k, idx := n } true) := by
    unfold Shard.upsertPlaceholder
    have h2 : (leaked c k target cap gcap n).search (c.hash k) (fun x => x == k) = .ok none := rfl
    have h3 : (leaked c k target cap gcap n : Shard K V).entries.nextFree = n := rfl
    have h4 : (leaked c k target cap gcap n : Shard K V).nextPlh = n := rfl
    rw [h2]
    simp only [Res.ok_bind, h3, h4]
    rw [hins]
    simp only [Res.ok_bind, ne_eq, not_true, if_false, Shard.mapInsert]
    rfl
  have h5 : Shard.removePlaceholder c { (leaked c k target cap gcap (n + 1) : Shard K V) with map := [(c.hash k, n)] }
      { id := n, hash := c.hash k, idx := n } = .ok (leaked c k target cap gcap (n + 1)) := by
    have hp : (leaked c k target cap gcap (n + 1) : Shard K V).probe (c.hash k) (c.hash k) = true := by
      simp [leaked, Shard.new]
    have hg := leaked_get (V := V) c k target cap gcap (Nat.lt_succ_self n)
    have hsame : c.sameAs { id := n, hash := c.hash k, idx := n } { id := n, hash := c.hash k, idx := n } = true := by
      unfold Cfg.sameAs; split <;> simp
    unfold Shard.removePlaceholder
    simp [hp, hg, hsame]
    rfl
  simp only [step, getRefOrGuard, h1, Res.ok_bind, useGuard, h5]

theorem leaked_run (c : Cfg K V RS) (k : K) (target cap gcap : Nat) : ∀ n, n + 1 < 2 ^ 32 →
    Run c (Shard.new target cap gcap) (List.replicate n ⟨.getRefOrGuard k .drop, .orGuard none, []⟩)
      (leaked c k target cap gcap n)
  | 0, _ => .start
  | n + 1, hn => by
    have := Run.call (leaked_run c k target cap gcap n (by omega)) (leaked_step c k target cap gcap n (by omega))
    rw [List.replicate_succ']
    exact this

omit [DecidableEq K] in
theorem leaked_slots (c : Cfg K V RS) (k : K) (target cap gcap n : Nat) :
    (leaked c k target cap gcap n : Shard K V).slots = n := by
  have : (leaked c k target cap gcap n : Shard K V).entries.iter = (List.range n).map (fun i =>
      .placeholder { key := k, hot := .cold, shared := { id := i, hash := c.hash k, idx := i } }) := by
    unfold leaked Slab.iter
    simp only
    rw [List.filterMap_map]
    rw [show ((fun x : SEntry (Entry K V) => x.item) ∘ leakSlot c k) = fun i => some (.placeholder
      { key := k, hot := .cold, shared := { id := i, hash := c.hash k, idx := i } }) from rfl]
    rw [List.filterMap_eq_map']
  unfold Shard.slots
  rw [this]
  simp

/-- With all slots taken by dropped guards the next lookup panics. -/
theorem leaked_full (c : Cfg K V RS) (k : K) (target cap gcap n : Nat) (hne : n + 2 = 2 ^ 32)
    (use : GuardUse V) : step c (leaked c k target cap gcap n) (.getRefOrGuard k use) = .error .slabFull := by
  have hins : (leaked c k target cap gcap n).entries.insert
      (.placeholder { key := k, hot := .cold, shared := { id := n, hash := c.hash k, idx := n } }) =
      .error .slabFull := by
    have h0 : ((List.range n).map (leakSlot c k : Nat → SEntry (Entry K V)))[n]? = none := by
      rw [List.getElem?_eq_none_iff]; simp
    simp only [leaked, Slab.insert, h0, List.length_map, List.length_range, ne_eq, not_true, if_false, hne, if_true]
  have h1 : (leaked c k target cap gcap n).upsertPlaceholder c (c.hash k) (fun x => x == k) k = .error .slabFull := by
    unfold Shard.upsertPlaceholder
    have h2 : (leaked c k target cap gcap n).search (c.hash k) (fun x => x == k) = .ok none := rfl
    have h3 : (leaked c k target cap gcap n : Shard K V).entries.nextFree = n := rfl
    have h4 : (leaked c k target cap gcap n : Shard K V).nextPlh = n := rfl
    rw [h2]
    simp only [Res.ok_bind, h3, h4]
    rw [hins]
    rfl
  simp only [step, getRefOrGuard, h1]
  rfl

end
end QuickCache
