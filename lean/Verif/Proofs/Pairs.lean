import Verif.Model.Pairs
import Verif.Proofs.FuzzSync
import Verif.Proofs.Provenance
import Verif.Props.Sharded
import Verif.Props.Default

/-!
# The crate's test with many threads passes: proof
-/

namespace QuickCache.Pairs
open Conc Spec
open Function (update)

/-! ### Sums -/

/-- `f 0 + … + f (n - 1)`. -/
def sumTo (f : Nat → Nat) : Nat → Nat
  | 0 => 0
  | n + 1 => sumTo f n + f n

theorem sumTo_same {f g : Nat → Nat} : ∀ {n : Nat}, (∀ j < n, f j = g j) → sumTo f n = sumTo g n
  | 0, _ => rfl
  | n + 1, h => by
    unfold sumTo
    rw [sumTo_same (fun j hj => h j (by omega)), h n (by omega)]

theorem sumTo_add {f g : Nat → Nat} {j d : Nat} : ∀ {n : Nat}, j < n → f j + d ≤ g j → (∀ j', j' ≠ j → f j' = g j') →
    sumTo f n + d ≤ sumTo g n
  | 0, hj, _, _ => by omega
  | n + 1, hj, h1, h2 => by
    unfold sumTo
    by_cases hn : j = n
    · subst hn
      rw [sumTo_same (fun j' hj' => h2 j' (by omega))]
      omega
    · have := sumTo_add (n := n) (by omega) h1 h2
      rw [h2 n (by omega)] at *
      omega

theorem sumTo_le {f : Nat → Nat} {b : Nat} : ∀ {n : Nat}, (∀ j < n, f j ≤ b) → sumTo f n ≤ n * b
  | 0, _ => by unfold sumTo; omega
  | n + 1, h => by
    unfold sumTo
    have := sumTo_le (n := n) (fun j hj => h j (by omega))
    have := h n (by omega)
    rw [Nat.add_mul, Nat.one_mul]
    omega

/-! ### A reader on its shard -/

/-- Within `get(k)`. -/
def Asking (k : Nat) : Ctl Nat Nat → Prop
  | .start k' | .seek k' | .saw k' _ _ | .bump k' _ _ | .tally k' _ => k' = k
  | _ => False

/-- How far. -/
def stage : Ctl Nat Nat → Nat
  | .start _ => 1
  | .seek _ => 2
  | .saw _ _ _ => 3
  | .bump _ _ _ => 4
  | .tally _ _ => 5
  | _ => 0

theorem stage_le (x : Ctl Nat Nat) : stage x ≤ 5 := by cases x <;> simp [stage]

variable {RS : Type} {c : Cfg Nat Nat RS} {st st' : State Nat Nat} {act : Act Nat Nat} {evs : List (Ev Nat Nat)} {a k : Nat}

theorem gets_eff (he : Eff c st act st' evs) (hg : gets a act = true) (hk : st.kind a = .get) (hA : Asking k (st.ctl a)) :
    ∃ x, st'.ctl = update st.ctl a x ∧ st'.next = st.next ∧ st'.kind = st.kind ∧
      ((Asking k x ∧ stage (st.ctl a) + 1 ≤ stage x ∧ got evs = none ∧ calls evs = []) ∨
       (x = .idle ∧ ∃ r, got evs = some r ∧ calls evs = [⟨.get k, .value r, []⟩])) := by
  cases he with
  | enter w h hw =>
    simp only [gets, beq_iff_eq] at hg
    subst hg
    rw [h] at hA ⊢
    refine ⟨_, rfl, rfl, rfl, .inl ⟨hA, Nat.le_refl _, ?_⟩⟩
    rw [hk]
    exact ⟨rfl, rfl⟩
  | located h t r ht hk' =>
    simp only [gets, beq_iff_eq] at hg
    subst hg
    rw [h] at hA ⊢
    exact ⟨_, rfl, rfl, rfl, .inl ⟨hA, Nat.le_refl _, rfl, rfl⟩⟩
  | absent h hno =>
    simp only [gets, beq_iff_eq] at hg
    subst hg
    rw [h] at hA ⊢
    exact ⟨_, rfl, rfl, rfl, .inl ⟨hA, by simp [stage], rfl, rfl⟩⟩
  | load h n old =>
    simp only [gets, beq_iff_eq] at hg
    subst hg
    rw [h] at hA ⊢
    refine ⟨_, rfl, rfl, rfl, .inl ?_⟩
    split
    · exact ⟨hA, Nat.le_refl _, rfl, rfl⟩
    · exact ⟨hA, by simp [stage], rfl, rfl⟩
  | bump h he =>
    simp only [gets, beq_iff_eq] at hg
    subst hg
    rw [h] at hA ⊢
    exact ⟨_, rfl, rfl, rfl, .inl ⟨hA, Nat.le_refl _, rfl, rfl⟩⟩
  | hit h he =>
    simp only [gets, beq_iff_eq] at hg
    subst hg
    rw [h] at hA
    cases hA
    exact ⟨_, rfl, rfl, rfl, .inr ⟨rfl, _, rfl, rfl⟩⟩
  | miss h hk' he =>
    simp only [gets, beq_iff_eq] at hg
    subst hg
    rw [h] at hA
    cases hA
    exact ⟨_, rfl, rfl, rfl, .inr ⟨rfl, _, rfl, rfl⟩⟩
  | goOn h hk' he =>
    simp only [gets, beq_iff_eq] at hg
    subst hg
    exact absurd hk hk'
  | _ => cases hg

theorem insert_eff {v : Nat} (he : Eff c st (.call (.insert k v)) st' evs) :
    st'.ctl = st.ctl ∧ st'.next = st.next ∧ st'.kind = st.kind ∧ ∃ x, x.op = .insert k v ∧ calls evs = [x] := by
  cases he with
  | read hop he => cases hop
  | write hop hw hr he => exact ⟨rfl, rfl, rfl, ⟨_, _, _⟩, rfl, rfl⟩

/-! ### The invariant -/

variable {T : Test} {s0 : SyncCache Nat Nat} {o : Options} {n : Nat} {w w' : World}

/-- How far thread `j` is within its turn. -/
def World.within (w : World) (j : Nat) : Nat :=
  match w.pos j with
  | .top => 0
  | .asking i a =>
    match w.cache.shards[i]? with
    | none => 0
    | some st => stage (st.ctl a)

/-- What a reader is doing. -/
structure Reads (c : Cfg Nat Nat RS) (T : Test) (w : World) (j i a : Nat) : Prop where
  low : T.pairs ≤ j
  high : j < 2 * T.pairs
  more : w.made j < T.turns
  home : w.cache.home c (T.key j (w.made j)) = i
  on : ∃ st, w.cache.shards[i]? = some st ∧ a < st.next ∧ st.kind a = .get ∧ Asking (T.key j (w.made j)) (st.ctl a)

/-- The invariant of the test. -/
structure Good (c : Cfg Nat Nat RS) (T : Test) (s0 : SyncCache Nat Nat) (n : Nat) (w : World) : Prop where
  run : ∃ tr, Cache.Run c (Cache.start s0) tr w.cache ∧ ∀ x ∈ shardCalls tr, Feeds (fun k v => v = k) x.2.op
  reads : ∀ j i a, w.pos j = .asking i a → Reads c T w j i a
  one : ∀ j j' i a, w.pos j = .asking i a → w.pos j' = .asking i a → j = j'
  only : ∀ (i : Nat) (st : State Nat Nat) (a : Nat), w.cache.shards[i]? = some st → st.ctl a ≠ .idle → ∃ j, w.pos j = .asking i a
  slots : ∀ (i : Nat) (st : State Nat Nat), w.cache.shards[i]? = some st → st.shard.entries.entries.length ≤ sumTo w.made T.pairs
  made : ∀ j, w.made j ≤ T.turns
  count : n ≤ sumTo (fun j => 6 * w.made j + w.within j) (2 * T.pairs)

theorem at_set {α : Type _} {l : List α} {i i' : Nat} {x y z : α} (_ : l[i]? = some x) (h : (l.set i y)[i']? = some z) :
    (i' = i ∧ z = y) ∨ (i' ≠ i ∧ l[i']? = some z) := by
  rw [List.getElem?_set] at h
  split at h
  · rename_i hi
    subst hi
    split at h
    · cases h; exact .inl ⟨rfl, rfl⟩
    · cases h
  · rename_i hi
    exact .inr ⟨fun h' => hi h'.symm, h⟩

theorem set_same {α : Type _} {l : List α} {i : Nat} {x : α} (y : α) (hx : l[i]? = some x) : (l.set i y)[i]? = some y := by
  rw [List.getElem?_set, if_pos rfl, if_pos (List.getElem?_eq_some_iff.mp hx).1]

theorem set_other {α : Type _} {l : List α} {i i' : Nat} (y : α) (h : i' ≠ i) : (l.set i y)[i']? = l[i']? := by
  rw [List.getElem?_set, if_neg (Ne.symm h)]

theorem good_start (hb : SyncCache.withOptions o = .ok s0) : Good c T s0 0 (.start s0) := by
  have at_ : ∀ (i : Nat) (st : State Nat Nat), (World.start s0).cache.shards[i]? = some st → ∃ sh ∈ s0.shards, st = State.new sh := by
    intro i st h
    have h' := List.mem_of_getElem? h
    simp only [World.start, Cache.start, List.mem_map] at h'
    obtain ⟨sh, h1, rfl⟩ := h'
    exact ⟨sh, h1, rfl⟩
  refine ⟨⟨[], .start, by simp [shardCalls]⟩, ?_, ?_, ?_, ?_, fun _ => Nat.zero_le _, Nat.zero_le _⟩
  · intro j i a h; cases h
  · intro j j' i a h; cases h
  · intro i st a h ha
    obtain ⟨sh, -, rfl⟩ := at_ i st h
    exact absurd rfl ha
  · intro i st h
    obtain ⟨sh, h1, rfl⟩ := at_ i st h
    obtain ⟨j, -, -, -, hs0⟩ := Props.built hb
    generalize Props.hotTarget o s0 = X at hs0
    subst hs0
    rw [List.mem_replicate] at h1
    rw [h1.2]
    exact Nat.zero_le _

/-! ### Steps -/

theorem Good.sinv (h : Good c T s0 n w) (hb : SyncCache.withOptions o = .ok s0) (hq : c.ptrEq = true) :
    ∃ tr, Cache.SInv c s0.numShards s0.mask (Props.hotTarget o s0) (share o.weight s0.numShards)
      (fracOf (share o.items s0.numShards) o.ghost) tr w.cache ∧ Cache.Run c (Cache.start s0) tr w.cache ∧
      ∀ x ∈ shardCalls tr, Feeds (fun k v => v = k) x.2.op := by
  obtain ⟨tr, h1, h2⟩ := h.run
  exact ⟨tr, Props.runs hb h1 hq, h1, h2⟩

theorem Good.inv (h : Good c T s0 n w) (hb : SyncCache.withOptions o = .ok s0) (hq : c.ptrEq = true) {i : Nat}
    (hst : w.cache.shards[i]? = some st) : CInv c st := by
  obtain ⟨tr, h1, -⟩ := h.sinv hb hq
  exact (h1.reach hq hst).inv

theorem within_top {j : Nat} (h : w.pos j = .top) : w.within j = 0 := by simp only [World.within, h]

theorem within_asking {j i : Nat} (h : w.pos j = .asking i a) (hst : w.cache.shards[i]? = some st) :
    w.within j = stage (st.ctl a) := by simp only [World.within, h, hst]

theorem Good.layout (h : Good c T s0 n w) {i : Nat} (hi : w.cache.shards[i]? = some st) {m : List (UInt64 × Nat)}
    {p : UInt64 → UInt64 → Bool} (hm : m.Perm st.shard.map) (hp : ∀ x, p x x = true) :
    Good c T s0 n { w with cache := { w.cache with shards := w.cache.shards.set i { st with shard := st.shard.relayout m p } } } := by
  obtain ⟨tr, h1, h2⟩ := h.run
  refine ⟨⟨tr, .layout m p h1 hi hm hp, h2⟩, ?_, h.one, ?_, ?_, h.made, ?_⟩
  · intro j i' a hj
    obtain ⟨g1, g2, g3, g4, st1, g5, g6⟩ := h.reads j i' a hj
    refine ⟨g1, g2, g3, g4, ?_⟩
    by_cases hii : i' = i
    · subst hii
      rw [hi] at g5
      cases g5
      exact ⟨_, set_same _ hi, g6⟩
    · exact ⟨st1, (set_other _ hii).trans g5, g6⟩
  · intro i' st1 a hs ha
    rcases at_set hi hs with ⟨rfl, rfl⟩ | ⟨-, hs⟩
    · exact h.only _ st a hi ha
    · exact h.only _ st1 a hs ha
  · intro i' st1 hs
    rcases at_set hi hs with ⟨rfl, rfl⟩ | ⟨-, hs⟩
    · exact h.slots _ st hi
    · exact h.slots _ st1 hs
  · refine Nat.le_trans h.count (Nat.le_of_eq (sumTo_same (fun j _ => ?_)))
    change 6 * w.made j + w.within j = 6 * w.made j + World.within _ j
    congr 1
    cases hj : w.pos j with
    | top => simp only [World.within, hj]
    | asking i' a =>
      simp only [World.within, hj]
      by_cases hii : i' = i
      · subst hii
        rw [set_same _ hi, hi]
      · rw [set_other _ hii]

theorem after_ok {x : Option (Res (Cache Nat Nat × List (Ev Nat Nat)))} {f : Cache Nat Nat → List (Ev Nat Nat) → Res World}
    (h : after x f = some (.ok w')) : ∃ s evs, x = some (.ok (s, evs)) ∧ f s evs = .ok w' := by
  unfold after at h
  split at h
  · cases h
  · cases h
  · exact ⟨_, _, rfl, by simpa using h⟩

theorem after_err {x : Option (Res (Cache Nat Nat × List (Ev Nat Nat)))} {f : Cache Nat Nat → List (Ev Nat Nat) → Res World}
    {e : Panic} (h : after x f = some (.error e)) : x = some (.error e) ∨ ∃ s evs, x = some (.ok (s, evs)) ∧ f s evs = .error e := by
  unfold after at h
  split at h
  · cases h
  · cases h; exact .inl rfl
  · exact .inr ⟨_, _, rfl, by simpa using h⟩

/-- The honest history goes on. -/
theorem run_step {tr : List (Nat × Ev Nat Nat)} {s s' : Cache Nat Nat} {i : Nat} (h1 : Cache.Run c (Cache.start s0) tr s)
    (h2 : ∀ x ∈ shardCalls tr, Feeds (fun k v => v = k) x.2.op) (hx : s.exec c i act = some (.ok (s', evs)))
    (hc : ∀ x ∈ calls evs, Feeds (fun k v => v = k) x.op) :
    ∃ tr', Cache.Run c (Cache.start s0) tr' s' ∧ (∀ x ∈ shardCalls tr', Feeds (fun k v => v = k) x.2.op) ∧
      ∀ x ∈ calls evs, (i, x) ∈ shardCalls tr' := by
  refine ⟨_, .act h1 hx, ?_, ?_⟩
  · intro x hx
    rw [Cache.shardCalls_append, List.mem_append] at hx
    rcases hx with hx | hx
    · exact h2 x hx
    · rw [List.mem_map] at hx
      obtain ⟨y, hy, rfl⟩ := hx
      exact hc y hy
  · intro x hx
    rw [Cache.shardCalls_append, List.mem_append]
    exact .inr (List.mem_map_of_mem hx)

theorem Good.write (h : Good c T s0 n w) (hb : SyncCache.withOptions o = .ok s0) (hq : c.ptrEq = true) {j : Nat}
    (hs : step c T w (.write j) = some (.ok w')) : Good c T s0 (n + 1) w' := by
  simp only [step] at hs
  split at hs
  case isFalse => cases hs
  case isTrue hj =>
  obtain ⟨s, evs, hx, hw⟩ := after_ok hs
  cases hw
  obtain ⟨-, st, st', hst, he, rfl⟩ := Cache.exec_some hx
  have hi := h.inv hb hq hst
  obtain ⟨e1, e2, e3, x, e4, e5⟩ := insert_eff (hi.eff hq he)
  obtain ⟨tr, h1, h2⟩ := h.run
  obtain ⟨tr', h3, h4, -⟩ := run_step h1 h2 hx (by rw [e5]; intro y hy; rw [List.mem_singleton] at hy; subst hy; rw [e4]; rfl)
  generalize w.cache.home c (T.key j (w.made j)) = i at *
  have top : w.pos j = .top := by
    cases hp : w.pos j with
    | top => rfl
    | asking i' a' => exact absurd (h.reads _ _ _ hp).low (by omega)
  have hpos : ∀ j', (w.turn { w.cache with shards := w.cache.shards.set i st' } j).pos j' = w.pos j' := by
    intro j'
    simp only [World.turn]
    by_cases hjj : j' = j
    · subst hjj; rw [Function.update_self, top]
    · rw [Function.update_of_ne hjj]
  have hmade : ∀ j', j' ≠ j → (w.turn { w.cache with shards := w.cache.shards.set i st' } j).made j' = w.made j' := by
    intro j' hjj
    simp only [World.turn]
    rw [Function.update_of_ne hjj]
  have hmade' : (w.turn { w.cache with shards := w.cache.shards.set i st' } j).made j = w.made j + 1 := by
    simp only [World.turn, Function.update_self]
  have hsum : sumTo w.made T.pairs + 1 ≤ sumTo (w.turn { w.cache with shards := w.cache.shards.set i st' } j).made T.pairs :=
    sumTo_add hj.1 (by rw [hmade']) (fun j' hjj => (hmade j' hjj).symm)
  refine ⟨⟨tr', h3, h4⟩, ?_, ?_, ?_, ?_, ?_, ?_⟩
  · intro j' i' a' hp
    rw [hpos] at hp
    have hjj : j' ≠ j := by rintro rfl; rw [top] at hp; cases hp
    obtain ⟨g1, g2, g3, g4, st1, g5, g6⟩ := h.reads j' i' a' hp
    refine ⟨g1, g2, by rw [hmade _ hjj]; exact g3, by rw [hmade _ hjj]; exact g4, ?_⟩
    rw [hmade _ hjj]
    by_cases hii : i' = i
    · subst hii
      rw [hst] at g5
      cases g5
      exact ⟨st', set_same _ hst, by rw [e1, e2, e3]; exact g6⟩
    · exact ⟨st1, (set_other _ hii).trans g5, g6⟩
  · intro j1 j2 i' a' hp1 hp2
    rw [hpos] at hp1 hp2
    exact h.one _ _ _ _ hp1 hp2
  · intro i' st1 a' hs1 ha
    simp only [hpos]
    rcases at_set hst hs1 with ⟨rfl, rfl⟩ | ⟨-, hs1⟩
    · rw [e1] at ha; exact h.only _ st a' hst ha
    · exact h.only _ st1 a' hs1 ha
  · intro i' st1 hs1
    rcases at_set hst hs1 with ⟨rfl, rfl⟩ | ⟨-, hs1⟩
    · have := FuzzSync.len_exec hi hq he
      have := h.slots _ st hst
      simp only [FuzzSync.grows] at *
      exact Nat.le_trans (by omega) hsum
    · have := h.slots _ st1 hs1
      exact Nat.le_trans (by omega) hsum
  · intro j'
    by_cases hjj : j' = j
    · subst hjj; rw [hmade']; omega
    · rw [hmade _ hjj]; exact h.made j'
  · refine Nat.le_trans (Nat.add_le_add_right h.count 1) (sumTo_add (j := j) (by omega) ?_ ?_)
    · rw [hmade', within_top top]
      omega
    · intro j' hjj
      simp only [hmade _ hjj]
      congr 1
      cases hp : w.pos j' with
      | top => rw [within_top hp, within_top ((hpos j').trans hp)]
      | asking i' a' =>
        obtain ⟨-, -, -, -, st1, g5, -⟩ := h.reads j' i' a' hp
        rw [within_asking hp g5]
        by_cases hii : i' = i
        · subst hii
          rw [hst] at g5
          cases g5
          rw [within_asking ((hpos j').trans hp) (set_same _ hst), e1]
        · rw [within_asking ((hpos j').trans hp) ((set_other _ hii).trans g5)]

theorem Good.ask (h : Good c T s0 n w) (hb : SyncCache.withOptions o = .ok s0) (hq : c.ptrEq = true) {j : Nat}
    (hs : step c T w (.ask j) = some (.ok w')) : Good c T s0 (n + 1) w' := by
  simp only [step] at hs
  split at hs
  case isFalse => cases hs
  case isTrue hj =>
  split at hs
  · cases hs
  rename_i st0 hst0
  obtain ⟨s, evs, hx, hw⟩ := after_ok hs
  cases hw
  obtain ⟨hroute, st, st', hst, he, rfl⟩ := Cache.exec_some hx
  have e0 : st = st0 := Option.some.inj (hst.symm.trans hst0)
  subst e0
  have hi := h.inv hb hq hst
  have hE := hi.eff hq he
  obtain ⟨tr, h1, h2⟩ := h.run
  generalize hik : w.cache.home c (T.key j (w.made j)) = i at *
  have top := hj.2.2.2
  cases hE with | begin _ _ hkd =>
  obtain ⟨tr', h3, h4, -⟩ := run_step h1 h2 hx (by intro y hy; cases hy)
  have hpos : ∀ j', j' ≠ j → update w.pos j (.asking i st.next) j' = w.pos j' := fun j' hjj => Function.update_of_ne hjj _ _
  have hpos' : update w.pos j (.asking i st.next) j = .asking i st.next := Function.update_self _ _ _
  have old : ∀ {j' a'}, w.pos j' = .asking i a' → a' < st.next := by
    intro j' a' hp
    obtain ⟨-, -, -, -, st1, g5, g6, -⟩ := h.reads j' i a' hp
    rw [hst] at g5
    cases g5
    exact g6
  refine ⟨⟨tr', h3, h4⟩, ?_, ?_, ?_, ?_, h.made, ?_⟩
  · intro j' i' a' hp
    change update w.pos j (.asking i st.next) j' = _ at hp
    by_cases hjj : j' = j
    · subst hjj
      rw [hpos'] at hp
      cases hp
      refine ⟨hj.1, hj.2.1, hj.2.2.1, hik, _, set_same _ hst, Nat.lt_succ_self _, ?_, ?_⟩
      · exact Function.update_self _ _ _
      · change Asking _ (update st.ctl st.next _ st.next)
        rw [Function.update_self]
        rfl
    · rw [hpos _ hjj] at hp
      obtain ⟨g1, g2, g3, g4, st1, g5, g6, g7, g8⟩ := h.reads j' i' a' hp
      refine ⟨g1, g2, g3, g4, ?_⟩
      by_cases hii : i' = i
      · subst hii
        rw [hst] at g5
        cases g5
        refine ⟨_, set_same _ hst, Nat.lt_succ_of_lt g6, ?_, ?_⟩
        · change update st.kind st.next _ a' = _
          rw [Function.update_of_ne (by omega)]
          exact g7
        · change Asking _ (update st.ctl st.next _ a')
          rw [Function.update_of_ne (by omega)]
          exact g8
      · exact ⟨st1, (set_other _ hii).trans g5, g6, g7, g8⟩
  · intro j1 j2 i' a' hp1 hp2
    change update w.pos j (.asking i st.next) j1 = _ at hp1
    change update w.pos j (.asking i st.next) j2 = _ at hp2
    by_cases hj1 : j1 = j <;> by_cases hj2 : j2 = j
    · rw [hj1, hj2]
    · subst hj1
      rw [hpos'] at hp1
      cases hp1
      rw [hpos _ hj2] at hp2
      exact absurd (old hp2) (Nat.lt_irrefl _)
    · subst hj2
      rw [hpos'] at hp2
      cases hp2
      rw [hpos _ hj1] at hp1
      exact absurd (old hp1) (Nat.lt_irrefl _)
    · rw [hpos _ hj1] at hp1
      rw [hpos _ hj2] at hp2
      exact h.one _ _ _ _ hp1 hp2
  · intro i' st1 a' hs1 ha
    have other : (∃ j', w.pos j' = .asking i' a') → ∃ j', update w.pos j (.asking i st.next) j' = .asking i' a' := by
      rintro ⟨j', hp⟩
      have hjj : j' ≠ j := by rintro rfl; rw [top] at hp; cases hp
      exact ⟨j', (hpos _ hjj).trans hp⟩
    rcases at_set hst hs1 with ⟨rfl, rfl⟩ | ⟨-, hs1⟩
    · by_cases haa : a' = st.next
      · subst haa; exact ⟨j, hpos'⟩
      · change update st.ctl st.next _ a' ≠ _ at ha
        rw [Function.update_of_ne haa] at ha
        exact other (h.only _ st a' hst ha)
    · exact other (h.only _ st1 a' hs1 ha)
  · intro i' st1 hs1
    rcases at_set hst hs1 with ⟨rfl, rfl⟩ | ⟨-, hs1⟩
    · exact h.slots _ st hst
    · exact h.slots _ st1 hs1
  · refine Nat.le_trans (Nat.add_le_add_right h.count 1) (sumTo_add (j := j) hj.2.1 ?_ ?_)
    · rw [within_top top]
      rw [within_asking hpos' (set_same _ hst)]
      change _ ≤ _ + stage (update st.ctl st.next _ st.next)
      rw [Function.update_self]
      simp [stage]
    · intro j' hjj
      simp only
      congr 1
      cases hp : w.pos j' with
      | top => rw [within_top hp, within_top ((hpos _ hjj).trans hp)]
      | asking i' a' =>
        obtain ⟨-, -, -, -, st1, g5, g6, -⟩ := h.reads j' i' a' hp
        rw [within_asking hp g5]
        by_cases hii : i' = i
        · subst hii
          rw [hst] at g5
          cases g5
          rw [within_asking ((hpos _ hjj).trans hp) (set_same _ hst)]
          change _ = stage (update st.ctl st.next _ a')
          rw [Function.update_of_ne (by omega)]
        · rw [within_asking ((hpos _ hjj).trans hp) ((set_other _ hii).trans g5)]

/-- A step of a reader, with the result of the call if it returns. -/
theorem Good.stepped (h : Good c T s0 n w) (hb : SyncCache.withOptions o = .ok s0) (hq : c.ptrEq = true) (hS : Survives c (fun k v => v = k))
    {j i a : Nat} (hp : w.pos j = .asking i a) (hg : gets a act = true) {s : Cache Nat Nat}
    (hx : w.cache.exec c i act = some (.ok (s, evs))) :
    (got evs = none ∧ Good c T s0 (n + 1) { w with cache := s }) ∨
      ∃ r, got evs = some r ∧ (∀ v, r = some v → v = T.key j (w.made j)) ∧ Good c T s0 (n + 1) (w.turn s j) := by
  obtain ⟨q1, q2, q3, q4, st0, q5, q6, q7, q8⟩ := h.reads j i a hp
  obtain ⟨-, st, st', hst, he, rfl⟩ := Cache.exec_some hx
  have e0 : st = st0 := Option.some.inj (hst.symm.trans q5)
  subst e0
  have hi := h.inv hb hq hst
  obtain ⟨x, e1, e2, e3, e4⟩ := gets_eff (hi.eff hq he) hg q7 q8
  obtain ⟨tr, h1, h2⟩ := h.run
  have hgrow : st'.shard.entries.entries.length ≤ st.shard.entries.entries.length := by
    have := FuzzSync.len_exec hi hq he
    have h0 : FuzzSync.grows act = 0 := by cases act <;> first | rfl | cases hg
    omega
  have slots : ∀ (i' : Nat) (st1 : State Nat Nat), (w.cache.shards.set i st')[i']? = some st1 →
      st1.shard.entries.entries.length ≤ sumTo w.made T.pairs := by
    intro i' st1 hs1
    rcases at_set hst hs1 with ⟨rfl, rfl⟩ | ⟨-, hs1⟩
    · exact Nat.le_trans hgrow (h.slots _ st hst)
    · exact h.slots _ st1 hs1
  -- the other readers
  have others : ∀ j' i' a', j' ≠ j → w.pos j' = .asking i' a' → ∃ st1, w.cache.shards[i']? = some st1 ∧
      ∃ st2, (w.cache.shards.set i st')[i']? = some st2 ∧ st2.next = st1.next ∧ st2.kind = st1.kind ∧ st2.ctl a' = st1.ctl a' := by
    intro j' i' a' hjj hp'
    obtain ⟨-, -, -, -, st1, g5, -⟩ := h.reads j' i' a' hp'
    refine ⟨st1, g5, ?_⟩
    by_cases hii : i' = i
    · subst hii
      rw [hst] at g5
      cases g5
      refine ⟨st', set_same _ hst, e2, e3, ?_⟩
      rw [e1]
      refine Function.update_of_ne ?_ _ _
      rintro rfl
      exact hjj (h.one _ _ _ _ hp' hp)
    · exact ⟨st1, (set_other _ hii).trans g5, rfl, rfl, rfl⟩
  rcases e4 with ⟨a1, a2, a3, a4⟩ | ⟨a1, r, a2, a3⟩
  · refine .inl ⟨a3, ?_⟩
    obtain ⟨tr', h3, h4, -⟩ := run_step h1 h2 hx (by rw [a4]; intro y hy; cases hy)
    refine ⟨⟨tr', h3, h4⟩, ?_, h.one, ?_, slots, h.made, ?_⟩
    · intro j' i' a' hp'
      by_cases hjj : j' = j
      · subst hjj
        have : i' = i ∧ a' = a := by
          have := hp.symm.trans hp'
          cases this
          exact ⟨rfl, rfl⟩
        obtain ⟨rfl, rfl⟩ := this
        refine ⟨q1, q2, q3, q4, st', set_same _ hst, by rw [e2]; exact q6, by rw [e3]; exact q7, ?_⟩
        rw [e1, Function.update_self]
        exact a1
      · obtain ⟨st1, g1, st2, g2, g3, g4, g5⟩ := others j' i' a' hjj hp'
        obtain ⟨k1, k2, k3, k4, st3, k5, k6, k7, k8⟩ := h.reads j' i' a' hp'
        rw [g1] at k5
        cases k5
        exact ⟨k1, k2, k3, k4, st2, g2, by rw [g3]; exact k6, by rw [g4]; exact k7, by rw [g5]; exact k8⟩
    · intro i' st1 a' hs1 ha
      rcases at_set hst hs1 with ⟨rfl, rfl⟩ | ⟨-, hs1⟩
      · by_cases haa : a' = a
        · subst haa; exact ⟨j, hp⟩
        · rw [e1, Function.update_of_ne haa] at ha
          exact h.only _ st a' hst ha
      · exact h.only _ st1 a' hs1 ha
    · refine Nat.le_trans (Nat.add_le_add_right h.count 1) (sumTo_add (j := j) q2 ?_ ?_)
      · rw [within_asking hp hst]
        rw [within_asking (w := { w with cache := { w.cache with shards := w.cache.shards.set i st' } }) hp (set_same _ hst), e1, Function.update_self]
        simp only
        omega
      · intro j' hjj
        simp only
        congr 1
        cases hp' : w.pos j' with
        | top => rw [within_top hp', within_top (w := { w with cache := { w.cache with shards := w.cache.shards.set i st' } }) hp']
        | asking i' a' =>
          obtain ⟨st1, g1, st2, g2, g3, g4, g5⟩ := others j' i' a' hjj hp'
          rw [within_asking hp' g1, within_asking (w := { w with cache := { w.cache with shards := w.cache.shards.set i st' } }) hp' g2, g5]
  · refine .inr ⟨r, a2, ?_⟩
    subst a1
    obtain ⟨tr', h3, h4, h5⟩ := run_step h1 h2 hx (by
      rw [a3]; intro y hy; rw [List.mem_singleton] at hy; subst hy; exact trivial)
    have hmade : ∀ j', j' ≠ j → update w.made j (w.made j + 1) j' = w.made j' := fun j' hjj => Function.update_of_ne hjj _ _
    have hmade' : update w.made j (w.made j + 1) j = w.made j + 1 := Function.update_self _ _ _
    have hpos : ∀ j', j' ≠ j → update w.pos j .top j' = w.pos j' := fun j' hjj => Function.update_of_ne hjj _ _
    have hpos' : update w.pos j .top j = .top := Function.update_self _ _ _
    refine ⟨?_, ⟨tr', h3, h4⟩, ?_, ?_, ?_, ?_, ?_, ?_⟩
    · rintro v rfl
      have h6 := (Props.runs hb h3 hq).replays.keeps hS h4
      exact h6.2 _ (h5 ⟨.get _, _, _⟩ (by rw [a3]; exact List.mem_singleton.mpr rfl)) (T.key j (w.made j), v)
        (by simp [seen, shown, Op.key])
    · intro j' i' a' hp'
      change update w.pos j .top j' = _ at hp'
      by_cases hjj : j' = j
      · subst hjj; rw [hpos'] at hp'; cases hp'
      · rw [hpos _ hjj] at hp'
        obtain ⟨st1, g1, st2, g2, g3, g4, g5⟩ := others j' i' a' hjj hp'
        obtain ⟨k1, k2, k3, k4, st3, k5, k6, k7, k8⟩ := h.reads j' i' a' hp'
        rw [g1] at k5
        cases k5
        have hm : (w.turn { w.cache with shards := w.cache.shards.set i st' } j).made j' = w.made j' := hmade _ hjj
        refine ⟨k1, k2, by rw [hm]; exact k3, by rw [hm]; exact k4, st2, g2, by rw [g3]; exact k6, by rw [g4]; exact k7, ?_⟩
        rw [g5, hm]
        exact k8
    · intro j1 j2 i' a' hp1 hp2
      change update w.pos j .top j1 = _ at hp1
      change update w.pos j .top j2 = _ at hp2
      by_cases hj1 : j1 = j
      · subst hj1; rw [hpos'] at hp1; cases hp1
      · by_cases hj2 : j2 = j
        · subst hj2; rw [hpos'] at hp2; cases hp2
        · rw [hpos _ hj1] at hp1
          rw [hpos _ hj2] at hp2
          exact h.one _ _ _ _ hp1 hp2
    · intro i' st1 a' hs1 ha
      have other : (i' = i → a' ≠ a) → (∃ j', w.pos j' = .asking i' a') → ∃ j', update w.pos j .top j' = .asking i' a' := by
        rintro hne ⟨j', hp'⟩
        have hjj : j' ≠ j := by
          rintro rfl
          rw [hp] at hp'
          cases hp'
          exact hne rfl rfl
        exact ⟨j', (hpos _ hjj).trans hp'⟩
      rcases at_set hst hs1 with ⟨rfl, rfl⟩ | ⟨hii, hs1⟩
      · have haa : a' ≠ a := by
          rintro rfl
          rw [e1, Function.update_self] at ha
          exact ha rfl
        rw [e1, Function.update_of_ne haa] at ha
        exact other (fun _ => haa) (h.only _ st a' hst ha)
      · exact other (fun hc => absurd hc hii) (h.only _ st1 a' hs1 ha)
    · intro i' st1 hs1
      have : sumTo (update w.made j (w.made j + 1)) T.pairs = sumTo w.made T.pairs :=
        sumTo_same (fun j' hj' => hmade _ (by omega))
      change _ ≤ sumTo (update w.made j (w.made j + 1)) T.pairs
      rw [this]
      exact slots i' st1 hs1
    · intro j'
      change update w.made j (w.made j + 1) j' ≤ _
      by_cases hjj : j' = j
      · subst hjj; rw [hmade']; omega
      · rw [hmade _ hjj]; exact h.made j'
    · refine Nat.le_trans (Nat.add_le_add_right h.count 1) (sumTo_add (j := j) q2 ?_ ?_)
      · rw [within_asking hp hst]
        change _ ≤ 6 * update w.made j (w.made j + 1) j + _
        rw [hmade']
        have := stage_le (st.ctl a)
        omega
      · intro j' hjj
        change _ = 6 * update w.made j (w.made j + 1) j' + _
        rw [hmade _ hjj]
        congr 1
        cases hp' : w.pos j' with
        | top => rw [within_top hp', within_top (w := w.turn _ j) ((hpos _ hjj).trans hp')]
        | asking i' a' =>
          obtain ⟨st1, g1, st2, g2, g3, g4, g5⟩ := others j' i' a' hjj hp'
          rw [within_asking hp' g1, within_asking (w := w.turn { w.cache with shards := w.cache.shards.set i st' } j) ((hpos _ hjj).trans hp') g2, g5]

theorem good (hb : SyncCache.withOptions o = .ok s0) (hq : c.ptrEq = true) (hS : Survives c (fun k v => v = k))
    (hr : Run c T s0 n w) : Good c T s0 n w := by
  induction hr with
  | start => exact good_start hb
  | layout m p hr hi hm hp ih => exact ih.layout hi hm hp
  | @move n w w' m hr hs ih =>
    cases m with
    | write j => exact ih.write hb hq hs
    | ask j => exact ih.ask hb hq hs
    | step j act =>
      simp only [step] at hs
      split at hs
      · cases hs
      rename_i i a hp
      split at hs
      case isFalse => cases hs
      case isTrue hg =>
      obtain ⟨s, evs, hx, hw⟩ := after_ok hs
      rcases ih.stepped hb hq hS hp hg hx with ⟨h1, h2⟩ | ⟨r, h1, h2, h3⟩
      · rw [h1] at hw
        cases hw
        exact h2
      · rw [h1] at hw
        cases r with
        | none => cases hw; exact h3
        | some v =>
          simp only [h2 v rfl, if_true] at hw
          cases hw
          exact h3

/-! ### No failure -/

theorem iter_le (s : Shard Nat Nat) : s.iter.length ≤ s.entries.entries.length := by
  unfold Shard.iter Slab.iter
  exact Nat.le_trans (List.length_filterMap_le _ _) (List.length_filterMap_le _ _)

theorem no_panic (h : Good c T s0 n w) (hb : SyncCache.withOptions o = .ok s0) (hq : c.ptrEq = true)
    (hw : c.weight = unitWeight) (he : ∀ target k v, enterWeight c target k v = 1) (hn : T.pairs * T.turns < 2 ^ 32 - 2) {i : Nat}
    {e : Panic} : w.cache.exec c i act ≠ some (.error e) := by
  intro hx
  obtain ⟨tr, h1, -⟩ := h.run
  obtain ⟨st, hst, h2⟩ := Props.C41_panics hb h1 hq hx
  have h3 := h.slots i st hst
  have h4 : sumTo w.made T.pairs ≤ T.pairs * T.turns := sumTo_le (fun j _ => h.made j)
  rcases h2 with ⟨-, k, v, h5⟩ | ⟨-, h5⟩
  · rw [he, hw, Props.total_unit] at h5
    have := iter_le st.shard
    omega
  · omega

theorem no_failure (hr : Run c T s0 n w) (hb : SyncCache.withOptions o = .ok s0) (hq : c.ptrEq = true)
    (hS : Survives c (fun k v => v = k)) (hw : c.weight = unitWeight) (he : ∀ target k v, enterWeight c target k v = 1)
    (hn : T.pairs * T.turns < 2 ^ 32 - 2) (m : Move) (e : Panic) : step c T w m ≠ some (.error e) := by
  have h := good hb hq hS hr
  intro hs
  cases m with
  | write j =>
    simp only [step] at hs
    split at hs
    case isFalse => cases hs
    case isTrue hj =>
    rcases after_err hs with hx | ⟨s, evs, hx, hf⟩
    · exact no_panic h hb hq hw he hn hx
    · cases hf
  | ask j =>
    simp only [step] at hs
    split at hs
    case isFalse => cases hs
    case isTrue hj =>
    split at hs
    · rename_i hnone
      obtain ⟨tr, h1, -⟩ := h.sinv hb hq
      have h2 := Props.home_lt (c := c) hb (T.key j (w.made j))
      have h3 : (Cache.start s0).home c (T.key j (w.made j)) = w.cache.home c (T.key j (w.made j)) := by
        unfold Cache.home
        rw [h1.const]
        rfl
      rw [h3, ← h1.len] at h2
      rw [List.getElem?_eq_none_iff] at hnone
      omega
    · rcases after_err hs with hx | ⟨s, evs, hx, hf⟩
      · exact no_panic h hb hq hw he hn hx
      · cases hf
  | step j act =>
    simp only [step] at hs
    split at hs
    · cases hs
    rename_i i a hp
    split at hs
    case isFalse => cases hs
    case isTrue hg =>
    rcases after_err hs with hx | ⟨s, evs, hx, hf⟩
    · exact no_panic h hb hq hw he hn hx
    · rcases h.stepped hb hq hS hp hg hx with ⟨h1, h2⟩ | ⟨r, h1, h2, h3⟩
      · rw [h1] at hf; cases hf
      · rw [h1] at hf
        cases r with
        | none => cases hf
        | some v => simp only [h2 v rfl, if_true] at hf; cases hf

/-! ### The end -/

theorem bounded (h : Good c T s0 n w) : n ≤ 2 * T.pairs * (6 * T.turns) := by
  refine Nat.le_trans h.count (sumTo_le (fun j _ => ?_))
  cases hp : w.pos j with
  | top =>
    rw [within_top hp]
    have := h.made j
    omega
  | asking i a =>
    obtain ⟨-, -, h1, -, st, h2, -⟩ := h.reads j i a hp
    rw [within_asking hp h2]
    have := stage_le (st.ctl a)
    omega

theorem after_none {x : Option (Res (Cache Nat Nat × List (Ev Nat Nat)))} {f : Cache Nat Nat → List (Ev Nat Nat) → Res World}
    (h : after x f = none) : x = none := by
  unfold after at h
  split at h
  · rfl
  · cases h
  · cases h

theorem exec_ne_none {s : Cache Nat Nat} {i : Nat} (hst : s.shards[i]? = some st) (hr : s.routes c i act = true)
    (hx : Conc.exec c st act ≠ none) : s.exec c i act ≠ none := by
  unfold Cache.exec
  rw [if_pos hr]
  simp only [hst]
  split
  · rename_i h; exact absurd h hx
  · simp

theorem asking_next {a k : Nat} (hA : Asking k (st.ctl a)) (hw : st.writer = none) :
    ∃ act, gets a act = true ∧ act.key = none ∧ Conc.exec c st act ≠ none := by
  cases hx : st.ctl a <;> rw [hx] at hA <;> try cases hA
  · exact ⟨.enter a 0, by simp [gets], rfl, by simp [Conc.exec, enter, hx, hw]⟩
  · exact ⟨.find a, by simp [gets], rfl, by simp [Conc.exec, find, hx]⟩
  · exact ⟨.load a none, by simp [gets], rfl, by simp [Conc.exec, load, hx]⟩
  · exact ⟨.bump a, by simp [gets], rfl, by simp [Conc.exec, bump, hx]⟩
  · exact ⟨.tally a, by simp [gets], rfl, by simp [Conc.exec, tally, hx]⟩

theorem Good.no_writer (h : Good c T s0 n w) (hb : SyncCache.withOptions o = .ok s0) (hq : c.ptrEq = true) {i : Nat}
    (hst : w.cache.shards[i]? = some st) : st.writer = none := by
  cases hw : st.writer with
  | none => rfl
  | some a =>
    exfalso
    have h1 : (st.ctl a).writes = true := ((h.inv hb hq hst).lock.wr a).mp hw
    obtain ⟨j, hj⟩ := h.only i st a hst (by intro h2; rw [h2] at h1; cases h1)
    obtain ⟨-, -, -, -, st1, h3, -, -, h4⟩ := h.reads j i a hj
    rw [hst] at h3
    cases h3
    cases hx : st.ctl a <;> rw [hx] at h1 h4 <;>
      first | exact absurd h1 Bool.false_ne_true | exact (show False from h4).elim

theorem progress (hr : Run c T s0 n w) (hb : SyncCache.withOptions o = .ok s0) (hq : c.ptrEq = true)
    (hS : Survives c (fun k v => v = k)) (hover : ¬ w.over T) : ∃ m, step c T w m ≠ none := by
  have h := good hb hq hS hr
  by_cases hask : ∃ j i a, w.pos j = .asking i a
  · obtain ⟨j, i, a, hp⟩ := hask
    obtain ⟨-, -, -, -, st, h2, -, -, h3⟩ := h.reads j i a hp
    obtain ⟨act, g1, g2, g3⟩ := asking_next (c := c) h3 (h.no_writer hb hq h2)
    refine ⟨.step j act, ?_⟩
    simp only [step, hp, g1, if_true]
    intro hn
    exact exec_ne_none h2 (by unfold Cache.routes; rw [g2]) g3 (after_none hn)
  · have top : ∀ j, w.pos j = .top := by
      intro j
      cases hp : w.pos j with
      | top => rfl
      | asking i a => exact absurd ⟨j, i, a, hp⟩ hask
    have : ∃ j, j < 2 * T.pairs ∧ w.made j < T.turns := by
      by_contra hc
      refine hover (fun j hj => ?_)
      have := h.made j
      by_contra hne
      exact hc ⟨j, hj, by omega⟩
    obtain ⟨j, hj, hm⟩ := this
    have hst : ∃ st, w.cache.shards[w.cache.home c (T.key j (w.made j))]? = some st := by
      obtain ⟨tr, h1, -⟩ := h.sinv hb hq
      have h2 := Props.home_lt (c := c) hb (T.key j (w.made j))
      have h3 : (Cache.start s0).home c (T.key j (w.made j)) = w.cache.home c (T.key j (w.made j)) := by
        unfold Cache.home
        rw [h1.const]
        rfl
      rw [h3, ← h1.len] at h2
      exact ⟨_, List.getElem?_eq_getElem h2⟩
    obtain ⟨st, hst⟩ := hst
    by_cases hjp : j < T.pairs
    · refine ⟨.write j, ?_⟩
      simp only [step, hjp, hm, and_self, if_true]
      intro hn
      refine exec_ne_none hst (by simp [Cache.routes, Act.key, Op.key]) ?_ (after_none hn)
      have hread : st.readers = [] := by
        rw [List.eq_nil_iff_forall_not_mem]
        intro a ha
        have h1 : (st.ctl a).reads = true := ((h.inv hb hq hst).lock.rd a).mp ha
        obtain ⟨j', hj'⟩ := h.only _ st a hst (by intro h2; rw [h2] at h1; cases h1)
        rw [top j'] at hj'
        cases hj'
      simp [Conc.exec, Conc.call, lockMode, State.unlocked, h.no_writer hb hq hst, hread]
    · refine ⟨.ask j, ?_⟩
      simp only [step, hst, top j, hm, hj, not_lt.mp hjp, and_self, if_true]
      intro hn
      refine exec_ne_none hst (by simp [Cache.routes, Act.key]) ?_ (after_none hn)
      simp [Conc.exec, Conc.begin]

end QuickCache.Pairs
