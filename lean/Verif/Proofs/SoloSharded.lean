import Verif.Model.SoloSharded
import Verif.Proofs.Solo
import Verif.Proofs.DictConc
import Verif.Props.Sharded

/-!
# One call at a time, sharded: proof
-/

namespace QuickCache.Spec.Dict
variable {K V RS : Type _} [DecidableEq K] {d : Dict K V} {home : K → Nat} {i j : Nat} {k : K} {v : V}

theorem part_lookup (h : home k = i) : (part home i d).lookup k = d.lookup k := by
  unfold part
  induction d with
  | nil => rfl
  | cons p d ih =>
    obtain ⟨a, b⟩ := p
    rw [List.filter_cons]
    by_cases hk : k = a
    · subst hk
      rw [if_pos (by simpa using h), List.lookup_cons, List.lookup_cons]
      simp
    · have hb : (k == a) = false := by simpa using hk
      split <;> simp [List.lookup_cons, hb, ih]

theorem part_without : part home i (without d k) = without (part home i d) k := by
  unfold part without
  rw [List.filter_filter, List.filter_filter]
  congr 1
  funext p
  exact Bool.and_comm _ _

theorem part_store (h : home k = i) : part home i (store d k v) = store (part home i d) k v := by
  unfold store
  rw [← part_without]
  unfold part
  rw [List.filter_cons, if_pos (by simpa using h)]

theorem without_part_ne (h : home k ≠ i) : without (part home i d) k = part home i d := by
  unfold without part
  rw [List.filter_filter]
  congr 1
  funext p
  by_cases hp : home p.1 = i
  · have : p.1 ≠ k := by rintro rfl; exact h hp
    simp [hp, this]
  · simp [hp]

theorem part_store_ne (h : home k ≠ i) : part home i (store d k v) = part home i d := by
  unfold store
  have := part_without (d := d) (home := home) (i := i) (k := k)
  rw [without_part_ne h] at this
  rw [← this]
  unfold part
  rw [List.filter_cons, if_neg (by simpa using h)]

theorem part_write {f : V → V} : part home i (write d k f) = write (part home i d) k f := by
  unfold part write
  rw [List.filter_map]
  congr 2
  funext p
  simp only [Function.comp]
  split <;> rfl

theorem write_part_ne {f : V → V} (h : home k ≠ i) : write (part home i d) k f = part home i d := by
  unfold write
  conv => rhs; rw [← List.map_id (part home i d)]
  refine List.map_congr_left fun p hp => ?_
  unfold part at hp
  have hp := (List.mem_filter.1 hp).2
  rw [if_neg]
  · rfl
  · rintro rfl
    exact h (by simpa using hp)

/-- A call about a key acts on the part of its shard. -/
theorem part_after {op : Op K V} (hk : op.key = some k) (h : home k = i) :
    part home i (after d op) = after (part home i d) op := by
  cases op <;> cases hk <;> simp only [after, part_lookup h]
  case insert => exact part_store h
  case replace => split; exacts [part_store h, rfl]
  case remove => exact part_without
  case getMut => exact part_write
  case peekMut => exact part_write
  case getOrInsertWith => split; exacts [part_store h, rfl]
  case getMutOrInsertWith => split; exacts [part_write, part_store h, rfl]
  case getRefOrGuard => split; exacts [part_store h, rfl]
  case getMutOrGuard => split; exacts [part_write, part_store h, rfl]

/-- It leaves the other parts alone. -/
theorem part_after_ne {op : Op K V} (hk : op.key = some k) (h : home k ≠ i) :
    part home i (after d op) = part home i d := by
  have hw : ∀ f : V → V, part home i (write d k f) = part home i d := fun f => part_write.trans (write_part_ne h)
  cases op <;> cases hk <;> simp only [after]
  case insert => exact part_store_ne h
  case replace => split; exacts [part_store_ne h, rfl]
  case remove => exact part_without.trans (without_part_ne h)
  case getMut => exact hw _
  case peekMut => exact hw _
  case getOrInsertWith => split; exacts [part_store_ne h, rfl]
  case getMutOrInsertWith => split; exacts [hw _, part_store_ne h, rfl]
  case getRefOrGuard => split; exacts [part_store_ne h, rfl]
  case getMutOrGuard => split; exacts [hw _, part_store_ne h, rfl]

/-- A call about no key acts on all parts. -/
theorem part_after_all {op : Op K V} (hk : op.key = none) : part home i (after d op) = after (part home i d) op := by
  cases op <;> cases hk <;> simp only [after]
  case retain =>
    unfold part
    rw [List.filter_filter, List.filter_filter]
    congr 1
    funext p
    exact Bool.and_comm _ _
  all_goals rfl

theorem part_answer {op : Op K V} (hk : op.key = some k) (h : home k = i) : answer (part home i d) op = answer d op := by
  cases op <;> cases hk <;> simp only [answer, part_lookup h]

theorem part_handed {op : Op K V} (hk : op.key = some k) (h : home k = i) : handed (part home i d) op = handed d op := by
  cases op <;> cases hk <;> simp only [handed, part_lookup h]

end QuickCache.Spec.Dict

namespace QuickCache.Solo
open Conc Spec
variable {K V RS : Type} [DecidableEq K] {c : Cfg K V RS} {lay : Nat → Layout K V} {T C G n : Nat} {s : Whole K V} {d : Dict K V}

/-- A shard, between two calls, contains the items `d`; `N` is a bound of the actions so far. -/
def Holds (c : Cfg K V RS) (T C G N : Nat) (w : World K V) (d : Dict K V) : Prop :=
  ∃ m, Quiet c T C G w m ∧ Lists d m.value ∧ w.acts ≤ N

/-- A call on a shard for which there is room. -/
theorem Holds.perform {N : Nat} {w : World K V} (h : Holds c T C G N w d) (hq : c.ptrEq = true) {lay : Layout K V} (hl : lay.Fair)
    {x : Call K V} (hx : x.Known) (hroom : Dict.HasRoom c T C d x.op) (hin : Dict.InRange c T d x.op) (hN : N + 13 < 2 ^ 32 - 2) :
    ∃ w' y, Solo.perform c lay w x = .ok (w', y) ∧ y.op = x.op ∧ SameOut (Dict.answer d x.op) y.out ∧ Dict.handed d x.op = y.log ∧
      Holds c T C G (N + 13) w' (Dict.after d x.op) := by
  obtain ⟨m, h1, h2, h3⟩ := h
  rcases h1.perform hq hl hx with ⟨e, -, hL⟩ | ⟨w', y, m', g1, g2, g3, g4, -, g5⟩
  · exfalso
    rcases hL with ⟨-, z, l, a1, a2, a3⟩ | ⟨-, a⟩
    · have := hin z (by rwa [show (fun k => d.lookup k) = m.value from funext fun k => h2.lookup k])
      rw [h2.total a2] at this
      omega
    · omega
  · have g6 := g5
    rw [g3] at g6
    obtain ⟨b1, b2, b3⟩ := g6.spec.dict h2 hroom (fun hs hf hc => g6.room h2 hs hf hc)
    exact ⟨w', y, g1, g3, b1, b2, m', g4, b3, by omega⟩

/-- The cache, between two calls, contains the items `d`. -/
structure Wide (c : Cfg K V RS) (T C G n N : Nat) (home : K → Nat) (s : Whole K V) (d : Dict K V) : Prop where
  len : s.shards.length = n
  homes : ∀ k, s.home c k = home k
  lt : ∀ k, home k < n
  nodup : (d.map (·.1)).Nodup
  holds : ∀ i w, s.shards[i]? = some w → Holds c T C G N w (d.part home i)

theorem Holds.mono {N N' : Nat} {w : World K V} (h : Holds c T C G N w d) (hn : N ≤ N') : Holds c T C G N' w d := by
  obtain ⟨m, h1, h2, h3⟩ := h
  exact ⟨m, h1, h2, Nat.le_trans h3 hn⟩

theorem room_of_none {op : Op K V} (hk : op.key = none) (d : Dict K V) :
    Dict.HasRoom c T C d op ∧ Dict.InRange c T d op := by
  cases op <;> cases hk
  all_goals
    refine ⟨⟨fun p hp => (by cases hp), fun k v soft he => (by cases he)⟩, fun w hw => (by cases hw)⟩

theorem sweep_ok {home : K → Nat} (hq : c.ptrEq = true) (hl : ∀ i, (lay i).Fair) {x : Call K V} (hx : x.Known) (hk : x.op.key = none)
    {N : Nat} (hN : N + 13 < 2 ^ 32 - 2) : ∀ {ws : List (World K V)} {i : Nat},
    (∀ j w, ws[j]? = some w → Holds c T C G N w (d.part home (i + j))) →
    ∃ ws', Whole.sweep c lay x i ws = .ok (ws', []) ∧ ws'.length = ws.length ∧
      ∀ j w, ws'[j]? = some w → Holds c T C G (N + 13) w ((Dict.after d x.op).part home (i + j))
  | [], i, _ => ⟨[], rfl, rfl, fun j w h => by cases h⟩
  | w :: ws, i, h => by
    have hr := room_of_none (c := c) (T := T) (C := C) hk (d.part home i)
    obtain ⟨w', y, h1, -, -, h4, h5⟩ := (h 0 w rfl).perform hq (hl i) hx hr.1 hr.2 hN
    obtain ⟨ws', g1, g2, g3⟩ := sweep_ok (ws := ws) (i := i + 1) hq hl hx hk hN (fun j w hw => by
      have := h (j + 1) w hw
      rwa [show i + (j + 1) = i + 1 + j by omega] at this)
    refine ⟨w' :: ws', ?_, by simp [g2], ?_⟩
    · rw [Whole.sweep, h1, Res.ok_bind]
      dsimp only
      rw [g1, Res.ok_bind]
      have : Dict.handed (d.part home i) x.op = [] := by
        generalize x.op = op at hk
        cases op <;> cases hk <;> rfl
      rw [← h4, Nat.add_zero, this]
      rfl
    · intro j w hw
      cases j with
      | zero =>
        cases hw
        rw [Nat.add_zero, Dict.part_after_all hk]
        exact h5
      | succ j =>
        have := g3 j w hw
        rwa [show i + 1 + j = i + (j + 1) by omega] at this

theorem Wide.perform {home : K → Nat} {N : Nat} (h : Wide c T C G n N home s d) (hq : c.ptrEq = true) (hl : ∀ i, (lay i).Fair)
    {x : Call K V} (hx : x.Known)
    (hroom : ∀ k, x.op.key = some k → Dict.HasRoom c T C (d.part home (home k)) x.op ∧ Dict.InRange c T (d.part home (home k)) x.op)
    (hN : N + 13 < 2 ^ 32 - 2) :
    ∃ s' y, s.perform c lay x = .ok (s', y) ∧ SameCall ⟨x.op, Dict.answer d x.op, Dict.handed d x.op⟩ y ∧
      Wide c T C G n (N + 13) home s' (Dict.after d x.op) := by
  have hnd : ((Dict.after d x.op).map (·.1)).Nodup := by
    refine (Dict.Within.after (keys := (x.op.key.toList ++ d.map (·.1))) (d := d) ⟨h.nodup, fun p hp => ?_⟩ ?_).1
    · exact List.mem_append_right _ (List.mem_map_of_mem hp)
    · intro k hk
      rw [hk]
      simp
  unfold Whole.perform
  cases hk : x.op.key with
  | some k =>
    dsimp only
    have hlt := h.lt k
    rw [h.homes k, List.getElem?_eq_getElem (by rw [h.len]; exact hlt)]
    dsimp only
    obtain ⟨h1, h2⟩ := hroom k hk
    obtain ⟨w', y, g1, g2, g3, g4, g5⟩ := (h.holds (home k) _ (List.getElem?_eq_getElem (by rw [h.len]; exact hlt))).perform hq (hl _) hx h1 h2 hN
    refine ⟨{ s with shards := s.shards.set (home k) w' }, y, by rw [g1]; rfl, ⟨g2.symm, ?_, ?_⟩, ⟨by simp [h.len], h.homes, h.lt, hnd, ?_⟩⟩
    · rw [Dict.part_answer hk rfl] at g3; exact g3
    · rw [Dict.part_handed hk rfl] at g4; exact g4
    · intro i w hw
      dsimp only at hw
      by_cases hi : home k = i
      · subst hi
        rw [List.getElem?_set_self (by rw [h.len]; exact hlt)] at hw
        cases hw
        rw [Dict.part_after hk rfl]
        exact g5
      · rw [List.getElem?_set_ne hi] at hw
        rw [Dict.part_after_ne hk hi]
        exact (h.holds i w hw).mono (by omega)
  | none =>
    dsimp only
    obtain ⟨ws', g1, g2, g3⟩ := sweep_ok (ws := s.shards) (i := 0) (d := d) (home := home) hq hl hx hk hN (fun j w hw => by
      rw [Nat.zero_add]; exact h.holds j w hw)
    refine ⟨⟨ws', s.mask⟩, ⟨x.op, .unit, []⟩, by rw [g1]; rfl, ?_, ⟨g2.trans h.len, h.homes, h.lt, hnd, fun i w hw => by
      have := g3 i w hw
      rwa [Nat.zero_add] at this⟩⟩
    have hdr : x.op ≠ .drain := by
      intro hd
      cases x with
      | plain op =>
        have hop : op = .drain := hd
        subst hop
        exact hx rfl
      | get => cases hd
      | load _ _ r => cases r <;> cases hd
    generalize x.op = op at hk hdr
    cases op <;> cases hk <;> first | exact ⟨rfl, .same _, rfl⟩ | exact absurd rfl hdr

/-- One call after the other. -/
theorem Wide.calls {home : K → Nat} (hq : c.ptrEq = true) (hl : ∀ i, (lay i).Fair) : ∀ {l : List (Call K V)} {N : Nat}
    {s : Whole K V} {d : Dict K V}, (∀ x ∈ l, x.Known) → Wide c T C G n N home s d →
    Dict.RoomyParts c T C home d (l.map Call.op) → N + 13 * l.length < 2 ^ 32 - 2 →
    ∃ s' h, Whole.run c lay l s = .ok (s', h) ∧ List.Forall₂ SameCall (Dict.calls d (l.map Call.op)) h ∧
      Wide c T C G n (N + 13 * l.length) home s' (Dict.afterAll d (l.map Call.op))
  | [], N, s, d, _, h, _, _ => ⟨s, [], rfl, .nil, h⟩
  | x :: l, N, s, d, hk, h, hroom, hN => by
    rw [List.length_cons] at hN
    obtain ⟨s1, y, h1, h2, h3⟩ := h.perform hq hl (hk x (by simp)) hroom.1 (by omega)
    obtain ⟨s', h', g1, g2, g3⟩ := Wide.calls (l := l) hq hl (fun x hx => hk x (by simp [hx])) h3 hroom.2 (by omega)
    refine ⟨s', y :: h', ?_, .cons h2 g2, ?_⟩
    · rw [Whole.run, h1, Res.ok_bind]
      dsimp only
      rw [g1]; rfl
    · rw [List.length_cons, show N + 13 * (l.length + 1) = N + 13 + 13 * l.length by omega]
      exact g3

/-- The items are those of the dictionary. -/
theorem Wide.items {home : K → Nat} {N : Nat} (h : Wide c T C G n N home s d) (hq : c.ptrEq = true) : s.items.Perm d := by
  have hp : ∀ (i : Nat) (w : World K V), s.shards[i]? = some w → w.st.shard.iter.Perm (d.part home i) := by
    intro i w hw
    obtain ⟨m, h1, h2, -⟩ := h.holds i w hw
    rw [h1.value] at h2
    exact (lists_iter (h1.inv hq).shard.toInv0).perm h2
  have hmem : ∀ p, p ∈ s.items ↔ p ∈ d := by
    intro p
    unfold Whole.items
    rw [List.mem_flatMap]
    constructor
    · rintro ⟨w, hw, hp'⟩
      obtain ⟨i, hi⟩ := List.mem_iff_getElem?.1 hw
      exact (List.mem_filter.1 ((hp i w hi).mem_iff.1 hp')).1
    · intro hd
      have hlt : home p.1 < s.shards.length := by rw [h.len]; exact h.lt p.1
      refine ⟨s.shards[home p.1], List.getElem_mem hlt, ?_⟩
      refine (hp _ _ (List.getElem?_eq_getElem hlt)).mem_iff.2 (List.mem_filter.2 ⟨hd, ?_⟩)
      simp
  refine (List.perm_ext_iff_of_nodup ?_ ?_).2 hmem
  · unfold Whole.items
    rw [List.nodup_flatMap]
    constructor
    · intro w hw
      obtain ⟨i, hi⟩ := List.mem_iff_getElem?.1 hw
      exact (hp i w hi).nodup_iff.2 (((List.filter_sublist.map _).nodup h.nodup).of_map _)
    · rw [List.pairwise_iff_getElem]
      intro i j hi hj hij p hp1 hp2
      have a1 := (hp i _ (List.getElem?_eq_getElem hi)).mem_iff.1 hp1
      have a2 := (hp j _ (List.getElem?_eq_getElem hj)).mem_iff.1 hp2
      have b1 := (List.mem_filter.1 a1).2
      have b2 := (List.mem_filter.1 a2).2
      simp only [decide_eq_true_eq] at b1 b2
      omega
  · exact h.nodup.of_map _

/-- A cache just built. -/
theorem Wide.start {o : Options} {s0 : SyncCache K V} (hb : SyncCache.withOptions o = .ok s0) :
    Wide c (Props.hotTarget o s0) (share o.weight s0.numShards) (fracOf (share o.items s0.numShards) o.ghost) s0.numShards 0
      ((Whole.start s0).home c) (.start s0) [] := by
  refine ⟨by simp [Whole.start, SyncCache.numShards], fun _ => rfl, fun k => Props.home_lt hb k, List.nodup_nil, ?_⟩
  intro i w hw
  obtain ⟨j, -, -, hn, hs0⟩ := Props.built hb
  rw [hn]
  generalize Props.hotTarget o s0 = T at hs0
  subst hs0
  simp only [Whole.start, List.map_replicate, List.getElem?_replicate] at hw
  split at hw
  · cases hw
    exact ⟨_, Quiet.new, .nil, Nat.le_refl 0⟩
  · cases hw

end QuickCache.Solo
