import Verif.Spec.Dict
import Verif.Props.Eviction
import Verif.Props.Safety
import Verif.Props.Memory
import Verif.Proofs.ClockFlood

/-!
# A cache with room is a dictionary
-/

namespace QuickCache
variable {K V RS : Type} [DecidableEq K] {c : Cfg K V RS} {target cap gcap : Nat} {h : List (Unsync.Call K V)}
  {s s' : Shard K V}
open Unsync Spec Props

namespace Spec

theorem Lists.lookup {d : Dict K V} {m : K → Option V} (h : Lists d m) (k : K) : d.lookup k = m k := by
  have h1 := Clock.mem_lookup h.1 k
  cases hm : m k with
  | some v => exact (h1 v).1 ((h.2 k v).2 hm)
  | none =>
    cases hd : d.lookup k with
    | none => rfl
    | some v =>
      have := (h.2 k v).1 ((h1 v).2 hd)
      rw [hm] at this; cases this

theorem Lists.without {d : Dict K V} {m : K → Option V} (h : Lists d m) (k : K) : Lists (Dict.without d k) (del m k) :=
  h.others k

theorem Lists.store {d : Dict K V} {m : K → Option V} (h : Lists d m) (k : K) (v : V) :
    Lists (Dict.store d k v) (put m k v) := (h.others k).cons v

theorem Lists.write {d : Dict K V} {m : K → Option V} (h : Lists d m) (k : K) (f : V → V) :
    Lists (Dict.write d k f) (Spec.alter m k f) := h.alter k f

omit [DecidableEq K] in
theorem Lists.filter {d : Dict K V} {m : K → Option V} (h : Lists d m) (f : K → V → Bool) :
    Lists (d.filter (fun p => f p.1 p.2)) (fun x => (m x).filter (f x)) := by
  refine ⟨?_, fun k v => ?_⟩
  · have : ((d.filter (fun p => f p.1 p.2)).map (·.1)).Sublist (d.map (·.1)) := List.filter_sublist.map _
    exact this.nodup h.1
  · rw [List.mem_filter, h.2, Option.filter_eq_some_iff]

omit [DecidableEq K] in
theorem Lists.nil : Lists ([] : List (K × V)) (fun _ => none) := ⟨List.nodup_nil, fun _ _ => by simp⟩

theorem Lists.total {l l' : List (K × V)} {m : K → Option V} (h : Lists l m) (h' : Lists l' m) (w : K → V → Nat) :
    total w l = total w l' := by
  unfold Spec.total
  exact ((h.perm h').map _).sum_eq

/-- Storing replaces the weight of the old value. -/
theorem Lists.total_store {d : Dict K V} {m : K → Option V} (h : Lists d m) (k : K) (v : V) :
    Spec.total c.weight (Dict.store d k v) + weightAt c m k = Spec.total c.weight d + c.weight k v := by
  unfold weightAt
  cases hm : m k with
  | none =>
    have : Lists (Dict.without d k) m := by
      have := h.others k
      rwa [show del m k = m by funext x; unfold del; split <;> simp_all] at this
    rw [h.total this]
    simp only [Dict.store, Spec.total, List.map_cons, List.sum_cons]
    omega
  | some old =>
    have h1 := (h.others k).cons (k := k) old
    rw [show put m k old = m by funext x; unfold put; split <;> simp_all] at h1
    rw [h.total h1]
    simp only [Dict.store, Dict.without, Spec.total, List.map_cons, List.sum_cons]
    omega

end Spec

omit [DecidableEq K] in
theorem enterValue_of {k : K} {v : V} (h : c.weight k v ≤ target ∨ c.pinned k v = true) :
    enterValue c target k v = v ∧ enterWeight c target k v = c.weight k v ∧ Admissible c target k v ∧
      ∀ m, preamble c target m k v = (m k).toList.map (.onEvict k) := by
  have hn : ¬ (target < c.weight k v ∧ c.pinned k v = false) := by
    rintro ⟨h1, h2⟩
    rcases h with h | h
    · omega
    · rw [h] at h2; cases h2
  have hw : enterWeight c target k v = c.weight k v := by unfold enterWeight; rw [if_neg hn]
  refine ⟨by unfold enterValue; rw [if_neg hn], hw, ?_, fun m => by unfold preamble; rw [if_neg hn]; rfl⟩
  rcases h with h | h
  · right; rw [hw]; exact h
  · exact .inl h

/-- A storing call for which there is room. -/
theorem StepEff.dict_store (hi : Inv0 c s) (ht : s.weightTargetHot = target) (hcp : s.weightCapacity = cap) {d : Dict K V}
    (hd : Lists d s.contents) {op : Op K V} {out : Out K V} {q : Req K V RS} (he : StepEff c s op (s', out, q)) {k : K} {v : V}
    {f : V → V} (hst : StoresThen s.contents op out k v f) (hfit : c.weight k v ≤ target ∨ c.pinned k v = true)
    (hcap : Spec.total c.weight (Dict.store d k v) ≤ cap) :
    q.log = (s.contents k).toList.map (.onEvict k) ∧ s'.contents = put s.contents k (f v) := by
  obtain ⟨h1, h2, h3, h4⟩ := enterValue_of (c := c) hfit
  obtain ⟨s1, s2, str, hi1, hcon, hinfo, htot, he, hc, -, -⟩ := he.storesThen hi hst
  have hcont : s1.contents = s.contents := by funext x; simp only [Shard.contents_eq, hinfo]
  obtain ⟨st, L, a1, -, a3, a4⟩ := he.whole hi1 (hcon.target.trans ht) h3
  rw [hcont] at a1 a3 a4
  have := a4 (by
    have := hd.total_store (c := c) k v
    rw [htot, hcon.capacity, hcp, ← hi.total_iter, h2, (lists_iter hi).total hd]
    omega)
  subst this
  rw [List.append_nil, h4] at a1
  refine ⟨a1, ?_⟩
  simp only at hc
  rw [hc, a3.nil_eq, h1]
  exact alter_put_same _ _ _ _

/-- The end of a load for which there is room. -/
theorem StoreEff.dict_store (hi : Inv0 c s) (ht : s.weightTargetHot = target) (hcp : s.weightCapacity = cap) {d : Dict K V}
    (hd : Lists d s.contents) {q : Req K V RS} {k : K} {v : V} (he : StoreEff c s c.begin k v .insert (s', q, none))
    (hfit : c.weight k v ≤ target ∨ c.pinned k v = true) (hcap : Spec.total c.weight (Dict.store d k v) ≤ cap) :
    q.log = (s.contents k).toList.map (.onEvict k) ∧ s'.contents = Spec.put s.contents k v := by
  obtain ⟨h1, h2, h3, h4⟩ := enterValue_of (c := c) hfit
  obtain ⟨st, L, a1, -, a3, a4⟩ := he.whole hi ht h3
  have := a4 (by
    have := hd.total_store (c := c) k v
    rw [hcp, ← hi.total_iter, h2, (lists_iter hi).total hd]
    omega)
  subst this
  rw [List.append_nil, h4] at a1
  rw [h1] at a3
  exact ⟨a1, a3.nil_eq⟩

/-- One call: what is known of calls in general, and of storing calls for which there is room. -/
theorem Spec.OpSpec.dict {d : Dict K V} {m m' : K → Option V} (hd : Lists d m) {op : Op K V} {out : Out K V}
    {log : List (Event K V)} (hsp : OpSpec c target m op out log m') (hroom : Dict.HasRoom c target cap d op)
    (hstore : ∀ {k : K} {v : V} {f : V → V}, StoresThen m op out k v f → (c.weight k v ≤ target ∨ c.pinned k v = true) →
      Spec.total c.weight (Dict.store d k v) ≤ cap → log = (m k).toList.map (.onEvict k) ∧ m' = put m k (f v)) :
    SameOut (Dict.answer d op) out ∧ Dict.handed d op = log ∧ Lists (Dict.after d op) m' := by
  have hl := fun k => hd.lookup k
  have key := fun {k : K} {v : V} {f : V → V} (hst : StoresThen m op out k v f)
    (hp : Dict.stored d op = some (k, v)) => hstore hst (hroom.1 (k, v) hp).1 (hroom.1 (k, v) hp).2
  cases op with
  | insert k v =>
    obtain ⟨rfl, -⟩ := hsp
    obtain ⟨h1, h2⟩ := key (.plain (.insert k v .unit)) rfl
    exact ⟨.same _, by simp only [Dict.handed, hl, h1], by rw [h2]; exact hd.store k v⟩
  | replace k v soft =>
    obtain ⟨r, rfl, hrep⟩ := hsp
    generalize hm' : m' = m' at hrep
    generalize hq' : log = L at hrep
    cases hk : m k with
    | none =>
      cases hrep with
      | absent enter _ =>
        cases enter with
        | direct _ =>
          refine ⟨?_, ?_, ?_⟩
          · simp only [Dict.answer, hl, hk]; exact .same _
          · simp only [Dict.handed, hl, hk]; rfl
          · simp only [Dict.after, hl, hk]; exact hd
        | rewritten heavy free before =>
          rcases hroom.2 k v soft rfl with h | h
          · omega
          · rw [h] at free; cases free
      | rejected _ _ _ here => rw [hk] at here; cases here
      | overwritten _ _ here _ => rw [hk] at here; cases here
    | some old =>
      have hst : Dict.stored d (.replace k v soft) = some (k, v) := by simp only [Dict.stored, hl, hk]; rfl
      have hr0 : r = none := by
        cases hrep with
        | absent _ absent => rw [hk] at absent; cases absent
        | rejected enter asked _ _ =>
          cases enter with
          | direct _ => exact absurd rfl asked
          | rewritten heavy free _ =>
            rcases hroom.2 k v soft rfl with h | h
            · omega
            · rw [h] at free; cases free
        | overwritten => rfl
      subst hr0
      obtain ⟨h1, h2⟩ := key (.plain (.replace k v soft)) hst
      refine ⟨?_, ?_, ?_⟩
      · simp only [Dict.answer, hl, hk]; exact .same _
      · simp only [Dict.handed, hl, ← hq', h1]
      · simp only [Dict.after, hl, hk]; rw [← hm', h2]; exact hd.store k v
  | remove k =>
    obtain ⟨rfl, h1, h2⟩ := hsp
    exact ⟨by simp only [Dict.answer, hl]; exact .same _, h1.symm, by rw [h2]; exact hd.without k⟩
  | get k | peek k =>
    obtain ⟨rfl, h1, h2⟩ := hsp
    exact ⟨by simp only [Dict.answer, hl]; exact .same _, h1.symm, by rw [h2]; exact hd⟩
  | containsKey k =>
    obtain ⟨rfl, h1, h2⟩ := hsp
    exact ⟨by simp only [Dict.answer, hl]; exact .same _, h1.symm, by rw [h2]; exact hd⟩
  | getMut k f | peekMut k f =>
    obtain ⟨rfl, h1, h2⟩ := hsp
    exact ⟨by simp only [Dict.answer, hl]; exact .same _, h1.symm, by rw [h2]; exact hd.write k f⟩
  | retain f =>
    obtain ⟨rfl, h1, h2⟩ := hsp
    exact ⟨.same _, h1.symm, by rw [h2]; exact hd.filter f⟩
  | clear =>
    obtain ⟨rfl, h1, h2⟩ := hsp
    exact ⟨.same _, h1.symm, by rw [h2]; exact .nil⟩
  | drain =>
    obtain ⟨⟨l, rfl, hll⟩, h1, h2⟩ := hsp
    exact ⟨.items (hd.perm hll), h1.symm, by rw [h2]; exact .nil⟩
  | reserve =>
    obtain ⟨rfl, h1, h2⟩ := hsp
    exact ⟨.same _, h1.symm, by rw [h2]; exact hd⟩
  | getOrInsertWith k load =>
    simp only [OpSpec] at hsp
    cases hk : m k with
    | some v =>
      rw [hk] at hsp
      obtain ⟨rfl, h1, h2⟩ := hsp
      exact ⟨by simp only [Dict.answer, hl, hk]; exact .same _, h1.symm, by
        simp only [Dict.after, hl, hk]; rw [h2]; exact hd⟩
    | none =>
      cases load with
      | none =>
        rw [hk] at hsp
        obtain ⟨rfl, h1, h2⟩ := hsp
        exact ⟨by simp only [Dict.answer, hl, hk]; exact .same _, h1.symm, by
          simp only [Dict.after, hl, hk]; rw [h2]; exact hd⟩
      | some v =>
        rw [hk] at hsp
        obtain ⟨-, rfl⟩ := hsp
        obtain ⟨h1, h2⟩ := key (.plain (.load v _ hk)) (by simp only [Dict.stored, hl, hk]; rfl)
        refine ⟨?_, ?_, ?_⟩
        · simp only [Dict.answer, hl, hk, h2]
          rw [show put m k (id v) k = some v by simp [put]]; exact .same _
        · rw [h1, hk]; rfl
        · simp only [Dict.after, hl, hk]; rw [h2]; exact hd.store k v
  | getMutOrInsertWith k load f =>
    simp only [OpSpec] at hsp
    cases hk : m k with
    | some v =>
      rw [hk] at hsp
      obtain ⟨rfl, h1, h2⟩ := hsp
      exact ⟨by simp only [Dict.answer, hl, hk]; exact .same _, h1.symm, by
        simp only [Dict.after, hl, hk]; rw [h2]; exact hd.write k f⟩
    | none =>
      cases load with
      | none =>
        rw [hk] at hsp
        obtain ⟨rfl, h1, h2⟩ := hsp
        exact ⟨by simp only [Dict.answer, hl, hk]; exact .same _, h1.symm, by
          simp only [Dict.after, hl, hk]; rw [h2]; exact hd⟩
      | some v =>
        rw [hk] at hsp
        obtain ⟨m1, hst, rfl, -⟩ := hsp
        obtain ⟨h1, h2⟩ := key (.loadMut v f _ hk) (by simp only [Dict.stored, hl, hk]; rfl)
        have hm1 : m1 k = some v := by
          generalize hL : log = L at hst
          cases hst with
          | rejected enter asked _ =>
            cases enter with
            | direct _ => exact absurd rfl asked
            | rewritten _ _ _ => rw [h1, hk] at hL; cases hL
          | overwritten _ _ here _ => rw [hk] at here; cases here
          | added enter _ _ first after _ =>
            rw [h1, hk] at hL
            have hL := List.append_eq_nil_iff.1 hL.symm
            have hL' := List.append_eq_nil_iff.1 hL.1
            cases enter with
            | rewritten _ _ _ => cases hL'.1
            | direct _ =>
              rw [hL.2] at after
              rw [after.nil_eq]
              simp [put]
        refine ⟨?_, ?_, ?_⟩
        · simp only [Dict.answer, hl, hk, hm1]; exact .same _
        · rw [h1, hk]; rfl
        · simp only [Dict.after, hl, hk]; rw [h2]; exact hd.store k (f v)
  | getRefOrGuard k use =>
    simp only [OpSpec] at hsp
    cases hk : m k with
    | some v =>
      rw [hk] at hsp
      obtain ⟨rfl, h1, h2⟩ := hsp
      exact ⟨by simp only [Dict.answer, hl, hk]; exact .same _, h1.symm, by
        simp only [Dict.after, hl, hk]; rw [h2]; exact hd⟩
    | none =>
      cases use with
      | insert v =>
        rw [hk] at hsp
        obtain ⟨rfl, -⟩ := hsp
        obtain ⟨h1, h2⟩ := key (.plain (.guard v _ hk)) (by simp only [Dict.stored, hl, hk]; rfl)
        refine ⟨by simp only [Dict.answer, hl, hk]; exact .same _, by rw [h1, hk]; rfl, ?_⟩
        simp only [Dict.after, hl, hk]; rw [h2]; exact hd.store k v
      | drop | forget =>
        rw [hk] at hsp
        obtain ⟨rfl, h1, h2⟩ := hsp
        exact ⟨by simp only [Dict.answer, hl, hk]; exact .same _, h1.symm, by
          simp only [Dict.after, hl, hk]; rw [h2]; exact hd⟩
  | getMutOrGuard k f use =>
    simp only [OpSpec] at hsp
    cases hk : m k with
    | some v =>
      rw [hk] at hsp
      obtain ⟨rfl, h1, h2⟩ := hsp
      exact ⟨by simp only [Dict.answer, hl, hk]; exact .same _, h1.symm, by
        simp only [Dict.after, hl, hk]; rw [h2]; exact hd.write k f⟩
    | none =>
      cases use with
      | insert v =>
        rw [hk] at hsp
        obtain ⟨rfl, -⟩ := hsp
        obtain ⟨h1, h2⟩ := key (.plain (.guardMut f v _ hk)) (by simp only [Dict.stored, hl, hk]; rfl)
        refine ⟨by simp only [Dict.answer, hl, hk]; exact .same _, by rw [h1, hk]; rfl, ?_⟩
        simp only [Dict.after, hl, hk]; rw [h2]; exact hd.store k v
      | drop | forget =>
        rw [hk] at hsp
        obtain ⟨rfl, h1, h2⟩ := hsp
        exact ⟨by simp only [Dict.answer, hl, hk]; exact .same _, h1.symm, by
          simp only [Dict.after, hl, hk]; rw [h2]; exact hd⟩

/-- One call of the single-threaded cache. -/
theorem Unsync.Run.dict_call (hr : Run c (Shard.new target cap gcap) h s) {d : Dict K V} (hd : Lists d s.contents)
    {op : Op K V} {out : Out K V} {q : Req K V RS} (hs : step c s op = .ok (s', out, q))
    (hroom : Dict.HasRoom c target cap d op) :
    SameOut (Dict.answer d op) out ∧ Dict.handed d op = q.log ∧ Lists (Dict.after d op) s'.contents :=
  (hr.opSpec hs).dict hd hroom fun hst =>
    (step_eff hr.reach_new.inv hs).dict_store hr.reach_new.inv.toInv0 hr.reach_new.target hr.reach_new.capacity hd hst

namespace Spec.Dict

theorem calls_append (d : Dict K V) (l : List (Op K V)) (op : Op K V) :
    calls d (l ++ [op]) = calls d l ++ [⟨op, answer (afterAll d l) op, handed (afterAll d l) op⟩] := by
  induction l generalizing d with
  | nil => rfl
  | cons x l ih => simp only [List.cons_append, calls, ih]; rfl

theorem afterAll_append (d : Dict K V) (l : List (Op K V)) (op : Op K V) :
    afterAll d (l ++ [op]) = after (afterAll d l) op := by
  simp only [afterAll, List.foldl_append, List.foldl_cons, List.foldl_nil]

theorem roomy_append {d : Dict K V} {l l' : List (Op K V)} (h : Roomy c target cap d (l ++ l')) :
    Roomy c target cap d l ∧ Roomy c target cap (afterAll d l) l' := by
  induction l generalizing d with
  | nil => exact ⟨trivial, h⟩
  | cons x l ih => exact ⟨⟨h.1, (ih h.2).1⟩, (ih h.2).2⟩

end Spec.Dict

/-- A whole history. -/
theorem Unsync.Run.dict (hr : Run c (Shard.new target cap gcap) h s)
    (hroom : Dict.Roomy c target cap [] (h.map (·.op))) :
    List.Forall₂ SameCall (Dict.calls [] (h.map (·.op))) h ∧ Lists (Dict.afterAll [] (h.map (·.op))) s.contents := by
  generalize hs0 : Shard.new target cap gcap = s0 at hr
  induction hr with
  | start =>
    subst hs0
    exact ⟨.nil, .nil⟩
  | layout m p hr hm hp ih =>
    subst hs0
    exact ih hroom
  | call hr hs ih =>
    subst hs0
    rw [List.map_append] at hroom
    obtain ⟨h1, h2⟩ := Dict.roomy_append hroom
    obtain ⟨a1, a2⟩ := ih h1
    obtain ⟨b1, b2, b3⟩ := hr.dict_call a2 hs h2.1
    simp only [List.map_append, List.map_cons, List.map_nil, Dict.calls_append, Dict.afterAll_append]
    exact ⟨List.rel_append a1 (.cons ⟨rfl, b1, b2⟩ .nil), b3⟩

/-- Calls return. -/
theorem Unsync.Run.dict_returns (hr : Run c (Shard.new target cap gcap) h s) {d : Dict K V} (hd : Lists d s.contents)
    {op : Op K V} (hw : Dict.InRange c target d op) (hn : h.length < 2 ^ 32 - 2) :
    ∃ s' out q, step c s op = .ok (s', out, q) := by
  refine C06_returns hr op (fun w hw' => ?_) (Nat.lt_of_le_of_lt (C24_calls hr) hn)
  rw [hr.lists.total hd]
  refine hw w ?_
  rwa [show (fun k => d.lookup k) = s.contents from funext fun k => hd.lookup k]

end QuickCache
