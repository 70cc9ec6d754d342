import Verif.Proofs.Dict
import Verif.Proofs.ConcHistory
import Verif.Props.Default

/-!
# A concurrent cache with room is a dictionary
-/

namespace QuickCache
variable {K V RS : Type} [DecidableEq K] {c : Cfg K V RS} {target cap gcap : Nat} {s s' : Conc.State K V}
  {act : Conc.Act K V} {tr evs : List (Conc.Ev K V)}
open Spec

namespace Conc

/-- An action for whose call there is room. -/
theorem Eff.dict (he : Eff c s act s' evs) (h : CInv c s) (ht : s.shard.weightTargetHot = target)
    (hcp : s.shard.weightCapacity = cap) {d : Dict K V} (hd : Lists d s.shard.contents)
    (hroom : ∀ x, Spec.calls evs = [x] → Dict.HasRoom c target cap d x.op) :
    (Spec.calls evs = [] ∧ s'.shard.contents = s.shard.contents) ∨
      ∃ x, Spec.calls evs = [x] ∧ SameOut (Dict.answer d x.op) x.out ∧ Dict.handed d x.op = x.log ∧
        Lists (Dict.after d x.op) s'.shard.contents := by
  rcases he.history h with h1 | ⟨x, hx, hsp⟩
  · exact .inl h1
  · refine .inr ⟨x, hx, ?_⟩
    rw [ht] at hsp
    refine hsp.dict hd (hroom x hx) fun {k v f} hst hfit hcap => ?_
    cases he
    case store a k' p v' rf sh q hc hw hr hl he =>
      cases hx
      cases he with
      | filled _ he =>
        cases hst with
        | plain hst => cases hst; exact he.dict_store h.shard.toInv0 ht hcp hd hfit hcap
    case write op sh out q hop hw hr he =>
      cases hx
      cases he with
      | call _ he => exact he.dict_store h.shard.toInv0 ht hcp hd hst hfit hcap
    case read op out hop he =>
      cases hx
      cases hst with
      | plain hst => cases hst <;> cases hop
      | loadMut => cases hop
    case hit => cases hx; cases hst with | plain hst => cases hst
    case miss => cases hx; cases hst with | plain hst => cases hst
    case found => cases hx; cases hst with | plain hst => cases hst
    case enter => split at hx <;> cases hx
    case guard w hc => cases w <;> cases hx
    case publish a v k p ps hc hp hk hh hl =>
      have := calls_wakes (s := s) (l := ps.waiters)
      unfold Spec.calls at this hx
      rw [List.filterMap_cons, this] at hx; cases hx
    case handOver a b k p ps hc hp hk hh hl hb =>
      have := calls_wakes (s := s) (l := [b])
      simp only [List.flatMap_cons, List.flatMap_nil, List.append_nil] at this
      unfold Spec.calls at this hx
      rw [List.filterMap_cons, this] at hx; cases hx
    all_goals cases hx

theorem Run.dict (hr : Run c (State.new (Shard.new target cap gcap)) tr s) (hq : c.ptrEq = true)
    (hroom : Dict.Roomy c target cap [] ((Spec.calls tr).map Unsync.Call.op)) :
    List.Forall₂ SameCall (Dict.calls [] ((Spec.calls tr).map Unsync.Call.op)) (Spec.calls tr) ∧
      Lists (Dict.afterAll [] ((Spec.calls tr).map Unsync.Call.op)) s.shard.contents := by
  revert hroom
  refine hr.induct hq (CReach.new c target cap gcap)
    (P := fun (tr : List (Ev K V)) (s : State K V) => Dict.Roomy c target cap [] ((Spec.calls tr).map Unsync.Call.op) →
      List.Forall₂ SameCall (Dict.calls [] ((Spec.calls tr).map Unsync.Call.op)) (Spec.calls tr) ∧
      Lists (Dict.afterAll [] ((Spec.calls tr).map Unsync.Call.op)) s.shard.contents) (fun _ => ⟨.nil, .nil⟩)
    (fun _ _ _ _ _ h _ => h) ?_
  intro tr s act s' evs hre ih he hroom
  rw [calls_append, List.map_append] at hroom
  obtain ⟨h1, h2⟩ := Dict.roomy_append hroom
  obtain ⟨a1, a2⟩ := ih h1
  rcases he.dict hre.inv hre.reach.target hre.reach.capacity a2 (fun x hx => by rw [hx] at h2; exact h2.1) with
    ⟨b1, b2⟩ | ⟨x, b1, b2, b3, b4⟩
  · rw [calls_append, b1, List.append_nil, b2]
    exact ⟨a1, a2⟩
  · rw [calls_append, b1]
    simp only [List.map_append, List.map_cons, List.map_nil, Dict.calls_append, Dict.afterAll_append]
    exact ⟨List.rel_append a1 (.cons ⟨rfl, b2, b3⟩ .nil), b4⟩

end Conc

/-! ### Room by the number of keys -/

omit [DecidableEq K] in
theorem asCall_key {e : Conc.Ev K V} {x : Unsync.Call K V} (h : asCall e = some x) {k : K} (hk : x.op.key = some k) :
    k ∈ evKeys e := by
  unfold asCall at h
  split at h <;> cases h
  · simp only at hk; simp [evKeys, sectionKeys, hk]
  · cases hk; simp [evKeys, sectionKeys]
  · cases hk; simp [evKeys]
  · cases hk; simp [evKeys]

namespace Spec.Dict

/-- The keys of a dictionary differ, and are among `keys`. -/
def Within (keys : List K) (d : Dict K V) : Prop := (d.map (·.1)).Nodup ∧ ∀ p ∈ d, p.1 ∈ keys

theorem Within.store {keys : List K} {d : Dict K V} (h : Within keys d) {k : K} (v : V) (hk : k ∈ keys) :
    Within keys (Dict.store d k v) := by
  refine ⟨?_, ?_⟩
  · simp only [Dict.store, Dict.without, List.map_cons, List.nodup_cons]
    refine ⟨by simp, (List.filter_sublist.map _).nodup h.1⟩
  · intro p hp
    simp only [Dict.store, Dict.without, List.mem_cons, List.mem_filter] at hp
    rcases hp with rfl | hp
    · exact hk
    · exact h.2 p hp.1

omit [DecidableEq K] in
theorem Within.filter {keys : List K} {d : Dict K V} (h : Within keys d) (f : K × V → Bool) :
    Within keys (d.filter f) :=
  ⟨(List.filter_sublist.map _).nodup h.1, fun p hp => h.2 p (List.mem_filter.1 hp).1⟩

theorem Within.write {keys : List K} {d : Dict K V} (h : Within keys d) (k : K) (f : V → V) :
    Within keys (Dict.write d k f) := by
  have he : (Dict.write d k f).map (·.1) = d.map (·.1) := by
    simp only [Dict.write, List.map_map]
    refine List.map_congr_left fun p _ => ?_
    simp only [Function.comp]
    split <;> rfl
  refine ⟨by rw [he]; exact h.1, fun p hp => ?_⟩
  have : p.1 ∈ (Dict.write d k f).map (·.1) := List.mem_map_of_mem hp
  rw [he] at this
  obtain ⟨q, hq, h1⟩ := List.mem_map.1 this
  rw [← h1]; exact h.2 q hq

theorem Within.after {keys : List K} {d : Dict K V} (h : Within keys d) {op : Op K V}
    (hk : ∀ k, op.key = some k → k ∈ keys) : Within keys (Dict.after d op) := by
  have hn : Within keys ([] : Dict K V) := ⟨List.nodup_nil, fun _ hp => by cases hp⟩
  cases op <;> simp only [Dict.after]
  case insert k v => exact h.store v (hk k rfl)
  case replace k v soft => split; exacts [h.store v (hk k rfl), h]
  case remove k => exact h.filter _
  case getMut k f => exact h.write k f
  case peekMut k f => exact h.write k f
  case retain f => exact h.filter _
  case getOrInsertWith k load => split; exacts [h.store _ (hk k rfl), h]
  case getMutOrInsertWith k load f => split; exacts [h.write k f, h.store _ (hk k rfl), h]
  case getRefOrGuard k use => split; exacts [h.store _ (hk k rfl), h]
  case getMutOrGuard k f use => split; exacts [h.write k f, h.store _ (hk k rfl), h]
  all_goals first | exact h | exact hn

omit [DecidableEq K] in
theorem Within.length {keys : List K} {d : Dict K V} (h : Within keys d) : d.length ≤ keys.length := by
  have := (h.1.subperm (l₂ := keys) (fun k hk => by obtain ⟨p, hp, rfl⟩ := List.mem_map.1 hk; exact h.2 p hp)).length_le
  rwa [List.length_map] at this

theorem stored_key {d : Dict K V} {op : Op K V} {p : K × V} (h : Dict.stored d op = some p) : op.key = some p.1 := by
  cases op <;> simp only [Dict.stored] at h
  case insert k v => cases h; rfl
  case replace k v soft => split at h <;> cases h; rfl
  case getOrInsertWith k load => cases load <;> simp only at h; · cases h
                                 split at h <;> cases h; rfl
  case getMutOrInsertWith k load f => cases load <;> simp only at h; · cases h
                                      split at h <;> cases h; rfl
  case getRefOrGuard k use => cases use <;> simp only at h
                              · split at h <;> cases h; rfl
                              all_goals cases h
  case getMutOrGuard k f use => cases use <;> simp only at h
                                · split at h <;> cases h; rfl
                                all_goals cases h
  all_goals cases h

/-- There is room for everything if there are no more keys than the capacity. -/
theorem Within.roomy {keys : List K} {target : Nat} {RS : Type} {c : Cfg K V RS} (hw : c.weight = unitWeight)
    (ht : 1 ≤ target) {ops : List (Op K V)} {d : Dict K V} (h : Within keys d)
    (hk : ∀ op ∈ ops, ∀ k, op.key = some k → k ∈ keys) {cap : Nat} (hc : keys.length ≤ cap) :
    Dict.Roomy c target cap d ops := by
  induction ops generalizing d with
  | nil => trivial
  | cons op ops ih =>
    refine ⟨⟨fun p hp => ⟨.inl (by rw [hw]; exact ht), ?_⟩, fun _ _ _ _ => .inl (by rw [hw]; exact ht)⟩,
      ih (h.after (hk op (by simp))) fun op' h' => hk op' (List.mem_cons_of_mem _ h')⟩
    rw [hw, Props.total_unit]
    exact Nat.le_trans (h.store p.2 (hk op (by simp) p.1 (stored_key hp))).length hc

end Spec.Dict

end QuickCache
