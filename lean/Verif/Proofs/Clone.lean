import Verif.Model.Clone
import Verif.Proofs.History

/-!
# Lemmas about clones
-/

namespace QuickCache
variable {K V RS : Type _} {c : Cfg K V RS} {s : Shard K V} {ck : K → K} {cv : V → V}

section slab
variable {T : Type _} {f : T → T} {sl : Slab T}

theorem Slab.clone_item (t : Nat) : (sl.clone f).item t = (sl.item t).map f := by
  simp only [Slab.clone, Slab.item, List.getElem?_map]
  cases sl.entries[t]? <;> rfl

theorem Slab.clone_nxt : (sl.clone f).nxt = sl.nxt := by
  funext t
  simp only [Slab.clone, Slab.nxt, List.getElem?_map, Option.map_map]
  rfl

theorem Slab.clone_prv : (sl.clone f).prv = sl.prv := by
  funext t
  simp only [Slab.clone, Slab.prv, List.getElem?_map, Option.map_map]
  rfl

theorem Slab.clone_iter : (sl.clone f).iter = sl.iter.map f := by
  simp only [Slab.clone, Slab.iter, List.filterMap_map, List.map_filterMap]
  rfl

theorem Slab.clone_sumBy {g : Option T → Nat} (hg : ∀ x, g (x.map f) = g x) :
    Slab.sumBy g (sl.clone f) = Slab.sumBy g sl := by
  simp only [Slab.sumBy, Slab.items, Slab.clone, List.map_map]
  congr 1
  apply List.map_congr_left
  intro e _
  exact hg e.item

theorem Struct.clone {hd : RingId → Option Nat} {rho : Nat → Option RingId} (h : Struct sl hd rho) :
    Struct (sl.clone f) hd rho := by
  obtain ⟨R, F, hl, hh, hm⟩ := h
  refine ⟨R, F, ?_, hh, hm⟩
  have hlen : (sl.clone f).entries.length = sl.entries.length := by simp [Slab.clone]
  constructor
  · intro i; rw [Slab.clone_nxt, Slab.clone_prv]; exact hl.ring i
  · exact hl.nodup
  · exact hl.disj
  · intro i t ht; rw [Slab.clone_item, Option.isSome_map]; exact hl.occ i t ht
  · intro t ht; rw [Slab.clone_item, Option.isSome_map] at ht; rw [Slab.clone_nxt, Slab.clone_prv]; exact hl.self t ht
  · exact Slab.FreeChain.congr hlen (fun t _ => by rw [Slab.clone_nxt]) hl.free
  · exact hl.freeNodup
  · intro t; rw [hlen, Slab.clone_item, Option.map_eq_none_iff]; exact hl.freeMem t

end slab

theorem Shard.clone_item (t : Nat) : (s.clone ck cv).entries.item t = (s.entries.item t).map (Entry.clone ck cv) :=
  Slab.clone_item t

theorem Shard.clone_iter (hk : ∀ k, ck k = k) : (s.clone ck cv).iter = s.iter.map (fun x => (x.1, cv x.2)) := by
  simp only [Shard.iter, Shard.clone, Slab.clone_iter, List.filterMap_map, List.map_filterMap]
  congr 1
  funext e
  cases e with
  | resident r => simp [Entry.clone, Resident.clone, Shard.residentPair, hk]
  | placeholder p => rfl
  | ghost g => rfl

theorem Shard.clone_contents [DecidableEq K] (hk : ∀ k, ck k = k) (k : K) :
    (s.clone ck cv).contents k = (s.contents k).map cv := by
  simp only [Shard.contents, Shard.clone_iter hk]
  induction s.iter with
  | nil => rfl
  | cons x l ih =>
    obtain ⟨k', v⟩ := x
    simp only [List.map_cons, List.lookup_cons]
    by_cases h : k = k'
    · simp [h]
    · have : (k == k') = false := by simpa using h
      simp only [this]; exact ih

/-- The invariant holds for the clone if cloning keeps the weights. -/
theorem Inv.clone (h : Inv c s) (hk : ∀ k, ck k = k) (hw : ∀ k v, c.weight k (cv v) = c.weight k v) :
    Inv c (s.clone ck cv) := by
  have hring : ∀ e : Entry K V, c.ringOf (e.clone ck cv) = c.ringOf e := by
    intro e
    cases e with
    | resident r => simp [Entry.clone, Resident.clone, Cfg.ringOf, hk, hw]
    | placeholder p => rfl
    | ghost g => rfl
  have hhash : ∀ e : Entry K V, Shard.hashOf c (e.clone ck cv) = Shard.hashOf c e := by
    intro e
    cases e with
    | resident r => simp [Entry.clone, Resident.clone, Shard.hashOf, hk]
    | placeholder p => simp [Entry.clone, Placeholder.clone, Shard.hashOf, hk]
    | ghost g => rfl
  have hkey : ∀ e : Entry K V, keyOf (e.clone ck cv) = keyOf e := by
    intro e
    cases e with
    | resident r => simp [Entry.clone, Resident.clone, keyOf, hk]
    | placeholder p => simp [Entry.clone, Placeholder.clone, keyOf, hk]
    | ghost g => rfl
  have hkeyAt : ∀ t, keyAt (s.clone ck cv).entries.item t = keyAt s.entries.item t := by
    intro t
    simp only [keyAt, Shard.clone_item]
    cases s.entries.item t with
    | none => rfl
    | some e => exact hkey e
  have hplh : ∀ t p, (s.clone ck cv).entries.item t = some (.placeholder p) →
      s.entries.item t = some (.placeholder p) := by
    intro t p ht
    rw [Shard.clone_item] at ht
    cases hi : s.entries.item t with
    | none => rw [hi] at ht; cases ht
    | some e =>
      rw [hi] at ht
      cases e with
      | resident r => simp [Entry.clone] at ht
      | placeholder p' => simpa [Entry.clone, Placeholder.clone, hk] using ht
      | ghost g => simp [Entry.clone] at ht
  constructor
  · constructor
    · have : c.rho (s.clone ck cv).entries.item = c.rho s.entries.item := by
        funext t
        simp only [Cfg.rho, Shard.clone_item]
        cases s.entries.item t with
        | none => rfl
        | some e => exact hring e
      rw [this]
      have hh : (s.clone ck cv).head = s.head := by funext i; cases i <;> rfl
      rw [hh]
      exact h.str.clone
    · constructor
      · exact h.idx.refl
      · exact h.idx.nodup
      · intro hh t ht
        obtain ⟨e, h1, h2⟩ := h.idx.hashed hh t ht
        exact ⟨e.clone ck cv, by rw [Shard.clone_item, h1]; rfl, by rw [hhash, h2]⟩
      · intro t e ht hne
        rw [Shard.clone_item] at ht
        cases hi : s.entries.item t with
        | none => rw [hi] at ht; cases ht
        | some e0 =>
          rw [hi] at ht
          have : e = e0.clone ck cv := by simpa using ht.symm
          subst this
          rw [hhash]
          refine h.idx.mapped t e0 hi (fun p hp => ?_)
          subst hp
          exact hne _ rfl
      · intro h1 t1 h2 t2 k m1 m2 k1 k2
        rw [hkeyAt] at k1 k2
        exact h.idx.uniq h1 t1 h2 t2 k m1 m2 k1 k2
      · intro t p ht; exact h.idx.plh t p (hplh t p ht)
      · intro t p t' p' h1 h2; exact h.idx.plhUniq t p t' p' (hplh t p h1) (hplh t' p' h2)
    · constructor
      · intro st
        have e : (s.clone ck cv).num st = s.num st := by cases st <;> rfl
        rw [e, h.cnt.num st]
        refine (Slab.clone_sumBy (fun x => ?_)).symm
        rcases x with _ | (_ | _ | _) <;> rfl
      · intro st
        have e : (s.clone ck cv).wgt st = s.wgt st := by cases st <;> rfl
        rw [e, h.cnt.wgt st]
        refine (Slab.clone_sumBy (fun x => ?_)).symm
        rcases x with _ | (_ | _ | _) <;> simp [wgtF, Entry.clone, Resident.clone, hk, hw]
      · refine h.cnt.ghost.trans (Slab.clone_sumBy (fun x => ?_)).symm
        rcases x with _ | (_ | _ | _) <;> rfl
  · exact h.ghosts

theorem Reach.clone {target cap gcap : Nat} (h : Reach c target cap gcap s) (hk : ∀ k, ck k = k)
    (hw : ∀ k v, c.weight k (cv v) = c.weight k v) : Reach c target cap gcap (s.clone ck cv) :=
  ⟨h.inv.clone hk hw, h.target, h.capacity, h.ghostCap⟩

theorem Shard.clone_id (hk : ∀ k, ck k = k) (hv : ∀ v, cv v = v) : s.clone ck cv = s := by
  have he : ∀ e : Entry K V, e.clone ck cv = e := by
    intro e
    cases e with
    | resident r => simp [Entry.clone, Resident.clone, hk, hv]
    | placeholder p => simp [Entry.clone, Placeholder.clone, hk]
    | ghost g => rfl
  have hs : s.entries.clone (Entry.clone ck cv) = s.entries := by
    have : (fun e : SEntry (Entry K V) => e.clone (Entry.clone ck cv)) = id := by
      funext e
      obtain ⟨i, n, p⟩ := e
      cases i with
      | none => rfl
      | some i => simp [SEntry.clone, he]
    simp only [Slab.clone, this, List.map_id]
  simp only [Shard.clone, hs]

end QuickCache
