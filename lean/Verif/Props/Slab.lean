import Verif.Proofs.SlabSim

/-!
# Properties of the linked slab (C24, C25)

`Reach a c`: the client `c` (the real slab plus one head token per list) was reached from an empty slab by operations that
make sense (`Tables.Allows`), and `a` is what the same operations make of the ideal tables (`Verif/Spec/SlabLists.lean`).
-/

namespace QuickCache.Props
open SlabSpec
variable {ι T : Type _} [DecidableEq ι]

/-- A sequence of operations on two lists named by `Bool`: three items, all linked on list `true`, then the first one
removed, one inserted in its place and linked on list `false`. -/
def slabOps : List (SlabSpec.Op Bool Nat) :=
  [.insert 10, .insert 20, .insert 30, .link 0 true, .link 1 true, .link 2 true, .remove 0, .insert 40, .link 0 false]

instance (a : Tables Bool Nat) (op : SlabSpec.Op Bool Nat) : Decidable (a.Allows op) := by
  cases op <;> simp only [Tables.Allows] <;> infer_instance

/-- The result of performing operations one after the other on the real slab, and on the tables alongside, as long as
they make sense. -/
def slabRun : List (SlabSpec.Op Bool Nat) → Tables Bool Nat → Client Bool Nat → Option (Tables Bool Nat × Client Bool Nat)
  | [], a, c => some (a, c)
  | op :: ops, a, c =>
    if a.Allows op then
      match c.exec op with
      | .ok (c', o) => slabRun ops (a.apply op o) c'
      | .error _ => none
    else none

theorem slabRun_reach {ops : List (SlabSpec.Op Bool Nat)} {a a' : Tables Bool Nat} {c c' : Client Bool Nat}
    (hr : Reach a c) (h : slabRun ops a c = some (a', c')) : Reach a' c' := by
  induction ops generalizing a c with
  | nil => cases h; exact hr
  | cons op ops ih =>
    unfold slabRun at h
    split at h
    · rename_i hop
      cases he : c.exec op with
      | error p => rw [he] at h; cases h
      | ok q => rw [he] at h; exact ih (.step hr hop he) h
    · cases h

/-- The operations `slabOps` make sense, so they lead to a state to which the theorems below apply. -/
example : ∃ a c, Reach (ι := Bool) (T := Nat) a c ∧ slabRun slabOps .empty .new = some (a, c) := by
  have h : (slabRun slabOps .empty .new).isSome := by decide
  obtain ⟨⟨a, c⟩, h⟩ := Option.isSome_iff_exists.mp h
  exact ⟨a, c, slabRun_reach .new h, h⟩

/-! ### C24 -/

/-- C24: the length of the backing vector is the largest number of slots ever in use at once since the last `drain`. -/
theorem C24_length {a : Tables ι T} {c : Client ι T} (hr : Reach a c) : c.slab.entries.length = a.peak := by
  obtain ⟨F, h⟩ := hr.sim
  exact h.peak.symm

/-- C24: an `insert` makes the vector longer only if every slot is in use. -/
theorem C24_reuse {a : Tables ι T} {c c' : Client ι T} {o : SlabSpec.Out T} {x : T} (hr : Reach a c)
    (hfree : a.inUse < c.slab.entries.length) (he : c.exec (.insert x) = .ok (c', o)) :
    c'.slab.entries.length = c.slab.entries.length := by
  have h1 := C24_length (Reach.step (op := .insert x) hr trivial he)
  have h2 := C24_length hr
  obtain ⟨t, rfl⟩ : ∃ t, o = .token t := by
    obtain ⟨F, h⟩ := hr.sim
    rcases h.step (op := .insert x) trivial with ⟨-, h3, -⟩ | ⟨c2, o2, F', h3, ⟨t, h4, -⟩, -⟩
    · rw [h3] at he; cases he
    · rw [h3] at he; cases he; exact ⟨t, h4⟩
  rw [h1]
  simp only [Tables.apply]
  omega

/-- Both hypotheses of `C24_reuse` hold after removing one of two items. -/
example : (slabRun [.insert 10, .insert 20, .remove 0] .empty .new).map
      (fun p => decide (p.1.inUse < p.2.slab.entries.length)) = some true ∧
    (slabRun [.insert 10, .insert 20, .remove 0, .insert 30] .empty .new).map (fun p => p.2.slab.entries.length) =
      some 2 := by decide

/-- After `slabOps`, four insertions and one removal, the vector has three slots. -/
example : (slabRun slabOps .empty .new).map (fun p => (p.1.inUse, p.1.peak, p.2.slab.entries.length)) =
    some (3, 3, 3) := by decide

/-! ### C25 -/

/-- C25: every operation that makes sense succeeds and returns exactly what the ideal tables say, in particular an
`insert` returns a token that is not in use. The only exception is an `insert` when all `2^32 - 2` tokens are in use. -/
theorem C25_calls {a : Tables ι T} {c : Client ι T} (hr : Reach a c) (op : SlabSpec.Op ι T) (hop : a.Allows op) :
    ((∃ x, op = .insert x) ∧ a.inUse + 2 = 2 ^ 32 ∧ c.exec op = .error .slabFull) ∨
    ∃ c' o, c.exec op = .ok (c', o) ∧ a.Returns op o := by
  obtain ⟨F, h⟩ := hr.sim
  rcases h.step hop with ⟨h1, h2, h3⟩ | ⟨c', o, F', h1, h2, -⟩
  · exact Or.inl ⟨h1, h3, h2⟩
  · exact Or.inr ⟨c', o, h1, h2⟩

/-- C25: reading a token gives the item last stored under it, or nothing if there is none. -/
theorem C25_read {a : Tables ι T} {c : Client ι T} (hr : Reach a c) (t : Nat) :
    (c.slab.get t).map (·.1) = a.item t := by
  obtain ⟨F, h⟩ := hr.sim
  rw [Slab.get_eq, h.item]
  cases a.item t <;> rfl

/-- C25: the tokens on all lists are distinct and in use, and the client's heads are the heads of the lists. -/
theorem C25_distinct {a : Tables ι T} {c : Client ι T} (hr : Reach a c) :
    (∀ i, (a.list i).Nodup) ∧ (∀ i j t, t ∈ a.list i → t ∈ a.list j → i = j) ∧
    (∀ i t, t ∈ a.list i → (a.item t).isSome) ∧ ∀ i, c.heads i = (a.list i).head? := by
  obtain ⟨F, h⟩ := hr.sim
  exact ⟨h.links.nodup, h.links.disj, fun i t ht => by rw [← h.item]; exact h.links.occ i t ht, h.heads⟩

/-- C25: starting from the `n`-th token of a list, `k` steps along the `next` fields lead to the `n+k`-th token,
wrapping around at the end, and `k` steps along `prev` lead back. -/
theorem C25_walk {a : Tables ι T} {c : Client ι T} (hr : Reach a c) (i : ι) (n k : Nat) (hn : n < (a.list i).length) :
    c.slab.nxt^[k] (a.list i)[n] = (a.list i)[(n + k) % (a.list i).length]'(Nat.mod_lt _ (by omega)) ∧
    c.slab.prv^[k] ((a.list i)[(n + k) % (a.list i).length]'(Nat.mod_lt _ (by omega))) = (a.list i)[n] := by
  obtain ⟨F, h⟩ := hr.sim
  exact ring_walk (h.links.ring i) hn k

/-- C25: the token returned by `get` together with an item on a list is the next one on that list; an item on no list
is its own successor. -/
theorem C25_next {a : Tables ι T} {c : Client ι T} (hr : Reach a c) {t n : Nat} {x : T}
    (hg : c.slab.get t = some (x, n)) :
    (∀ i, t ∈ a.list i → follower (a.list i) t = some n) ∧ ((∀ i, t ∉ a.list i) → n = t) := by
  obtain ⟨F, h⟩ := hr.sim
  rw [Slab.get_eq] at hg
  cases hi : c.slab.item t with
  | none => rw [hi] at hg; cases hg
  | some y =>
    rw [hi] at hg
    cases hg
    refine ⟨fun i ht => ?_, fun hn => (h.links.self t (by simp [hi]) hn).1⟩
    obtain ⟨A, B, hR⟩ := List.append_of_mem ht
    have hring := h.links.ring i
    have hnd := h.links.nodup i
    rw [hR] at hring hnd ⊢
    rw [follower_split hnd]
    obtain ⟨m, h1, h2, -⟩ := hring.next_mem
    rw [h2]; exact h1

/-- After `slabOps` list `true` is `1, 2` and list `false` is `0`, whose item is the one inserted last. -/
example : (slabRun slabOps .empty .new).map (fun p => (p.1.list true, p.1.list false)) = some ([1, 2], [0]) ∧
    (slabRun slabOps .empty .new).map (fun p => (p.2.slab.get 0, p.2.slab.get 1, p.2.slab.get 2)) =
      some (some (40, 0), some (20, 2), some (30, 1)) := by decide

end QuickCache.Props
