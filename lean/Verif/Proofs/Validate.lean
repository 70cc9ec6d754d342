import Verif.Model.Validate
import Verif.Proofs.ConcHistory
import Verif.Proofs.Memory

/-!
# Proofs about `validate`
-/

namespace QuickCache
namespace Slab
variable {T : Type _} {ι : Type _} {s : Slab T} {R : ι → List Nat} {F : List Nat}

theorem freeWalk_ok : ∀ {F : List Nat} {nf : Nat} {fuel : Nat} {acc : List Nat}, FreeChain s nf F →
    (∀ t ∈ F, t < s.entries.length ∧ s.item t = none) → F.length < fuel →
    s.freeWalk fuel nf acc = .ok (F.reverse ++ acc)
  | [], nf, fuel + 1, acc, h, _, _ => by
    simp only [FreeChain] at h
    simp [freeWalk, h]
  | t :: F, nf, fuel + 1, acc, h, hm, hf => by
    simp only [FreeChain] at h
    obtain ⟨rfl, h⟩ := h
    obtain ⟨h1, h2⟩ := hm nf (by simp)
    have h3 : s.entries[nf]? = some s.entries[nf] := List.getElem?_eq_getElem h1
    have h4 : s.entries[nf].item = none := by simpa [item, h3] using h2
    have h5 : s.nxt nf = s.entries[nf].next := by simp [nxt, h3]
    rw [h5] at h
    unfold freeWalk
    rw [if_neg (Nat.ne_of_lt h1)]
    simp only [h3, h4, Option.isSome_none, Bool.false_eq_true, if_false]
    rw [freeWalk_ok h (fun u hu => hm u (by simp [hu])) (by simpa using hf)]
    simp

theorem checkLinks_ok {fl : List Nat} : ∀ {l : List (SEntry T)} {i : Nat},
    (∀ j e, l[j]? = some e → e.item.isSome → i + j ∉ fl ∧ e.prev ∉ fl ∧ e.next ∉ fl) → checkLinks fl i l = .ok ()
  | [], _, _ => rfl
  | e :: l, i, h => by
    unfold checkLinks
    rw [if_neg]
    · refine checkLinks_ok fun j e' he hs => ?_
      have := h (j + 1) e' (by simpa using he) hs
      rwa [show i + 1 + j = i + (j + 1) by omega]
    · rintro ⟨hs, h1⟩
      obtain ⟨h2, h3, h4⟩ := h 0 e (by simp) hs
      rcases h1 with h1 | h1 | h1
      · exact h2 h1
      · exact h3 h1
      · exact h4 h1

/-- The neighbours of an occupied slot are occupied. -/
theorem Links.neighbours (h : Links s R F) {t : Nat} (ht : (s.item t).isSome) :
    (s.item (s.nxt t)).isSome ∧ (s.item (s.prv t)).isSome := by
  by_cases hr : ∀ i, t ∉ R i
  · obtain ⟨h1, h2⟩ := h.self t ht hr
    rw [h1, h2]; exact ⟨ht, ht⟩
  · simp only [not_forall, not_not] at hr
    obtain ⟨i, hi⟩ := hr
    obtain ⟨A, B, hAB⟩ := List.append_of_mem hi
    have hring := h.ring i
    rw [hAB] at hring
    have mem : ∀ u, u ∈ B ++ A ++ [t] → (s.item u).isSome := fun u hu => h.occ i u (by
      rw [hAB]
      simp only [List.mem_append, List.mem_cons] at hu ⊢
      rcases hu with (hu | hu) | hu
      · exact .inr (.inr hu)
      · exact .inl hu
      · exact .inr (.inl (by simpa using hu)))
    constructor
    · obtain ⟨n, h1, h2, -⟩ := hring.next_mem
      rw [h2]
      exact mem n (List.mem_of_mem_head? h1)
    · -- the predecessor is the last of `B ++ A`, or `t` itself
      have h' : Ring s.nxt s.prv ((B ++ A) ++ [t]) := by
        have := Ring.rotate (A := A) (B := t :: B) hring
        have := Ring.rotate (A := [t]) (B := B ++ A) (by simpa using this)
        exact this
      rcases List.eq_nil_or_concat (B ++ A) with hn | ⟨M, last, hl⟩
      · rw [hn] at h'
        simp [Ring, Path] at h'
        rw [h'.2]; exact ht
      · rw [hl] at h'
        have h2 : Ring s.nxt s.prv (M ++ last :: [t]) := by simpa using h'
        obtain ⟨n, h3, -, h4⟩ := h2.next_mem
        have : n = t := by simpa using h3.symm
        rw [this] at h4
        rw [h4]
        exact mem last (by rw [hl]; simp)

theorem Links.validate (h : Links s R F) : s.validate = .ok () := by
  have hlen : F.length ≤ s.entries.length := by
    have := (List.subperm_of_subset h.freeNodup (l₂ := List.range s.entries.length)
      (fun t ht => List.mem_range.2 ((h.freeMem t).1 ht).1)).length_le
    simpa using this
  unfold Slab.validate
  rw [freeWalk_ok h.free (fun t ht => (h.freeMem t).1 ht) (by omega), Res.ok_bind]
  refine checkLinks_ok fun j e he hs => ?_
  have hi : (s.item j).isSome := by simpa [item, he] using hs
  have h1 := h.neighbours hi
  have hn : s.nxt j = e.next := by simp [nxt, he]
  have hp : s.prv j = e.prev := by simp [prv, he]
  rw [hn, hp] at h1
  simp only [List.append_nil, List.mem_reverse, Nat.zero_add]
  exact ⟨h.not_free hi, h.not_free h1.2, h.not_free h1.1⟩

end Slab

variable {K V RS : Type _} {c : Cfg K V RS}

/-- The weight of a pinned resident of a state. -/
def pinF (c : Cfg K V RS) (st : St) : Option (Entry K V) → Nat
  | some (.resident r) => if r.state = st ∧ c.pinned r.key r.value then c.weight r.key r.value else 0
  | _ => 0

/-- The weight of a resident of a state that is not pinned. -/
def freeF (c : Cfg K V RS) (st : St) : Option (Entry K V) → Nat
  | some (.resident r) => if r.state = st ∧ ¬ c.pinned r.key r.value then c.weight r.key r.value else 0
  | _ => 0

namespace Shard

/-- Sum over a list of entries. -/
def sumE (f : Option (Entry K V) → Nat) (l : List (Entry K V)) : Nat := (l.map (fun e => f (some e))).sum

/-- The counters after counting `l`. -/
def counted (c : Cfg K V RS) (n : Recount) (l : List (Entry K V)) : Recount :=
  { numHot := n.numHot + sumE (numF .hot) l
    numCold := n.numCold + sumE (numF .cold) l
    numNonResident := n.numNonResident + sumE ghostF l
    weightHot := n.weightHot + sumE (freeF c .hot) l
    weightHotPinned := n.weightHotPinned + sumE (pinF c .hot) l
    weightCold := n.weightCold + sumE (freeF c .cold) l
    weightColdPinned := n.weightColdPinned + sumE (pinF c .cold) l }

theorem recountOne_eq (n : Recount) (e : Entry K V) {n' : Recount} (h : recountOne c n e = .ok n') :
    n' = counted c n [e] := by
  unfold recountOne at h
  split at h
  · rename_i r
    split at h <;> rename_i hst <;> split at h <;> rename_i hp
    all_goals
      unfold cadd at h
      split at h
      · cases h
        simp [counted, sumE, numF, freeF, pinF, ghostF, hst, hp]
      · cases h
  · cases h; simp [counted, sumE, numF, freeF, pinF, ghostF]
  · cases h; simp [counted, sumE, numF, freeF, pinF, ghostF]

theorem counted_cons (n : Recount) (e : Entry K V) (l : List (Entry K V)) :
    counted c (counted c n [e]) l = counted c n (e :: l) := by
  simp [counted, sumE, Nat.add_assoc]

theorem recount_eq : ∀ {l : List (Entry K V)} {n n' : Recount}, recount c n l = .ok n' → n' = counted c n l
  | [], n, n', h => by cases h; simp [counted, sumE]
  | e :: l, n, n', h => by
    unfold recount at h
    cases h1 : recountOne c n e with
    | error p => rw [h1] at h; cases h
    | ok n1 =>
      rw [h1, Res.ok_bind] at h
      rw [recount_eq h, recountOne_eq n e h1, counted_cons]

theorem recount_ok : ∀ {l : List (Entry K V)} {n : Recount},
    (counted c n l).weightHot + (counted c n l).weightHotPinned < 2 ^ 64 →
    (counted c n l).weightCold + (counted c n l).weightColdPinned < 2 ^ 64 → recount c n l = .ok (counted c n l)
  | [], n, _, _ => by simp [recount, counted, sumE]
  | e :: l, n, h1, h2 => by
    rw [← counted_cons] at h1 h2 ⊢
    have h3 : recountOne c n e = .ok (counted c n [e]) := by
      cases he : recountOne c n e with
      | ok n1 => rw [recountOne_eq n e he]
      | error p =>
        exfalso
        simp only [counted, sumE, List.map_cons, List.map_nil, List.sum_cons, List.sum_nil, Nat.add_zero] at h1 h2
        unfold recountOne at he
        split at he
        · rename_i r
          split at he <;> rename_i hst <;> split at he <;> rename_i hp
          all_goals
            simp only [freeF, pinF, hst, hp, not_true_eq_false, not_false_eq_true, if_true, if_false, reduceCtorEq,
              Bool.false_eq_true, and_true, and_false] at h1 h2
            rw [cadd_ok (by omega)] at he
            cases he
        · cases he
        · cases he
    unfold recount
    rw [h3, Res.ok_bind]
    exact recount_ok h1 h2

theorem wgtF_split (st : St) (l : List (Entry K V)) : sumE (freeF c st) l + sumE (pinF c st) l = sumE (wgtF c st) l := by
  induction l with
  | nil => rfl
  | cons e l ih =>
    simp only [sumE, List.map_cons, List.sum_cons] at ih ⊢
    have : freeF c st (some e) + pinF c st (some e) = wgtF c st (some e) := by
      cases e with
      | resident r =>
        simp only [freeF, pinF, wgtF]
        by_cases h1 : r.state = st <;> by_cases h2 : c.pinned r.key r.value <;> simp [h1, h2]
      | placeholder p => rfl
      | ghost g => rfl
    omega

theorem evF_split (l : List (Entry K V)) : sumE (freeF c .hot) l + sumE (freeF c .cold) l = sumE (evF c) l := by
  induction l with
  | nil => rfl
  | cons e l ih =>
    simp only [sumE, List.map_cons, List.sum_cons] at ih ⊢
    have : freeF c .hot (some e) + freeF c .cold (some e) = evF c (some e) := by
      cases e with
      | resident r =>
        simp only [freeF, evF, Spec.evictable]
        cases r.state <;> by_cases h2 : c.pinned r.key r.value <;> simp [h2]
      | placeholder p => rfl
      | ghost g => rfl
    omega

theorem sumE_iter {f : Option (Entry K V) → Nat} (hf : f none = 0) (s : Shard K V) :
    sumE f s.entries.iter = Slab.sumBy f s.entries := (sum_iter f hf s).symm

theorem assert_ok {p : Prop} [Decidable p] (h : p) : assert p = .ok () := if_pos h

theorem of_assert {α : Type _} {p : Prop} [Decidable p] {f : Unit → Res α} {x : α} (h : (assert p >>= f) = .ok x) :
    p ∧ f () = .ok x := by
  unfold assert at h
  split at h
  · rename_i hp; exact ⟨hp, h⟩
  · cases h

theorem of_cadd {α : Type _} {a b : Nat} {f : Nat → Res α} {x : α} (h : (cadd a b >>= f) = .ok x) : f (a + b) = .ok x := by
  unfold cadd at h
  split at h
  · exact h
  · cases h

/-- What `validate` compares, if it returns. -/
theorem validate_eq {s : Shard K V} {over : Bool} (h : s.validate c over = .ok ()) :
    (∀ st, s.num st = Slab.sumBy (numF st) s.entries) ∧ (∀ st, s.wgt st = Slab.sumBy (wgtF c st) s.entries) ∧
      s.numNonResident = Slab.sumBy ghostF s.entries ∧ s.numNonResident ≤ s.capacityNonResident ∧
      (over = false → evW c s ≤ s.weightCapacity) := by
  unfold validate at h
  cases h1 : s.entries.validate with
  | error p => rw [h1] at h; cases h
  | ok u =>
    rw [h1, Res.ok_bind] at h
    cases h2 : recount c ⟨0, 0, 0, 0, 0, 0, 0⟩ s.entries.iter with
    | error p => rw [h2] at h; cases h
    | ok n =>
      rw [h2, Res.ok_bind] at h
      obtain ⟨e1, h⟩ := of_assert h
      obtain ⟨e2, h⟩ := of_assert h
      obtain ⟨e3, h⟩ := of_assert h
      obtain ⟨e4, h⟩ := of_assert (of_cadd h)
      obtain ⟨e5, h⟩ := of_assert (of_cadd h)
      have h3 := recount_eq h2
      have e6 : over = false → n.weightHot + n.weightCold ≤ s.weightCapacity := by
        rintro rfl
        exact (of_assert (of_cadd h)).1
      have e7 : n.numNonResident ≤ s.capacityNonResident := by
        have last : ∀ {p : Prop} [Decidable p], assert p = .ok () → p := by
          intro p _ h; unfold assert at h; split at h
          · assumption
          · cases h
        cases over
        · exact last (of_assert (of_cadd h)).2
        · exact last h
      subst h3
      simp only [counted, Nat.zero_add] at e1 e2 e3 e4 e5 e6 e7
      rw [wgtF_split] at e4 e5
      rw [evF_split] at e6
      rw [sumE_iter rfl] at e1 e2 e3 e4 e5 e6 e7
      refine ⟨fun st => ?_, fun st => ?_, e3.symm, by rw [← e3]; exact e7, e6⟩
      · cases st
        · exact e1.symm
        · exact e2.symm
      · cases st
        · exact e4.symm
        · exact e5.symm

theorem _root_.QuickCache.Inv.validate [DecidableEq K] {s : Shard K V} (hi : Inv c s) (hw : s.weightHot + s.weightCold < 2 ^ 64)
    {over : Bool} (ho : over = false → evW c s ≤ s.weightCapacity) : s.validate c over = .ok () := by
  obtain ⟨R, F, hR⟩ := hi.str
  have hwgt := hi.cnt.wgt
  have hnum := hi.cnt.num
  have w1 := hwgt .hot
  have w2 := hwgt .cold
  have n1 := hnum .hot
  have n2 := hnum .cold
  simp only [Shard.wgt, Shard.num] at w1 w2 n1 n2
  rw [← sumE_iter rfl] at w1 w2 n1 n2
  have g := hi.cnt.ghost
  rw [← sumE_iter rfl] at g
  rw [← wgtF_split] at w1 w2
  unfold Shard.validate
  rw [hR.links.validate, Res.ok_bind, recount_ok (by simp only [counted]; omega) (by simp only [counted]; omega), Res.ok_bind]
  simp only [counted, Nat.zero_add]
  rw [assert_ok n1.symm, Res.ok_bind, assert_ok n2.symm, Res.ok_bind, assert_ok g.symm, Res.ok_bind, cadd_ok (by omega),
    Res.ok_bind, assert_ok w1.symm, Res.ok_bind, cadd_ok (by omega), Res.ok_bind, assert_ok w2.symm, Res.ok_bind]
  have hg : assert (sumE ghostF s.entries.iter ≤ s.capacityNonResident) = .ok () := assert_ok (g ▸ hi.ghosts)
  cases over with
  | true => simpa using hg
  | false =>
    have := ho rfl
    unfold evW at this
    rw [← sumE_iter rfl, ← evF_split] at this
    simp only [Bool.false_eq_true, if_false]
    rw [cadd_ok (by omega), Res.ok_bind, assert_ok this, Res.ok_bind]
    exact hg

/-- The number of residents of a state. -/
theorem sumBy_numF (st : St) (s : Shard K V) :
    (s.residents.filter (fun r => r.state == st)).length = Slab.sumBy (numF st) s.entries := by
  rw [← sum_residents (fun r => if r.state = st then 1 else 0) (numF st) (fun r => rfl)]
  · induction s.residents with
    | nil => rfl
    | cons r l ih =>
      rw [List.filter_cons, List.map_cons, List.sum_cons, ← ih]
      by_cases h : r.state = st
      · simp [h]; omega
      · simp [h]
  · rintro (_ | ⟨r | p | g⟩) h
    · rfl
    · exact absurd rfl (h r)
    · rfl
    · rfl

/-- The weight of the residents of a state. -/
theorem sumBy_wgtF (st : St) (s : Shard K V) :
    ((s.residents.filter (fun r => r.state == st)).map (fun r => c.weight r.key r.value)).sum =
      Slab.sumBy (wgtF c st) s.entries := by
  rw [← sum_residents (fun r => if r.state = st then c.weight r.key r.value else 0) (wgtF c st) (fun r => rfl)]
  · induction s.residents with
    | nil => rfl
    | cons r l ih =>
      rw [List.filter_cons, List.map_cons, List.sum_cons, ← ih]
      by_cases h : r.state = st <;> simp [h]
  · rintro (_ | ⟨r | p | g⟩) h
    · rfl
    · exact absurd rfl (h r)
    · rfl
    · rfl

end Shard
end QuickCache
