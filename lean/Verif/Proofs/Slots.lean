import Verif.Proofs.Memory

/-!
# The length of the slab

Every function but `LinkedSlab::insert` keeps the length of the vector (or empties it), and a free slot stays available
until `insert` uses it. State-independent: nothing is assumed about the slab.
-/

namespace QuickCache
variable {K V RS T α β : Type _}

/-- If there is a result, it satisfies `P`. -/
structure On (P : α → Prop) (x : Res α) : Prop where
  res : ∀ a, x = .ok a → P a

namespace On

theorem ok {P : α → Prop} {a : α} (h : P a) : On P (.ok a : Res α) := ⟨by intro b hb; cases hb; exact h⟩

theorem err {P : α → Prop} {p : Panic} : On P (.error p : Res α) := ⟨by intro b hb; cases hb⟩

theorem bind' {P : α → Prop} {Q : β → Prop} {x : Res α} {f : α → Res β} (h : On P x) (hf : ∀ a, P a → On Q (f a)) :
    On Q (x >>= f) := by
  cases x with
  | ok a => exact hf a (h.res a rfl)
  | error p => exact .err

theorem bind {Q : β → Prop} {x : Res α} {f : α → Res β} (hf : ∀ a, On Q (f a)) : On Q (x >>= f) := by
  cases x with
  | ok a => exact hf a
  | error p => exact .err

theorem ite {P : α → Prop} {p : Prop} [Decidable p] {x y : Res α} (h1 : On P x) (h2 : On P y) : On P (if p then x else y) := by
  split
  · exact h1
  · exact h2

theorem mono {P Q : α → Prop} {x : Res α} (h : On P x) (hpq : ∀ a, P a → Q a) : On Q x := ⟨fun a ha => hpq a (h.res a ha)⟩

end On

namespace Slab

/-- The vector is as long as before, and if there was a free slot there is one. -/
def Kp (e e' : Slab T) : Prop :=
  e'.entries.length = e.entries.length ∧ (e.nextFree < e.entries.length → e'.nextFree < e'.entries.length)

/-- The vector is longer by one at most, and not longer if there was a free slot. -/
def Gr (e e' : Slab T) : Prop :=
  e'.entries.length ≤ e.entries.length + 1 ∧ (e.nextFree < e.entries.length → e'.entries.length ≤ e.entries.length)

theorem Kp.refl (e : Slab T) : Kp e e := ⟨rfl, id⟩

theorem Kp.trans {a b c : Slab T} (h1 : Kp a b) (h2 : Kp b c) : Kp a c := ⟨h2.1.trans h1.1, fun h => h2.2 (h1.2 h)⟩

theorem Kp.gr {a b : Slab T} (h : Kp a b) : Gr a b := ⟨by have := h.1; omega, fun _ => by have := h.1; omega⟩

theorem Kp.then_gr {a b c : Slab T} (h1 : Kp a b) (h2 : Gr b c) : Gr a c :=
  ⟨by rw [← h1.1]; exact h2.1, fun h => by rw [← h1.1]; exact h2.2 (h1.2 h)⟩

theorem Gr.then_kp {a b c : Slab T} (h1 : Gr a b) (h2 : Kp b c) : Gr a c :=
  ⟨by rw [h2.1]; exact h1.1, fun h => by rw [h2.1]; exact h1.2 h⟩

theorem kp_mod (s : Slab T) (t : Nat) (f : SEntry T → SEntry T) : Kp s (s.mod t f) := by
  refine ⟨length_mod .., fun h => ?_⟩
  rw [length_mod]; exact h

theorem kp_setItem (s : Slab T) (t : Nat) (x : T) : Kp s (s.setItem t x) := kp_mod ..

theorem gr_insert (s : Slab T) (x : T) : On (fun p => Gr s p.1) (s.insert x) := by
  unfold insert
  dsimp only
  cases h : s.entries[s.nextFree]? with
  | some e =>
    refine .ite .err (.ok ⟨by simp, fun _ => by simp⟩)
  | none =>
    have hlen : s.entries.length ≤ s.nextFree := by simpa using h
    refine .ite .err (.ite .err (.ok ⟨by simp, fun h => ?_⟩))
    omega

theorem kp_linkSelf (s : Slab T) (i p n : Nat) : On (fun x => Kp s x.1) (s.linkSelf i p n) := by
  unfold linkSelf
  cases s.entries[i]? with
  | none => exact .err
  | some e => exact .ite .err (.ite .err (.ite .err (.ok (kp_mod ..))))

theorem kp_link (s : Slab T) (i : Nat) (h : Option Nat) : On (fun x => Kp s x.1) (s.link i h) := by
  unfold link
  cases h with
  | none => exact kp_linkSelf ..
  | some h =>
    dsimp only
    cases s.entries[h]? with
    | none => exact .err
    | some head =>
      dsimp only
      refine .ite .err (.ite ((kp_linkSelf _ _ _ _).mono (fun a ha => (kp_mod s _ _).trans ha)) ?_)
      cases (s.mod h fun e => { e with prev := i }).entries[head.prev]? with
      | none => exact .err
      | some b =>
        refine .ite .err (.ite .err ((kp_linkSelf _ _ _ _).mono (fun a ha => ((kp_mod s _ _).trans (kp_mod _ _ _)).trans ha)))

theorem kp_unlink (s : Slab T) (i : Nat) : On (fun x => Kp s x.1) (s.unlink i) := by
  unfold unlink
  cases s.entries[i]? with
  | none => exact .err
  | some e =>
    dsimp only
    refine .ite .err (.ite (.ite .err (.ok (.refl _))) ?_)
    cases (s.mod i fun e => { e with prev := i, next := i }).entries[e.next]? with
    | none => exact .err
    | some n =>
      dsimp only
      refine .ite .err (.ite .err ?_)
      cases ((s.mod i fun e => { e with prev := i, next := i }).mod e.next fun x => { x with prev := e.prev }).entries[e.prev]? with
      | none => exact .err
      | some p => exact .ite .err (.ite .err (.ok (((kp_mod s _ _).trans (kp_mod _ _ _)).trans (kp_mod _ _ _))))

theorem kp_remove (s : Slab T) (i : Nat) : On (fun x => Kp s x.1) (s.remove i) := by
  unfold remove
  refine .bind' (kp_unlink s i) (fun a ha => ?_)
  obtain ⟨s1, next⟩ := a
  dsimp only at ha ⊢
  cases h : s1.entries[i]? with
  | none => exact .err
  | some e =>
    dsimp only
    cases e.item with
    | none => exact .ok ha
    | some x =>
      have hi : i < s1.entries.length := (List.getElem?_eq_some_iff.mp h).1
      exact .ok ⟨by simpa using ha.1, fun _ => by simpa using hi⟩

end Slab

namespace Shard
open Slab

/-- `Slab.Kp` and `Slab.Gr` of the slabs of two shards. -/
def Kp (s s' : Shard K V) : Prop := Slab.Kp s.entries s'.entries
def Gr (s s' : Shard K V) : Prop := Slab.Gr s.entries s'.entries

theorem Kp.refl (s : Shard K V) : Kp s s := Slab.Kp.refl _
theorem Kp.trans {a b c : Shard K V} (h1 : Kp a b) (h2 : Kp b c) : Kp a c := Slab.Kp.trans h1 h2
theorem Kp.gr {a b : Shard K V} (h : Kp a b) : Gr a b := Slab.Kp.gr h
theorem Kp.then_gr {a b c : Shard K V} (h1 : Kp a b) (h2 : Gr b c) : Gr a c := Slab.Kp.then_gr h1 h2
theorem Gr.then_kp {a b c : Shard K V} (h1 : Gr a b) (h2 : Kp b c) : Gr a c := Slab.Gr.then_kp h1 h2

theorem kp_same {s s' : Shard K V} (h : s'.entries = s.entries) : Kp s s' := by unfold Kp; rw [h]; exact .refl _

theorem kp_setEntry (s : Shard K V) (t : Nat) (x : Entry K V) : Kp s (s.setEntry t x) := kp_setItem ..

theorem kp_linkTo (s : Shard K V) (i : RingId) (t : Nat) : On (Kp s) (s.linkTo i t) := by
  unfold linkTo
  refine .bind' (kp_link _ _ _) (fun a ha => .ok ?_)
  unfold Kp; rw [entries_setHead]; exact ha

theorem kp_unlinkFrom (s : Shard K V) (i : RingId) (t : Nat) : On (Kp s) (s.unlinkFrom i t) := by
  unfold unlinkFrom
  refine .bind' (kp_unlink _ _) (fun a ha => .ok ?_)
  unfold Kp; rw [entries_setHead]; exact ha

theorem kp_relink (s : Shard K V) (st : St) (i a b : Nat) : On (Kp s) (s.relink st i a b) := by
  unfold relink
  exact .ite (kp_linkTo ..) (.ite (kp_unlinkFrom ..) (.ok (.refl _)))

theorem kp_linkNew (s : Shard K V) (st : St) (i w : Nat) : On (Kp s) (s.linkNew st i w) := by
  unfold linkNew
  exact .ite (kp_linkTo ..) (.ok (.refl _))

theorem kp_unlinkGhost (s : Shard K V) (i : Nat) : On (Kp s) (s.unlinkGhost i) := by
  unfold unlinkGhost
  refine .bind' (kp_unlink _ _) (fun a ha => .ok ?_)
  dsimp only
  split <;> exact ha

theorem kp_mapRemove (s : Shard K V) (h : UInt64) (i : Nat) : On (Kp s) (s.mapRemove h i) := by
  unfold mapRemove
  exact .ite (.ok (kp_same rfl)) .err

theorem kp_mapInsert (c : Cfg K V RS) (s : Shard K V) (h : UInt64) (i : Nat) : On (Kp s) (s.mapInsert c h i) := by
  unfold mapInsert
  exact .bind (fun a => .ok (kp_same rfl))

theorem kp_reserve (c : Cfg K V RS) (s : Shard K V) : On (Kp s) (s.reserve c) := by
  unfold reserve
  exact .bind (fun a => .ok (kp_same rfl))

theorem kp_get (s : Shard K V) (h : UInt64) (eqv : K → Bool) : On (fun x => Kp s x.1) (s.get h eqv) := by
  unfold get
  refine .bind (fun a => ?_)
  cases a with
  | none => exact .ok (kp_same rfl)
  | some p =>
    refine .ok ?_
    dsimp only
    split
    · exact kp_setEntry ..
    · exact kp_same rfl

theorem kp_getMut (c : Cfg K V RS) (s : Shard K V) (h : UInt64) (eqv : K → Bool) : On (fun x => Kp s x.1) (s.getMut c h eqv) := by
  unfold getMut
  refine .bind (fun a => ?_)
  cases a with
  | none => exact .ok (kp_same rfl)
  | some p =>
    dsimp only
    split
    · refine .ok ?_
      dsimp only
      split
      · exact kp_setEntry ..
      · exact kp_same rfl
    · exact .err

theorem kp_coldChangeWeight (s : Shard K V) (i a b : Nat) : On (Kp s) (s.coldChangeWeight i a b) := by
  unfold coldChangeWeight
  split
  · refine .bind (fun w => .bind (fun w' => (kp_relink _ _ _ _ _).mono (fun x hx => ?_)))
    exact (kp_same (entries_setWgt ..)).trans hx
  · exact .err

theorem kp_refMutWrite (c : Cfg K V RS) (s : Shard K V) (i w : Nat) (f : V → V) : On (Kp s) (s.refMutWrite c i w f) := by
  unfold refMutWrite
  split
  · exact .ite ((kp_coldChangeWeight _ _ _ _).mono (fun x hx => (kp_setEntry ..).trans hx)) (.ok (kp_setEntry ..))
  · exact .err

theorem kp_removeInternal (c : Cfg K V RS) (s : Shard K V) (h : UInt64) (i : Nat) :
    On (fun x => Kp s x.1) (s.removeInternal c h i) := by
  unfold removeInternal
  refine .bind' (kp_mapRemove _ _ _) (fun s1 h1 => .bind' (kp_remove _ _) (fun a ha => ?_))
  obtain ⟨e, o⟩ := a
  dsimp only at ha
  have key : Kp s { s1 with entries := e } := h1.trans ha
  rcases o with - | ⟨x, next⟩
  · exact .err
  · cases x with
    | placeholder p => exact .ok key
    | ghost g =>
      refine .bind (fun n => .ok ?_)
      dsimp only
      split
      · exact key.trans (kp_same (by rw [entries_setHead]))
      · exact key
    | resident r =>
      refine .bind (fun n => .bind (fun w => .ok ?_))
      dsimp only
      split
      · exact key.trans (kp_same (by rw [entries_setHead, entries_setWgt, entries_setNum]))
      · exact key.trans (kp_same (by rw [entries_setWgt, entries_setNum]))

theorem kp_remove (c : Cfg K V RS) (s : Shard K V) (h : UInt64) (eqv : K → Bool) : On (fun x => Kp s x.1) (s.remove c h eqv) := by
  unfold remove
  refine .bind (fun a => ?_)
  cases a with
  | none => exact .ok (.refl _)
  | some i => exact kp_removeInternal ..

theorem kp_removePlaceholder (c : Cfg K V RS) (s : Shard K V) (p : Plh) : On (Kp s) (s.removePlaceholder c p) := by
  unfold removePlaceholder
  exact .ite .err (.ok (kp_same rfl))

theorem kp_retainLoop (c : Cfg K V RS) : ∀ (l : List (Nat × UInt64)) (s : Shard K V), On (Kp s) (retainLoop c l s) := by
  intro l
  induction l with
  | nil => intro s; exact .ok (.refl _)
  | cons p l ih =>
    intro s
    unfold retainLoop
    exact .bind' (kp_removeInternal _ _ _ _) (fun a ha => (ih _).mono (fun x hx => ha.trans hx))

theorem kp_hotVictim (c : Cfg K V RS) (s : Shard K V) (q : Req K V RS) (i : Nat) (r : Resident K V) :
    On (fun x => Kp s x.1) (s.hotVictim c q i r) := by
  unfold hotVictim
  refine .bind (fun w => ?_)
  dsimp only
  refine .ite (.bind' (kp_unlinkFrom _ _ _) (fun a ha => .ok ?_)) (.bind (fun n => .bind' (Slab.kp_remove _ _) (fun a ha => ?_)))
  · exact (kp_setEntry s i _).trans ha
  · obtain ⟨e, o⟩ := a
    split
    · rename_i heq
      cases heq
      refine .bind' (kp_mapRemove _ _ _) (fun x hx => .ok ?_)
      exact Kp.trans (b := s.setEntry i (.resident { r with value := (q.before c r.key r.value).2 })) (kp_setEntry ..)
        (Slab.Kp.trans ha hx)
    · exact .err

theorem kp_advanceHotLoop (c : Cfg K V RS) : ∀ (fuel : Nat) (s : Shard K V) (q : Req K V RS) (i u : Nat),
    On (fun x => Kp s x.1) (advanceHotLoop c fuel s q i u) := by
  intro fuel
  induction fuel with
  | zero => intros; exact .err
  | succ fuel ih =>
    intro s q i u
    unfold advanceHotLoop
    split
    · exact .err
    · refine .ite .err (.ite ?_ (.ite ?_ (kp_hotVictim ..)))
      · exact .ite (.ok (kp_setEntry ..)) ((ih _ _ _ _).mono (fun x hx => (kp_setEntry ..).trans hx))
      · exact (ih _ _ _ _).mono (fun x hx => (kp_setEntry ..).trans hx)
    · exact .err

theorem kp_advanceHot (c : Cfg K V RS) (s : Shard K V) (q : Req K V RS) : On (fun x => Kp s x.1) (s.advanceHot c q) := by
  unfold advanceHot
  split
  · exact .ok (.refl _)
  · exact kp_advanceHotLoop ..

theorem kp_advanceGhost (s : Shard K V) : On (Kp s) s.advanceGhost := by
  unfold advanceGhost
  refine .ite .err ?_
  split
  · exact .err
  · split
    · exact .err
    · refine .bind (fun n => .bind' (kp_mapRemove _ _ _) (fun s1 h1 => .bind' (Slab.kp_remove _ _) (fun a ha => ?_)))
      obtain ⟨e, o⟩ := a
      cases o with
      | none => exact .err
      | some p => exact .ok (Slab.Kp.trans h1 ha)
    · exact .err

theorem kp_evictHotLoop (c : Cfg K V RS) : ∀ (fuel : Nat) (s : Shard K V) (q : Req K V RS),
    On (fun x => Kp s x.1) (evictHotLoop c fuel s q) := by
  intro fuel
  induction fuel with
  | zero => intros; exact .err
  | succ fuel ih =>
    intro s q
    unfold evictHotLoop
    refine .ite (.bind' (kp_advanceHot _ _ _) (fun a ha => ?_)) (.ok (.refl _))
    exact .ite ((ih _ _).mono (fun x hx => ha.trans hx)) (.ok ha)

theorem kp_coldPromote (c : Cfg K V RS) (s : Shard K V) (q : Req K V RS) (i : Nat) (r : Resident K V) :
    On (fun x => Kp s x.1) (s.coldPromote c q i r) := by
  unfold coldPromote
  refine .bind (fun wh => .bind (fun wc => .bind (fun nc => .bind' (kp_unlinkFrom _ _ _) (fun s3 h3 =>
    .bind' (kp_linkTo _ _ _) (fun s4 h4 => .bind' (kp_evictHotLoop _ _ _ _) (fun a ha => .ok ?_))))))
  exact ((Kp.trans (kp_setEntry s i _) h3).trans h4).trans ha

theorem kp_coldVictim (c : Cfg K V RS) (s : Shard K V) (q : Req K V RS) (i : Nat) (r : Resident K V) :
    On (fun x => Kp s x.1) (s.coldVictim c q i r) := by
  unfold coldVictim
  refine .bind (fun w => ?_)
  dsimp only
  refine .ite (.bind' (kp_unlinkFrom _ _ _) (fun a ha => .ok ((kp_setEntry s i _).trans ha))) ?_
  have h2 : Slab.Kp s.entries ((s.setEntry i (.resident { r with value := (q.before c r.key r.value).2 })).setEntry i
    (.ghost (c.hash r.key))).entries := Slab.Kp.trans (kp_setEntry ..) (kp_setEntry ..)
  refine .bind' (kp_unlinkFrom _ _ _) (fun s3 h3 => .bind' (kp_linkTo _ _ _) (fun s4 h4 => .bind (fun nc =>
    .ite (.bind' (kp_advanceGhost _) (fun s6 h6 => .ok ?_)) (.ok ?_))))
  · exact ((Slab.Kp.trans h2 h3).trans h4).trans h6
  · exact (Slab.Kp.trans h2 h3).trans h4

theorem kp_advanceColdLoop (c : Cfg K V RS) : ∀ (fuel : Nat) (s : Shard K V) (q : Req K V RS) (i : Nat),
    On (fun x => Kp s x.1) (advanceColdLoop c fuel s q i) := by
  intro fuel
  induction fuel with
  | zero => intros; exact .err
  | succ fuel ih =>
    intro s q i
    unfold advanceColdLoop
    split
    · exact .err
    · exact .ite .err (.ite (kp_coldPromote ..) (.ite (.ite (kp_advanceHot ..) (ih ..)) (kp_coldVictim ..)))
    · exact .err

theorem kp_advanceCold (c : Cfg K V RS) (s : Shard K V) (q : Req K V RS) : On (fun x => Kp s x.1) (s.advanceCold c q) := by
  unfold advanceCold
  split
  · exact kp_advanceHot ..
  · exact kp_advanceColdLoop ..

theorem kp_evictLoop (c : Cfg K V RS) (extra : Nat) : ∀ (fuel : Nat) (s : Shard K V) (q : Req K V RS),
    On (fun x => Kp s x.1) (evictLoop c extra fuel s q) := by
  intro fuel
  induction fuel with
  | zero => intros; exact .err
  | succ fuel ih =>
    intro s q
    unfold evictLoop
    refine .bind (fun t => .bind (fun t' => .ite (.bind' (kp_advanceCold _ _ _) (fun a ha => ?_)) (.ok (.refl _))))
    exact .ite ((ih _ _).mono (fun x hx => ha.trans hx)) (.ok ha)

theorem kp_insertExisting (c : Cfg K V RS) (s : Shard K V) (q : Req K V RS) (i : Nat) (k : K) (v : V) (w : Nat) (st : Strategy) :
    On (fun x => Kp s x.1) (s.insertExisting c q i k v w st) := by
  unfold insertExisting
  split
  · exact .err
  · refine .bind (fun w1 => .bind (fun w2 => .bind' (kp_relink _ _ _ _ _) (fun s3 h3 => .bind' (kp_evictLoop _ _ _ _ _)
      (fun a ha => .ok ?_))))
    exact (((kp_setEntry s i _).trans (kp_same (entries_setWgt ..))).trans h3).trans ha
  · split
    · exact .ok (.refl _)
    · refine .bind (fun w1 => .bind (fun w2 => .bind' (kp_unlinkGhost _ _) (fun s3 h3 => .bind' (kp_linkNew _ _ _ _) (fun s4 h4 =>
        .bind' (kp_evictLoop _ _ _ _ _) (fun a ha => .ok ?_)))))
      exact ((Kp.trans (kp_setEntry s i _) h3).trans h4).trans ha
  · split
    · exact .ok (.refl _)
    · refine .bind (fun w1 => .bind' (kp_linkNew _ _ _ _) (fun s3 h3 => .bind' (kp_evictLoop _ _ _ _ _) (fun a ha => .ok ?_)))
      exact (((kp_setEntry s i _).trans (kp_same (by rw [entries_setWgt, entries_setNum]))).trans h3).trans ha

theorem kp_handleInsertOverweight [DecidableEq K] (c : Cfg K V RS) (s : Shard K V) (q : Req K V RS) (h : UInt64) (k : K) (v : V)
    (st : Strategy) : On (fun x => Kp s x.1) (s.handleInsertOverweight c q h k v st) := by
  unfold handleInsertOverweight
  have fin : ∀ s1 (q1 : Req K V RS), Kp s s1 → On (fun x : Shard K V × Req K V RS × Option V => Kp s x.1)
      (match st with
        | .replace _ => .ok (s1, q1, some v)
        | .insert => .ok (s1, q1.on c k v, none)) := by
    intro s1 q1 h1
    cases st <;> exact .ok h1
  refine .bind (fun o => ?_)
  cases o with
  | none => exact fin _ _ (.refl _)
  | some p =>
    refine .bind' (kp_removeInternal _ _ _ _) (fun a ha => ?_)
    obtain ⟨s1, o⟩ := a
    cases o <;> exact fin _ _ ha

theorem gr_insertNew (c : Cfg K V RS) (s : Shard K V) (q : Req K V RS) (h : UInt64) (k : K) (v : V) (w : Nat) :
    On (fun x => Gr s x.1) (s.insertNew c q h k v w) := by
  unfold insertNew
  refine .bind (fun hw => .bind' (kp_evictLoop _ _ _ _ _) (fun a ha => .bind (fun w1 => .bind' (gr_insert _ _) (fun b hb =>
    .bind' (kp_linkNew _ _ _ _) (fun s4 h4 => .bind' (kp_mapInsert _ _ _ _) (fun s5 h5 => .ok ?_))))))
  refine Slab.Kp.then_gr ha (Slab.Gr.then_kp (Slab.Gr.then_kp ?_ h4) h5)
  rw [entries_setWgt, entries_setNum] at hb
  exact hb

theorem gr_insert [DecidableEq K] (c : Cfg K V RS) (s : Shard K V) (q : Req K V RS) (h : UInt64) (k : K) (v : V) (st : Strategy) :
    On (fun x => Gr s x.1) (s.insert c q h k v st) := by
  have adm : ∀ q v w, On (fun x => Gr s x.1) (s.insertAdmitted c q h k v w st) := by
    intro q v w
    unfold insertAdmitted
    refine .bind (fun o => ?_)
    cases o with
    | some i => exact (kp_insertExisting _ _ _ _ _ _ _ _).mono (fun x hx => hx.gr)
    | none =>
      cases st with
      | replace b => exact .ok (Kp.refl s).gr
      | insert => exact .bind' (gr_insertNew _ _ _ _ _ _ _) (fun a ha => .ok ha)
  unfold insert
  exact .ite (.ite ((kp_handleInsertOverweight _ _ _ _ _ _ _).mono (fun x hx => hx.gr)) (adm _ _ _)) (adm _ _ _)

theorem kp_replacePlaceholder (c : Cfg K V RS) (s : Shard K V) (q : Req K V RS) (p : Plh) (b : Bool) (v : V) :
    On (fun x => Kp s x.1) (s.replacePlaceholder c q p b v) := by
  have adm : ∀ q k st v w, On (fun x => Kp s x.1) ((s.setEntry p.idx (.ghost 0)).replacePlaceholderAdmit c q p k st b v w) := by
    intro q k st v w
    unfold replacePlaceholderAdmit
    refine .bind (fun t => .bind (fun t' => .bind (fun w1 => ?_)))
    refine .ite (.bind' (kp_linkTo _ _ _) (fun s3 h3 => (kp_evictLoop _ _ _ _ _).mono (fun x hx => ?_))) (.ok ?_)
    · exact (((kp_setEntry s p.idx (.ghost 0)).trans ((kp_setEntry _ p.idx _).trans
        (kp_same (by rw [entries_setWgt, entries_setNum])))).trans h3).trans hx
    · exact (kp_setEntry s p.idx (.ghost 0)).trans ((kp_setEntry _ p.idx _).trans (kp_same (by rw [entries_setWgt, entries_setNum])))
  unfold replacePlaceholder
  split
  · refine .ite ?_ (.ok (.refl _))
    refine .ite (.ite (.bind' (P := fun x => Kp s x.1) ?_ (fun a ha => .ok ha)) (.bind' (adm ..) (fun a ha => .ok ha)))
      (.bind' (adm ..) (fun a ha => .ok ha))
    unfold handleOverweightReplacePlaceholder
    refine .bind' (Slab.kp_remove _ _) (fun a ha => .bind' (kp_mapRemove _ _ _) (fun x hx => .ok ?_))
    exact (Slab.Kp.trans (kp_setEntry s p.idx (.ghost 0)) ha).trans hx
  · exact .ok (.refl _)

/-- A new placeholder takes a slot; in all other cases none is taken. -/
theorem gr_upsertPlaceholder (c : Cfg K V RS) (s : Shard K V) (h : UInt64) (eqv : K → Bool) (k : K) :
    On (fun x => Gr s x.1) (s.upsertPlaceholder c h eqv k) := by
  unfold upsertPlaceholder
  refine .bind (fun o => ?_)
  cases o with
  | some i =>
    dsimp only
    split
    · exact .err
    · refine .ok (Kp.gr ?_)
      dsimp only
      split
      · exact kp_setEntry ..
      · exact kp_same rfl
    · exact .ok (kp_same rfl).gr
    · refine .bind (fun n => .bind' (kp_unlinkGhost _ _) (fun s3 h3 => .ok (Kp.gr ?_)))
      exact Kp.trans (kp_setEntry s i _) h3
  | none =>
    refine .bind' (Slab.gr_insert _ _) (fun a ha => .ite .err (.bind' (kp_mapInsert _ _ _ _) (fun x hx => .ok ?_)))
    exact Slab.Gr.then_kp ha hx

end Shard

namespace Unsync
open Shard

theorem kp_writeRef (c : Cfg K V RS) (s : Shard K V) (f : V → V) (o : Option (Nat × Nat)) : On (Kp s) (writeRef c s f o) := by
  cases o with
  | none => exact .ok (.refl _)
  | some p => exact kp_refMutWrite ..

theorem kp_fill (c : Cfg K V RS) (s : Shard K V) (p : Plh) (v : V) : On (fun x => Kp s x.1) (fill c s p v) := by
  unfold fill
  exact .bind' (kp_replacePlaceholder _ _ _ _ _ _) (fun a ha => .ite .err (.ok ha))

theorem kp_useGuard (c : Cfg K V RS) (s : Shard K V) (p : Plh) (u : GuardUse V) : On (fun x => Kp s x.1) (useGuard c s p u) := by
  cases u with
  | insert v => exact kp_fill ..
  | drop => exact .bind' (kp_removePlaceholder _ _ _) (fun a ha => .ok ha)
  | forget => exact .ok (.refl _)

/-- Every call makes the slab longer by one slot at most, and not if a slot is free. -/
theorem gr_step [DecidableEq K] (c : Cfg K V RS) (s : Shard K V) (op : Op K V) : On (fun x => Gr s x.1) (step c s op) := by
  have tok : ∀ k load, On (fun x => Gr s x.1) (getOrInsertToken c s k load) := by
    intro k load
    unfold getOrInsertToken
    refine .bind' (gr_upsertPlaceholder _ _ _ _ _) (fun a ha => ?_)
    obtain ⟨s1, u⟩ := a
    cases u with
    | found i v => exact .ok ha
    | pending p n =>
      cases load with
      | none => exact .ok ha
      | some v => exact .bind' (kp_fill _ _ _ _) (fun x hx => .ok (ha.then_kp hx))
  cases op with
  | insert k v =>
    refine .bind' (P := fun x => Gr s x.1) ?_ (fun a ha => .ok ha)
    unfold insert
    exact .bind' (gr_insert _ _ _ _ _ _ _) (fun a ha => .ite .err (.ok ha))
  | replace k v b =>
    refine .bind' (P := fun x => Gr s x.1) ?_ (fun a ha => .ok ha)
    unfold replace
    exact .bind' (gr_insert _ _ _ _ _ _ _) (fun a ha => .ok ha)
  | remove k => exact .bind' (kp_remove _ _ _ _) (fun a ha => .ok ha.gr)
  | get k => exact .bind' (kp_get _ _ _) (fun a ha => .ok ha.gr)
  | peek k => exact .bind (fun a => .ok (Kp.refl s).gr)
  | containsKey k => exact .bind (fun a => .ok (Kp.refl s).gr)
  | getMut k f =>
    exact .bind' (kp_getMut _ _ _ _) (fun a ha => .bind' (kp_writeRef _ _ _ _) (fun b hb => .ok (ha.trans hb).gr))
  | peekMut k f => exact .bind (fun r => .bind' (kp_writeRef _ _ _ _) (fun b hb => .ok hb.gr))
  | retain f => exact .bind' (kp_retainLoop _ _ _) (fun a ha => .ok ha.gr)
  | clear => exact .ok ⟨Nat.zero_le _, fun _ => Nat.zero_le _⟩
  | drain => exact .ok ⟨Nat.zero_le _, fun _ => Nat.zero_le _⟩
  | reserve => exact .bind' (kp_reserve _ _) (fun a ha => .ok ha.gr)
  | getOrInsertWith k load =>
    refine .bind' (P := fun x => Gr s x.1) ?_ (fun a ha => .ok ha)
    unfold getOrInsertWith
    exact .bind' (tok _ _) (fun a ha => .ok ha)
  | getMutOrInsertWith k load f =>
    refine .bind' (P := fun x => Gr s x.1) ?_ (fun a ha => .ok ha)
    unfold getMutOrInsertWith
    refine .bind' (tok _ _) (fun a ha => ?_)
    obtain ⟨s1, q, b, t⟩ := a
    cases t with
    | none => exact .ok ha
    | some i => exact .bind' (kp_writeRef _ _ _ _) (fun b hb => .ok (ha.then_kp hb))
  | getRefOrGuard k u =>
    refine .bind' (P := fun x => Gr s x.1) ?_ (fun a ha => .ok ha)
    unfold getRefOrGuard
    refine .bind' (gr_upsertPlaceholder _ _ _ _ _) (fun a ha => ?_)
    obtain ⟨s1, x⟩ := a
    cases x with
    | found i v => exact .ok ha
    | pending p n => exact .bind' (kp_useGuard _ _ _ _) (fun b hb => .ok (ha.then_kp hb))
  | getMutOrGuard k f u =>
    refine .bind' (P := fun x => Gr s x.1) ?_ (fun a ha => .ok ha)
    unfold getMutOrGuard
    refine .bind' (gr_upsertPlaceholder _ _ _ _ _) (fun a ha => ?_)
    obtain ⟨s1, x⟩ := a
    cases x with
    | found i v => exact .bind' (kp_writeRef _ _ _ _) (fun b hb => .ok (ha.then_kp hb))
    | pending p n => exact .bind' (kp_useGuard _ _ _ _) (fun b hb => .ok (ha.then_kp hb))

/-- There are at most as many slots as there were calls. -/
theorem Run.slots_le [DecidableEq K] {c : Cfg K V RS} {s0 s : Shard K V} {h : List (Call K V)} (hr : Run c s0 h s) :
    s.entries.entries.length ≤ s0.entries.entries.length + h.length := by
  induction hr with
  | start => exact Nat.le_refl _
  | layout m p hr hm hp ih => exact ih
  | call hr hs ih =>
    have := ((gr_step _ _ _).res _ hs).1
    dsimp only at this
    simp only [List.length_append, List.length_singleton]
    omega

/-- If not all slots are in use, the next insertion takes a free one. -/
theorem nextFree_lt {c : Cfg K V RS} {s : Shard K V} (h : Inv0 c s) (hs : s.slots < s.entries.entries.length) :
    s.entries.nextFree < s.entries.entries.length := by
  obtain ⟨R, F, hg⟩ := h.str
  have hl := hg.links
  have hf := hl.free
  cases F with
  | cons t F =>
    have := (hl.freeMem t).mp (by simp)
    rw [Slab.FreeChain] at hf
    omega
  | nil =>
    exfalso
    have hall : ∀ n ∈ s.entries.entries, (n.item).isSome := by
      intro n hn
      obtain ⟨t, ht, e⟩ := List.mem_iff_getElem.mp hn
      have := mt (hl.freeMem t).mpr (by simp)
      have h2 : s.entries.item t = n.item := by
        unfold Slab.item
        rw [List.getElem?_eq_getElem ht, e]
        rfl
      rw [h2] at this
      cases hi : n.item with
      | some x => rfl
      | none => exact absurd ⟨ht, hi⟩ this
    have : s.slots = s.entries.entries.length := by
      unfold Shard.slots Slab.iter
      generalize s.entries.entries = l at hall
      induction l with
      | nil => rfl
      | cons n l ih =>
        have h1 := hall n (by simp)
        cases hi : n.item with
        | none => rw [hi] at h1; cases h1
        | some x =>
          rw [List.filterMap_cons_some hi, List.length_cons, List.length_cons, ih (fun m hm => hall m (by simp [hm]))]
    omega

end Unsync
end QuickCache
