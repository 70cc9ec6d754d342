import Verif.Proofs.ConcRun
import Verif.Proofs.UnwindStep
import Verif.Spec.ConcUnwind

/-!
# What panics of user code leave behind in the concurrent cache
-/

namespace QuickCache
variable {K V RS : Type}
open Shard Unsync Spec U

/-- The state `s'` differs from `s` in placeholders only by having lost some of keys in `S`. -/
def Sheds (c : Cfg K V RS) (s s' : Shard K V) (S : K → Prop) : Prop :=
  (∃ keep, PEff c s s' keep (fun _ => False) ∧ ∀ k p, (keep k p → PLive c s k p) ∧ (PLive c s k p → keep k p ∨ S k)) ∧
    s'.nextPlh = s.nextPlh

theorem U.Pts.and {α : Type} {x : U K V α} {P Q : Shard K V → Prop} (h : Pts x P) (h' : Pts x Q) : Pts x (fun s => P s ∧ Q s) := by
  intro p hp hs
  rcases h p hp hs with ⟨s, h1, h2⟩ | he
  · rcases h' p hp hs with ⟨s', g1, g2⟩ | ⟨e, g1, -⟩
    · rw [h1] at g1; cases g1
      exact Or.inl ⟨s, h1, h2, g2⟩
    · rw [h1] at g1; cases g1
  · exact Or.inr he

section
variable {c : Cfg K V RS} {s s' : Shard K V} {S : K → Prop}

theorem Sheds.refl : Sheds c s s S := ⟨⟨PLive c s, .refl c s, fun _ _ => ⟨id, Or.inl⟩⟩, rfl⟩

theorem Sheds.of_eq (h : s' = s) : Sheds c s s' S := by subst h; exact .refl

theorem Sheds.of_drop {kill : K → Plh → Prop} (h : PDrop c s s' kill) (hk : ∀ k p, PSlot s k p → kill k p → S k)
    (np : s'.nextPlh = s.nextPlh) : Sheds c s s' S := by
  refine ⟨⟨_, h.eff, fun k p => ⟨fun h => h.1, fun hl => ?_⟩⟩, np⟩
  by_cases hkl : kill k p
  · exact Or.inr (hk k p hl.1 hkl)
  · exact Or.inl ⟨hl, hkl⟩

theorem Sheds.mono {S' : K → Prop} (h : Sheds c s s' S) (hS : ∀ k, S k → S' k) : Sheds c s s' S' := by
  obtain ⟨⟨keep, h1, h2⟩, h3⟩ := h
  exact ⟨⟨keep, h1, fun k p => ⟨(h2 k p).1, fun hl => ((h2 k p).2 hl).imp_right (hS k)⟩⟩, h3⟩

namespace Unwind

theorem Evicting.pdrop {q : Req K V RS} (h : Evicting c s q s') :
    PDrop c s s' (fun _ _ => False) ∧ s'.nextPlh = s.nextPlh := by
  obtain ⟨q', h⟩ := h
  exact ⟨h.pdrop, h.same.nextPlh⟩

/-- A storing operation only takes the placeholder of its own key, and only if it inserts. -/
theorem Halt.sheds {q : Req K V RS} {k : K} {v : V} {str : Strategy} (h : Halt c s q k v str s') :
    Sheds c s s' (fun k' => k' = k ∧ str = .insert) := by
  have kills : ∀ {s2 : Shard K V} {t : Nat} {old new : Option (Entry K V)}, Wrote c s s2 t old new →
      (∀ ph, old = some (.placeholder ph) → ph.key = k ∧ str = .insert) →
      ∀ k' p, PSlot s k' p → p.idx = t → k' = k ∧ str = .insert := by
    rintro s2 t old new wrote hold k' p ⟨ph, h1, h2, h3⟩ rfl
    rw [wrote.upd.before] at h1
    rw [← h2]
    exact hold ph h1
  cases h with
  | same h => exact .of_eq h
  | storing q1 v1 he adm h =>
    cases h with
    | same h => exact .of_eq h
    | room hstr hno post => exact .of_drop post.pdrop.1 (fun _ _ _ h => h.elim) post.pdrop.2
    | put s2 qb t old r same wrote hk hv hplh hold post =>
      refine .of_drop ((wrote.pdrop (by simp)).then_same post.pdrop.1) (kills wrote (fun ph ho => ⟨hplh ph ho, ?_⟩))
        (post.pdrop.2.trans same.nextPlh)
      rcases hold with ⟨r0, h0, -⟩ | ⟨-, -, -, h⟩
      · rw [h0] at ho; cases ho
      · exact h
  | reject q1 v1 hw hp hb hw1 q' hr hplh =>
    cases hr with
    | none => exact .refl
    | old t r hk same wrote =>
      exact .of_drop (wrote.pdrop (by simp)) (kills wrote (fun ph ho => by cases ho)) same.nextPlh
    | plh t ph hk hno same wrote =>
      refine .of_drop (wrote.pdrop (by simp)) (kills wrote (fun ph' ho => ?_)) same.nextPlh
      cases ho
      refine ⟨hk, ?_⟩
      by_contra hne
      have := hplh hne t ph wrote.upd.before
      rw [wrote.upd.after] at this
      cases this

variable [DecidableEq K]

theorem done_sheds (hi : Inv c s) {op : Op K V} (hop : op.shared) {out : Out K V} {q : Req K V RS}
    (h : Unsync.step c s op = .ok (s', out, q)) : Sheds c s s' (fun k => Kills c s.weightTargetHot op k) := by
  obtain ⟨h1, h2⟩ := step_plh hi hop h
  refine ⟨⟨_, h1, fun k p => ⟨fun h => h.1, fun hl => ?_⟩⟩, h2⟩
  by_cases hk : Kills c s.weightTargetHot op k
  · exact Or.inr hk
  · exact Or.inl ⟨hl, hk⟩

/-- What an interrupted call does to placeholders. -/
theorem step_sheds (hi : Inv c s) {op : Op K V} (hop : op.shared) :
    Pts (step c s op) (fun s' => Sheds c s s' (fun k => ∃ v, op = .insert k v)) := by
  have hrun := run_step c s op
  have hh : Pts (user .hashKey s) (fun s' => Sheds c s s' (fun k => ∃ v, op = .insert k v)) := .user (fun _ => .refl)
  cases op with
  | insert k v =>
    unfold step at hrun ⊢
    unfold cacheInsert at hrun ⊢
    simp only [bind_assoc] at hrun ⊢
    refine .bindR hrun (.user (fun _ => .refl)) (fun _ _ hrun => .bindR hrun hh (fun _ _ hrun => .bindR hrun
      ((insert_pts hi.toInv0 _ k v .insert).mono (fun s' hs => hs.sheds.mono (by rintro k' ⟨rfl, -⟩; exact ⟨v, rfl⟩)))
      (fun x _ hrun => ?_)))
    obtain ⟨s1, q, _ | r⟩ := x
    · simp only [Option.isSome_none, Bool.false_eq_true, if_false, bind_assoc, pure_bind] at hrun ⊢
      refine .bindR hrun (.user (fun _ => ?_)) (fun _ _ _ => .pure)
      rw [run_bind] at hrun
      exact (done_sheds hi hop hrun.symm).mono (by rintro k' ⟨rfl, -⟩; exact ⟨v, rfl⟩)
    · exact .bind (.ite (fun _ => .lift) (fun h => absurd rfl h)) (fun _ _ => .pure)
  | replace k v soft =>
    unfold step at hrun ⊢
    unfold cacheReplace at hrun ⊢
    simp only [bind_assoc] at hrun ⊢
    refine .bindR hrun (.user (fun _ => .refl)) (fun _ _ hrun => .bindR hrun hh (fun _ _ hrun => .bindR hrun
      ((insert_pts hi.toInv0 _ k v (.replace soft)).mono (fun s' hs => hs.sheds.mono (by rintro k' ⟨-, h⟩; cases h)))
      (fun x _ hrun => ?_)))
    obtain ⟨s1, q, _ | r⟩ := x
    · simp only [Option.isSome_none, Bool.false_eq_true, if_false, bind_assoc, pure_bind] at hrun ⊢
      refine .bindR hrun (.user (fun _ => ?_)) (fun _ _ _ => .pure)
      rw [run_bind] at hrun
      exact (done_sheds hi hop hrun.symm).mono (fun _ h => h.elim)
    · exact .bind (.ite (fun _ => .pure) (fun h => absurd rfl h)) (fun _ _ => .pure)
  | remove k => exact .bind hh (fun _ _ => .bind ((remove_pts _ _).mono (fun _ h => .of_eq h)) (fun _ _ => .pure))
  | peek k => exact .bind hh (fun _ _ => .bind ((searchResident_pts _ _).mono (fun _ h => .of_eq h)) (fun _ _ => .pure))
  | containsKey k =>
    exact .bind hh (fun _ _ => .bind ((searchResident_pts _ _).mono (fun _ h => .of_eq h)) (fun _ _ => .pure))
  | retain f => exact .bind ((retain_pts f).mono (fun _ h => .of_eq h)) (fun _ _ => .pure)
  | clear => exact .pure
  | reserve => exact .bind (reserve_pts.mono (fun _ h => h.elim)) (fun _ _ => .pure)
  | get k => exact hop.elim
  | getMut k f => exact hop.elim
  | peekMut k f => exact hop.elim
  | drain => exact hop.elim
  | getOrInsertWith k l => exact hop.elim
  | getMutOrInsertWith k l f => exact hop.elim
  | getRefOrGuard k u => exact hop.elim
  | getMutOrGuard k f u => exact hop.elim

/-- The calls under the read lock leave the shard as it is. -/
theorem step_reads (hi : Inv c s) {op : Op K V} (hop : op.shared) :
    Pts (step c s op) (fun s' => Conc.lockMode op = some true ∨ s' = s) := by
  have hh : Pts (user .hashKey s) (fun s' => Conc.lockMode op = some true ∨ s' = s) := .user (fun _ => Or.inr rfl)
  cases op with
  | peek k => exact .bind hh (fun _ _ => .bind ((searchResident_pts _ _).mono (fun _ h => Or.inr h)) (fun _ _ => .pure))
  | containsKey k =>
    exact .bind hh (fun _ _ => .bind ((searchResident_pts _ _).mono (fun _ h => Or.inr h)) (fun _ _ => .pure))
  | get k => exact hop.elim
  | getMut k f => exact hop.elim
  | peekMut k f => exact hop.elim
  | drain => exact hop.elim
  | getOrInsertWith k l => exact hop.elim
  | getMutOrInsertWith k l f => exact hop.elim
  | getRefOrGuard k u => exact hop.elim
  | getMutOrGuard k f u => exact hop.elim
  | _ => exact (step_pts hi _).mono (fun _ _ => Or.inl rfl)

omit [DecidableEq K] in
/-- Filling a placeholder from the protocol. -/
theorem fillSec_pts (hi : Inv c s) (hq : c.ptrEq = true) {k : K} {p : Plh} {b : Bool} {v : V}
    (hok : SecOK c s (.fill k p b v)) :
    Pts (replacePlaceholder c s c.begin p b v) (Halt c s c.begin k v .insert) := by
  by_cases hh : ∃ ph, Holds c s p ph
  · obtain ⟨ph, hh⟩ := hh
    obtain ⟨h1, h2⟩ := Holds.slot hi.toInv0 hq hh
    obtain ⟨h3, h4, h5⟩ := hok _ _ h1 h2
    have h6 := (h5.1.hash hi.toInv0).1
    have := replacePlaceholder_pts hi.toInv0 c.begin hh (by rw [h4]; exact h6) (by rw [h6]; exact h5.2) b v
    rw [h4] at this
    exact this.mono (fun _ h => h.1)
  · unfold replacePlaceholder
    rw [Slab.get_eq]
    cases ht : s.entries.item p.idx with
    | none => exact .pure
    | some e =>
      simp only [Option.map_some]
      cases e with
      | placeholder ph =>
        dsimp only
        rw [if_neg]
        · exact .pure
        · intro h
          exact hh ⟨ph, ht, h⟩
      | resident r => exact .pure
      | ghost g => exact .pure

end Unwind
end

namespace Conc
open Function (update)

section
variable [DecidableEq K] {c : Cfg K V RS} {s s' : State K V} {act : Act K V}

/-- What an interrupted action may have done to the contents. -/
def Told (c : Cfg K V RS) (s : State K V) (act : Act K V) (s' : State K V) : Prop :=
  match work s act with
  | some op => Left c s.shard.weightTargetHot s.shard.contents op s'.shard.contents
  | none => s'.shard.contents = s.shard.contents

theorem Told.same (h : s'.shard.contents = s.shard.contents) : Told c s act s' := by
  unfold Told
  split
  · rw [h]; exact .nothing
  · exact h

theorem Told.left {op : Op K V} (hw : work s act = some op)
    (h : Left c s.shard.weightTargetHot s.shard.contents op s'.shard.contents) : Told c s act s' := by
  unfold Told
  rw [hw]
  exact h

/-- The keys being stored by an action. -/
def Stores (s : State K V) (act : Act K V) (k : K) : Prop := ∃ v, work s act = some (.insert k v)

/-- What an interrupted action leaves. -/
structure Kept (c : Cfg K V RS) (s : State K V) (act : Act K V) (s' : State K V) : Prop where
  inv : CInv c s'
  const : Const s.shard s'.shard
  after : Aftermath c s.shard.weightTargetHot s act s'

theorem Kept.of (h : CInv c s) (hi : CInv c s') (hc : Const s.shard s'.shard) (told : Told c s act s')
    (thrown : ∀ a, actor act = some a → Thrown s s' a)
    (others : ∀ b, actor act ≠ some b → s'.ctl b = s.ctl b ∧ (s.flag b = true → s'.flag b = true))
    (kind : s'.kind = s.kind) (loads : ∀ i, (s'.plh i).map PState.loading = (s.plh i).map PState.loading)
    (sheds : Sheds c s.shard s'.shard (Stores s act)) : Kept c s act s' := by
  have free : ∀ a, actor act = some a → (s'.ctl a).writes = false ∧ (s'.ctl a).reads = false := by
    intro a ha
    cases thrown a ha with
    | gone h => rw [h]; exact ⟨rfl, rfl⟩
    | guard h h' => rw [h']; exact ⟨rfl, rfl⟩
    | waiting h h' => rw [h']; exact ⟨rfl, rfl⟩
  refine ⟨hi, hc, told, thrown, ?_, ?_, others, kind, loads, ?_⟩
  · have h1 : ∀ b, s'.writer = some b ↔ s.writer = some b ∧ actor act ≠ some b := by
      intro b
      by_cases hb : actor act = some b
      · rw [hi.lock.wr b, (free b hb).1]
        simp [hb]
      · rw [hi.lock.wr b, (others b hb).1, ← h.lock.wr b]
        simp [hb]
    cases hw : s'.writer with
    | some b =>
      obtain ⟨h2, h3⟩ := (h1 b).mp hw
      rw [if_neg (by rw [h2]; exact fun h => h3 h.symm), h2]
    | none =>
      split
      · rfl
      · rename_i hne
        cases hw' : s.writer with
        | none => rfl
        | some b =>
          have := (h1 b).mpr ⟨hw', fun h => hne (by rw [hw', h])⟩
          rw [hw] at this; cases this
  · intro b
    by_cases hb : actor act = some b
    · rw [hi.lock.rd b, (free b hb).2]
      simp [hb]
    · rw [hi.lock.rd b, (others b hb).1, ← h.lock.rd b]
      simp [hb]
  · obtain ⟨⟨keep, h1, h2⟩, -⟩ := sheds
    intro k p
    exact ⟨fun hj => (h2 k p).1 ((h1.live k p).mp hj), fun hj => ((h2 k p).2 hj).imp_left (h1.live k p).mpr⟩

/-- The agent is gone. -/
theorem Kept.gone (h : CInv c s) {a : Nat} (ha : actor act = some a) (hi : CInv c s') (hc : Const s.shard s'.shard)
    (told : Told c s act s') (hctl : s'.ctl = update s.ctl a .idle) (hflag : s'.flag = s.flag) (kind : s'.kind = s.kind)
    (hplh : s'.plh = s.plh) (sheds : Sheds c s.shard s'.shard (Stores s act)) : Kept c s act s' := by
  refine .of h hi hc told (fun b hb => ?_) (fun b hb => ?_) kind (fun i => by rw [hplh]) sheds
  · rw [ha] at hb; cases hb
    exact .gone (by rw [hctl, Function.update_self])
  · have hba : b ≠ a := by rintro rfl; exact hb ha
    rw [hctl, hflag, Function.update_of_ne hba]
    exact ⟨rfl, id⟩

/-- … and the shard unchanged. -/
theorem Kept.left (h : CInv c s) {a : Nat} (ha : actor act = some a) (hi : CInv c s') (hsh : s'.shard = s.shard)
    (hctl : s'.ctl = update s.ctl a .idle) (hflag : s'.flag = s.flag) (kind : s'.kind = s.kind)
    (hplh : s'.plh = s.plh) : Kept c s act s' :=
  .gone h ha hi (by rw [hsh]; exact .refl _) (.same (by rw [hsh])) hctl hflag kind hplh (.of_eq hsh)

omit [DecidableEq K] in
theorem Sheds.of_read [DecidableEq K] {sh sh' : Shard K V} {S : K → Prop} (h : ReadEff c sh sh') : Sheds c sh sh' S :=
  ⟨⟨_, h.plh, fun _ _ => ⟨id, Or.inl⟩⟩, h.np⟩

omit [DecidableEq K] in
/-- The calls of user code in a section. -/
theorem ofPoints_sat {α : Type} {u : U K V α} {P : Shard K V → Prop} {f : Shard K V → State K V} (hu : Pts u P)
    {x : Stop K V} (hx : x ∈ ofPoints f u.points) (hs : x.site.safe = true) :
    (∃ sh, x.left = .ok (f sh) ∧ P sh) ∨ ∃ e, x.left = .error e ∧ u.run = .error e := by
  unfold ofPoints at hx
  obtain ⟨p, hp, rfl⟩ := List.mem_map.mp hx
  rcases hu p hp hs with ⟨sh, h1, h2⟩ | ⟨e, h1, h2⟩
  · exact Or.inl ⟨sh, by simp [h1, Except.map], h2⟩
  · exact Or.inr ⟨e, by simp [h1, Except.map], h2⟩

/-- The section that ends an insertion through a guard. -/
theorem CInv.fill (h : CInv c s) {a : Nat} {k : K} {p : Plh} {v : V} {b : Bool} (hc : s.ctl a = .inserting k p v b) :
    SecOK c s.shard (.fill k p b v) := by
  obtain ⟨ps, h1, h2, h3, h4⟩ := h.at hc
  intro k' p' hs hid
  obtain ⟨qs, g1, g2, g3, g4⟩ := h.pl.slot k' p' hs
  rw [hid, h1] at g1
  cases g1
  rw [h3] at g3
  rw [h2] at g2
  subst g2 g3
  exact ⟨rfl, rfl, g4.mpr (by rw [h4]; simp)⟩

/-- An agent without lock disappears, having changed the shard under the write lock. -/
theorem CInv.vanish (h : CInv c s) {a : Nat} {x : Ctl K V} (hc : s.ctl a = x) (hx : x ≠ .idle) (hwx : x.writes = false)
    (hrx : x.reads = false) (hw : s.writer = none) (hr : s.readers = []) {sh : Shard K V} (hI : Inv c sh) {S : K → Prop}
    (hsh : Sheds c s.shard sh S) (hresp : respOf x (s.flag a) = none) (hwait : waitOf x (s.flag a) = none) :
    CInv c { s.go a .idle with shard := sh } := by
  obtain ⟨⟨keep, h1, h2⟩, h3⟩ := hsh
  refine h.move (a := a) (x := .idle) (f := s.flag a) rfl (flag_self _) rfl rfl (by rw [hc]; exact hx)
    (fun h => by cases h) (fun h => by cases h) hI
    (h.lock_same (by rw [hc]; exact hwx) (by rw [hc]; exact hrx)) trivial
    (fun b hb => AOK.write (h.ag b) (h.alone (Or.inl ⟨hw, hr⟩) hb).1 (h.alone (Or.inl ⟨hw, hr⟩) hb).2) ?_
  exact (h.pl.shrink (fun k p => (h2 k p).1) h1 h3).same (by rw [resp_at' hc]; exact hresp) (by rw [wait_at' hc]; exact hwait)

/-- A change of the shard under the write lock. -/
theorem CInv.written (h : CInv c s) (hw : s.writer = none) (hr : s.readers = []) {sh : Shard K V} (hI : Inv c sh)
    {S : K → Prop} (hsh : Sheds c s.shard sh S) : CInv c { s with shard := sh } := by
  obtain ⟨⟨keep, h1, h2⟩, h3⟩ := hsh
  refine ⟨hI, h.fresh, h.lock, fun b => ?_, h.kind, h.thr, h.pl.shrink (fun k p => (h2 k p).1) h1 h3⟩
  have hwb : (s.ctl b).writes = false := by
    have := (h.lock.wr b).not.mp (by rw [hw]; simp)
    simpa using this
  have hrb : (s.ctl b).reads = false := by
    have := (h.lock.rd b).not.mp (by rw [hr]; simp)
    simpa using this
  exact AOK.write (h.ag b) hwb hrb

/-- What a panic of user code at a safe place leaves. -/
theorem stop_sat (h : CInv c s) (hq : c.ptrEq = true) {x : Stop K V} (hx : x ∈ stops c s act) (hs : x.site.safe = true) :
    (∃ s', x.left = .ok s' ∧ Kept c s act s') ∨ ∃ e, x.left = .error e ∧ exec c s act = some (.error e) := by
  cases act with
  | enter a w =>
    simp only [stops, enterStops] at hx
    split at hx
    · rename_i k hc
      simp only [List.mem_singleton] at hx
      subst hx
      exact Or.inl ⟨_, rfl, .left h rfl
        (h.pass hc (by simp) (fun h => by cases h) (fun h => by cases h) rfl rfl trivial rfl rfl) rfl rfl rfl rfl rfl⟩
    · cases hx
  | find a =>
    simp only [stops, findStops] at hx
    split at hx
    · rename_i k hc
      rcases ofPoints_sat (Unwind.searchResident_pts _ _) hx hs with ⟨sh, h1, rfl⟩ | ⟨e, h1, h2⟩
      · refine Or.inl ⟨_, h1, .left h rfl ?_ rfl rfl rfl rfl rfl⟩
        refine h.move (a := a) (x := .idle) (f := s.flag a) rfl (flag_self _) rfl rfl (by rw [hc]; simp)
          (fun h => by cases h) (fun h => by cases h) h.shard (h.lock.dropRead (by rw [hc]; rfl)) trivial (fun b _ => h.ag b) ?_
        exact h.pl.same (by rw [resp_at' hc]; rfl) (by rw [wait_at' hc]; rfl)
      · refine Or.inr ⟨e, h1, ?_⟩
        rw [Unwind.run_searchResident] at h2
        simp [exec, find, hc, Sync.step, h2]
    · cases hx
  | tally a =>
    simp only [stops, tallyStops] at hx
    split at hx
    · rename_i k v hc
      split at hx
      · rename_i s1 ev he
        simp only [List.mem_singleton] at hx
        subst hx
        have he' := h.eff hq (act := .tally a) he
        refine Or.inl ⟨_, rfl, ?_⟩
        have hk := he'.keeps h
        cases he' with
        | hit hc' hsec =>
          exact .gone h rfl hk (hsec.keeps h.shard).2 (.same (hsec.read h.shard trivial).contents) rfl rfl rfl rfl
            (Sheds.of_read (hsec.read h.shard trivial))
        | miss hc' => rw [hc] at hc'; cases hc'
        | goOn hc' => rw [hc] at hc'; cases hc'
      · cases hx
    · cases hx
  | upsert a =>
    simp only [stops, upsertStops] at hx
    split at hx
    · rename_i k hc
      split at hx
      · rename_i hu
        obtain ⟨hw, hr⟩ := find_unlocked hu
        rw [List.mem_append] at hx
        rcases hx with hx | hx
        · rcases ofPoints_sat (Unwind.upsertPlaceholder_pts _ _ _) hx hs with ⟨sh, h1, rfl⟩ | ⟨e, h1, h2⟩
          · exact Or.inl ⟨_, h1, .left h rfl
              (h.vanish hc (by simp) rfl rfl hw hr h.shard (S := fun _ => False) .refl rfl rfl) rfl rfl rfl rfl rfl⟩
          · refine Or.inr ⟨e, h1, ?_⟩
            rw [Unwind.run_upsertPlaceholder] at h2
            simp [exec, upsert, hc, hu, Sync.step, h2]
        · split at hx
          · rename_i sh v q he
            simp only [List.mem_singleton] at hx
            subst hx
            refine Or.inl ⟨_, rfl, ?_⟩
            have he' := (sec_sat h.shard hq (sec := .upsert k) trivial).of_ok he
            have hI := he'.keeps h.shard
            have hct := he'.contents h.shard
            simp only [Section.asCall] at hct
            cases he' with
            | found t r hk wrote hits misses plh np =>
              have hsh : ∀ S, Sheds c s.shard sh S := fun S => ⟨⟨_, plh, fun _ _ => ⟨id, Or.inl⟩⟩, np⟩
              exact .gone h rfl (h.vanish hc (by simp) rfl rfl hw hr hI.1 (hsh (fun _ => False)) rfl rfl) hI.2 (.same hct.1)
                rfl rfl rfl rfl (hsh _)
          · cases hx
      · cases hx
    · cases hx
  | join a =>
    simp only [stops, joinStops] at hx
    split at hx
    · rename_i k p hc
      have hi : CInv c ((s.go a .idle).unlockWrite) := by
        refine h.move (a := a) (x := .idle) (f := s.flag a) rfl (flag_self _) rfl rfl (by rw [hc]; simp)
          (fun h => by cases h) (fun h => by cases h) h.shard (h.lock.dropWrite (by rw [hc]; rfl)) trivial (fun b _ => h.ag b) ?_
        exact h.pl.same (by rw [resp_at' hc]; rfl) (by rw [wait_at' hc]; rfl)
      have key : Kept c s (.join a) ((s.go a .idle).unlockWrite) := .left h rfl hi rfl rfl rfl rfl rfl
      split at hx
      · split at hx
        · split at hx
          · simp only [List.mem_singleton] at hx
            subst hx
            exact Or.inl ⟨_, rfl, key⟩
          · cases hx
        · simp only [List.mem_singleton] at hx
          subst hx
          exact Or.inl ⟨_, rfl, key⟩
        · cases hx
      · cases hx
    · cases hx
  | poll a w =>
    simp only [stops, pollStops] at hx
    split at hx
    · rename_i k p hc hk
      split at hx
      · cases hx
      · simp only [List.mem_singleton] at hx
        subst hx
        refine Or.inl ⟨_, rfl, .of h h (.refl _) (.same rfl) (fun b hb => ?_) (fun _ _ => ⟨rfl, id⟩) rfl (fun _ => rfl) .refl⟩
        cases hb
        exact .waiting hc hc rfl
    · cases hx
  | rejoin a =>
    simp only [stops, rejoinStops] at hx
    split at hx
    · rename_i k p hc
      split at hx
      · rename_i v hl
        split at hx
        · simp only [List.mem_singleton] at hx
          subst hx
          cases hs
        · simp only [List.mem_singleton] at hx
          subst hx
          refine Or.inl ⟨_, rfl, ?_⟩
          have he : exec c s (.rejoin a) = some (.ok ((s.go a .idle).unlockRead a, [.received a k p v])) := by
            simp [exec, rejoin, hc, hl]
          exact .left h rfl ((h.eff hq he).keeps h) rfl rfl rfl rfl rfl
      · cases hx
    · cases hx
  | publish a v =>
    simp only [stops, publishStops] at hx
    split at hx
    · rename_i k p hc
      split at hx
      · rename_i ps hp
        rw [List.mem_cons] at hx
        rcases hx with rfl | hx
        · refine Or.inl ⟨_, rfl, .of h ?_ (.refl _) (.same rfl) (fun b hb => ?_) (fun b hb => ?_) rfl (fun _ => rfl) .refl⟩
          · exact (Eff.drop hc).keeps h
          · cases hb
            exact .guard hc (by simp [State.go])
          · have hba : b ≠ a := by rintro rfl; exact hb rfl
            exact ⟨by simp [State.go, Function.update_of_ne hba], id⟩
        · obtain ⟨i, -, hi⟩ := List.mem_filterMap.mp hx
          split at hi
          · split at hi
            · cases hi; cases hs
            · cases hi
          · cases hi
      · cases hx
    · cases hx
  | store a =>
    simp only [stops, storeStops] at hx
    split at hx
    · rename_i k p v b hc
      have hwk : work s (.store a) = some (.insert k v) := by simp [work, hc]
      rw [List.mem_cons] at hx
      rcases hx with rfl | hx
      · exact Or.inl ⟨_, rfl, .left h rfl
          (h.pass hc (by simp) (fun h => by cases h) (fun h => by cases h) rfl rfl trivial rfl rfl) rfl rfl rfl rfl rfl⟩
      · split at hx
        · rename_i hu
          obtain ⟨hw, hr⟩ := find_unlocked hu
          rw [List.mem_append] at hx
          rcases hx with hx | hx
          · rcases ofPoints_sat (Unwind.fillSec_pts h.shard hq (h.fill hc)) hx hs with ⟨sh, h1, h2⟩ | ⟨e, h1, h2⟩
            · obtain ⟨hI, hcn⟩ := h2.keeps h.shard
              have hsh : Sheds c s.shard sh (Stores s (.store a)) :=
                h2.sheds.mono (by rintro k' ⟨rfl, -⟩; exact ⟨v, hwk⟩)
              refine Or.inl ⟨_, h1, .gone h rfl (h.vanish hc (by simp) rfl rfl hw hr hI hsh rfl rfl) hcn (.left hwk ?_)
                rfl rfl rfl rfl hsh⟩
              rcases h2.insert h.shard.toInv0 with h3 | ⟨h3, v1, st, st', pre, L, h4, h5, h6⟩ | ⟨log, h3⟩
              · rw [h3]; exact .nothing
              · exact .room (h.shard.toInv0.contents_none.mpr (h3.noRes h.shard.toInv0)) h4 h5 h6
              · exact .whole (out := .unit) (log := log) ⟨rfl, h3⟩
            · refine Or.inr ⟨e, h1, ?_⟩
              rw [Unwind.run_replacePlaceholder] at h2
              simp [exec, store, hc, hu, Sync.step, h2]
          · split at hx
            · rename_i sh q he
              simp only [List.mem_singleton] at hx
              subst hx
              refine Or.inl ⟨_, rfl, ?_⟩
              have he' := (sec_sat h.shard hq (h.fill hc)).of_ok he
              have hI := he'.keeps h.shard
              have hct := he'.contents h.shard
              simp only [Section.asCall] at hct
              cases he' with
              | filled hl hst plh np =>
                have hsh : Sheds c s.shard sh (Stores s (.store a)) := by
                  refine ⟨⟨_, plh, fun k' p' => ⟨fun h => h.1, fun hl' => ?_⟩⟩, np⟩
                  by_cases hp : p' = p
                  · subst hp
                    obtain ⟨⟨ph, g1, g2, -⟩, -⟩ := hl
                    obtain ⟨⟨ph', g3, g4, -⟩, -⟩ := hl'
                    rw [g1] at g3; cases g3
                    exact Or.inr ⟨v, by rw [hwk, ← g4, g2]⟩
                  · exact Or.inl ⟨hl', hp⟩
                exact .gone h rfl (h.vanish hc (by simp) rfl rfl hw hr hI.1 hsh rfl rfl) hI.2 (.left hwk (.whole hct))
                  rfl rfl rfl rfl hsh
            · cases hx
        · cases hx
    · cases hx
  | finishDrop a =>
    simp only [stops, dropStops] at hx
    split at hx
    · rename_i s1 a' p' b' evs he
      split at hx
      · simp only [List.mem_singleton] at hx
        subst hx
        refine Or.inl ⟨_, rfl, ?_⟩
        have he' := h.eff hq (act := .finishDrop a) he
        have hk := he'.keeps h
        cases he' with
        | @handOver _ b k p ps hc hp hk' hh hl hb =>
          refine .of h hk (.refl _) (.same rfl) (fun x hx => ?_) (fun x hx => ?_) rfl (fun i => ?_) .refl
          · cases hx
            exact .gone (by simp [State.go, State.unlockWrite])
          · have hxa : x ≠ a := by rintro rfl; exact hx rfl
            refine ⟨by simp [State.go, State.unlockWrite, State.notify, State.setPlh, Function.update_of_ne hxa], fun hf => ?_⟩
            by_cases hxb : x = b'
            · subst hxb; simp [State.go, State.unlockWrite, State.notify]
            · simp [State.go, State.unlockWrite, State.notify, State.setPlh, Function.update_of_ne hxb, hf]
          · by_cases hi : i = p'.id
            · subst hi; simp [State.go, State.unlockWrite, State.notify, State.setPlh, hp]
            · simp [State.go, State.unlockWrite, State.notify, State.setPlh, Function.update_of_ne hi]
      · cases hx
    · cases hx
  | call op =>
    simp only [stops, callStops] at hx
    split at hx
    · cases hx
    · rename_i r he
      have hop : op.shared := by
        unfold call at he
        cases op <;> trivial
      have hwk : work s (.call op) = some op := rfl
      have hlk : lockMode op = some true → s.writer = none ∧ s.readers = [] := by
        intro hm
        simp only [call, hm] at he
        split at he
        · rename_i hu
          exact find_unlocked hu
        · cases he
      have hex : ∀ e, Unsync.step c s.shard op = .error e → exec c s (.call op) = some (.error e) := by
        intro e h2
        show call c s op = _
        rw [he]
        have key : ∀ {b : Bool}, (if b = true then some (do
            let (sh, out, q) ← Sync.step c s.shard (.call op)
            .ok ({ s with shard := sh }, [.sect (.call op) out q.log])) else none : Outcome K V) = some r → r = .error e := by
          intro b hb
          cases b with
          | true => simpa [Sync.step, h2, eq_comm] using hb
          | false => cases hb
        rw [key he]
      have keep : ∀ {sh : Shard K V}, Unwind.Good c s.shard op sh → Sheds c s.shard sh (fun k => ∃ v, op = .insert k v) →
          (lockMode op = some true ∨ sh = s.shard) → Kept c s (.call op) { s with shard := sh } := by
        intro sh hg hsh hm
        have hI : CInv c { s with shard := sh } := by
          rcases hm with hm | rfl
          · obtain ⟨hw, hr⟩ := hlk hm
            exact h.written hw hr hg.inv hsh
          · exact h
        exact .of h hI hg.const (.left hwk hg.left) (fun a ha => by cases ha) (fun _ _ => ⟨rfl, id⟩) rfl (fun _ => rfl)
          (hsh.mono (by rintro k ⟨v, rfl⟩; exact ⟨v, rfl⟩))
      rw [List.mem_append] at hx
      rcases hx with hx | hx
      · rcases ofPoints_sat (((Unwind.step_pts h.shard op).and (Unwind.step_sheds h.shard hop)).and
          (Unwind.step_reads h.shard hop)) hx hs with ⟨sh, h1, ⟨h2, h3⟩, h4⟩ | ⟨e, h1, h2⟩
        · exact Or.inl ⟨_, h1, keep h2 h3 h4⟩
        · rw [Unwind.run_step] at h2
          exact Or.inr ⟨e, h1, hex e h2⟩
      · split at hx
        · rename_i k s1 sec v log
          simp only [List.mem_singleton] at hx
          subst hx
          have h1 := h.eff hq (act := .call (.peek k)) he
          cases h1 with
          | read _ _ => exact Or.inl ⟨_, rfl, keep (.refl h.shard) .refl (Or.inr rfl)⟩
          | write hop' => cases hop'
        · cases hx
  | begin | load | bump | startLoading | wake | timeout | relock | drop | lockDrop | cancel | abandon => cases hx

/-- Every state reached, actions interrupted or not, satisfies the invariant. -/
theorem Rough.reach {target cap gcap : Nat} {s0 : State K V} (hr : Rough c s0 s) (hq : c.ptrEq = true)
    (h0 : CReach c target cap gcap s0) : CReach c target cap gcap s := by
  induction hr with
  | start => exact h0
  | layout m p hr hm hp ih => exact ih.relayout hm hp
  | act hr hs ih => exact ih.step (ih.inv.eff hq hs)
  | interrupted hr hx safe left ih =>
    rcases stop_sat ih.inv hq hx safe with ⟨s1, h1, h2⟩ | ⟨e, h1, -⟩
    · rw [left] at h1; cases h1
      exact ⟨h2.inv, h2.inv.shard, h2.const.target.trans ih.reach.target, h2.const.capacity.trans ih.reach.capacity,
        h2.const.ghostCap.trans ih.reach.ghostCap⟩
    · rw [left] at h1; cases h1

end
end Conc
end QuickCache
