import Verif.Proofs.History

/-!
# Weight of what can be evicted
-/

namespace QuickCache
variable {K V RS : Type _}
open Shard Unsync Spec

section
variable {c : Cfg K V RS} {s s' : Shard K V}

theorem Entering.evictable_le {q q1 : Req K V RS} {k : K} {v v1 : V} (he : Entering c s q k v q1 v1)
    (adm : q1 = q ∨ c.weight k v1 ≤ s.weightTargetHot) : evictable c k v1 ≤ s.weightTargetHot := by
  unfold evictable
  cases he with
  | direct hw =>
    split
    · exact Nat.zero_le _
    · rename_i hp
      rcases Nat.lt_or_ge s.weightTargetHot (c.weight k v) with h | h
      · exact absurd ⟨h, by simpa using hp⟩ hw
      · exact h
  | before hw hp hb =>
    have h1 : c.weight k v1 ≤ s.weightTargetHot := by
      rcases adm with rfl | h
      · have := congrArg (fun x => x.1.log) hb
        simp [Req.before] at this
      · exact h
    split <;> omega

theorem Res.of_bind {α β : Type _} {x : Res α} {f : α → Res β} {y : β} (h : (x >>= f) = .ok y) :
    ∃ a, x = .ok a ∧ f a = .ok y := by
  cases x with
  | ok a => exact ⟨a, rfl, h⟩
  | error p => cases h

/-- Once the eviction loop has ended, the unpinned items weigh no more than the capacity. -/
theorem evW_done {k : K} {v : V} {cap : Nat} (hi : Inv0 c s') (hb : evictable c k v ≤ cap)
    (h : s'.weightHot + s'.weightCold ≤ cap ∨
      ∀ t r', s'.entries.item t = some (.resident r') → c.weight r'.key r'.value ≠ 0 →
        c.pinned r'.key r'.value = true ∨ (r'.key = k ∧ r'.value = v)) : evW c s' ≤ cap := by
  rcases h with h | h
  · have := hi.evW_le
    omega
  have hz : ∀ u r', s'.entries.item u = some (.resident r') → r'.key ≠ k → evictable c r'.key r'.value = 0 := by
    intro u r' hu hne
    unfold evictable
    by_cases hw : c.weight r'.key r'.value = 0
    · rw [hw]; split <;> rfl
    · rcases h u r' hu hw with hp | ⟨hk', -⟩
      · rw [if_pos hp]
      · exact absurd hk' hne
  have hvv : ∀ u r', s'.entries.item u = some (.resident r') → evictable c r'.key r'.value ≤ cap := by
    intro u r' hu
    by_cases hw : c.weight r'.key r'.value = 0
    · unfold evictable; rw [hw]; split <;> exact Nat.zero_le _
    · rcases h u r' hu hw with hp | ⟨hk', hv'⟩
      · unfold evictable; rw [if_pos hp]; exact Nat.zero_le _
      · rw [hk', hv']; exact hb
  unfold evW
  rw [sumBy_range]
  by_cases hex : ∃ u r', s'.entries.item u = some (.resident r') ∧ r'.key = k
  · obtain ⟨u, r', hu, hk'⟩ := hex
    refine sum_single u ?_ (by rw [hu]; exact hvv u r' hu)
    intro t' ht'
    cases he : s'.entries.item t' with
    | none => rfl
    | some e =>
      cases e with
      | resident r2 =>
        refine hz t' r2 he ?_
        intro hk2
        exact ht' (hi.uniqRes t' u r2 r' he hu (hk2.trans hk'.symm))
      | placeholder p => rfl
      | ghost g => rfl
  · refine sum_single 0 ?_ ?_
    · intro t' _
      cases he : s'.entries.item t' with
      | none => rfl
      | some e =>
        cases e with
        | resident r2 => exact hz t' r2 he (fun hk2 => hex ⟨t', r2, he, hk2⟩)
        | placeholder p => rfl
        | ghost g => rfl
    · cases he : s'.entries.item 0 with
      | none => exact Nat.zero_le _
      | some e =>
        cases e with
        | resident r2 => exact hvv 0 r2 he
        | placeholder p => exact Nat.zero_le _
        | ghost g => exact Nat.zero_le _

theorem PutEff.evW_le {q q' : Req K V RS} {k : K} {v : V} {str : Strategy}
    (h : PutEff c s q k v str s' q') (hb : evictable c k v ≤ s.weightCapacity) :
    (c.weight k v = 0 ∧ evW c s' ≤ evW c s) ∨ evW c s' ≤ s.weightCapacity := by
  obtain ⟨s1, s2, qa, qb, t, old, r, pre, wrote, hk, hv, href, hold, post, fits, fresh, done, same, once⟩ := h
  rcases done with h | h | h
  · left
    refine ⟨h, ?_⟩
    have h1 := pre.evW_le
    have h2 := wrote.evW
    have h3 := post.evW_le
    have h4 : evF c (some (.resident r)) = 0 := by
      simp only [evF, evictable, hk, hv, h]; split <;> rfl
    omega
  · right
    exact evW_done post.inv hb (Or.inl (by rw [← same.capacity]; exact h))
  · right
    exact evW_done post.inv hb (Or.inr h)

/-- An item that passed the overweight check on its way through `insert` or `replace`, whatever its weight: afterwards the
unpinned items weigh no more than the capacity. -/
theorem Shard.Admit.evW_le {q q' : Req K V RS} {k : K} {v : V} {str : Strategy}
    (h : Shard.Admit c s q k v str (s', q', none)) (hb : evictable c k v ≤ s.weightCapacity) : evW c s' ≤ s.weightCapacity := by
  have after : ∀ {s3 : Shard K V} {qb : Req K V RS}, Same s s3 → AfterEvict c s3 qb s' q' → evW c s' ≤ s.weightCapacity := by
    intro s3 qb hs ha
    have hc := (hs.trans ha.post.same).capacity
    refine evW_done ha.post.inv hb ?_
    rcases ha.done with h | h
    · exact Or.inl (by omega)
    · exact Or.inr (fun t r' h1 h2 => Or.inl (h t r' h1 h2))
  generalize hx : ((s', q', none) : Shard K V × Req K V RS × Option V) = x at h
  cases h with
  | overwrite t r s3 s2 q2 ht hk same wrote ha => cases hx; exact after same ha
  | revive t s3 s2 q2 hstr ht hk same wrote ha => cases hx; exact after same ha
  | fill t ph s3 s2 q2 hstr ht hm hk hno same wrote ha => cases hx; exact after same ha
  | fresh t st s1 s2 q2 hstr hk hg post done fits hst same wrote run =>
    cases hx
    refine evW_done wrote.inv hb ?_
    have ht := wrote.total post.inv
    have hc := same.capacity
    have hc' := post.same.capacity
    simp only [totF] at ht
    rcases done with h | h
    · left; omega
    · right
      intro u r' hu hw
      by_cases hut : u = t
      · subst hut
        rw [wrote.upd.after] at hu; cases hu
        exact Or.inr ⟨rfl, rfl⟩
      · rw [wrote.upd.other hut] at hu
        exact Or.inl (h u r' hu hw)
  | absent => cases hx

/-- `Shard::insert` that ends with the item stored. -/
theorem Shard.Inserted.evW_le {q q' : Req K V RS} {k : K} {v : V} {str : Strategy}
    (h : Shard.Inserted c s q k v str (s', q', none)) (ht : s.weightTargetHot ≤ s.weightCapacity)
    (hadm : c.pinned k v = true ∨ Shard.addWeight c s q k v ≤ s.weightTargetHot) : evW c s' ≤ s.weightCapacity := by
  have direct {v : V} (hw : ¬ (s.weightTargetHot < c.weight k v ∧ c.pinned k v = false)) : evictable c k v ≤ s.weightCapacity := by
    unfold evictable
    split
    · exact Nat.zero_le _
    · rename_i hp
      by_cases hw' : s.weightTargetHot < c.weight k v
      · exact absurd ⟨hw', by simpa using hp⟩ hw
      · omega
  generalize hx : ((s', q', none) : Shard K V × Req K V RS × Option V) = x at h
  cases h with
  | direct hw ha => subst hx; exact ha.evW_le (direct hw)
  | shrunk q1 v1 hw hp hb hw1 ha => subst hx; exact ha.evW_le (direct (by omega))
  | rejected q1 v1 hw hp hb hw1 ha =>
    exfalso
    rcases hadm with h | h
    · rw [h] at hp; cases hp
    · unfold Shard.addWeight at h
      rw [if_pos ⟨hw, hp⟩, hb] at h
      dsimp only at h
      omega

theorem RejEff.evW_le {q q' : Req K V RS} {k : K} (h : RejEff c s q k s' q') : evW c s' ≤ evW c s := by
  cases h with
  | old t r hk same wrote => have := wrote.evW; simp only [evF] at this; omega
  | plh t ph hk hno same wrote => have := wrote.evW; simp only [evF] at this; omega
  | none => exact Nat.le_refl _

theorem StoreEff.evW_le {q : Req K V RS} {k : K} {v : V} {str : Strategy} {x : Shard K V × Req K V RS × Option V}
    (h : StoreEff c s q k v str x) (ht : s.weightTargetHot ≤ s.weightCapacity) :
    evW c x.1 ≤ max (evW c s) s.weightCapacity := by
  cases h with
  | put q1 v1 he adm hp =>
    have h1 := he.evictable_le adm
    rcases hp.evW_le (by omega) with ⟨-, h⟩ | h <;> simp only <;> omega
  | reject q1 v1 hw hp hb hw1 hr =>
    have := hr.evW_le
    cases str <;> simp only <;> omega
  | absent => simp only; omega

end

theorem total_perm (f : K → V → Nat) {l l' : List (K × V)} (h : l.Perm l') : total f l = total f l' :=
  (h.map _).sum_nat

section
variable [DecidableEq K] {c : Cfg K V RS} {s s' : Shard K V}

theorem evW_of_contents {s s' : Shard K V} (h : Inv0 c s) (h' : Inv0 c s') (he : s'.contents = s.contents) :
    evW c s' = evW c s := by
  rw [evW_iter, evW_iter]
  have h1 := lists_iter h
  have h2 := lists_iter h'
  rw [he] at h2
  exact total_perm _ (h2.perm h1)

/-- A call that stores an item, on slots. -/
theorem StepEff.stores {op : Op K V} {x : Shard K V × Out K V × Req K V RS} (hi : Inv0 c s) (h : StepEff c s op x) {k : K} {v : V}
    (hst : Stores s.contents op x.2.1 k v) : ∃ s1 str, Inv0 c s1 ∧ Const s s1 ∧ s1.info = s.info ∧
      s1.weightHot + s1.weightCold = s.weightHot + s.weightCold ∧ StoreEff c s1 c.begin k v str (x.1, x.2.2, none) ∧
      (op = .insert k v → s1 = s ∧ str = .insert) ∧ (∀ soft, op = .replace k v soft → s1 = s ∧ str = .replace soft) ∧
      ((∀ k v soft, op ≠ .replace k v soft) → str = .insert) := by
  have hitNo : ∀ {k : K} {t : Nat} {r : Resident K V} {s' : Shard K V} {new : Option (Entry K V)}, r.key = k →
      Wrote c s s' t (some (.resident r)) new → s.contents k ≠ none := by
    intro k t r s' new hk w hno
    rw [slot_contents hi w.upd.before hk] at hno; cases hno
  cases h with
  | insert h => cases hst with | insert => exact ⟨s, _, hi, .refl s, rfl, rfl, h, fun _ => ⟨rfl, rfl⟩, by simp, by simp⟩
  | @replace k' v' soft s' q r h =>
    generalize ho : Out.replaced (r.map fun v'' => (k', v'')) = out at hst
    cases hst with
    | replace =>
      cases r with
      | none =>
        refine ⟨s, _, hi, .refl s, rfl, rfl, h, by simp, ?_, fun hh => absurd rfl (hh _ _ _)⟩
        rintro soft' h'; cases h'; exact ⟨rfl, rfl⟩
      | some w => cases ho
  | removeHit => cases hst
  | removeIdle => cases hst
  | removeNone => cases hst
  | hit hop t r hk wrote =>
    have := hitNo hk wrote
    cases hop <;> cases hst <;> exact absurd ‹_› this
  | miss hop hno => cases hop <;> cases hst
  | peek => cases hst
  | contains => cases hst
  | retain => cases hst
  | clear => cases hst
  | drain => cases hst
  | reserve => cases hst
  | leave hop hp => cases hop <;> cases hst
  | drop hop hp => cases hop <;> cases hst
  | fill hop hp h taken =>
    cases hop <;> cases hst <;>
      exact ⟨_, _, hp.inv, hp.const, hp.info hi, hp.total, h, by simp, by simp, by simp⟩
  | fillMutOut hp h hno taken => cases hst
  | fillMut hp h taken t r hk wrote same => cases hst

theorem step_calm {op : Op K V} {x : Shard K V × Out K V × Req K V RS} (hi : Inv0 c s) (he : StepEff c s op x)
    (ht : s.weightTargetHot ≤ s.weightCapacity) (hc : Calm c ⟨op, x.2.1, x.2.2.log⟩) :
    evW c x.1 ≤ max (evW c s) s.weightCapacity := by
  have noBig : ∀ {s' : Shard K V}, Inv0 c s' → (∀ t, s'.entries.item t = none) → evW c s' = 0 := by
    intro s' h0 hz
    unfold evW
    rw [sumBy_range]
    exact Nat.le_zero.mp (sum_single 0 (fun t _ => by rw [hz]; rfl) (by rw [hz]; exact Nat.le_refl _))
  have afterPending : ∀ {k : K} {s1 : Shard K V} {p : Plh} {v : V} {y : Shard K V × Req K V RS × Option V},
      Pending c s k s1 p → StoreEff c s1 c.begin k v .insert y → evW c y.1 ≤ max (evW c s) s.weightCapacity := by
    intro k s1 p v y hp h
    have := h.evW_le (by rw [hp.target, hp.capacity]; exact ht)
    rwa [evW_of_contents hi hp.inv (hp.contents hi), hp.capacity] at this
  have drained : evW c s.drain.1 = 0 := by
    obtain ⟨h1, -, h2, -⟩ := Shard.drain_spec hi
    exact noBig h1 h2
  cases he with
  | insert h => exact h.evW_le ht
  | replace h => exact h.evW_le ht
  | removeHit t r hk wrote same => have := wrote.evW; simp only [evF] at this ⊢; omega
  | removeIdle t e he hno wrote same => have := wrote.evW; simp only [evF] at this ⊢; omega
  | removeNone => exact Nat.le_max_left _ _
  | hit hop t r hk wrote hits misses =>
    have h1 := wrote.evW
    subst hk
    cases hop with
    | get => simp only [evF] at h1 ⊢; simp only [id] at h1; omega
    | getMut k f => simp only [evF, Calm] at h1 hc ⊢; omega
    | peekMut k f => simp only [evF, Calm] at h1 hc ⊢; omega
    | getOrInsertWith => simp only [evF] at h1 ⊢; simp only [id] at h1; omega
    | getMutOrInsertWith => simp only [evF, Calm] at h1 hc ⊢; omega
    | getRefOrGuard => simp only [evF] at h1 ⊢; simp only [id] at h1; omega
    | getMutOrGuard => simp only [evF, Calm] at h1 hc ⊢; omega
  | miss => exact Nat.le_max_left _ _
  | peek => exact Nat.le_max_left _ _
  | contains => exact Nat.le_max_left _ _
  | retain inv same ghosts drop keep map =>
    rename_i f s'
    have : evW c s' ≤ evW c s := by
      rw [evW_iter, evW_iter]
      have hfil : s'.contents = fun k => (s.contents k).filter (f k) :=
        (StepEff.opSpec hi (StepEff.retain inv same ghosts drop keep map)).2.2
      have hl : Lists (s.iter.filter (fun p => f p.1 p.2)) s'.contents := by
        have := lists_iter hi
        constructor
        · exact this.1.sublist (List.filter_sublist.map _)
        · intro k v
          rw [List.mem_filter, this.2 k v, hfil]
          simp [Option.filter_eq_some_iff]
      rw [total_perm _ ((lists_iter inv).perm hl)]
      unfold total
      generalize s.iter = l
      induction l with
      | nil => simp
      | cons a l ih =>
        rw [List.filter_cons]
        split <;> simp only [List.map_cons, List.sum_cons] <;> omega
    simp only; omega
  | clear => have : evW c s.clear = 0 := drained; simp only; omega
  | drain => simp only; omega
  | reserve => exact Nat.le_max_left _ _
  | leave hop hp => rw [evW_of_contents hi hp.inv (hp.contents hi)]; exact Nat.le_max_left _ _
  | drop hop hp inv same entries wgt ghosts map =>
    have h1 := evW_of_contents hi hp.inv (hp.contents hi)
    simp only [evW, entries] at h1 ⊢
    omega
  | fill hop hp h taken => exact afterPending hp h
  | fillMutOut hp h hno taken => exact afterPending hp h
  | fillMut hp h taken t r hk wrote same =>
    have h1 := afterPending hp h
    have h2 := wrote.evW
    subst hk
    simp only [evF, Calm] at h1 h2 hc ⊢
    omega

end
end QuickCache
