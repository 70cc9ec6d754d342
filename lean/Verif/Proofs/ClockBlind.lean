import Verif.Proofs.ClockTwin
import Mathlib.Data.List.Forall2

/-!
# Two runs of the abstract clock machine that differ in the hash function only show the same behaviour
-/

namespace QuickCache.Spec.Clock
variable {K V RS : Type _} [DecidableEq K] {c : Cfg K V RS} {hash' : K → UInt64} {S : K → Prop}

local notation "c′" => Cfg.rehash c hash'

/-! ### The lists do not depend on the ghosts -/

omit [DecidableEq K] in
theorem setList_ghosts (m : Clock K V) (g : List UInt64) (b : Bool) (l : List K) :
    ({ m with ghosts := g } : Clock K V).setList b l = { m.setList b l with ghosts := g } := by
  cases b <;> rfl

omit [DecidableEq K] in
theorem enlist_ghosts (m : Clock K V) (g : List UInt64) (b : Bool) (k : K) (w : Nat) :
    ({ m with ghosts := g } : Clock K V).enlist b k w = { m.enlist b k w with ghosts := g } := by
  unfold enlist
  split
  · rfl
  · exact setList_ghosts m g b _

theorem relist_ghosts (m : Clock K V) (g : List UInt64) (b : Bool) (k : K) (w0 w : Nat) :
    ({ m with ghosts := g } : Clock K V).relist b k w0 w = { m.relist b k w0 w with ghosts := g } := by
  unfold relist
  split
  · exact enlist_ghosts m g b k w
  · split
    · exact setList_ghosts m g b _
    · rfl

omit [DecidableEq K] in
theorem setList_same (m : Clock K V) (b : Bool) (l : List K) :
    (m.setList b l).items = m.items ∧ (m.setList b l).pending = m.pending ∧ (m.setList b l).ghosts = m.ghosts := by
  cases b <;> exact ⟨rfl, rfl, rfl⟩

omit [DecidableEq K] in
theorem enlist_same (m : Clock K V) (b : Bool) (k : K) (w : Nat) :
    (m.enlist b k w).items = m.items ∧ (m.enlist b k w).pending = m.pending ∧ (m.enlist b k w).ghosts = m.ghosts := by
  unfold enlist
  split
  · exact ⟨rfl, rfl, rfl⟩
  · exact setList_same m b _

theorem relist_keep (m : Clock K V) (b : Bool) (k : K) (w0 w : Nat) :
    (m.relist b k w0 w).items = m.items ∧ (m.relist b k w0 w).pending = m.pending ∧
      (m.relist b k w0 w).ghosts = m.ghosts := by
  unfold relist
  split
  · exact enlist_same m b k w
  · split
    · exact setList_same m b _
    · exact ⟨rfl, rfl, rfl⟩

/-! ### Making room does not bring a key back -/

/-- There is nothing about `k` in the cache. -/
structure Calm (c : Cfg K V RS) (S : K → Prop) (k : K) (m : Clock K V) : Prop where
  item : m.items k = none
  pending : m.pending k = none
  ghost : c.hash k ∉ m.ghosts
  all : ∀ x, m.items x ≠ none → S x

omit [DecidableEq K] in
theorem Calm.keep {k : K} {m m1 : Clock K V} (h : Calm c S k m) (hk : Keep m m1) : Calm c S k m1 :=
  ⟨none_of hk.items h.item, none_of hk.pending h.pending, by rw [hk.ghosts]; exact h.ghost,
    fun x hx => h.all x (hk.items x hx)⟩

omit [DecidableEq K] in
theorem mem_haunt {m : Clock K V} {h x : UInt64} (hx : x ∈ (m.haunt h).ghosts) : x ∈ m.ghosts ++ [h] := by
  simp only [haunt] at hx
  split at hx
  · exact List.mem_of_mem_tail hx
  · exact hx

theorem TurnCold.calm {k : K} {m m1 : Clock K V} {st st1 : RS} {L : List (Event K V)} {b : Bool} (h : Calm c S k m)
    (hi : ∀ a b, S a → S b → c.hash a = c.hash b → a = b) (hs : S k) (ht : TurnCold c m st L m1 st1 b) : Calm c S k m1 := by
  cases ht with
  | hot none turn => exact h.keep turn.keep
  | promote at_ here referenced shrink =>
    exact h.keep (Keep.trans (by exact ⟨fun _ h => h, rfl, put_keep here _⟩) shrink.keep)
  | spare at_ here unref before light => exact h.keep ⟨fun _ h => h, rfl, put_keep here _⟩
  | @evict k' l i _ v at_ here unref before still =>
    refine ⟨none_of (del_keep m k') h.item, h.pending, ?_, fun x hx => h.all x (del_keep m k' x hx)⟩
    have hne : c.hash k ∉ m.ghosts ++ [c.hash k'] := by
      simp only [List.mem_append, List.mem_singleton, not_or]
      refine ⟨h.ghost, fun he => ?_⟩
      have := hi k k' hs (h.all k' (by rw [here]; simp)) he
      subst this
      rw [h.item] at here
      cases here
    exact fun hm => hne (mem_haunt (m := { m.dropItem k' with cold := _ }) hm)

theorem Fit.calm {extra : Nat} {k : K} {m m1 : Clock K V} {st st1 : RS} {L : List (Event K V)}
    (hi : ∀ a b, S a → S b → c.hash a = c.hash b → a = b) (hs : S k) (hf : Fit c extra m st L m1 st1) (h : Calm c S k m) :
    Calm c S k m1 := by
  induction hf with
  | done => exact h
  | stop over turn => exact turn.calm h hi hs
  | more over turn rest ih => exact ih (turn.calm h hi hs)

/-! ### Storing -/

theorem del_idle {α : Type _} {f : K → Option α} {k : K} (h : f k = none) : del f k = f := by
  funext x
  by_cases hx : x = k
  · subst hx; simp [h]
  · rw [del_other _ hx]

theorem del_pending (m : Clock K V) (k : K) : ∀ k', del m.pending k k' ≠ none → m.pending k' ≠ none := by
  intro k' hk
  by_cases hx : k' = k
  · subst hx; simp at hk
  · rwa [del_other _ hx] at hk

section
variable (hi : ∀ a b, S a → S b → c.hash a = c.hash b → a = b) (hi' : ∀ a b, S a → S b → hash' a = hash' b → a = b)
include hi hi'

theorem Place.det {m m' m1 m2 : Clock K V} {st st1 st2 : RS} {L L2 : List (Event K V)} {k : K} {v : V} {used : Bool}
    (ht : Twin c hash' S m m') (hs : S k) (h : Place c m st k v used L m1 st1) (h2 : Place c′ m' st k v used L2 m2 st2) :
    L2 = L ∧ Twin c hash' S m1 m2 ∧ st2 = st1 := by
  have hmem := ht.mem_iff hi hi' hs
  have hun := fun {g g'} => ht.unhaunt hi hi' hs (g := g) (g' := g')
  have hm' := ht.eq
  generalize hg : m'.ghosts = g at hm' hmem hun
  subst hm'
  cases h with
  | overwrite here fit =>
    cases h2 with
    | overwrite here2 fit2 =>
      have := here.symm.trans here2
      cases this
      obtain ⟨e1, e2, e3⟩ := relist_keep (m.setItem k ⟨v, _, _⟩) _ k (c.weight k _) (c.weight k v)
      have htw := ht.keep (m1 := _) ⟨by rw [e2]; exact fun _ h => h, e3, by rw [e1]; exact put_keep here _⟩
      obtain ⟨rfl, a2, rfl⟩ := fit.det htw (by rw [← relist_ghosts]; exact fit2)
      exact ⟨rfl, a2, rfl⟩
    | loading absent2 => have := here.symm.trans absent2; cases this
    | ghost absent2 => have := here.symm.trans absent2; cases this
    | fresh absent2 => have := here.symm.trans absent2; cases this
  | loading absent pending fit =>
    cases h2 with
    | overwrite here2 => have := absent.symm.trans here2; cases this
    | loading _ pending2 fit2 =>
      have := pending.symm.trans pending2
      cases this
      obtain ⟨e1, e2, e3⟩ := enlist_same { m.setItem k ⟨v, _, 1⟩ with pending := del m.pending k } _ k (c.weight k v)
      have htw := ht.put (m1 := _) hs (ht.not_mem hi hs (.inr (by rw [pending]; simp))) e1 e2 e3
      obtain ⟨rfl, a2, rfl⟩ := fit.det htw (by rw [← enlist_ghosts]; exact fit2)
      exact ⟨rfl, a2, rfl⟩
    | ghost _ idle2 => have := pending.symm.trans idle2; cases this
    | fresh _ idle2 => have := pending.symm.trans idle2; cases this
  | ghost absent idle back fit =>
    cases h2 with
    | overwrite here2 => have := absent.symm.trans here2; cases this
    | loading _ pending2 => have := idle.symm.trans pending2; cases this
    | @ghost _ _ _ g' _ _ back2 fit2 =>
      obtain ⟨htw0, hnot⟩ := hun back back2
      obtain ⟨e1, e2, e3⟩ := enlist_same { m.setItem k ⟨v, true, 0⟩ with ghosts := _ } true k (c.weight k v)
      have htw := htw0.put (m1 := _) hs hnot e1 (e2.trans (del_idle idle).symm) e3
      obtain ⟨rfl, a2, rfl⟩ := fit.det htw (by rw [← enlist_ghosts]; exact fit2)
      exact ⟨rfl, a2, rfl⟩
    | fresh _ _ new2 => exact absurd (hmem.mpr back.mem) new2
  | @fresh mm _ _ absent idle new fit =>
    cases h2 with
    | overwrite here2 => have := absent.symm.trans here2; cases this
    | loading _ pending2 => have := idle.symm.trans pending2; cases this
    | ghost _ _ back2 => exact absurd (hmem.mp back2.mem) new
    | @fresh m1' _ _ _ _ new2 fit2 =>
      obtain ⟨rfl, a2, rfl⟩ := fit.det ht fit2
      have hc := fit.calm hi hs ⟨absent, idle, new, fun x hx => (ht.items x hx).1⟩
      refine ⟨rfl, ?_, rfl⟩
      generalize hb : decide (m.hotWeight c + c.weight k v ≤ m.target) = b
      have hb' : decide (({ m with ghosts := g } : Clock K V).hotWeight c′ + c′.weight k v ≤
        ({ m with ghosts := g } : Clock K V).target) = b := hb
      rw [hb']
      obtain ⟨g1, rfl⟩ : ∃ g1, m1' = { mm with ghosts := g1 } := ⟨_, a2.eq⟩
      obtain ⟨e1, e2, e3⟩ := enlist_same (mm.setItem k ⟨v, b, 0⟩) b k (c.weight k v)
      have htw := a2.put (m1 := _) hs hc.ghost e1 (e2.trans (del_idle hc.pending).symm) e3
      have key := enlist_ghosts (mm.setItem k ⟨v, b, 0⟩) g1 b k (c.weight k v)
      rw [← key] at htw
      exact htw

omit hi hi' in
omit [DecidableEq K] in
theorem Enter.det {t : Nat} {k : K} {v v1 v2 : V} {st st2 : RS} {L L2 : List (Event K V)} (h : Enter c t k v st L v1)
    (h2 : Enter c′ t k v st2 L2 v2) : L2 = L ∧ v2 = v1 ∧ st2 = st := by
  cases h with
  | direct fits =>
    cases h2 with
    | direct => exact ⟨rfl, rfl, rfl⟩
    | rewritten heavy free =>
      rcases fits with h | h
      · exact absurd h (Nat.not_le.mpr heavy)
      · have := h.symm.trans free; cases this
  | rewritten heavy free before =>
    cases h2 with
    | direct fits =>
      rcases fits with h | h
      · exact absurd h (Nat.not_le.mpr heavy)
      · have := h.symm.trans free; cases this
    | rewritten heavy2 free2 before2 =>
      have := before.symm.trans before2
      cases this
      exact ⟨rfl, rfl, rfl⟩

omit hi hi' in
theorem Twin.dropped {m m' : Clock K V} (ht : Twin c hash' S m m') (k : K) :
    Twin c hash' S ((m.dropItem k).delist k) ((m'.dropItem k).delist k) := by
  have := ht.keep (m1 := (m.dropItem k).delist k) ⟨fun _ h => h, rfl, del_keep m k⟩
  rw [ht.eq]
  exact this

theorem Insert.det {m m' m1 m2 : Clock K V} {L L2 : List (Event K V)} {k : K} {v : V}
    (ht : Twin c hash' S m m') (hs : S k) (h : Insert c m k v L m1) (h2 : Insert c′ m' k v L2 m2) :
    L2 = L ∧ Twin c hash' S m1 m2 := by
  have hx : m'.target = m.target ∧ m'.items = m.items := by rw [ht.eq]; exact ⟨rfl, rfl⟩
  obtain ⟨hx1, hx2⟩ := hx
  cases h with
  | rejected enter asked heavy =>
    cases h2 with
    | rejected enter2 asked2 heavy2 =>
      rw [hx1] at enter2
      obtain ⟨rfl, rfl, rfl⟩ := Enter.det enter enter2
      exact ⟨by rw [hx2], ht.dropped k⟩
    | stored enter2 fits2 place2 =>
      rw [hx1] at enter2 fits2
      obtain ⟨rfl, rfl, rfl⟩ := Enter.det enter enter2
      exact absurd (fits2 asked) (Nat.not_le.mpr heavy)
  | stored enter fits place =>
    cases h2 with
    | rejected enter2 asked2 heavy2 =>
      rw [hx1] at enter2 heavy2
      obtain ⟨rfl, rfl, rfl⟩ := Enter.det enter enter2
      exact absurd (fits asked2) (Nat.not_le.mpr heavy2)
    | stored enter2 fits2 place2 =>
      rw [hx1] at enter2
      obtain ⟨rfl, rfl, rfl⟩ := Enter.det enter enter2
      obtain ⟨rfl, a2, rfl⟩ := place.det hi hi' ht hs place2
      exact ⟨rfl, a2⟩

theorem Replacing.det {m m' m1 m2 : Clock K V} {L L2 : List (Event K V)} {k : K} {v : V} {soft : Bool} {r r2 : Option V}
    (ht : Twin c hash' S m m') (hs : S k) (h : Replacing c m k v soft L m1 r) (h2 : Replacing c′ m' k v soft L2 m2 r2) :
    L2 = L ∧ Twin c hash' S m1 m2 ∧ r2 = r := by
  have hx : m'.target = m.target ∧ m'.items = m.items := by rw [ht.eq]; exact ⟨rfl, rfl⟩
  obtain ⟨hx1, hx2⟩ := hx
  cases h with
  | rejected enter asked heavy =>
    cases h2 with
    | rejected enter2 asked2 heavy2 =>
      rw [hx1] at enter2
      obtain ⟨rfl, rfl, rfl⟩ := Enter.det enter enter2
      exact ⟨by rw [hx2], ht.dropped k, rfl⟩
    | absent enter2 fits2 =>
      rw [hx1] at enter2 fits2
      obtain ⟨rfl, rfl, rfl⟩ := Enter.det enter enter2
      exact absurd (fits2 asked) (Nat.not_le.mpr heavy)
    | stored enter2 fits2 =>
      rw [hx1] at enter2 fits2
      obtain ⟨rfl, rfl, rfl⟩ := Enter.det enter enter2
      exact absurd (fits2 asked) (Nat.not_le.mpr heavy)
  | absent enter fits absent =>
    cases h2 with
    | rejected enter2 asked2 heavy2 =>
      rw [hx1] at enter2 heavy2
      obtain ⟨rfl, rfl, rfl⟩ := Enter.det enter enter2
      exact absurd (fits asked2) (Nat.not_le.mpr heavy2)
    | absent enter2 fits2 =>
      rw [hx1] at enter2
      obtain ⟨rfl, rfl, rfl⟩ := Enter.det enter enter2
      exact ⟨rfl, ht, rfl⟩
    | stored enter2 fits2 here2 =>
      rw [hx2, absent] at here2
      cases here2
  | stored enter fits here place =>
    cases h2 with
    | rejected enter2 asked2 heavy2 =>
      rw [hx1] at enter2 heavy2
      obtain ⟨rfl, rfl, rfl⟩ := Enter.det enter enter2
      exact absurd (fits asked2) (Nat.not_le.mpr heavy2)
    | absent enter2 fits2 absent2 =>
      rw [hx2, here] at absent2
      cases absent2
    | stored enter2 fits2 here2 place2 =>
      rw [hx1] at enter2
      obtain ⟨rfl, rfl, rfl⟩ := Enter.det enter enter2
      obtain ⟨rfl, a2, rfl⟩ := place.det hi hi' ht hs place2
      exact ⟨rfl, a2, rfl⟩

theorem Lookup.det {m m' m1 m2 : Clock K V} {k : K} {r r2 : Option V} (ht : Twin c hash' S m m') (hs : S k)
    (h : Lookup c m k r m1) (h2 : Lookup c′ m' k r2 m2) : r2 = r ∧ Twin c hash' S m1 m2 := by
  have hmem := ht.mem_iff hi hi' hs
  have hun := fun {g g'} => ht.unhaunt hi hi' hs (g := g) (g' := g')
  obtain ⟨g, rfl⟩ : ∃ g, m' = { m with ghosts := g } := ⟨_, ht.eq⟩
  cases h with
  | found here =>
    cases h2 with
    | found here2 =>
      have := here.symm.trans here2
      cases this
      exact ⟨rfl, ht.keep ⟨fun _ h => h, rfl, put_keep here _⟩⟩
    | loading absent2 => have := here.symm.trans absent2; cases this
    | ghost absent2 => have := here.symm.trans absent2; cases this
    | fresh absent2 => have := here.symm.trans absent2; cases this
  | loading absent pending =>
    cases h2 with
    | found here2 => have := absent.symm.trans here2; cases this
    | loading => exact ⟨rfl, ht⟩
    | ghost _ idle2 => have := pending.symm.trans idle2; cases this
    | fresh _ idle2 => have := pending.symm.trans idle2; cases this
  | ghost absent idle back =>
    cases h2 with
    | found here2 => have := absent.symm.trans here2; cases this
    | loading _ pending2 => have := idle.symm.trans pending2; cases this
    | ghost _ _ back2 =>
      obtain ⟨a1, a2⟩ := hun back back2
      exact ⟨rfl, a1.load hs a2 absent rfl rfl rfl⟩
    | fresh _ _ new2 => exact absurd (hmem.mpr back.mem) new2
  | fresh absent idle new =>
    cases h2 with
    | found here2 => have := absent.symm.trans here2; cases this
    | loading _ pending2 => have := idle.symm.trans pending2; cases this
    | ghost _ _ back2 => exact absurd (hmem.mp back2.mem) new
    | fresh => exact ⟨rfl, ht.load hs new absent rfl rfl rfl⟩

omit hi' in
theorem Fill.det {m m' m1 m2 : Clock K V} {L L2 : List (Event K V)} {k : K} {v : V}
    (ht : Twin c hash' S m m') (hs : S k) {waited : Bool} (h : Fill c m k v waited L m1)
    (h2 : Fill c′ m' k v waited L2 m2) :
    L2 = L ∧ Twin c hash' S m1 m2 := by
  obtain ⟨g, rfl⟩ : ∃ g, m' = { m with ghosts := g } := ⟨_, ht.eq⟩
  cases h with
  | rejected enter asked heavy =>
    cases h2 with
    | rejected enter2 asked2 heavy2 =>
      obtain ⟨rfl, rfl, rfl⟩ := Enter.det enter enter2
      exact ⟨rfl, ht.keep ⟨del_pending m k, rfl, fun _ h => h⟩⟩
    | weightless enter2 fits2 =>
      obtain ⟨rfl, rfl, rfl⟩ := Enter.det enter enter2
      exact absurd (fits2 asked) (Nat.not_le.mpr heavy)
    | stored enter2 fits2 =>
      obtain ⟨rfl, rfl, rfl⟩ := Enter.det enter enter2
      exact absurd (fits2 asked) (Nat.not_le.mpr heavy)
  | weightless enter fits pending light =>
    cases h2 with
    | rejected enter2 asked2 heavy2 =>
      obtain ⟨rfl, rfl, rfl⟩ := Enter.det enter enter2
      exact absurd (fits asked2) (Nat.not_le.mpr heavy2)
    | weightless enter2 fits2 pending2 light2 =>
      obtain ⟨rfl, rfl, rfl⟩ := Enter.det enter enter2
      have := pending.symm.trans pending2
      cases this
      exact ⟨rfl, ht.put hs (ht.not_mem hi hs (.inr (by rw [pending]; simp))) rfl rfl rfl⟩
    | stored enter2 fits2 pending2 heavy2 =>
      obtain ⟨rfl, rfl, rfl⟩ := Enter.det enter enter2
      exact absurd light heavy2
  | @stored _ _ v1 _ _ b hot _ enter fits pending heavy level fit =>
    cases h2 with
    | rejected enter2 asked2 heavy2 =>
      obtain ⟨rfl, rfl, rfl⟩ := Enter.det enter enter2
      exact absurd (fits asked2) (Nat.not_le.mpr heavy2)
    | weightless enter2 fits2 pending2 light2 =>
      obtain ⟨rfl, rfl, rfl⟩ := Enter.det enter enter2
      exact absurd light2 heavy
    | @stored _ _ _ _ _ b2 hot2 _ enter2 fits2 pending2 heavy2 level2 fit2 =>
      obtain ⟨rfl, rfl, rfl⟩ := Enter.det enter enter2
      have := pending.symm.trans pending2
      cases this
      have hlev : hot2 = hot := level2.trans level.symm
      subst hlev
      obtain ⟨e1, e2, e3⟩ := setList_same
        { m.setItem k ⟨_, hot2, if waited then 1 else 0⟩ with pending := del m.pending k } hot2
        (m.list hot2 ++ [k])
      have htw := ht.put (m1 := _) hs (ht.not_mem hi hs (.inr (by rw [pending]; simp))) e1 e2 e3
      have fit2' := fit2
      rw [show ({ m with ghosts := g } : Clock K V).list hot2 = m.list hot2 from rfl] at fit2'
      obtain ⟨rfl, a2, rfl⟩ := fit.det htw (by rw [← setList_ghosts]; exact fit2')
      exact ⟨rfl, a2⟩

theorem Remove.det {m m' m1 m2 : Clock K V} {k : K} (ht : Twin c hash' S m m') (hs : S k)
    (h : Remove c m k m1) (h2 : Remove c′ m' k m2) : Twin c hash' S m1 m2 := by
  have hmem := ht.mem_iff hi hi' hs
  have hun := fun {g g'} => ht.unhaunt hi hi' hs (g := g) (g' := g')
  have hdr := ht.dropped k
  obtain ⟨g, rfl⟩ : ∃ g, m' = { m with ghosts := g } := ⟨_, ht.eq⟩
  cases h with
  | item here =>
    cases h2 with
    | item => exact hdr
    | loading absent2 => have := here.symm.trans absent2; cases this
    | ghost absent2 => have := here.symm.trans absent2; cases this
    | nothing absent2 => have := here.symm.trans absent2; cases this
  | loading absent pending =>
    cases h2 with
    | item here2 => have := absent.symm.trans here2; cases this
    | loading => exact ht.keep ⟨del_pending m k, rfl, fun _ h => h⟩
    | ghost _ idle2 => have := pending.symm.trans idle2; cases this
    | nothing _ idle2 => have := pending.symm.trans idle2; cases this
  | ghost absent idle back =>
    cases h2 with
    | item here2 => have := absent.symm.trans here2; cases this
    | loading _ pending2 => have := idle.symm.trans pending2; cases this
    | ghost _ _ back2 => exact (hun back back2).1
    | nothing _ _ new2 => exact absurd (hmem.mpr back.mem) new2
  | nothing absent idle new =>
    cases h2 with
    | item here2 => have := absent.symm.trans here2; cases this
    | loading _ pending2 => have := idle.symm.trans pending2; cases this
    | ghost _ _ back2 => exact absurd (hmem.mp back2.mem) new
    | nothing => exact ht

omit hi' in
theorem Guarded.det {m m' m1 m2 : Clock K V} {k : K} {use : GuardUse V} {L L2 : List (Event K V)}
    (ht : Twin c hash' S m m') (hs : S k) (h : Guarded c m k use L m1) (h2 : Guarded c′ m' k use L2 m2) :
    L2 = L ∧ Twin c hash' S m1 m2 := by
  cases h with
  | insert fill => cases h2 with | insert fill2 => exact fill.det hi ht hs fill2
  | drop =>
    cases h2 with
    | drop =>
      have := ht.keep (m1 := { m with pending := del m.pending k }) ⟨del_pending m k, rfl, fun _ h => h⟩
      rw [ht.eq]
      exact ⟨rfl, this⟩
  | forget => cases h2 with | forget => exact ⟨rfl, ht⟩

omit hi hi' in
theorem Twin.touch {m m' : Clock K V} (ht : Twin c hash' S m m') (k : K) :
    Twin c hash' S (m.touch k) (m'.touch k) := by
  obtain ⟨g, rfl⟩ : ∃ g, m' = { m with ghosts := g } := ⟨_, ht.eq⟩
  unfold Clock.touch
  cases h : m.items k with
  | none => exact ht
  | some i => exact ht.keep ⟨fun _ h => h, rfl, put_keep h _⟩

omit hi hi' in
theorem Twin.write {m m' : Clock K V} (ht : Twin c hash' S m m') (k : K) (f : V → V) :
    Twin c hash' S (m.write c k f) (m'.write c′ k f) := by
  obtain ⟨g, rfl⟩ : ∃ g, m' = { m with ghosts := g } := ⟨_, ht.eq⟩
  unfold Clock.write
  cases h : m.items k with
  | none => exact ht
  | some i =>
    obtain ⟨e1, e2, e3⟩ := relist_keep (m.setItem k { i with value := f i.value }) i.hot k (c.weight k i.value)
      (c.weight k (f i.value))
    have htw := ht.keep (m1 := _) ⟨by rw [e2]; exact fun _ h => h, e3, by rw [e1]; exact put_keep h _⟩
    have key := relist_ghosts (m.setItem k { i with value := f i.value }) g i.hot k (c.weight k i.value)
      (c.weight k (f i.value))
    rw [← key] at htw
    exact htw

omit hi hi' in
omit [DecidableEq K] in
theorem Twin.value {m m' : Clock K V} (ht : Twin c hash' S m m') : m'.value = m.value := by
  rw [ht.eq]; rfl

omit hi hi' in
omit [DecidableEq K] in
theorem Twin.empty (t cap g : Nat) : Twin c hash' S (.empty t cap g : Clock K V) (.empty t cap g) :=
  ⟨rfl, ⟨[], rfl, rfl, .nil, fun _ h => by cases h⟩, fun _ h => absurd rfl h, fun _ h => absurd rfl h⟩

/-! ### Calls -/

omit hi hi' in
omit [DecidableEq K] in
theorem nodup_of_map {l : List (K × V)} (h : (l.map (·.1)).Nodup) : l.Nodup :=
  List.Pairwise.of_map (·.1) (fun _ _ hne he => hne (by rw [he])) h

omit hi hi' in
omit [DecidableEq K] in
theorem Lists.perm {l l' : List (K × V)} {m : K → Option V} (h : Lists l m) (h' : Lists l' m) : l.Perm l' := by
  refine (List.perm_ext_iff_of_nodup (nodup_of_map h.1) (nodup_of_map h'.1)).mpr ?_
  rintro ⟨k, v⟩
  rw [h.2, h'.2]

theorem Step.det {m m' m1 m2 : Clock K V} {op : Op K V} {o o2 : Out K V} {L L2 : List (Event K V)}
    (ht : Twin c hash' S m m') (hs : ∀ k, op.key? = some k → S k) (h : Step c m op o L m1) (h2 : Step c′ m' op o2 L2 m2) :
    L2 = L ∧ SameOut o o2 ∧ Twin c hash' S m1 m2 := by
  have hv := ht.value
  cases h with
  | insert h =>
    cases h2 with
    | insert h2 =>
      obtain ⟨rfl, a⟩ := h.det hi hi' ht (hs _ rfl) h2
      exact ⟨rfl, .same _, a⟩
  | replace h =>
    cases h2 with
    | replace h2 =>
      obtain ⟨rfl, a, rfl⟩ := h.det hi hi' ht (hs _ rfl) h2
      exact ⟨rfl, .same _, a⟩
  | remove h =>
    cases h2 with
    | remove h2 =>
      rw [hv]
      exact ⟨rfl, .same _, h.det hi hi' ht (hs _ rfl) h2⟩
  | get => cases h2 with | get => rw [hv]; exact ⟨rfl, .same _, ht.touch _⟩
  | peek => cases h2 with | peek => rw [hv]; exact ⟨rfl, .same _, ht⟩
  | containsKey => cases h2 with | containsKey => rw [hv]; exact ⟨rfl, .same _, ht⟩
  | getMut => cases h2 with | getMut => rw [hv]; exact ⟨rfl, .same _, (ht.touch _).write _ _⟩
  | peekMut => cases h2 with | peekMut => rw [hv]; exact ⟨rfl, .same _, ht.write _ _⟩
  | @retain f =>
    cases h2 with
    | retain =>
      refine ⟨rfl, .same _, ?_⟩
      have := ht.keep (m1 := m.filter f) ⟨fun _ h => h, rfl, fun k hk he => hk (by simp only [filter, he]; rfl)⟩
      rw [ht.eq]
      exact this
  | clear => cases h2 with | clear => rw [ht.eq]; exact ⟨rfl, .same _, .empty _ _ _⟩
  | drain all =>
    cases h2 with
    | drain all2 =>
      rw [hv] at all2
      refine ⟨rfl, .items (Lists.perm all all2), ?_⟩
      rw [ht.eq]
      exact .empty _ _ _
  | reserve => cases h2 with | reserve => exact ⟨rfl, .same _, ht⟩
  | loadHit h =>
    cases h2 with
    | loadHit h2 =>
      obtain ⟨e, a⟩ := h.det hi hi' ht (hs _ rfl) h2
      cases e
      exact ⟨rfl, .same _, a⟩
    | loadFail h2 => obtain ⟨e, a⟩ := h.det hi hi' ht (hs _ rfl) h2; cases e
    | load h2 => obtain ⟨e, a⟩ := h.det hi hi' ht (hs _ rfl) h2; cases e
  | loadFail h =>
    cases h2 with
    | loadHit h2 => obtain ⟨e, a⟩ := h.det hi hi' ht (hs _ rfl) h2; cases e
    | loadFail h2 =>
      obtain ⟨e, a⟩ := h.det hi hi' ht (hs _ rfl) h2
      exact ⟨rfl, .same _, a⟩
  | load h fill =>
    cases h2 with
    | loadHit h2 => obtain ⟨e, a⟩ := h.det hi hi' ht (hs _ rfl) h2; cases e
    | load h2 fill2 =>
      obtain ⟨e, a⟩ := h.det hi hi' ht (hs _ rfl) h2
      obtain ⟨rfl, a'⟩ := fill.det hi a (hs _ rfl) fill2
      rw [a'.value]
      exact ⟨rfl, .same _, a'⟩
  | loadMutHit h =>
    cases h2 with
    | loadMutHit h2 =>
      obtain ⟨e, a⟩ := h.det hi hi' ht (hs _ rfl) h2
      cases e
      exact ⟨rfl, .same _, a.write _ _⟩
    | loadMutFail h2 => obtain ⟨e, a⟩ := h.det hi hi' ht (hs _ rfl) h2; cases e
    | loadMut h2 => obtain ⟨e, a⟩ := h.det hi hi' ht (hs _ rfl) h2; cases e
  | loadMutFail h =>
    cases h2 with
    | loadMutHit h2 => obtain ⟨e, a⟩ := h.det hi hi' ht (hs _ rfl) h2; cases e
    | loadMutFail h2 =>
      obtain ⟨e, a⟩ := h.det hi hi' ht (hs _ rfl) h2
      exact ⟨rfl, .same _, a⟩
  | loadMut h fill =>
    cases h2 with
    | loadMutHit h2 => obtain ⟨e, a⟩ := h.det hi hi' ht (hs _ rfl) h2; cases e
    | loadMut h2 fill2 =>
      obtain ⟨e, a⟩ := h.det hi hi' ht (hs _ rfl) h2
      obtain ⟨rfl, a'⟩ := fill.det hi a (hs _ rfl) fill2
      rw [a'.value]
      exact ⟨rfl, .same _, a'.write _ _⟩
  | guardHit h =>
    cases h2 with
    | guardHit h2 =>
      obtain ⟨e, a⟩ := h.det hi hi' ht (hs _ rfl) h2
      cases e
      exact ⟨rfl, .same _, a⟩
    | guard h2 => obtain ⟨e, a⟩ := h.det hi hi' ht (hs _ rfl) h2; cases e
  | guard h use =>
    cases h2 with
    | guardHit h2 => obtain ⟨e, a⟩ := h.det hi hi' ht (hs _ rfl) h2; cases e
    | guard h2 use2 =>
      obtain ⟨e, a⟩ := h.det hi hi' ht (hs _ rfl) h2
      obtain ⟨rfl, a'⟩ := use.det hi a (hs _ rfl) use2
      exact ⟨rfl, .same _, a'⟩
  | guardMutHit h =>
    cases h2 with
    | guardMutHit h2 =>
      obtain ⟨e, a⟩ := h.det hi hi' ht (hs _ rfl) h2
      cases e
      exact ⟨rfl, .same _, a.write _ _⟩
    | guardMut h2 => obtain ⟨e, a⟩ := h.det hi hi' ht (hs _ rfl) h2; cases e
  | guardMut h use =>
    cases h2 with
    | guardMutHit h2 => obtain ⟨e, a⟩ := h.det hi hi' ht (hs _ rfl) h2; cases e
    | guardMut h2 use2 =>
      obtain ⟨e, a⟩ := h.det hi hi' ht (hs _ rfl) h2
      obtain ⟨rfl, a'⟩ := use.det hi a (hs _ rfl) use2
      exact ⟨rfl, .same _, a'⟩

theorem Run.det {m0 m0' m : Clock K V} {h : List (Unsync.Call K V)} (ht : Twin c hash' S m0 m0') (hr : Run c m0 h m) :
    ∀ {h' : List (Unsync.Call K V)} {m' : Clock K V}, (∀ x ∈ h, ∀ k, x.op.key? = some k → S k) → Run c′ m0' h' m' →
      h.map (·.op) = h'.map (·.op) → List.Forall₂ SameCall h h' ∧ Twin c hash' S m m' := by
  induction hr with
  | start =>
    intro h' m' hs hr' he
    cases hr' with
    | start => exact ⟨.nil, ht⟩
    | call => simp at he
  | @call h m m1 x hr hx ih =>
    intro h' m' hs hr' he
    cases hr' with
    | start => simp at he
    | @call h' m' m1' x' hr' hx' =>
      simp only [List.map_append, List.map_cons, List.map_nil] at he
      obtain ⟨he1, he2⟩ := List.append_inj' he rfl
      have hop : x.op = x'.op := by simpa using he2
      obtain ⟨a1, a2⟩ := ih (fun y hy => hs y (List.mem_append_left _ hy)) hr' he1
      rw [← hop] at hx'
      obtain ⟨b1, b2, b3⟩ := hx.det hi hi' a2 (hs x (by simp)) hx'
      exact ⟨List.rel_append a1 (.cons ⟨hop, b2, b1.symm⟩ .nil), b3⟩

end

end QuickCache.Spec.Clock
