import Verif.Model.UnitTests
import Verif.Proofs.Dict
import Verif.Proofs.Validate
import Verif.Props.Clock
import Verif.Props.Default

/-!
# The unit tests of `unsync::Cache` never fail: proof
-/

namespace QuickCache.UnitTests
open Spec Unsync Props
variable {K V RS : Type} [DecidableEq K] {c : Cfg K V RS} {lay : Layout K V} {target cap gcap : Nat}

omit [DecidableEq K] in
theorem assert_ok {p : Prop} [Decidable p] (h : p) : Shard.assert p = .ok () := by
  unfold Shard.assert; rw [if_pos h]

theorem relaid (hl : lay.Fair) {h : List (Call K V)} {s : Shard K V} (hr : Run c (Shard.new target cap gcap) h s) (n : Nat) :
    Run c (Shard.new target cap gcap) h (lay n s) := by
  obtain ⟨m, p, e, hm, hp⟩ := hl n s
  rw [e]
  exact .layout m p hr hm hp

theorem relaid_contents (hl : lay.Fair) (n : Nat) (s : Shard K V) : (lay n s).contents = s.contents := by
  obtain ⟨m, p, e, -, -⟩ := hl n s
  rw [e]; rfl

omit [DecidableEq K] in
theorem relaid_iter (hl : lay.Fair) (n : Nat) (s : Shard K V) : (lay n s).iter = s.iter := by
  obtain ⟨m, p, e, -, -⟩ := hl n s
  rw [e]; rfl

theorem validates {h : List (Call K V)} {s : Shard K V} (hr : Run c (Shard.new target cap gcap) h s)
    (hw : total c.weight s.iter < 2 ^ 64) (hc : total c.weight s.iter ≤ cap) : s.validate c false = .ok () := by
  have hi := hr.reach_new.inv
  have h1 : total (evictable c) s.iter ≤ total c.weight s.iter := by
    unfold total
    refine List.sum_le_sum fun p _ => ?_
    unfold evictable
    split <;> omega
  rw [hi.toInv0.total_iter] at hw
  refine hi.validate hw (fun _ => ?_)
  rw [evW_iter, hr.reach_new.capacity]
  omega

/-! ### Tests in which there is always room -/

/-- Conditions under which a call on the dictionary `d` is sure to behave. -/
def safe (w : K → V → Nat) (target cap : Nat) (d : Dict K V) : Op K V → Bool
  | .insert k v => fits k v
  | .getOrInsertWith k (some v) | .getRefOrGuard k (.insert v) => (d.lookup k).isSome || fits k v
  | .getMut k f | .peekMut k f => writes k f
  | .getMutOrGuard k f use => writes k f && match use with
    | .insert v => (d.lookup k).isSome || fits k v
    | _ => true
  | .replace .. | .getMutOrInsertWith .. | .drain => false
  | _ => true
where
  fits (k : K) (v : V) : Bool :=
    w k v ≤ target && total w (Dict.store d k v) ≤ cap && decide (total w d + w k v < 2 ^ 64)
  writes (k : K) (f : V → V) : Bool :=
    match d.lookup k with
    | some v => decide (total w d + w k (f v) < 2 ^ 64)
    | none => true

/-- The test passes on a dictionary, and there is always room. -/
def passes (w : K → V → Nat) (target cap : Nat) : List (Stmt K V) → Dict K V → Nat → Bool
  | [], _, _ => true
  | .call op check :: rest, d, a =>
    safe w target cap d op && check (Dict.answer d op) && passes w target cap rest (Dict.after d op) a
  | .note :: rest, d, _ => decide (total w d < 2 ^ 64) && passes w target cap rest d (total w d)
  | .weighs f :: rest, d, a => decide (total w d < 2 ^ 64) && decide (total w d = f a) && passes w target cap rest d a
  | .validate :: rest, d, a => decide (total w d < 2 ^ 64) && decide (total w d ≤ cap) && passes w target cap rest d a

theorem fits_of {d : Dict K V} {k : K} {v : V} (h : safe.fits c.weight target cap d k v = true) :
    c.weight k v ≤ target ∧ total c.weight (Dict.store d k v) ≤ cap ∧ total c.weight d + c.weight k v < 2 ^ 64 := by
  simpa [safe.fits, and_assoc] using h

theorem safe_room {d : Dict K V} {op : Op K V} (h : safe c.weight target cap d op = true) :
    Dict.HasRoom c target cap d op ∧ Dict.InRange c target d op ∧ op ≠ .drain := by
  have room : ∀ {k : K} {v : V}, safe.fits c.weight target cap d k v = true →
      (c.weight k v ≤ target ∨ c.pinned k v = true) ∧ total c.weight (Dict.store d k v) ≤ cap :=
    fun hf => ⟨.inl (fits_of hf).1, (fits_of hf).2.1⟩
  have range : ∀ {k : K} {v : V}, safe.fits c.weight target cap d k v = true →
      total c.weight d + enterWeight c target k v < 2 ^ 64 := by
    intro k v hf
    rw [(enterValue_of (c := c) (.inl (fits_of hf).1)).2.1]
    exact (fits_of hf).2.2
  have writes : ∀ {k : K} {v : V} {f : V → V}, safe.writes c.weight d k f = true → d.lookup k = some v →
      total c.weight d + c.weight k (f v) < 2 ^ 64 := by
    intro k v f hf hk
    unfold safe.writes at hf
    rw [hk] at hf
    simpa using hf
  refine ⟨⟨?_, ?_⟩, ?_, ?_⟩
  · rintro ⟨k, v⟩ hp
    cases op with
    | insert k' v' =>
      cases hp
      exact room h
    | replace => cases h
    | getOrInsertWith k' load =>
      cases load with
      | none => cases hp
      | some v' =>
        simp only [Dict.stored] at hp
        simp only [safe] at h
        split at hp
        · cases hp
        · cases hp
          refine room ?_
          simpa [*] using h
    | getRefOrGuard k' use =>
      cases use with
      | insert v' =>
        simp only [Dict.stored] at hp
        simp only [safe] at h
        split at hp
        · cases hp
        · cases hp
          refine room ?_
          simpa [*] using h
      | drop | forget => cases hp
    | getMutOrGuard k' f use =>
      cases use with
      | insert v' =>
        simp only [Dict.stored] at hp
        simp only [safe, Bool.and_eq_true] at h
        split at hp
        · cases hp
        · cases hp
          refine room ?_
          simpa [*] using h.2
      | drop | forget => cases hp
    | getMutOrInsertWith => cases h
    | _ => cases hp
  · rintro k v soft rfl
    cases h
  · intro w ha
    cases ha with
    | insert k v => exact range h
    | replace => cases h
    | getMut f here => exact writes h here
    | peekMut f here => exact writes h here
    | loadMutHit => cases h
    | guardMutHit f use here =>
      simp only [safe, Bool.and_eq_true] at h
      exact writes h.1 here
    | load v absent => refine range ?_; simpa [safe, absent] using h
    | guard v absent => refine range ?_; simpa [safe, absent] using h
    | guardMut f v absent =>
      refine range ?_
      simp only [safe, Bool.and_eq_true] at h
      simpa [absent] using h.2
    | loadMut => cases h
  · rintro rfl
    cases h

omit [DecidableEq K] in
theorem sameOut_eq {x y : Out K V} (h : SameOut x y) (hn : ∀ l, x ≠ .items l) : x = y := by
  cases h with
  | same => rfl
  | items => exact absurd rfl (hn _)

theorem answer_items {d : Dict K V} {op : Op K V} (hn : op ≠ .drain) (l : List (K × V)) : Dict.answer d op ≠ .items l := by
  cases op with
  | drain => exact absurd rfl hn
  | getOrInsertWith k load => intro h; simp only [Dict.answer] at h; split at h <;> cases h
  | getMutOrInsertWith k load f => intro h; simp only [Dict.answer] at h; split at h <;> cases h
  | _ => intro h; cases h

theorem execAll_ok (hl : lay.Fair) : ∀ {test : List (Stmt K V)} {d : Dict K V} {w : World K V} {h : List (Call K V)},
    Run c (Shard.new target cap gcap) h w.shard → Lists d w.shard.contents → passes c.weight target cap test d w.a = true →
    h.length + test.length < 2 ^ 32 - 2 → execAll c lay test w = .ok () := by
  intro test
  induction test with
  | nil => intros; rfl
  | cons st rest ih =>
    intro d w h hr hd hp hn
    rw [List.length_cons] at hn
    have htot := hr.lists.total hd c.weight
    unfold execAll
    cases st with
    | call op check =>
      simp only [passes, Bool.and_eq_true] at hp
      obtain ⟨⟨hsafe, hcheck⟩, hrest⟩ := hp
      obtain ⟨hroom, hrange, hdr⟩ := safe_room hsafe
      obtain ⟨s', out, q, hs⟩ := hr.dict_returns hd hrange (by omega)
      obtain ⟨h1, h2, h3⟩ := hr.dict_call hd hs hroom
      have hout := sameOut_eq h1 (answer_items hdr)
      simp only [exec, hs, Res.ok_bind]
      rw [assert_ok (by rw [← hout]; exact hcheck)]
      simp only [Res.ok_bind]
      refine ih (relaid hl (Run.call hr hs) _) ?_ hrest ?_
      · rw [relaid_contents hl]; exact h3
      · rw [List.length_append, List.length_singleton]; omega
    | note =>
      simp only [passes, Bool.and_eq_true, decide_eq_true_eq] at hp
      simp only [exec]
      rw [C04_returns hr (by rw [htot]; exact hp.1)]
      simp only [Res.ok_bind]
      exact ih hr hd (by rw [htot]; exact hp.2) (by omega)
    | weighs f =>
      simp only [passes, Bool.and_eq_true, decide_eq_true_eq] at hp
      simp only [exec]
      rw [C04_returns hr (by rw [htot]; exact hp.1.1)]
      simp only [Res.ok_bind]
      rw [assert_ok (by rw [htot]; exact hp.1.2)]
      exact ih hr hd hp.2 (by omega)
    | validate =>
      simp only [passes, Bool.and_eq_true, decide_eq_true_eq] at hp
      simp only [exec]
      rw [validates hr (by rw [htot]; exact hp.1.1) (by rw [htot]; exact hp.1.2)]
      exact ih hr hd hp.2 (by omega)

/-- The cache that a test is run on. -/
theorem run_eq (par items weight : Nat) (test : List (Stmt K V)) : run c lay par items weight test =
    execAll c lay test ⟨Shard.new (fracOf weight defaultHot) weight (fracOf items defaultGhost), 0, 0⟩ := rfl

theorem run_ok (hl : lay.Fair) {par items weight : Nat} {test : List (Stmt K V)}
    (hp : passes c.weight (fracOf weight defaultHot) weight test [] 0 = true) (hn : test.length < 2 ^ 32 - 2) :
    run c lay par items weight test = .ok () := by
  rw [run_eq]
  exact execAll_ok hl .start .nil hp (by rw [List.length_nil]; omega)

/-! ### Tests with evictions: as with another hash function -/

/-- The keys of a test. -/
def keys (test : List (Stmt K V)) : List K :=
  test.filterMap fun
    | .call op _ => op.key?
    | _ => none

/-- The test has no `drain` and no `validate`. -/
def noDrain (test : List (Stmt K V)) : Bool :=
  test.all fun
    | .call .drain _ => false
    | .validate => false
    | _ => true

theorem step_items {h : List (Call K V)} {s s' : Shard K V} (hr : Run c (Shard.new target cap gcap) h s) {op : Op K V}
    {out : Out K V} {q : Req K V RS} (hs : step c s op = .ok (s', out, q)) (hn : op ≠ .drain) (l : List (K × V)) :
    out ≠ .items l := by
  have := hr.opSpec hs
  rintro rfl
  cases op with
  | drain => exact hn rfl
  | replace k v soft => obtain ⟨r, h, -⟩ := this; cases h
  | getOrInsertWith k load | getMutOrInsertWith k load f =>
    simp only [OpSpec] at this
    split at this
    · cases this.1
    · cases this.1
    · first | cases this.2 | (obtain ⟨_, _, h, _⟩ := this; cases h)
  | getRefOrGuard k use | getMutOrGuard k f use =>
    simp only [OpSpec] at this
    split at this <;> cases this.1
  | _ => cases this.1

theorem count_le {h : List (Call K V)} {s : Shard K V} (hr : Run c (Shard.new target cap gcap) h s) :
    s.iter.length ≤ h.length := by
  refine Nat.le_trans ?_ (C24_calls hr)
  exact Nat.le_trans (List.length_filterMap_le ..) (List.length_filterMap_le ..)

omit [DecidableEq K] in
theorem total_le {B : Nat} (hB : ∀ k v, c.weight k v ≤ B) (l : List (K × V)) : total c.weight l ≤ l.length * B := by
  unfold total
  induction l with
  | nil => simp
  | cons x l ih =>
    rw [List.map_cons, List.sum_cons, List.length_cons, Nat.add_mul, Nat.one_mul]
    have := hB x.1 x.2
    omega

omit [DecidableEq K] in
theorem enterWeight_le {B : Nat} (hB : ∀ k v, c.weight k v ≤ B) (k : K) (v : V) : enterWeight c target k v ≤ B := by
  unfold enterWeight
  split <;> exact hB _ _

theorem small {B : Nat} (hB : ∀ k v, c.weight k v ≤ B) {h : List (Call K V)} {s : Shard K V}
    (hr : Run c (Shard.new target cap gcap) h s) (hn : (h.length + 2) * B < 2 ^ 64) : total c.weight s.iter < 2 ^ 64 := by
  have h1 := total_le hB s.iter
  have h2 := Nat.mul_le_mul_right B (count_le hr)
  rw [Nat.add_mul] at hn
  omega

theorem returns {B : Nat} (hB : ∀ k v, c.weight k v ≤ B) {h : List (Call K V)} {s : Shard K V}
    (hr : Run c (Shard.new target cap gcap) h s) (hn : (h.length + 2) * B < 2 ^ 64) (hm : h.length < 2 ^ 32 - 2) (op : Op K V) :
    ∃ s' out q, step c s op = .ok (s', out, q) := by
  refine C06_returns hr op (fun w hw => ?_) (Nat.lt_of_le_of_lt (C24_calls hr) hm)
  have h1 := total_le hB s.iter
  have h2 := Nat.mul_le_mul_right B (count_le hr)
  rw [Nat.add_mul] at hn
  have h3 : w ≤ 2 * B := by
    have a1 := fun k v => hB k v
    have a2 := fun k v => enterWeight_le (target := target) hB k v
    cases hw with
    | insert k v => have := a2 k v; omega
    | replace k v => have := a2 k v; omega
    | @getMut k v f => have := a1 k (f v); omega
    | @peekMut k v f => have := a1 k (f v); omega
    | @loadMutHit k v _ f => have := a1 k (f v); omega
    | @guardMutHit k v f => have := a1 k (f v); omega
    | @load k v => have := a2 k v; omega
    | @guard k v => have := a2 k v; omega
    | @guardMut k f v => have := a2 k v; omega
    | @loadMut k v w f => have := a1 k (f w); have := a2 k v; omega
  omega

theorem rehashed {hash' : K → UInt64} {lay' : Layout K V} (hl : lay.Fair) (hl' : lay'.Fair) {B : Nat}
    (hB : ∀ k v, c.weight k v ≤ B) {S : K → Prop} (hd : ∀ a b, S a → S b → c.hash a = c.hash b → a = b)
    (hd' : ∀ a b, S a → S b → hash' a = hash' b → a = b) :
    ∀ {test : List (Stmt K V)} {w w' : World K V} {h h' : List (Call K V)},
    Run c (Shard.new target cap gcap) h w.shard → Run (c.rehash hash') (Shard.new target cap gcap) h' w'.shard →
    h.map (·.op) = h'.map (·.op) → w.a = w'.a → (∀ k ∈ keysOf h, S k) → (∀ k ∈ keys test, S k) → noDrain test = true →
    h.length + test.length < 2 ^ 32 - 2 → (h.length + test.length + 2) * B < 2 ^ 64 → execAll c lay test w = .ok () →
    execAll (c.rehash hash') lay' test w' = .ok () := by
  intro test
  induction test with
  | nil => intros; rfl
  | cons st rest ih =>
    intro w w' h h' hr hr' hops ha hk hkt hnd hn hb hok
    have hdis : Distinct c.hash h := fun a ha b hb => hd a b (hk a ha) (hk b hb)
    have hdis' : Distinct hash' h := fun a ha b hb => hd' a b (hk a ha) (hk b hb)
    have hlen : h'.length = h.length := by
      have := congrArg List.length hops
      simpa using this.symm
    rw [List.length_cons] at hn hb
    have hb0 : (h.length + 2) * B < 2 ^ 64 := Nat.lt_of_le_of_lt (Nat.mul_le_mul_right B (by omega)) hb
    have hlists : Lists w.shard.iter w'.shard.contents := by
      refine ⟨hr.lists.1, fun k v => ?_⟩
      rw [← (C58_hash_blind hr hr' hops hdis hdis').2 k v, hr'.lists.2]
    have htot : total c.weight w'.shard.iter = total c.weight w.shard.iter := hr'.lists.total hlists _
    have hB' : ∀ k v, (c.rehash hash').weight k v ≤ B := hB
    have hw1 := C04_returns hr (small hB hr hb0)
    have hw2 : w'.shard.weight = .ok (total c.weight w.shard.iter) := by
      have := C04_returns hr' (small hB' hr' (by rw [hlen]; exact hb0))
      rw [this, ← htot]
      rfl
    unfold execAll at hok ⊢
    have hrest : ∀ k ∈ keys rest, S k := by
      intro k hk'
      refine hkt k ?_
      unfold keys at hk' ⊢
      rw [List.filterMap_cons]
      split
      · exact hk'
      · exact List.mem_cons_of_mem _ hk'
    have hnd' : noDrain rest = true := by
      unfold noDrain at hnd ⊢
      rw [List.all_cons, Bool.and_eq_true] at hnd
      exact hnd.2
    cases st with
    | call op check =>
      have hdr : op ≠ .drain := by
        rintro rfl
        cases hnd
      obtain ⟨s1, out, q, hs⟩ := returns hB hr hb0 (by omega) op
      obtain ⟨s1', out', q', hs'⟩ := returns hB' hr' (by rw [hlen]; exact hb0) (by omega) op
      have hk1 : ∀ k ∈ keysOf (h ++ [⟨op, out, q.log⟩]), S k := by
        intro k hm
        unfold keysOf at hm
        rw [List.filterMap_append, List.mem_append] at hm
        rcases hm with hm | hm
        · exact hk k hm
        · refine hkt k ?_
          obtain ⟨x, hx, hx'⟩ := List.mem_filterMap.1 hm
          cases List.mem_singleton.1 hx
          unfold keys
          exact List.mem_filterMap.2 ⟨.call op check, List.mem_cons_self, hx'⟩
      have hops1 : (h ++ [(⟨op, out, q.log⟩ : Call K V)]).map (·.op) = (h' ++ [(⟨op, out', q'.log⟩ : Call K V)]).map (·.op) := by
        simp only [List.map_append, hops, List.map_cons, List.map_nil]
      have h58 := (C58_hash_blind (Run.call hr hs) (Run.call hr' hs') hops1
        (fun a ha b hb => hd a b (hk1 a ha) (hk1 b hb)) (fun a ha b hb => hd' a b (hk1 a ha) (hk1 b hb))).1
      have hlast := (List.forall₂_iff_get.1 h58).2 h.length (by simp) (by simp [hlen])
      have hout : out = out' := by
        have := hlast.out
        simp only [List.get_eq_getElem, List.getElem_concat_length] at this
        rw [List.getElem_append_right (by omega)] at this
        simp only [hlen, Nat.sub_self, List.getElem_cons_zero] at this
        exact sameOut_eq this (step_items hr hs hdr)
      subst hout
      simp only [exec, hs, Res.ok_bind] at hok
      simp only [exec, hs', Res.ok_bind]
      by_cases hc : check out = true
      · rw [assert_ok hc] at hok ⊢
        simp only [Res.ok_bind] at hok ⊢
        refine ih (w := ⟨lay w.calls s1, w.calls + 1, w.a⟩) (w' := ⟨lay' w'.calls s1', w'.calls + 1, w'.a⟩)
          (relaid hl (Run.call hr hs) _) (relaid hl' (Run.call hr' hs') _) hops1 ha hk1 hrest hnd' ?_ ?_ hok
        · rw [List.length_append, List.length_singleton]; omega
        · rw [List.length_append, List.length_singleton, show h.length + 1 + rest.length = h.length + (rest.length + 1) by omega]
          exact hb
      · unfold Shard.assert at hok
        rw [if_neg hc] at hok
        cases hok
    | note =>
      simp only [exec, hw1, Res.ok_bind] at hok
      simp only [exec, hw2, Res.ok_bind]
      refine ih (w := ⟨w.shard, w.calls, total c.weight w.shard.iter⟩)
        (w' := ⟨w'.shard, w'.calls, total c.weight w.shard.iter⟩) hr hr' hops rfl hk hrest hnd' (by omega) ?_ hok
      exact Nat.lt_of_le_of_lt (Nat.mul_le_mul_right B (by omega)) hb
    | weighs f =>
      simp only [exec, hw1, Res.ok_bind] at hok
      simp only [exec, hw2, Res.ok_bind]
      by_cases hc : total c.weight w.shard.iter = f w.a
      · rw [assert_ok hc] at hok
        rw [assert_ok (by rw [← ha]; exact hc)]
        simp only [Res.ok_bind] at hok ⊢
        refine ih hr hr' hops ha hk hrest hnd' (by omega) ?_ hok
        exact Nat.lt_of_le_of_lt (Nat.mul_le_mul_right B (by omega)) hb
      · unfold Shard.assert at hok
        rw [if_neg hc] at hok
        cases hok
    | validate => cases hnd

end QuickCache.UnitTests
