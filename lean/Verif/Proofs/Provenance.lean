import Verif.Spec.Provenance
import Verif.Spec.Sharded
import Verif.Spec.Ops

/-!
# Where values come from: proof
-/

namespace QuickCache.Spec
variable {K V RS : Type _} [DecidableEq K] {c : Cfg K V RS} {target : Nat} {P : K → V → Prop}

/-- All items of the map are in the relation. -/
def Holds (P : K → V → Prop) (m : K → Option V) : Prop := ∀ k v, m k = some v → P k v

omit [DecidableEq K] in
theorem Holds.none : Holds P (fun _ => none) := by intro k v h; cases h

theorem Holds.put {m : K → Option V} (h : Holds P m) {k : K} {v : V} (hv : P k v) : Holds P (put m k v) := by
  intro k' v' h'
  unfold Spec.put at h'
  split at h'
  · rename_i hk; cases h'; rw [hk]; exact hv
  · exact h _ _ h'

theorem Holds.del {m : K → Option V} (h : Holds P m) (k : K) : Holds P (del m k) := by
  intro k' v' h'
  unfold Spec.del at h'
  split at h'
  · cases h'
  · exact h _ _ h'

theorem Holds.alter {m : K → Option V} (h : Holds P m) {k : K} {f : V → V} (hf : ∀ v, P k v → P k (f v)) :
    Holds P (alter m k f) := by
  intro k' v' h'
  unfold Spec.alter at h'
  split at h'
  · rename_i hk
    rw [Option.map_eq_some_iff] at h'
    obtain ⟨v, hv, rfl⟩ := h'
    rw [hk]
    exact hf _ (h _ _ hv)
  · exact h _ _ h'

/-- What the lifecycle is told is in the relation. -/
def Tells (P : K → V → Prop) (log : List (Event K V)) : Prop := ∀ x ∈ log.flatMap told, P x.1 x.2

omit [DecidableEq K] in
theorem Tells.nil : Tells P [] := by intro x h; cases h

omit [DecidableEq K] in
theorem Tells.append {l l' : List (Event K V)} (h : Tells P l) (h' : Tells P l') : Tells P (l ++ l') := by
  intro x hx
  rw [List.flatMap_append, List.mem_append] at hx
  exact hx.elim (h x) (h' x)

omit [DecidableEq K] in
theorem Tells.before {k : K} {v v' : V} {l : List (Event K V)} (h1 : P k v) (h2 : P k v') (h : Tells P l) :
    Tells P (.beforeEvict k v v' :: l) := by
  intro x hx
  simp only [List.flatMap_cons, told, List.cons_append, List.mem_cons] at hx
  rcases hx with rfl | rfl | hx
  · exact h1
  · exact h2
  · exact h x (by simpa using hx)

omit [DecidableEq K] in
theorem Tells.on {k : K} {v : V} {l : List (Event K V)} (h1 : P k v) (h : Tells P l) : Tells P (.onEvict k v :: l) := by
  intro x hx
  simp only [List.flatMap_cons, told, List.cons_append, List.mem_cons] at hx
  rcases hx with rfl | hx
  · exact h1
  · exact h x (by simpa using hx)

omit [DecidableEq K] in
theorem Survives.before (hs : Survives c P) {st st1 : RS} {k : K} {v v' : V} (hb : c.beforeEvict st k v = (st1, v'))
    (hv : P k v) : P k v' := by
  have h := hs st k v hv
  rw [hb] at h
  exact h

theorem Evicts.keeps (hs : Survives c P) {m m' : K → Option V} {st st' : RS} {log : List (Event K V)}
    (h : Evicts c m st log m' st') (hm : Holds P m) : Holds P m' ∧ Tells P log := by
  induction h with
  | nil => exact ⟨hm, .nil⟩
  | spare here heavy free before light rest ih =>
    have h1 := hm _ _ here
    have h2 := hs.before before h1
    obtain ⟨h3, h4⟩ := ih (hm.put h2)
    exact ⟨h3, .before h1 h2 h4⟩
  | evict here heavy free before still rest ih =>
    have h1 := hm _ _ here
    have h2 := hs.before before h1
    obtain ⟨h3, h4⟩ := ih (hm.del _)
    exact ⟨h3, .before h1 h2 (.on h2 h4)⟩

omit [DecidableEq K] in
theorem Enter.keeps (hs : Survives c P) {k : K} {v v1 : V} {st : RS} {pre : List (Event K V)}
    (h : Enter c target k v st pre v1) (hv : P k v) : P k v1 ∧ Tells P pre := by
  cases h with
  | direct => exact ⟨hv, .nil⟩
  | rewritten heavy free before =>
    have h2 := hs c.beginReq _ _ hv
    rw [before] at h2
    exact ⟨h2, .before hv h2 .nil⟩

theorem Store.keeps (hs : Survives c P) {m m' : K → Option V} {k : K} {v : V} {log : List (Event K V)}
    (h : Store c target m k v log m') (hm : Holds P m) (hv : P k v) : Holds P m' ∧ Tells P log := by
  cases h with
  | rejected enter asked heavy =>
    obtain ⟨h1, h2⟩ := enter.keeps hs hv
    refine ⟨hm.del _, .append (.append h2 ?_) (.on h1 .nil)⟩
    cases hk : m k with
    | none => exact .nil
    | some old => exact .on (hm _ _ hk) .nil
  | overwritten enter fits here after =>
    obtain ⟨h1, h2⟩ := enter.keeps hs hv
    obtain ⟨h3, h4⟩ := after.keeps hs (hm.put h1)
    exact ⟨h3, .append h2 (.on (hm _ _ here) h4)⟩
  | added enter fits absent first after either =>
    obtain ⟨h1, h2⟩ := enter.keeps hs hv
    obtain ⟨h3, h4⟩ := first.keeps hs hm
    obtain ⟨h5, h6⟩ := after.keeps hs (h3.put h1)
    exact ⟨h5, .append (.append h2 h4) h6⟩

/-- The items seen of a call, and those left by it, are in the relation. -/
theorem OpSpec.keeps (hs : Survives c P) {m m' : K → Option V} {x : Unsync.Call K V}
    (h : OpSpec c target m x.op x.out x.log m') (hm : Holds P m) (hf : Feeds P x.op) :
    Holds P m' ∧ ∀ y ∈ seen x, P y.1 y.2 := by
  obtain ⟨op, out, log⟩ := x
  simp only at h hf
  have split : ∀ {m'}, Holds P m' → Tells P log → (∀ y ∈ shown op out, P y.1 y.2) →
      Holds P m' ∧ ∀ y ∈ seen ⟨op, out, log⟩, P y.1 y.2 := by
    intro m' h1 h2 h3
    refine ⟨h1, fun y hy => ?_⟩
    unfold seen at hy
    rw [List.mem_append] at hy
    exact hy.elim (h3 y) (h2 y)
  have at_ : ∀ {k v}, m k = some v → ∀ y ∈ [(k, v)], P y.1 y.2 := by
    intro k v h y hy
    rw [List.mem_singleton] at hy
    subst hy
    exact hm _ _ h
  have nothing : ∀ y ∈ ([] : List (K × V)), P y.1 y.2 := by simp
  cases op with
  | insert k v =>
    obtain ⟨rfl, h⟩ := h
    exact split (h.keeps hs hm hf).1 (h.keeps hs hm hf).2 nothing
  | replace k v soft =>
    obtain ⟨r, rfl, h⟩ := h
    have one : P k v → ∀ {v1}, P k v1 → ∀ y ∈ [(k, v1)], P y.1 y.2 := by
      intro _ v1 h1 y hy
      rw [List.mem_singleton] at hy
      subst hy
      exact h1
    cases h with
    | absent enter absent =>
      obtain ⟨h1, h2⟩ := enter.keeps hs hf
      exact split hm h2 (one hf h1)
    | rejected enter asked heavy here =>
      obtain ⟨h1, h2⟩ := enter.keeps hs hf
      exact split (hm.del _) (.append h2 (.on (hm _ _ here) .nil)) (one hf h1)
    | overwritten enter fits here after =>
      obtain ⟨h1, h2⟩ := enter.keeps hs hf
      obtain ⟨h3, h4⟩ := after.keeps hs (hm.put h1)
      exact split h3 (.append h2 (.on (hm _ _ here) h4)) nothing
  | remove k =>
    obtain ⟨rfl, rfl, rfl⟩ := h
    refine split (hm.del _) .nil ?_
    cases hk : m k with
    | none => exact nothing
    | some v => exact at_ hk
  | get k =>
    obtain ⟨rfl, rfl, rfl⟩ := h
    refine split hm .nil ?_
    cases hk : m' k with
    | none => exact nothing
    | some v => exact at_ hk
  | peek k =>
    obtain ⟨rfl, rfl, rfl⟩ := h
    refine split hm .nil ?_
    cases hk : m' k with
    | none => exact nothing
    | some v => exact at_ hk
  | containsKey k =>
    obtain ⟨rfl, rfl, rfl⟩ := h
    exact split hm .nil nothing
  | getMut k f =>
    obtain ⟨rfl, rfl, rfl⟩ := h
    refine split (hm.alter hf) .nil ?_
    cases hk : m k with
    | none => exact nothing
    | some v => exact at_ hk
  | peekMut k f =>
    obtain ⟨rfl, rfl, rfl⟩ := h
    refine split (hm.alter hf) .nil ?_
    cases hk : m k with
    | none => exact nothing
    | some v => exact at_ hk
  | retain f =>
    obtain ⟨rfl, rfl, rfl⟩ := h
    refine split (fun k v hv => hm k v ?_) .nil nothing
    simp only [Option.filter_eq_some_iff] at hv
    exact hv.1
  | clear =>
    obtain ⟨rfl, rfl, rfl⟩ := h
    exact split .none .nil nothing
  | drain =>
    obtain ⟨⟨l, rfl, hl⟩, rfl, rfl⟩ := h
    exact split .none .nil (fun y hy => hm _ _ ((hl.2 y.1 y.2).mp hy))
  | reserve =>
    obtain ⟨rfl, rfl, rfl⟩ := h
    exact split hm .nil nothing
  | getOrInsertWith k load =>
    cases hk : m k with
    | some v =>
      simp only [OpSpec, hk] at h
      obtain ⟨rfl, rfl, rfl⟩ := h
      exact split hm .nil (at_ hk)
    | none =>
      cases load with
      | none =>
        simp only [OpSpec, hk] at h
        obtain ⟨rfl, rfl, rfl⟩ := h
        exact split hm .nil nothing
      | some v =>
        simp only [OpSpec, hk] at h
        obtain ⟨h, rfl⟩ := h
        obtain ⟨h1, h2⟩ := h.keeps hs hm (hf _ rfl)
        refine split h1 h2 ?_
        cases hk' : m' k with
        | none => exact nothing
        | some v =>
          intro y hy
          change y ∈ [(k, v)] at hy
          rw [List.mem_singleton] at hy
          subst hy
          exact h1 _ _ hk'
  | getMutOrInsertWith k load f =>
    cases hk : m k with
    | some v =>
      simp only [OpSpec, hk] at h
      obtain ⟨rfl, rfl, rfl⟩ := h
      exact split (hm.alter hf.2) .nil (at_ hk)
    | none =>
      cases load with
      | none =>
        simp only [OpSpec, hk] at h
        obtain ⟨rfl, rfl, rfl⟩ := h
        exact split hm .nil nothing
      | some v =>
        simp only [OpSpec, hk] at h
        obtain ⟨m1, h, rfl, rfl⟩ := h
        obtain ⟨h1, h2⟩ := h.keeps hs hm (hf.1 _ rfl)
        refine split (h1.alter hf.2) h2 ?_
        cases hk' : m1 k with
        | none => exact nothing
        | some v =>
          intro y hy
          change y ∈ [(k, v)] at hy
          rw [List.mem_singleton] at hy
          subst hy
          exact h1 _ _ hk'
  | getRefOrGuard k use =>
    cases hk : m k with
    | some v =>
      simp only [OpSpec, hk] at h
      obtain ⟨rfl, rfl, rfl⟩ := h
      exact split hm .nil (at_ hk)
    | none =>
      cases use with
      | insert v =>
        simp only [OpSpec, hk] at h
        obtain ⟨rfl, h⟩ := h
        obtain ⟨h1, h2⟩ := h.keeps hs hm (hf _ rfl)
        exact split h1 h2 nothing
      | _ =>
        simp only [OpSpec, hk] at h
        obtain ⟨rfl, rfl, rfl⟩ := h
        exact split hm .nil nothing
  | getMutOrGuard k f use =>
    cases hk : m k with
    | some v =>
      simp only [OpSpec, hk] at h
      obtain ⟨rfl, rfl, rfl⟩ := h
      exact split (hm.alter hf.2) .nil (at_ hk)
    | none =>
      cases use with
      | insert v =>
        simp only [OpSpec, hk] at h
        obtain ⟨rfl, h⟩ := h
        obtain ⟨h1, h2⟩ := h.keeps hs hm (hf.1 _ rfl)
        exact split h1 h2 nothing
      | _ =>
        simp only [OpSpec, hk] at h
        obtain ⟨rfl, rfl, rfl⟩ := h
        exact split hm .nil nothing

theorem Replays.keeps (hs : Survives c P) {m0 m : K → Option V} {h : List (Unsync.Call K V)} (hr : Replays c target m0 h m)
    (h0 : Holds P m0) (hf : ∀ x ∈ h, Feeds P x.op) : Holds P m ∧ ∀ x ∈ h, ∀ y ∈ seen x, P y.1 y.2 := by
  induction hr with
  | start => exact ⟨h0, by simp⟩
  | call hr hx ih =>
    obtain ⟨h1, h2⟩ := ih (fun x hx => hf x (List.mem_append_left _ hx))
    obtain ⟨h3, h4⟩ := hx.keeps hs h1 (hf _ (by simp))
    refine ⟨h3, fun x hx => ?_⟩
    rw [List.mem_append, List.mem_singleton] at hx
    rcases hx with hx | rfl
    · exact h2 x hx
    · exact h4

theorem ShardReplays.keeps (hs : Survives c P) {home : K → Nat} {m : K → Option V} {h : List (Nat × Unsync.Call K V)}
    (hr : ShardReplays c target home h m) (hf : ∀ x ∈ h, Feeds P x.2.op) :
    Holds P m ∧ ∀ x ∈ h, ∀ y ∈ seen x.2, P y.1 y.2 := by
  induction hr with
  | start => exact ⟨.none, by simp⟩
  | @call h m m' i x hr hi hx ih =>
    obtain ⟨h1, h2⟩ := ih (fun x hx => hf x (List.mem_append_left _ hx))
    obtain ⟨h3, h4⟩ := hx.keeps hs h1 (hf (i, x) (by simp))
    refine ⟨?_, fun x hx => ?_⟩
    · intro k v hv
      cases hk : x.op.key with
      | some k' =>
        simp only [onHome, hk] at hv
        exact h3 _ _ hv
      | none =>
        simp only [onHome, hk] at hv
        split at hv
        · exact h3 _ _ hv
        · exact h1 _ _ hv
    · rw [List.mem_append, List.mem_singleton] at hx
      rcases hx with hx | rfl
      · exact h2 x hx
      · exact h4

end QuickCache.Spec
