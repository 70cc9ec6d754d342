import Verif.Proofs.Request
import Verif.Proofs.Calls
import Verif.Proofs.ClockConc
import Verif.Spec.Request
import Verif.Props.Calls
import Verif.Props.ConcExample

/-!
# Requests are bracketed by `begin_request` and `end_request` (C67)
-/

namespace QuickCache.Props
variable {K V RS : Type} [DecidableEq K] {c : Cfg K V RS} {target cap gcap : Nat} {h : List (Unsync.Call K V)}
  {s s' : Shard K V} {keep : Bool} {op : Op K V} {out : Out K V} {l : Lc K V RS}
open Unsync Spec

/-- Whether `insert` or `insert_with_lifecycle` is called, and likewise for the other functions, makes no difference to
the cache nor to what is returned otherwise. -/
theorem C67_same (c : Cfg K V RS) (keep : Bool) (s : Shard K V) (op : Op K V) :
    (stepL c keep s op).map (fun x => (x.1, x.2.1)) = (step c s op).map (fun x => (x.1, x.2.1)) := by
  rw [stepL_eq]
  rcases step c s op with e | x <;> rfl

private theorem stepL_ok (hs : stepL c keep s op = .ok (s', out, l)) :
    ∃ q, step c s op = .ok (s', out, q) ∧ l = lcOf keep op out q := by
  rw [stepL_eq] at hs
  rcases hx : step c s op with e | ⟨s1, o1, q⟩
  · rw [hx] at hs; cases hs
  · rw [hx] at hs; cases hs; exact ⟨q, rfl, rfl⟩

/-- Calls that store nothing do not call the lifecycle at all. -/
theorem C67_quiet (hr : Run c (Shard.new target cap gcap) h s) (hs : stepL c keep s op = .ok (s', out, l))
    (hn : ¬ Requests s.contents op) : Quiet l := by
  obtain ⟨q, hq, rfl⟩ := stepL_ok hs
  have ho := hr.opSpec hq
  cases op with
  | insert k v => exact absurd (.insert k v) hn
  | replace k v soft => exact absurd (.replace k v soft) hn
  | getOrInsertWith k load =>
    simp only [OpSpec] at ho
    cases hm : s.contents k with
    | some w => rw [hm] at ho; rw [ho.1]; exact ⟨rfl, rfl⟩
    | none =>
      cases load with
      | none => rw [hm] at ho; rw [ho.1]; exact ⟨rfl, rfl⟩
      | some v => exact absurd (.load v hm) hn
  | getMutOrInsertWith k load f =>
    simp only [OpSpec] at ho
    cases hm : s.contents k with
    | some w => rw [hm] at ho; rw [ho.1]; exact ⟨rfl, rfl⟩
    | none =>
      cases load with
      | none => rw [hm] at ho; rw [ho.1]; exact ⟨rfl, rfl⟩
      | some v => exact absurd (.loadMut v f hm) hn
  | getRefOrGuard k use =>
    cases use with
    | insert v =>
      simp only [OpSpec] at ho
      cases hm : s.contents k with
      | some w => rw [hm] at ho; rw [ho.1]; exact ⟨rfl, rfl⟩
      | none => exact absurd (.guard v hm) hn
    | _ => exact ⟨rfl, rfl⟩
  | getMutOrGuard k f use =>
    cases use with
    | insert v =>
      simp only [OpSpec] at ho
      cases hm : s.contents k with
      | some w => rw [hm] at ho; rw [ho.1]; exact ⟨rfl, rfl⟩
      | none => exact absurd (.guardMut f v hm) hn
    | _ => exact ⟨rfl, rfl⟩
  | _ => exact ⟨rfl, rfl⟩

private theorem ended_of (hr : Run c (Shard.new target cap gcap) h s) {q : Req K V RS}
    (hq : step c s op = .ok (s', out, q)) : Ended c q.log (.finish false q) :=
  ⟨q.st, (step_eff hr.reach_new.inv hq).threads hr.reach_new.inv.toInv0, rfl, rfl⟩

private theorem returned_of (hr : Run c (Shard.new target cap gcap) h s) {q : Req K V RS}
    (hq : step c s op = .ok (s', out, q)) : Returned c q.log (.finish true q) :=
  ⟨q.st, (step_eff hr.reach_new.inv hq).threads hr.reach_new.inv.toInv0, rfl, rfl⟩

/-- What `lcOf` says of a successful request. -/
private theorem lcOf_finish (hr : Run c (Shard.new target cap gcap) h s) {q : Req K V RS}
    (hq : step c s op = .ok (s', out, q)) (hn : Requests s.contents op) (hf : ¬ Failed out) :
    (HasVariant op → lcOf keep op out q = .finish keep q) ∧ (¬ HasVariant op → lcOf keep op out q = .finish false q) := by
  have ho := hr.opSpec hq
  cases hn with
  | insert k v => exact ⟨fun _ => rfl, fun h => absurd trivial h⟩
  | replace k v soft =>
    obtain ⟨r, rfl, -⟩ := ho
    cases r with
    | none => exact ⟨fun _ => rfl, fun h => absurd trivial h⟩
    | some v' => exact absurd (.replaced _) hf
  | load v absent =>
    simp only [OpSpec, absent] at ho
    rw [ho.2]
    exact ⟨fun h => h.elim, fun _ => rfl⟩
  | loadMut v f absent =>
    simp only [OpSpec, absent] at ho
    obtain ⟨m1, -, rfl, -⟩ := ho
    exact ⟨fun h => h.elim, fun _ => rfl⟩
  | guard v absent =>
    simp only [OpSpec, absent] at ho
    rw [ho.1]
    exact ⟨fun _ => rfl, fun h => absurd trivial h⟩
  | guardMut f v absent =>
    simp only [OpSpec, absent] at ho
    rw [ho.1]
    exact ⟨fun _ => rfl, fun h => absurd trivial h⟩

/-- A storing call that does not fail calls `begin_request`, then makes its callbacks, and finally passes the request
state they left to `end_request`; each of the two exactly once. -/
theorem C67_ended (hr : Run c (Shard.new target cap gcap) h s) (hs : stepL c keep s op = .ok (s', out, l))
    (hn : Requests s.contents op) (hf : ¬ Failed out) (hk : keep = false ∨ ¬ HasVariant op) :
    ∃ q, step c s op = .ok (s', out, q) ∧ Ended c q.log l := by
  obtain ⟨q, hq, rfl⟩ := stepL_ok hs
  obtain ⟨h1, h2⟩ := lcOf_finish (keep := keep) hr hq hn hf
  refine ⟨q, hq, ?_⟩
  by_cases hv : HasVariant op
  · rcases hk with rfl | hk
    · rw [h1 hv]; exact ended_of hr hq
    · exact absurd hv hk
  · rw [h2 hv]; exact ended_of hr hq

/-- The variant `…_with_lifecycle` returns the final request state instead; `end_request` is not called. -/
theorem C67_returned (hr : Run c (Shard.new target cap gcap) h s) (hs : stepL c true s op = .ok (s', out, l))
    (hn : Requests s.contents op) (hf : ¬ Failed out) (hv : HasVariant op) :
    ∃ q, step c s op = .ok (s', out, q) ∧ Returned c q.log l := by
  obtain ⟨q, hq, rfl⟩ := stepL_ok hs
  rw [(lcOf_finish hr hq hn hf).1 hv]
  exact ⟨q, hq, returned_of hr hq⟩

/-- A call that fails drops the request state: neither is `end_request` called, nor is the state returned. -/
theorem C67_failed (hr : Run c (Shard.new target cap gcap) h s) (hs : stepL c keep s op = .ok (s', out, l))
    (hf : Failed out) : ∃ q, step c s op = .ok (s', out, q) ∧ Dropped c q.log l := by
  obtain ⟨q, hq, rfl⟩ := stepL_ok hs
  refine ⟨q, hq, ⟨q.st, (step_eff hr.reach_new.inv hq).threads hr.reach_new.inv.toInv0⟩, ?_⟩
  cases hf with
  | replaced kv =>
    obtain ⟨k, v, soft, rfl⟩ := (hr.opSpec hq).replaced
    exact ⟨rfl, rfl⟩

/-- In particular, `replace` with a value too heavy for the cache has handed the old item to `on_evict`, but the request
state that knows about it never reaches `end_request`. -/
theorem C67_lost (hr : Run c (Shard.new target cap gcap) h s) {k : K} {v old : V} {soft : Bool}
    (hs : stepL c keep s (.replace k v soft) = .ok (s', out, l)) (hk : (k, old) ∈ s.iter)
    (hadm : ¬ Admissible c target k v) :
    l.calls = [.begun, .evict (.beforeEvict k v (enterValue c target k v)), .evict (.onEvict k old)] ∧
      l.returned = none := by
  obtain ⟨q, hq, -⟩ := stepL_ok hs
  obtain ⟨h1, h2, -⟩ := C13_rejected hr hq hk hadm
  obtain ⟨q', hq', -, h3, h4⟩ := C67_failed hr hs (h1 ▸ .replaced _)
  rw [hq] at hq'
  cases hq'
  rw [h3, h2]
  exact ⟨rfl, h4⟩

/-- The same for `sync::Cache`, for every critical section in every execution: `insert`, `replace` and
`PlaceholderGuard::insert` are the requests; they end with `end_request`, or return the request state, unless they fail;
nothing else calls the lifecycle. -/
theorem C67_shared {tr evs : List (Conc.Ev K V)} {t t' : Conc.State K V} {act : Conc.Act K V} {sec : Section K V}
    {o o' : SOut K V} {log : List (Event K V)} {sh : Shard K V}
    (hr : Conc.Run c (Conc.State.new (Shard.new target cap gcap)) tr t) (hq : c.ptrEq = true)
    (hx : Conc.exec c t act = some (.ok (t', evs))) (he : .sect sec o log ∈ evs)
    (hl : Sync.stepL c keep t.shard sec = .ok (sh, o', l)) :
    sh = t'.shard ∧ o' = o ∧ (¬ SecRequests sec → Quiet l ∧ log = []) ∧ (SecRequests sec → SecFailed o → Dropped c log l) ∧
      (SecRequests sec → ¬ SecFailed o → if keep then Returned c log l else Ended c log l) := by
  have hi := (hr.reach hq (.new c target cap gcap)).inv
  rcases Conc.exec_sect hi hq hx with ⟨-, h1⟩ | ⟨sec1, out1, q, rest, rfl, h2, h3, h4, -, -⟩
  · have := h1 _ he; cases this
  simp only [List.mem_cons] at he
  have he : Conc.Ev.sect sec o log = .sect sec1 out1 q.log := by
    rcases he with he | he
    · exact he
    · have := h2 _ he; cases this
  cases he
  rw [Sync.stepL_eq, h3] at hl
  cases hl
  refine ⟨rfl, rfl, ?_⟩
  have heff : SecEff c t.shard sec (t'.shard, o, q) := by
    rcases sec_sat hi.shard hq h4 with ⟨x, hx, h5⟩ | ⟨p, hx, -⟩
    · rw [h3] at hx; cases hx; exact h5
    · rw [h3] at hx; cases hx
  have hi0 := hi.shard.toInv0
  generalize t'.shard = sh', t.shard = sh0 at heff hi0
  have hth : Threads c c.beginReq q.log q.st ∧ (¬ SecRequests sec → q.log = []) := by
    cases heff with
    | call hop h5 =>
      refine ⟨h5.threads hi0, ?_⟩
      intro hn
      refine (h5.opSpec hi0).silent ?_ ?_
      · rintro k v f (⟨_ | _ | _ | _ | _⟩ | _)
        · exact hn (.insert k v)
        · exact hn (.replace k v _)
        all_goals exact hop
      · rintro k v soft rfl
        exact hn (.replace k v soft)
    | filled hl h5 => exact ⟨h5.threads hi0, fun hn => absurd (.fill _ _ _ _) hn⟩
    | _ => exact ⟨.nil, fun _ => rfl⟩
  refine ⟨fun hn => ⟨?_, hth.2 hn⟩, fun hn hf => ?_, fun hn hf => ?_⟩
  · cases sec with
    | call op =>
      cases op with
      | insert k v => exact absurd (.insert k v) hn
      | replace k v soft => exact absurd (.replace k v soft) hn
      | _ => exact ⟨rfl, rfl⟩
    | fill k p b v => exact absurd (.fill k p b v) hn
    | _ => exact ⟨rfl, rfl⟩
  · refine ⟨⟨q.st, hth.1⟩, ?_⟩
    cases hn with
    | insert k v =>
      cases heff with
      | call hop h5 =>
        have := (h5.opSpec hi0).1
        cases hf
        cases this
    | replace k v soft => cases hf <;> first | exact ⟨rfl, rfl⟩ | cases heff
    | fill k p b v => cases hf <;> first | exact ⟨rfl, rfl⟩ | cases heff
  · have hfin : secLcOf keep sec o q = .finish keep q := by
      cases hn with
      | insert k v => rfl
      | replace k v soft =>
        cases heff with
        | call hop h5 =>
          obtain ⟨r, h6, -⟩ := h5.opSpec hi0
          cases h6
          cases r with
          | none => rfl
          | some v' => exact absurd (.replaced _) hf
      | fill k p b v =>
        cases heff with
        | gone => exact absurd (.filled _) hf
        | filled => rfl
    rw [hfin]
    cases keep
    · exact ⟨q.st, hth.1, rfl, rfl⟩
    · exact ⟨q.st, hth.1, rfl, rfl⟩

/-- The lifecycle calls of one more call on the example cache. -/
def exLc (keep : Bool) (ops : List (Op Nat Nat)) (op : Op Nat Nat) :
    Option (List (LcCall Nat Nat (List Nat)) × Option (List Nat)) :=
  (stepL exCfg keep (exRun ops).1 op).toOption.map (fun x => (x.2.2.calls, x.2.2.returned))

/-- Two items are victims; the request state (the keys seen by the callbacks) goes to `end_request`, or is returned. -/
example : exFine [.insert 2 53, .insert 1 13, .insert 4 24] = true ∧
    exLc false [.insert 2 53, .insert 1 13, .insert 4 24] (.insert 3 36) =
      some ([.begun, .evict (.beforeEvict 4 24 24), .evict (.onEvict 4 24), .evict (.beforeEvict 2 53 50),
        .ended [4, 4, 2]], none) ∧
    exLc true [.insert 2 53, .insert 1 13, .insert 4 24] (.insert 3 36) =
      some ([.begun, .evict (.beforeEvict 4 24 24), .evict (.onEvict 4 24), .evict (.beforeEvict 2 53 50)],
        some [4, 4, 2]) := by decide

/-- A loader that succeeds, one that fails, and a lookup. -/
example : exLc true [.insert 1 13] (.getOrInsertWith 5 (some 12)) = some ([.begun, .ended []], none) ∧
    exLc false [.insert 1 13] (.getOrInsertWith 5 none) = some ([], none) ∧
    exLc false [.insert 1 13] (.get 1) = some ([], none) := by decide

/-- Replacing the value of key 1 by one that weighs 9, more than the hot target 8: the old value was handed to `on_evict`,
`end_request` is not called. Replacing the value of an absent key: nothing was evicted. -/
example : exFine [.insert 1 13] = true ∧ (1, 13) ∈ (exRun [.insert 1 13]).1.iter ∧
    exLc false [.insert 1 13] (.replace 1 9 false) =
      some ([.begun, .evict (.beforeEvict 1 9 9), .evict (.onEvict 1 13)], none) ∧
    exLc false [.insert 1 13] (.replace 2 12 false) = some ([.begun], none) := by decide

/-- The lifecycle calls of a critical section of the concurrent example. -/
def cxLc (keep : Bool) (acts : List (Conc.Act Nat Nat)) (sec : Section Nat Nat) :
    Option (List (LcCall Nat Nat (List Nat)) × Option (List Nat)) :=
  (Sync.stepL cxCfg keep (cxRun acts).1.shard sec).toOption.map (fun x => (x.2.2.calls, x.2.2.returned))

/-- The first of two guards for key 7, whose load was superseded by `remove`, and the second one insert a value. -/
example : cxFine (cxTwo ++ [.publish 0 12, .publish 1 13, .store 0]) = true ∧
    cxFine (cxTwo ++ [.publish 0 12, .publish 1 13, .store 1]) = true ∧
    cxLc false (cxTwo ++ [.publish 0 12, .publish 1 13]) (.fill 7 ⟨0, 1, 0⟩ false 12) = some ([.begun], none) ∧
    cxLc false (cxTwo ++ [.publish 0 12, .publish 1 13]) (.fill 7 ⟨1, 1, 0⟩ false 13) =
      some ([.begun, .ended []], none) := by decide

end QuickCache.Props
