import Verif.Proofs.ClockOrder
import Verif.Proofs.Default
import Verif.Model.Listener

/-!
# Inserting many different keys one after the other
-/

namespace QuickCache.Spec.Clock
variable {K V RS : Type} [DecidableEq K] {hash : K → UInt64} {rs : RS} {f : RS → K → V → RS} {pe : Bool}

/-- The cold part of what is left. -/
def window (t n : Nat) (l : List (K × V)) : List (K × V) := (l.drop t).drop (l.length - n)

/-- The machine after the items `l` of different keys were inserted. -/
structure Scanned (hash : K → UInt64) (t n : Nat) (l : List (K × V)) (m : Clock K V) : Prop where
  target : m.target = t
  cap : m.cap = n
  hotL : m.hot = (l.take t).map (·.1)
  coldL : m.cold = (window t n l).map (·.1)
  hotI : ∀ p ∈ l.take t, m.items p.1 = some ⟨p.2, true, 0⟩
  coldI : ∀ p ∈ window t n l, m.items p.1 = some ⟨p.2, false, 0⟩
  only : ∀ k i, m.items k = some i → (k, i.value) ∈ l.take t ++ window t n l
  pending : ∀ k, m.pending k = none
  ghosts : ∀ g ∈ m.ghosts, ∃ p ∈ l, g = hash p.1

omit [DecidableEq K] in
theorem sum_ones {l : List K} {f : K → Nat} (h : ∀ k ∈ l, f k = 1) : (l.map f).sum = l.length := by
  induction l with
  | nil => rfl
  | cons k l ih =>
    rw [List.map_cons, List.sum_cons, h k List.mem_cons_self, ih (fun x hx => h x (List.mem_cons_of_mem _ hx)), List.length_cons]
    omega

omit [DecidableEq K] in
theorem Scanned.weights {t n : Nat} {l : List (K × V)} {m : Clock K V} (h : Scanned hash t n l m) :
    m.hotWeight (.listener hash rs f pe) = (l.take t).length ∧ m.coldWeight (.listener hash rs f pe) = (window t n l).length := by
  constructor
  · unfold hotWeight
    rw [h.hotL, sum_ones, List.length_map]
    intro k hk
    obtain ⟨p, hp, rfl⟩ := List.mem_map.mp hk
    simp [weigh, h.hotI p hp, Cfg.listener, unitWeight]
  · unfold coldWeight
    rw [h.coldL, sum_ones, List.length_map]
    intro k hk
    obtain ⟨p, hp, rfl⟩ := List.mem_map.mp hk
    simp [weigh, h.coldI p hp, Cfg.listener, unitWeight]

omit [DecidableEq K] in
theorem window_length (t n : Nat) (l : List (K × V)) : (window t n l).length = l.length - t - (l.length - n) := by
  simp [window]; omega

omit [DecidableEq K] in
theorem mem_window {t n : Nat} {l : List (K × V)} {p : K × V} (h : p ∈ window t n l) : p ∈ l :=
  List.mem_of_mem_drop (List.mem_of_mem_drop h)

omit [DecidableEq K] in
theorem window_snoc {t n : Nat} {l : List (K × V)} (p : K × V) (h : t ≤ l.length) (ht : t < n) :
    window t n (l ++ [p]) = (window t n l).drop (if l.length < n then 0 else 1) ++ [p] ∧ (l ++ [p]).take t = l.take t := by
  constructor
  · unfold window
    rw [List.drop_append_of_le_length h, List.length_append, List.length_singleton, List.drop_drop, List.drop_append]
    rw [show (l.length + 1 - n) - (l.drop t).length = 0 by rw [List.length_drop]; omega, List.drop_zero]
    congr 2
    split <;> omega
  · rw [List.take_append_of_le_length h]

/-- A new cold item. -/
theorem Scanned.snoc {t n : Nat} {l W : List (K × V)} {p : K × V} {m : Clock K V} (h : t ≤ l.length)
    (hN : ((l ++ [p]).map (·.1)).Nodup) (hW : ∀ q ∈ W, q ∈ l) (hw : window t n (l ++ [p]) = W ++ [p]) (target : m.target = t)
    (cap : m.cap = n) (hotL : m.hot = (l.take t).map (·.1)) (coldL : m.cold = W.map (·.1))
    (hotI : ∀ q ∈ l.take t, m.items q.1 = some ⟨q.2, true, 0⟩) (coldI : ∀ q ∈ W, m.items q.1 = some ⟨q.2, false, 0⟩)
    (only : ∀ k i, m.items k = some i → (k, i.value) ∈ l.take t ++ W) (pending : ∀ k, m.pending k = none)
    (ghosts : ∀ g ∈ m.ghosts, ∃ q ∈ l, g = hash q.1) :
    Scanned hash t n (l ++ [p]) ((m.setItem p.1 ⟨p.2, false, 0⟩).setList false (m.cold ++ [p.1])) := by
  have htk : (l ++ [p]).take t = l.take t := List.take_append_of_le_length h
  have hnew : ∀ q ∈ l, q.1 ≠ p.1 := by
    intro q hq he
    rw [List.map_append, List.nodup_append] at hN
    exact hN.2.2 q.1 (List.mem_map.mpr ⟨q, hq, rfl⟩) p.1 (by simp) he
  refine ⟨target, cap, by rw [htk]; exact hotL, ?_, ?_, ?_, ?_, pending, fun g hg => ?_⟩
  · rw [hw, List.map_append]
    show m.cold ++ [p.1] = _
    rw [coldL]; rfl
  · rw [htk]
    intro q hq
    exact (put_other _ _ (hnew q (List.mem_of_mem_take hq))).trans (hotI q hq)
  · rw [hw]
    intro q hq
    rcases List.mem_append.mp hq with hq | hq
    · exact (put_other _ _ (hnew q (hW q hq))).trans (coldI q hq)
    · simp only [List.mem_singleton] at hq
      subst hq
      show put m.items q.1 _ q.1 = _
      simp
  · rw [htk, hw]
    intro k i hi
    by_cases hk : k = p.1
    · subst hk
      have : i = ⟨p.2, false, 0⟩ := by
        have : put m.items p.1 ⟨p.2, false, 0⟩ p.1 = some i := hi
        rw [put_same] at this; cases this; rfl
      rw [this]; simp
    · have := only k i ((put_other _ _ hk).symm.trans hi)
      rcases List.mem_append.mp this with h | h
      · exact List.mem_append_left _ h
      · exact List.mem_append_right _ (List.mem_append_left _ h)
  · obtain ⟨q, hq, e⟩ := ghosts g hg
    exact ⟨q, List.mem_append_left _ hq, e⟩

/-- The item `q` at the cold hand is evicted, `W` are the others. -/
def lost (hash : K → UInt64) (m : Clock K V) (q : K × V) (W : List (K × V)) : Clock K V :=
  ({ m.dropItem q.1 with cold := W.map (·.1) } : Clock K V).haunt (hash q.1)

theorem Scanned.step {t n : Nat} {l : List (K × V)} {p : K × V} {m m' : Clock K V} {out : Out K V} {L : List (Event K V)}
    (sc : Scanned hash t n l m) (h1 : 1 ≤ t) (ht : t < n) (hN : ((l ++ [p]).map (·.1)).Nodup)
    (hd : ∀ q ∈ l, hash p.1 ≠ hash q.1) (hx : Step (.listener hash rs f pe) m (.insert p.1 p.2) out L m') :
    Scanned hash t n (l ++ [p]) m' ∧ L = scanLog t n l l.length := by
  obtain ⟨w1, w2⟩ := sc.weights
  rw [List.length_take] at w1
  rw [window_length] at w2
  have wp : ∀ k v, (Cfg.listener hash rs f pe : Cfg K V RS).weight k v = 1 := fun _ _ => rfl
  have hnew : ∀ q ∈ l, q.1 ≠ p.1 := by
    intro q hq he
    rw [List.map_append, List.nodup_append] at hN
    exact hN.2.2 q.1 (List.mem_map.mpr ⟨q, hq, rfl⟩) p.1 (by simp) he
  have hn : m.items p.1 = none := by
    cases hi : m.items p.1 with
    | none => rfl
    | some i =>
      rcases List.mem_append.mp (sc.only _ _ hi) with h | h
      · exact absurd rfl (hnew (p.1, i.value) (List.mem_of_mem_take h))
      · exact absurd rfl (hnew (p.1, i.value) (mem_window h))
  cases hx with
  | insert hi =>
    cases hi with
    | rejected enter asked heavy => rw [wp, sc.target] at heavy; omega
    | stored enter fits place =>
      cases enter with
      | rewritten hv => rw [wp, sc.target] at hv; omega
      | direct =>
        cases place with
        | overwrite here => rw [hn] at here; cases here
        | loading absent pending => rw [sc.pending] at pending; cases pending
        | ghost absent idle back =>
          obtain ⟨A, C, h, -⟩ := back
          obtain ⟨q, hq, e⟩ := sc.ghosts (hash p.1) (by rw [h]; exact List.mem_append_right _ List.mem_cons_self)
          exact absurd e (hd q hq)
        | fresh absent idle new fit =>
          rw [wp] at fit ⊢
          rw [List.nil_append]
          by_cases hlt : l.length < t
          · have hb : decide (m.hotWeight (.listener hash rs f pe) + 1 ≤ m.target) = true := by
              rw [decide_eq_true_eq, w1, sc.target]; omega
            rw [hb]
            cases fit with
            | stop over => rw [w1, w2, sc.cap] at over; omega
            | more over => rw [w1, w2, sc.cap] at over; omega
            | done =>
              refine ⟨?_, by unfold scanLog; rw [if_pos (by omega)]⟩
              have e1 : (l ++ [p]).take t = l ++ [p] := List.take_of_length_le (by simp; omega)
              have e2 : l.take t = l := List.take_of_length_le (by omega)
              have e3 : window t n (l ++ [p]) = [] := by
                unfold window; rw [List.drop_eq_nil_of_le (as := l ++ [p]) (by simp; omega), List.drop_nil]
              have e4 : window t n l = [] := by
                unfold window; rw [List.drop_eq_nil_of_le (as := l) (by omega), List.drop_nil]
              refine ⟨sc.target, sc.cap, ?_, ?_, ?_, ?_, ?_, sc.pending, fun g hg => ?_⟩
              · show m.hot ++ [p.1] = _
                rw [sc.hotL, e1, e2, List.map_append]; rfl
              · show m.cold = _
                rw [sc.coldL, e3, e4]
              · rw [e1]
                intro q hq
                rcases List.mem_append.mp hq with hq | hq
                · exact (put_other _ _ (hnew q hq)).trans (sc.hotI q (by rw [e2]; exact hq))
                · simp only [List.mem_singleton] at hq
                  subst hq
                  show put m.items q.1 _ q.1 = _
                  simp
              · rw [e3]; intro q hq; cases hq
              · rw [e1, e3, List.append_nil]
                intro k i hi
                by_cases hk : k = p.1
                · subst hk
                  have : i = ⟨p.2, true, 0⟩ := by
                    have : put m.items p.1 ⟨p.2, true, 0⟩ p.1 = some i := hi
                    rw [put_same] at this; cases this; rfl
                  rw [this]; simp
                · have := sc.only k i ((put_other _ _ hk).symm.trans hi)
                  rw [e2, e4, List.append_nil] at this
                  exact List.mem_append_left _ this
              · obtain ⟨q, hq, e⟩ := sc.ghosts g hg
                exact ⟨q, List.mem_append_left _ hq, e⟩
          · have hle : t ≤ l.length := by omega
            have hb : decide (m.hotWeight (.listener hash rs f pe) + 1 ≤ m.target) = false := by
              rw [decide_eq_false_iff_not, w1, sc.target]; omega
            rw [hb]
            obtain ⟨hw, -⟩ := window_snoc (n := n) p hle ht
            by_cases hln : l.length < n
            · rw [if_pos hln, List.drop_zero] at hw
              cases fit with
              | stop over => rw [w1, w2, sc.cap] at over; omega
              | more over => rw [w1, w2, sc.cap] at over; omega
              | done =>
                refine ⟨?_, by unfold scanLog; rw [if_pos hln]⟩
                exact Scanned.snoc hle hN (fun q hq => mem_window hq) hw sc.target sc.cap sc.hotL sc.coldL sc.hotI sc.coldI sc.only
                  sc.pending sc.ghosts
            · rw [if_neg hln] at hw
              cases hwin : window t n l with
              | nil =>
                have := congrArg List.length hwin
                rw [window_length] at this
                simp at this; omega
              | cons q W =>
                rw [hwin, List.drop_succ_cons, List.drop_zero] at hw
                have hq0 : l[t + (l.length - n)]? = some q := by
                  have : (window t n l)[0]? = some q := by rw [hwin]; rfl
                  unfold window at this
                  rw [List.drop_drop, List.getElem?_drop] at this
                  exact this
                have hcold : m.cold = q.1 :: W.map (·.1) := by rw [sc.coldL, hwin]; rfl
                have hqi : m.items q.1 = some ⟨q.2, false, 0⟩ := sc.coldI q (by rw [hwin]; exact List.mem_cons_self)
                obtain ⟨hdw, htw⟩ := dropWhile_passes (c := (.listener hash rs f pe : Cfg K V RS)) (m := m) (fun _ _ => rfl) m.cold
                -- the keys of `l` are different
                have hql : q ∈ l := mem_window (by rw [hwin]; exact List.mem_cons_self)
                have hWl : ∀ r ∈ W, r ∈ l := fun r hr => mem_window (by rw [hwin]; exact List.mem_cons_of_mem _ hr)
                have hNl : (l.map (·.1)).Nodup := by
                  rw [List.map_append, List.nodup_append] at hN; exact hN.1
                have hsplit : ((l.take t ++ window t n l).map (·.1)).Nodup := by
                  have hsub : (l.take t ++ window t n l).Sublist (l.take t ++ l.drop t) :=
                    List.Sublist.append_left (List.drop_sublist _ _) _
                  rw [List.take_append_drop] at hsub
                  exact (hsub.map _).nodup hNl
                rw [hwin, List.map_append, List.map_cons, List.nodup_append] at hsplit
                have hqW : ∀ r ∈ W, r.1 ≠ q.1 := by
                  intro r hr he
                  have := (List.nodup_cons.mp hsplit.2.1).1
                  exact this (List.mem_map.mpr ⟨r, hr, he⟩)
                have hqT : ∀ r ∈ l.take t, r.1 ≠ q.1 := by
                  intro r hr
                  exact hsplit.2.2 r.1 (List.mem_map.mpr ⟨r, hr, rfl⟩) q.1 List.mem_cons_self
                -- room is made
                have turn1 : ∀ {m1 : Clock K V} {st st1 : RS} {L1 : List (Event K V)} {b : Bool},
                    TurnCold (.listener hash rs f pe) m st L1 m1 st1 b → b = true ∧
                      L1 = [.beforeEvict q.1 q.2 q.2, .onEvict q.1 q.2] ∧
                      m1 = lost hash m q W := by
                  intro m1 st st1 L1 b h
                  cases h with
                  | hot none turn => rw [hdw, hcold] at none; cases none
                  | promote at_ here referenced shrink =>
                    rw [hdw, hcold] at at_; cases at_
                    rw [hqi] at here; cases here
                    exact absurd rfl referenced
                  | spare at_ here unref before light => cases light
                  | evict at_ here unref before still =>
                    rw [hdw, hcold] at at_; cases at_
                    rw [hqi] at here; cases here
                    cases before
                    rw [htw, List.append_nil]
                    exact ⟨rfl, rfl, rfl⟩
                have hlog : scanLog t n l l.length = [.beforeEvict q.1 q.2 q.2, .onEvict q.1 q.2] := by
                  unfold scanLog; rw [if_neg hln, hq0]
                have hgood : Scanned hash t n (l ++ [p])
                    (((lost hash m q W).setItem p.1 ⟨p.2, false, 0⟩).setList false
                      (W.map (·.1) ++ [p.1])) := by
                  refine Scanned.snoc (m := lost hash m q W) hle hN hWl hw sc.target
                    sc.cap sc.hotL rfl ?_ ?_ ?_ sc.pending ?_
                  · intro r hr
                    exact (del_other _ (hqT r hr)).trans (sc.hotI r hr)
                  · intro r hr
                    exact (del_other _ (hqW r hr)).trans (sc.coldI r (by rw [hwin]; exact List.mem_cons_of_mem _ hr))
                  · intro k i hi
                    have hkq : k ≠ q.1 := by
                      rintro rfl
                      have : del m.items q.1 q.1 = some i := hi
                      simp at this
                    have := sc.only k i ((del_other _ hkq).symm.trans hi)
                    rw [hwin] at this
                    rcases List.mem_append.mp this with h | h
                    · exact List.mem_append_left _ h
                    · rcases List.mem_cons.mp h with h | h
                      · exact absurd (congrArg (·.1) h) hkq
                      · exact List.mem_append_right _ h
                  · intro g hg
                    rcases List.mem_append.mp (mem_haunt hg) with h | h
                    · exact sc.ghosts g h
                    · simp only [List.mem_singleton] at h
                      exact ⟨q, hql, h⟩
                cases fit with
                | done fits => rw [w1, w2, sc.cap] at fits; omega
                | stop over turn => exact absurd (turn1 turn).1 (by simp)
                | more over turn rest =>
                  obtain ⟨-, rfl, rfl⟩ := turn1 turn
                  have hfit : (lost hash m q W).hotWeight (.listener hash rs f pe) +
                      (lost hash m q W).coldWeight (.listener hash rs f pe) + 1 ≤
                        (lost hash m q W).cap := by
                    have a1 : (lost hash m q W).hotWeight (.listener hash rs f pe) = t := by
                      have : (lost hash m q W).hotWeight (.listener hash rs f pe) =
                          ((l.take t).map (·.1)).length := by
                        unfold hotWeight
                        rw [show (lost hash m q W).hot = m.hot from rfl,
                          sc.hotL, sum_ones]
                        intro k hk
                        obtain ⟨r, hr, rfl⟩ := List.mem_map.mp hk
                        have : (lost hash m q W).items r.1 =
                          some ⟨r.2, true, 0⟩ := (del_other _ (hqT r hr)).trans (sc.hotI r hr)
                        unfold weigh; rw [this]; rfl
                      rw [this, List.length_map, List.length_take]; omega
                    have a2 : (lost hash m q W).coldWeight (.listener hash rs f pe) =
                        W.length := by
                      have : (lost hash m q W).coldWeight (.listener hash rs f pe) =
                          (W.map (·.1)).length := by
                        unfold coldWeight
                        rw [show (lost hash m q W).cold = W.map (·.1)
                          from rfl, sum_ones]
                        intro k hk
                        obtain ⟨r, hr, rfl⟩ := List.mem_map.mp hk
                        have : (lost hash m q W).items r.1 =
                          some ⟨r.2, false, 0⟩ :=
                            (del_other _ (hqW r hr)).trans (sc.coldI r (by rw [hwin]; exact List.mem_cons_of_mem _ hr))
                        unfold weigh; rw [this]; rfl
                      rw [this, List.length_map]
                    have a3 : (q :: W).length = l.length - t - (l.length - n) := by rw [← hwin, window_length]
                    rw [a1, a2, show (lost hash m q W).cap = m.cap from rfl,
                      sc.cap]
                    rw [List.length_cons] at a3
                    omega
                  cases rest with
                  | done =>
                    rw [List.append_nil, hlog]
                    exact ⟨hgood, rfl⟩
                  | stop over => omega
                  | more over => omega

omit [DecidableEq K] in
/-- Later items do not matter. -/
theorem scanLog_append {t n j : Nat} {l l' : List (K × V)} (ht : t < n) (hj : j ≤ l.length) :
    scanLog t n (l ++ l') j = scanLog t n l j := by
  unfold scanLog
  split
  · rfl
  · rw [List.getElem?_append_left (by omega)]

theorem Run.scanned {t n g : Nat} {h : List (Unsync.Call K V)} {m : Clock K V} (hr : Run (.listener hash rs f pe) (.empty t n g) h m)
    (h1 : 1 ≤ t) (ht : t < n) :
    ∀ {l : List (K × V)}, h.map (·.op) = l.map (fun p => .insert p.1 p.2) → (l.map (hash ·.1)).Nodup →
      Scanned hash t n l m ∧ ∀ j x, h[j]? = some x → x.log = scanLog t n l j := by
  induction hr with
  | start =>
    intro l ho _
    cases l with
    | cons => cases ho
    | nil =>
      refine ⟨⟨rfl, rfl, by simp [empty], ?_, fun _ h => (by simp at h), fun _ h => ?_, fun _ _ h => (by cases h), fun _ => rfl,
        fun _ h => (by cases h)⟩, fun j x h => (by simp at h)⟩
      · simp [window, empty]
      · simp [window] at h
  | @call h m m' x hr hx ih =>
    intro l ho hN
    rw [List.map_append] at ho
    obtain ⟨l0, l1, rfl, e1, e2⟩ := List.map_eq_append_iff.mp ho.symm
    obtain ⟨p, rfl⟩ : ∃ p, l1 = [p] := by
      cases l1 with
      | nil => cases e2
      | cons p l1 =>
        cases l1 with
        | nil => exact ⟨p, rfl⟩
        | cons => simp at e2
    have ex : x.op = .insert p.1 p.2 := by simpa using e2.symm
    have hlen : h.length = l0.length := by
      have := congrArg List.length e1; simpa using this.symm
    have hkeys : ((l0 ++ [p]).map (·.1)).Nodup := by
      have : (((l0 ++ [p]).map (·.1)).map hash).Nodup := by rw [List.map_map]; exact hN
      exact List.Pairwise.of_map hash (fun _ _ hne he => hne (by rw [he])) this
    rw [List.map_append, List.nodup_append] at hN
    obtain ⟨sc, hl⟩ := ih e1.symm hN.1
    have hx' := hx
    rw [ex] at hx'
    obtain ⟨f', hL⟩ := sc.step h1 ht hkeys (fun q hq he =>
      hN.2.2 (hash q.1) (List.mem_map.mpr ⟨q, hq, rfl⟩) (hash p.1) (by simp) he.symm) hx'
    refine ⟨f', fun j y hy => ?_⟩
    by_cases hj : j < h.length
    · rw [List.getElem?_append_left hj] at hy
      rw [scanLog_append ht (by omega)]
      exact hl j y hy
    · rw [List.getElem?_append_right (by omega)] at hy
      cases hjl : j - h.length with
      | succ i => rw [hjl] at hy; simp at hy
      | zero =>
        rw [hjl] at hy
        simp at hy
        subst hy
        rw [scanLog_append ht (by omega), show j = l0.length by omega]
        exact hL

end QuickCache.Spec.Clock
