import Verif.Spec.Twin

/-!
# The abstract clock machine does not depend on how placeholders are compared
-/

namespace QuickCache
variable {K V RS : Type _}

namespace Spec
variable [DecidableEq K] {c : Cfg K V RS} {b : Bool} {m m' : Clock K V} {k : K} {v v1 : V} {st st' : RS} {log : List (Event K V)}

omit [DecidableEq K] in
theorem Enter.compare {T : Nat} (h : Enter c T k v st log v1) : Enter (c.compare b) T k v st log v1 := by
  cases h with
  | direct h => exact .direct h
  | rewritten h1 h2 h3 => exact .rewritten h1 h2 h3

namespace Clock

theorem Hand.compare (h : Hand c m m') : Hand (c.compare b) m m' := by
  induction h with
  | stop h1 h2 h3 h4 => exact .stop h1 h2 h3 h4
  | pass h1 h2 h3 _ ih => exact .pass h1 h2 h3 ih

theorem TurnHot.compare {x : Bool} (h : TurnHot c m st log m' st' x) : TurnHot (c.compare b) m st log m' st' x := by
  cases h with
  | stuck h => exact .stuck h
  | spare h1 h2 h3 h4 h5 => exact .spare h1.compare h2 h3 h4 h5
  | evict h1 h2 h3 h4 h5 => exact .evict h1.compare h2 h3 h4 h5

theorem ShrinkHot.compare (h : ShrinkHot c m st log m' st') : ShrinkHot (c.compare b) m st log m' st' := by
  induction h with
  | done h => exact .done h
  | stop h1 h2 => exact .stop h1 h2.compare
  | more h1 h2 _ ih => exact .more h1 h2.compare ih

theorem TurnCold.compare {x : Bool} (h : TurnCold c m st log m' st' x) : TurnCold (c.compare b) m st log m' st' x := by
  cases h with
  | hot h1 h2 => exact .hot h1 h2.compare
  | promote h1 h2 h3 h4 => exact .promote h1 h2 h3 h4.compare
  | spare h1 h2 h3 h4 h5 => exact .spare h1 h2 h3 h4 h5
  | evict h1 h2 h3 h4 h5 => exact .evict h1 h2 h3 h4 h5

theorem Fit.compare {extra : Nat} (h : Fit c extra m st log m' st') : Fit (c.compare b) extra m st log m' st' := by
  induction h with
  | done h => exact .done h
  | stop h1 h2 => exact .stop h1 h2.compare
  | more h1 h2 _ ih => exact .more h1 h2.compare ih

theorem Place.compare {used : Bool} (h : Place c m st k v used log m' st') : Place (c.compare b) m st k v used log m' st' := by
  cases h with
  | overwrite h1 h2 => exact .overwrite h1 h2.compare
  | loading h1 h2 h3 => exact .loading h1 h2 h3.compare
  | ghost h1 h2 h3 h4 => exact .ghost h1 h2 h3 h4.compare
  | fresh h1 h2 h3 h4 => exact .fresh h1 h2 h3 h4.compare

theorem Insert.compare (h : Insert c m k v log m') : Insert (c.compare b) m k v log m' := by
  cases h with
  | rejected h1 h2 h3 => exact .rejected h1.compare h2 h3
  | stored h1 h2 h3 => exact .stored h1.compare h2 h3.compare

theorem Replacing.compare {soft : Bool} {r : Option V} (h : Replacing c m k v soft log m' r) :
    Replacing (c.compare b) m k v soft log m' r := by
  cases h with
  | rejected h1 h2 h3 => exact .rejected h1.compare h2 h3
  | absent h1 h2 h3 => exact .absent h1.compare h2 h3
  | stored h1 h2 h3 h4 => exact .stored h1.compare h2 h3 h4.compare

theorem Lookup.compare {r : Option V} (h : Lookup c m k r m') : Lookup (c.compare b) m k r m' := by
  cases h with
  | found h => exact .found h
  | loading h1 h2 => exact .loading h1 h2
  | ghost h1 h2 h3 => exact .ghost h1 h2 h3
  | fresh h1 h2 h3 => exact .fresh h1 h2 h3

theorem Fill.compare {waited : Bool} (h : Fill c m k v waited log m') : Fill (c.compare b) m k v waited log m' := by
  cases h with
  | rejected h1 h2 h3 => exact .rejected h1.compare h2 h3
  | weightless h1 h2 h3 h4 => exact .weightless h1.compare h2 h3 h4
  | stored h1 h2 h3 h4 h5 h6 => exact .stored h1.compare h2 h3 h4 h5 h6.compare

theorem Remove.compare (h : Remove c m k m') : Remove (c.compare b) m k m' := by
  cases h with
  | item h => exact .item h
  | loading h1 h2 => exact .loading h1 h2
  | ghost h1 h2 h3 => exact .ghost h1 h2 h3
  | nothing h1 h2 h3 => exact .nothing h1 h2 h3

theorem Guarded.compare {u : GuardUse V} (h : Guarded c m k u log m') : Guarded (c.compare b) m k u log m' := by
  cases h with
  | insert h => exact .insert h.compare
  | drop => exact .drop
  | forget => exact .forget

theorem Step.compare {op : Op K V} {out : Out K V} (h : Step c m op out log m') : Step (c.compare b) m op out log m' := by
  cases h with
  | insert h => exact .insert h.compare
  | replace h => exact .replace h.compare
  | remove h => exact .remove h.compare
  | get => exact .get
  | peek => exact .peek
  | containsKey => exact .containsKey
  | getMut => exact .getMut
  | peekMut => exact .peekMut
  | retain => exact .retain
  | clear => exact .clear
  | drain h => exact .drain h
  | reserve => exact .reserve
  | loadHit h => exact .loadHit h.compare
  | loadFail h => exact .loadFail h.compare
  | load h1 h2 => exact .load h1.compare h2.compare
  | loadMutHit h => exact .loadMutHit h.compare
  | loadMutFail h => exact .loadMutFail h.compare
  | loadMut h1 h2 => exact .loadMut h1.compare h2.compare
  | guardHit h => exact .guardHit h.compare
  | guard h1 h2 => exact .guard h1.compare h2.compare
  | guardMutHit h => exact .guardMutHit h.compare
  | guardMut h1 h2 => exact .guardMut h1.compare h2.compare

theorem Run.compare {m0 : Clock K V} {h : List (Unsync.Call K V)} (hr : Run c m0 h m) : Run (c.compare b) m0 h m := by
  induction hr with
  | start => exact .start
  | call _ hx ih => exact .call ih hx.compare

end Clock
end Spec
end QuickCache
