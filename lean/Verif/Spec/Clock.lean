import Verif.Spec.Ops

/-!
# The replacement policy, as an abstract machine

`Clock` is the cache as a user may picture it: a table of items, each with a reference counter, two circular lists of
keys (hot and cold) with a hand at their first key, and a queue of the hashes of items evicted not long ago. There are no
slots, no hash index and no weight counters. `Clock.Step` says what every call does to it: which items are evicted, in
which order, which counters change, and which list an item is in.

Items without weight are in no list: nothing is gained by evicting them.
-/

namespace QuickCache.Spec
variable {K V RS : Type _}

/-- An item: its value, whether it is hot, and its reference counter. -/
structure Item (V : Type _) where
  value : V
  hot : Bool
  refs : Nat
  deriving DecidableEq, Repr

/-- The counter of an item that the hot hand passes. -/
def Item.cool (i : Item V) : Item V := { i with refs := min i.refs 2 - 1 }

/-- The counter of an item that is looked up. -/
def Item.warm (i : Item V) : Item V := { i with refs := if i.refs < 2 then i.refs + 1 else i.refs }

/-- The abstract cache. -/
structure Clock (K V : Type _) where
  /-- the weight up to which items are hot -/
  target : Nat
  cap : Nat
  ghostCap : Nat
  items : K → Option (Item V)
  /-- keys being loaded, and whether the item will be hot -/
  pending : K → Option Bool
  /-- the circular lists, starting at the hand -/
  hot : List K
  cold : List K
  /-- hashes of items evicted from the cold list, oldest first -/
  ghosts : List UInt64

namespace Clock
variable [DecidableEq K]

/-- An empty cache. -/
def empty (target cap ghostCap : Nat) : Clock K V :=
  { target, cap, ghostCap, items := fun _ => none, pending := fun _ => none, hot := [], cold := [], ghosts := [] }

/-- The weight of the item of `k`. -/
def weigh (c : Cfg K V RS) (m : Clock K V) (k : K) : Nat :=
  match m.items k with
  | some i => c.weight k i.value
  | none => 0

/-- The weight of the hot items. -/
def hotWeight (c : Cfg K V RS) (m : Clock K V) : Nat := (m.hot.map (m.weigh c)).sum

/-- The weight of the cold items. -/
def coldWeight (c : Cfg K V RS) (m : Clock K V) : Nat := (m.cold.map (m.weigh c)).sum

/-- Changing or adding an item. -/
def setItem (m : Clock K V) (k : K) (i : Item V) : Clock K V := { m with items := put m.items k i }

/-- Taking an item out of the table. -/
def dropItem (m : Clock K V) (k : K) : Clock K V := { m with items := del m.items k }

/-- The hot or the cold list. -/
def list (m : Clock K V) (hot : Bool) : List K := if hot then m.hot else m.cold

/-- Replacing the hot or the cold list. -/
def setList (m : Clock K V) (hot : Bool) (l : List K) : Clock K V :=
  if hot then { m with hot := l } else { m with cold := l }

/-- A key enters a list behind all others: the hand reaches it last. Keys of items without weight do not enter. -/
def enlist (m : Clock K V) (hot : Bool) (k : K) (w : Nat) : Clock K V :=
  if w = 0 then m else m.setList hot (m.list hot ++ [k])

/-- The circular list without `k`, the hand at the key after `k`. -/
def skip (l : List K) (k : K) : List K := (l.dropWhile (· ≠ k)).tail ++ l.takeWhile (· ≠ k)

/-- The weight of the item of `k` changed from `w0` to `w`: it enters the list if it has weight now, and leaves it, moving
the hand to the key after it, if it has none any more. -/
def relist (m : Clock K V) (hot : Bool) (k : K) (w0 w : Nat) : Clock K V :=
  if w0 = 0 then m.enlist hot k w
  else if w = 0 then m.setList hot (skip (m.list hot) k)
  else m

/-- Taking the key of a removed item out of the list; the hand moves only if it was at that key. -/
def delist (m : Clock K V) (k : K) : Clock K V :=
  { m with hot := m.hot.filter (· ≠ k), cold := m.cold.filter (· ≠ k) }

/-! ### Eviction -/

/-- `Hand c m m'`: the hot hand moves on, past pinned and past referenced items, lowering their counters, until it is at
an item that is neither. -/
inductive Hand (c : Cfg K V RS) : Clock K V → Clock K V → Prop
  | stop {m : Clock K V} {k : K} {l : List K} {i : Item V} (at_ : m.hot = k :: l) (here : m.items k = some i)
      (free : c.pinned k i.value = false) (unref : i.refs = 0) : Hand c m m
  | pass {m m' : Clock K V} {k : K} {l : List K} {i : Item V} (at_ : m.hot = k :: l) (here : m.items k = some i)
      (kept : c.pinned k i.value = true ∨ i.refs ≠ 0)
      (rest : Hand c { m.setItem k i.cool with hot := l ++ [k] } m') : Hand c m m'

/-- All counters in the hot list are lowered (the hand went around once). -/
def coolAll (m : Clock K V) : Clock K V :=
  { m with items := fun k => if k ∈ m.hot then (m.items k).map Item.cool else m.items k }

/-- The item of `k` is pinned. -/
def pinned (c : Cfg K V RS) (m : Clock K V) (k : K) : Bool :=
  match m.items k with
  | some i => c.pinned k i.value
  | none => false

/-- `TurnHot c m st log m' st' b`: trying to take an item out of the hot list. The Boolean says whether this succeeded. -/
inductive TurnHot (c : Cfg K V RS) (m : Clock K V) (st : RS) : List (Event K V) → Clock K V → RS → Bool → Prop
  /-- all items are pinned -/
  | stuck (all : ∀ k ∈ m.hot, m.pinned c k = true) : TurnHot c m st [] m.coolAll st false
  /-- `before_evict` made the victim weightless: it stays, but leaves the list -/
  | spare {m1 : Clock K V} {k : K} {l : List K} {i : Item V} {st1 : RS} {v : V} (hand : Hand c m m1)
      (at_ : m1.hot = k :: l) (here : m1.items k = some i) (before : c.beforeEvict st k i.value = (st1, v))
      (light : c.weight k v = 0) :
      TurnHot c m st [.beforeEvict k i.value v] { m1.setItem k { i with value := v } with hot := l } st1 true
  /-- the victim is evicted, without leaving a trace -/
  | evict {m1 : Clock K V} {k : K} {l : List K} {i : Item V} {st1 : RS} {v : V} (hand : Hand c m m1)
      (at_ : m1.hot = k :: l) (here : m1.items k = some i) (before : c.beforeEvict st k i.value = (st1, v))
      (still : c.weight k v ≠ 0) :
      TurnHot c m st [.beforeEvict k i.value v, .onEvict k v] { m1.dropItem k with hot := l } (c.onEvict st1 k v) true

/-- Taking items out of the hot list until its weight is within the target, or nothing more can be taken. -/
inductive ShrinkHot (c : Cfg K V RS) : Clock K V → RS → List (Event K V) → Clock K V → RS → Prop
  | done {m : Clock K V} {st : RS} (fits : m.hotWeight c ≤ m.target) : ShrinkHot c m st [] m st
  | stop {m m' : Clock K V} {st st' : RS} {log : List (Event K V)} (over : m.target < m.hotWeight c)
      (turn : TurnHot c m st log m' st' false) : ShrinkHot c m st log m' st'
  | more {m m1 m' : Clock K V} {st st1 st' : RS} {log log1 : List (Event K V)} (over : m.target < m.hotWeight c)
      (turn : TurnHot c m st log m1 st1 true) (rest : ShrinkHot c m1 st1 log1 m' st') :
      ShrinkHot c m st (log ++ log1) m' st'

/-- The cold hand passes unreferenced pinned items. -/
def passes (c : Cfg K V RS) (m : Clock K V) (k : K) : Bool :=
  match m.items k with
  | some i => i.refs == 0 && c.pinned k i.value
  | none => false

/-- A hash joins the queue of ghosts; if the queue is too long then, the oldest one leaves. -/
def haunt (m : Clock K V) (h : UInt64) : Clock K V :=
  { m with ghosts := if m.ghostCap < m.ghosts.length + 1 then (m.ghosts ++ [h]).tail else m.ghosts ++ [h] }

/-- `TurnCold c m st log m' st' b`: trying to make room. -/
inductive TurnCold (c : Cfg K V RS) (m : Clock K V) (st : RS) : List (Event K V) → Clock K V → RS → Bool → Prop
  /-- nothing can be taken out of the cold list: the hot list is next -/
  | hot {m' : Clock K V} {st' : RS} {log : List (Event K V)} {b : Bool} (none : m.cold.dropWhile (m.passes c) = [])
      (turn : TurnHot c m st log m' st' b) : TurnCold c m st log m' st' b
  /-- a referenced item becomes hot, from where other items may have to leave -/
  | promote {m' : Clock K V} {st' : RS} {log : List (Event K V)} {k : K} {l : List K} {i : Item V}
      (at_ : m.cold.dropWhile (m.passes c) = k :: l) (here : m.items k = some i) (referenced : i.refs ≠ 0)
      (shrink : ShrinkHot c { m.setItem k { i with hot := true, refs := i.refs - 1 } with
        cold := l ++ m.cold.takeWhile (m.passes c), hot := m.hot ++ [k] } st log m' st') :
      TurnCold c m st log m' st' true
  /-- `before_evict` made the victim weightless: it stays, but leaves the list -/
  | spare {k : K} {l : List K} {i : Item V} {st1 : RS} {v : V} (at_ : m.cold.dropWhile (m.passes c) = k :: l)
      (here : m.items k = some i) (unref : i.refs = 0) (before : c.beforeEvict st k i.value = (st1, v))
      (light : c.weight k v = 0) :
      TurnCold c m st [.beforeEvict k i.value v]
        { m.setItem k { i with value := v } with cold := l ++ m.cold.takeWhile (m.passes c) } st1 true
  /-- the victim is evicted; its hash is remembered -/
  | evict {k : K} {l : List K} {i : Item V} {st1 : RS} {v : V} (at_ : m.cold.dropWhile (m.passes c) = k :: l)
      (here : m.items k = some i) (unref : i.refs = 0) (before : c.beforeEvict st k i.value = (st1, v))
      (still : c.weight k v ≠ 0) :
      TurnCold c m st [.beforeEvict k i.value v, .onEvict k v]
        ({ m.dropItem k with cold := l ++ m.cold.takeWhile (m.passes c) }.haunt (c.hash k)) (c.onEvict st1 k v) true

/-- Making room until the items and `extra` fit into the capacity, or nothing more can be done. -/
inductive Fit (c : Cfg K V RS) (extra : Nat) : Clock K V → RS → List (Event K V) → Clock K V → RS → Prop
  | done {m : Clock K V} {st : RS} (fits : m.hotWeight c + m.coldWeight c + extra ≤ m.cap) : Fit c extra m st [] m st
  | stop {m m' : Clock K V} {st st' : RS} {log : List (Event K V)}
      (over : m.cap < m.hotWeight c + m.coldWeight c + extra) (turn : TurnCold c m st log m' st' false) :
      Fit c extra m st log m' st'
  | more {m m1 m' : Clock K V} {st st1 st' : RS} {log log1 : List (Event K V)}
      (over : m.cap < m.hotWeight c + m.coldWeight c + extra) (turn : TurnCold c m st log m1 st1 true)
      (rest : Fit c extra m1 st1 log1 m' st') : Fit c extra m st (log ++ log1) m' st'

/-! ### Storing -/

/-- One occurrence of the hash `h` leaves the queue. (Only if different keys have equal hashes may there be several.) -/
def Unhaunt (h : UInt64) (g g' : List UInt64) : Prop := ∃ A B, g = A ++ h :: B ∧ g' = A ++ B

/-- Storing an admitted item. `used` says whether overwriting an item counts as a use of it. -/
inductive Place (c : Cfg K V RS) (m : Clock K V) (st : RS) (k : K) (v : V) (used : Bool) :
    List (Event K V) → Clock K V → RS → Prop
  | overwrite {m' : Clock K V} {st' : RS} {log : List (Event K V)} {i : Item V} (here : m.items k = some i)
      (fit : Fit c 0 ((m.setItem k { i with value := v, refs := min (if used then i.refs + 1 else i.refs) 2 }).relist i.hot k
        (c.weight k i.value) (c.weight k v)) (c.onEvict st k i.value) log m' st') :
      Place c m st k v used (.onEvict k i.value :: log) m' st'
  | loading {m' : Clock K V} {st' : RS} {log : List (Event K V)} {b : Bool} (absent : m.items k = none)
      (pending : m.pending k = some b)
      (fit : Fit c 0 ({ m.setItem k ⟨v, b, 1⟩ with pending := del m.pending k }.enlist b k (c.weight k v)) st log m' st') :
      Place c m st k v used log m' st'
  /-- the hash is remembered: the item is hot from the start -/
  | ghost {m' : Clock K V} {st' : RS} {log : List (Event K V)} {g : List UInt64} (absent : m.items k = none)
      (idle : m.pending k = none) (back : Unhaunt (c.hash k) m.ghosts g)
      (fit : Fit c 0 ({ m.setItem k ⟨v, true, 0⟩ with ghosts := g }.enlist true k (c.weight k v)) st log m' st') :
      Place c m st k v used log m' st'
  /-- room is made first; the item is hot if the hot list had room before -/
  | fresh {m1 : Clock K V} {st1 : RS} {log : List (Event K V)} (absent : m.items k = none) (idle : m.pending k = none)
      (new : c.hash k ∉ m.ghosts) (fit : Fit c (c.weight k v) m st log m1 st1) :
      Place c m st k v used log
        ((m1.setItem k ⟨v, decide (m.hotWeight c + c.weight k v ≤ m.target), 0⟩).enlist
          (decide (m.hotWeight c + c.weight k v ≤ m.target)) k (c.weight k v)) st1

/-- Inserting. -/
inductive Insert (c : Cfg K V RS) (m : Clock K V) (k : K) (v : V) : List (Event K V) → Clock K V → Prop
  /-- too heavy: the old item of the key goes, too -/
  | rejected {st : RS} {v1 : V} {pre : List (Event K V)} (enter : Enter c m.target k v st pre v1)
      (asked : pre ≠ []) (heavy : m.target < c.weight k v1) :
      Insert c m k v (pre ++ (m.items k).toList.map (fun i => .onEvict k i.value) ++ [.onEvict k v1])
        ((m.dropItem k).delist k)
  | stored {st st' : RS} {v1 : V} {pre log : List (Event K V)} {m' : Clock K V} (enter : Enter c m.target k v st pre v1)
      (fits : Admitted c m.target k pre v1) (place : Place c m st k v1 true log m' st') :
      Insert c m k v (pre ++ log) m'

/-- Replacing. The value is handed back on failure. -/
inductive Replacing (c : Cfg K V RS) (m : Clock K V) (k : K) (v : V) (soft : Bool) :
    List (Event K V) → Clock K V → Option V → Prop
  | rejected {st : RS} {v1 : V} {pre : List (Event K V)} (enter : Enter c m.target k v st pre v1)
      (asked : pre ≠ []) (heavy : m.target < c.weight k v1) :
      Replacing c m k v soft (pre ++ (m.items k).toList.map (fun i => .onEvict k i.value)) ((m.dropItem k).delist k)
        (some v1)
  | absent {st : RS} {v1 : V} {pre : List (Event K V)} (enter : Enter c m.target k v st pre v1)
      (fits : Admitted c m.target k pre v1) (absent : m.items k = none) : Replacing c m k v soft pre m (some v1)
  | stored {st st' : RS} {v1 : V} {pre log : List (Event K V)} {m' : Clock K V} {i : Item V}
      (enter : Enter c m.target k v st pre v1) (fits : Admitted c m.target k pre v1) (here : m.items k = some i)
      (place : Place c m st k v1 (!soft) log m' st') : Replacing c m k v soft (pre ++ log) m' none

/-- What a call that may load a key finds. -/
inductive Lookup (c : Cfg K V RS) (m : Clock K V) (k : K) : Option V → Clock K V → Prop
  | found {i : Item V} (here : m.items k = some i) : Lookup c m k (some i.value) (m.setItem k i.warm)
  | loading {b : Bool} (absent : m.items k = none) (pending : m.pending k = some b) : Lookup c m k none m
  | ghost {g : List UInt64} (absent : m.items k = none) (idle : m.pending k = none)
      (back : Unhaunt (c.hash k) m.ghosts g) :
      Lookup c m k none { m with pending := put m.pending k true, ghosts := g }
  | fresh (absent : m.items k = none) (idle : m.pending k = none) (new : c.hash k ∉ m.ghosts) :
      Lookup c m k none { m with pending := put m.pending k false }

/-- The end of a load. The item is hot if the cache has room for it, or if its hash was remembered. If others waited for it
(`waited`, only in `sync`), this counts as a use of the item. -/
inductive Fill (c : Cfg K V RS) (m : Clock K V) (k : K) (v : V) (waited : Bool) : List (Event K V) → Clock K V → Prop
  | rejected {st : RS} {v1 : V} {pre : List (Event K V)} (enter : Enter c m.target k v st pre v1)
      (asked : pre ≠ []) (heavy : m.target < c.weight k v1) :
      Fill c m k v waited (pre ++ [.onEvict k v1]) { m with pending := del m.pending k }
  | weightless {st : RS} {v1 : V} {pre : List (Event K V)} {b : Bool} (enter : Enter c m.target k v st pre v1)
      (fits : Admitted c m.target k pre v1) (pending : m.pending k = some b) (light : c.weight k v1 = 0) :
      Fill c m k v waited pre
        { m.setItem k ⟨v1, decide (m.hotWeight c + m.coldWeight c ≤ m.cap) || b, if waited then 1 else 0⟩ with
          pending := del m.pending k }
  | stored {st st' : RS} {v1 : V} {pre log : List (Event K V)} {b hot : Bool} {m' : Clock K V}
      (enter : Enter c m.target k v st pre v1) (fits : Admitted c m.target k pre v1) (pending : m.pending k = some b)
      (heavy : c.weight k v1 ≠ 0)
      (level : hot = (decide (m.hotWeight c + m.coldWeight c + c.weight k v1 ≤ m.cap) || b))
      (fit : Fit c 0 ({ m.setItem k ⟨v1, hot, if waited then 1 else 0⟩ with pending := del m.pending k }.setList hot
        (m.list hot ++ [k])) st log m' st') : Fill c m k v waited (pre ++ log) m'

/-- Writing through a mutable reference. -/
def write (c : Cfg K V RS) (m : Clock K V) (k : K) (f : V → V) : Clock K V :=
  match m.items k with
  | some i => (m.setItem k { i with value := f i.value }).relist i.hot k (c.weight k i.value) (c.weight k (f i.value))
  | none => m

/-- Looking up an item and counting this as a use. -/
def touch (m : Clock K V) (k : K) : Clock K V :=
  match m.items k with
  | some i => m.setItem k i.warm
  | none => m

/-- The value stored under `k`. -/
def value (m : Clock K V) (k : K) : Option V := (m.items k).map (·.value)

/-- Removing: the item; or else the pending load; or else a remembered hash. -/
inductive Remove (c : Cfg K V RS) (m : Clock K V) (k : K) : Clock K V → Prop
  | item {i : Item V} (here : m.items k = some i) : Remove c m k ((m.dropItem k).delist k)
  | loading {b : Bool} (absent : m.items k = none) (pending : m.pending k = some b) :
      Remove c m k { m with pending := del m.pending k }
  | ghost {g : List UInt64} (absent : m.items k = none) (idle : m.pending k = none)
      (back : Unhaunt (c.hash k) m.ghosts g) : Remove c m k { m with ghosts := g }
  | nothing (absent : m.items k = none) (idle : m.pending k = none) (new : c.hash k ∉ m.ghosts) : Remove c m k m

/-- Keeping the items that satisfy `f`. -/
def filter (m : Clock K V) (f : K → V → Bool) : Clock K V :=
  { m with items := fun k => (m.items k).filter (fun i => f k i.value),
           hot := m.hot.filter (fun k => (m.items k).any (fun i => f k i.value)),
           cold := m.cold.filter (fun k => (m.items k).any (fun i => f k i.value)) }

/-- The use of a guard. -/
inductive Guarded (c : Cfg K V RS) (m : Clock K V) (k : K) : GuardUse V → List (Event K V) → Clock K V → Prop
  | insert {v : V} {log : List (Event K V)} {m' : Clock K V} (fill : Fill c m k v false log m') :
      Guarded c m k (.insert v) log m'
  | drop : Guarded c m k .drop [] { m with pending := del m.pending k }
  | forget : Guarded c m k .forget [] m

/-! ### Calls -/

/-- What every call does. -/
inductive Step (c : Cfg K V RS) (m : Clock K V) : Op K V → Out K V → List (Event K V) → Clock K V → Prop
  | insert {k : K} {v : V} {log : List (Event K V)} {m' : Clock K V} (h : Insert c m k v log m') :
      Step c m (.insert k v) .unit log m'
  | replace {k : K} {v : V} {soft : Bool} {log : List (Event K V)} {m' : Clock K V} {r : Option V}
      (h : Replacing c m k v soft log m' r) : Step c m (.replace k v soft) (.replaced (r.map fun v' => (k, v'))) log m'
  | remove {k : K} {m' : Clock K V} (h : Remove c m k m') :
      Step c m (.remove k) (.removed ((m.value k).map fun v => (k, v))) [] m'
  | get {k : K} : Step c m (.get k) (.value (m.value k)) [] (m.touch k)
  | peek {k : K} : Step c m (.peek k) (.value (m.value k)) [] m
  | containsKey {k : K} : Step c m (.containsKey k) (.bool (m.value k).isSome) [] m
  | getMut {k : K} {f : V → V} : Step c m (.getMut k f) (.value (m.value k)) [] ((m.touch k).write c k f)
  | peekMut {k : K} {f : V → V} : Step c m (.peekMut k f) (.value (m.value k)) [] (m.write c k f)
  | retain {f : K → V → Bool} : Step c m (.retain f) .unit [] (m.filter f)
  | clear : Step c m .clear .unit [] (.empty m.target m.cap m.ghostCap)
  | drain {l : List (K × V)} (all : Lists l m.value) : Step c m .drain (.items l) [] (.empty m.target m.cap m.ghostCap)
  | reserve : Step c m .reserve .unit [] m
  | loadHit {k : K} {load : Option V} {v : V} {m' : Clock K V} (h : Lookup c m k (some v) m') :
      Step c m (.getOrInsertWith k load) (.loaded false (some (some v))) [] m'
  | loadFail {k : K} {m' : Clock K V} (h : Lookup c m k none m') :
      Step c m (.getOrInsertWith k none) (.loaded true none) [] m'
  | load {k : K} {v : V} {log : List (Event K V)} {m1 m' : Clock K V} (h : Lookup c m k none m1)
      (fill : Fill c m1 k v false log m') : Step c m (.getOrInsertWith k (some v)) (.loaded true (some (m'.value k))) log m'
  | loadMutHit {k : K} {load : Option V} {f : V → V} {v : V} {m' : Clock K V} (h : Lookup c m k (some v) m') :
      Step c m (.getMutOrInsertWith k load f) (.loaded false (some (some v))) [] (m'.write c k f)
  | loadMutFail {k : K} {f : V → V} {m' : Clock K V} (h : Lookup c m k none m') :
      Step c m (.getMutOrInsertWith k none f) (.loaded true none) [] m'
  | loadMut {k : K} {v : V} {f : V → V} {log : List (Event K V)} {m1 m' : Clock K V} (h : Lookup c m k none m1)
      (fill : Fill c m1 k v false log m') :
      Step c m (.getMutOrInsertWith k (some v) f) (.loaded true (some (m'.value k))) log (m'.write c k f)
  | guardHit {k : K} {use : GuardUse V} {v : V} {m' : Clock K V} (h : Lookup c m k (some v) m') :
      Step c m (.getRefOrGuard k use) (.orGuard (some v)) [] m'
  | guard {k : K} {use : GuardUse V} {log : List (Event K V)} {m1 m' : Clock K V} (h : Lookup c m k none m1)
      (guarded : Guarded c m1 k use log m') : Step c m (.getRefOrGuard k use) (.orGuard none) log m'
  | guardMutHit {k : K} {f : V → V} {use : GuardUse V} {v : V} {m' : Clock K V} (h : Lookup c m k (some v) m') :
      Step c m (.getMutOrGuard k f use) (.orGuard (some v)) [] (m'.write c k f)
  | guardMut {k : K} {f : V → V} {use : GuardUse V} {log : List (Event K V)} {m1 m' : Clock K V}
      (h : Lookup c m k none m1) (guarded : Guarded c m1 k use log m') :
      Step c m (.getMutOrGuard k f use) (.orGuard none) log m'

/-- `Run c m0 h m`: the calls of the history `h`, one after the other, lead from `m0` to `m`. -/
inductive Run (c : Cfg K V RS) (m0 : Clock K V) : List (Unsync.Call K V) → Clock K V → Prop
  | start : Run c m0 [] m0
  | call {h : List (Unsync.Call K V)} {m m' : Clock K V} {x : Unsync.Call K V} (hr : Run c m0 h m)
      (hx : Step c m x.op x.out x.log m') : Run c m0 (h ++ [x]) m'

end Clock
end QuickCache.Spec
