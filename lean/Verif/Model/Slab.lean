import Verif.Model.Res

/-!
# Model of `/repo/src/linked_slab.rs`

`Token` (`NonZeroU32`) is represented by the zero-based slot index `token.get() - 1`, a natural number, since every use
of a token in the code subtracts one first. `Vec` is `List`. `&mut self` methods return the new slab.
Debug assertions are modelled (they are errors).
-/

namespace QuickCache

/-- `struct Entry<T>` (`/repo/src/linked_slab.rs:3-12`). -/
structure SEntry (T : Type _) where
  item : Option T
  next : Nat
  prev : Nat
  deriving DecidableEq, Repr

/-- `struct LinkedSlab<T>` (`/repo/src/linked_slab.rs:14-19`). -/
structure Slab (T : Type _) where
  entries : List (SEntry T)
  nextFree : Nat
  deriving DecidableEq, Repr

namespace Slab
variable {T : Type _}

/-- `LinkedSlab::with_capacity` (`/repo/src/linked_slab.rs:22-27`). The reserved capacity has no effect on behaviour. -/
def new : Slab T := { entries := [], nextFree := 0 }

/-- Writing some fields of one entry (`&mut self.entries[i]` followed by field assignments). -/
def mod (s : Slab T) (t : Nat) (f : SEntry T → SEntry T) : Slab T :=
  { s with entries := s.entries.modify t f }

/-- Writing the item of an occupied slot through the reference returned by `get_mut`
(`/repo/src/linked_slab.rs:96-105`, `115-121`). -/
def setItem (s : Slab T) (t : Nat) (x : T) : Slab T :=
  s.mod t (fun e => { e with item := some x })

/-- `LinkedSlab::insert` (`/repo/src/linked_slab.rs:58-83`). `token.get().wrapping_add(1)` is zero exactly when the
slot index plus two is `2^32`. -/
def insert (s : Slab T) (x : T) : Res (Slab T × Nat) :=
  let t := s.nextFree
  match s.entries[t]? with
  | some e =>
    if e.item.isSome then .error .debugAssert
    else .ok ({ entries := s.entries.modify t (fun _ => ⟨some x, t, t⟩), nextFree := e.next }, t)
  | none =>
    if t ≠ s.entries.length then .error .debugAssert
    else if t + 2 = 2 ^ 32 then .error .slabFull
    else .ok ({ entries := s.entries ++ [⟨some x, t, t⟩], nextFree := t + 1 }, t)

/-- `LinkedSlab::get`, `get_mut` (`/repo/src/linked_slab.rs:85-105`): the item and the next token. -/
def get (s : Slab T) (t : Nat) : Option (T × Nat) :=
  match s.entries[t]? with
  | some ⟨some v, nx, _⟩ => some (v, nx)
  | _ => none

/-- The tail of `LinkedSlab::link` (`/repo/src/linked_slab.rs:152-157`). -/
def linkSelf (s : Slab T) (idx prev next : Nat) : Res (Slab T × Nat) :=
  match s.entries[idx]? with
  | none => .error .outOfBounds
  | some e =>
    if e.item.isNone then .error .debugAssert
    else if e.next ≠ idx then .error .debugAssert
    else if e.prev ≠ idx then .error .debugAssert
    else .ok (s.mod idx (fun e => { e with prev := prev, next := next }), next)

/-- `LinkedSlab::link` (`/repo/src/linked_slab.rs:123-158`). -/
def link (s : Slab T) (idx : Nat) (targetHead : Option Nat) : Res (Slab T × Nat) :=
  match targetHead with
  | some h =>
    match s.entries[h]? with
    | none => .error .outOfBounds
    | some head =>
      if head.item.isNone then .error .debugAssert
      else if head.prev = h then
        (s.mod h (fun e => { e with prev := idx, next := idx })).linkSelf idx h h
      else
        let before := head.prev
        let s1 := s.mod h (fun e => { e with prev := idx })
        match s1.entries[before]? with
        | none => .error .outOfBounds
        | some b =>
          if b.item.isNone then .error .debugAssert
          else if b.next ≠ h then .error .debugAssert
          else (s1.mod before (fun e => { e with next := idx })).linkSelf idx before h
  | none => s.linkSelf idx idx idx

/-- `LinkedSlab::unlink` (`/repo/src/linked_slab.rs:160-187`). -/
def unlink (s : Slab T) (idx : Nat) : Res (Slab T × Option Nat) :=
  match s.entries[idx]? with
  | none => .error .outOfBounds
  | some e =>
    if e.item.isNone then .error .debugAssert
    else
      let prevIdx := e.prev
      let nextIdx := e.next
      if nextIdx = idx then
        if prevIdx ≠ idx then .error .debugAssert else .ok (s, none)
      else
        let s1 := s.mod idx (fun e => { e with prev := idx, next := idx })
        match s1.entries[nextIdx]? with
        | none => .error .outOfBounds
        | some n =>
          if n.item.isNone then .error .debugAssert
          else if n.prev ≠ idx then .error .debugAssert
          else
            let s2 := s1.mod nextIdx (fun e => { e with prev := prevIdx })
            match s2.entries[prevIdx]? with
            | none => .error .outOfBounds
            | some p =>
              if p.item.isNone then .error .debugAssert
              else if p.next ≠ idx then .error .debugAssert
              else .ok (s2.mod prevIdx (fun e => { e with next := nextIdx }), some nextIdx)

/-- `LinkedSlab::remove` (`/repo/src/linked_slab.rs:189-202`). -/
def remove (s : Slab T) (idx : Nat) : Res (Slab T × Option (T × Option Nat)) := do
  let (s1, next) ← s.unlink idx
  match s1.entries[idx]? with
  | none => .error .outOfBounds
  | some e =>
    match e.item with
    | none => .ok (s1, none)
    | some x =>
      .ok ({ entries := s1.entries.modify idx (fun e => { e with item := none, next := s1.nextFree })
             nextFree := idx }, some (x, next))

/-- `LinkedSlab::drain` (`/repo/src/linked_slab.rs:209-215`): the emptied slab and the yielded items. The vector is
emptied whether or not the iterator is consumed. -/
def drain (s : Slab T) : Slab T × List T :=
  ({ entries := [], nextFree := 0 }, s.entries.filterMap (·.item))

/-- `LinkedSlab::iter` (`/repo/src/linked_slab.rs:217-220`) and `iter_entries` (`34-37`). -/
def iter (s : Slab T) : List T := s.entries.filterMap (·.item)

/-! ### Views used by specifications and proofs -/

/-- The item stored in slot `t`, if the slot exists and is occupied. -/
def item (s : Slab T) (t : Nat) : Option T := s.entries[t]?.bind (·.item)

/-- The `next` field of slot `t`. -/
def nxt (s : Slab T) (t : Nat) : Nat := (s.entries[t]?.map (·.next)).getD 0

/-- The `prev` field of slot `t`. -/
def prv (s : Slab T) (t : Nat) : Nat := (s.entries[t]?.map (·.prev)).getD 0

/-- All slots' items, in slot order. -/
def items (s : Slab T) : List (Option T) := s.entries.map (·.item)

end Slab
end QuickCache
