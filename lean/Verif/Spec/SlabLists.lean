import Verif.Model.Slab

/-!
# What the linked slab is for: a table of items and any number of circular lists of tokens

`Tables` is the idealised data structure: a table from tokens to items and, for every list name `i`, the tokens on list
`i` in order, head first. `Client` is a user of the real slab: the slab and the head token of each list, as `CacheShard`
keeps them. `Client.exec` performs one operation with the real slab; `Tables.apply` performs it on the ideal tables.
-/

namespace QuickCache.SlabSpec
variable {ι T : Type _} [DecidableEq ι]

/-- One operation of a user of the slab. Lists are named by `ι`. -/
inductive Op (ι T : Type _) where
  /-- store a new item -/
  | insert (x : T)
  /-- put the item `t`, which is on no list, at the end of list `i` -/
  | link (t : Nat) (i : ι)
  /-- take the item `t` off the list it is on -/
  | unlink (t : Nat)
  /-- take the item `t` off its list and out of the table -/
  | remove (t : Nat)
  /-- overwrite the item `t` -/
  | write (t : Nat) (x : T)
  /-- move the head of list `i` one item forward -/
  | rotate (i : ι)
  /-- empty everything -/
  | drain

/-- What an operation returns. -/
inductive Out (T : Type _) where
  | token (t : Nat)
  | next (n : Option Nat)
  | removed (r : Option (T × Option Nat))
  | done
  | items (l : List T)
  deriving DecidableEq, Repr

/-- The slab and the list heads kept by its user. -/
structure Client (ι T : Type _) where
  slab : Slab T
  heads : ι → Option Nat

/-- A fresh slab and no lists. -/
def Client.new : Client ι T := ⟨Slab.new, fun _ => none⟩

/-- A head pointing at a removed item moves on to the item that followed it
(`/repo/src/shard.rs`: `if *head == Some(idx) { *head = next }`). -/
def Client.moveOn (heads : ι → Option Nat) (t : Nat) (next : Option Nat) : ι → Option Nat :=
  fun i => if heads i = some t then next else heads i

/-- One operation on the real slab (`/repo/src/linked_slab.rs:58-215`). -/
def Client.exec (c : Client ι T) : Op ι T → Res (Client ι T × Out T)
  | .insert x => do
    let (s, t) ← c.slab.insert x
    .ok (⟨s, c.heads⟩, .token t)
  | .link t i => do
    let (s, n) ← c.slab.link t (c.heads i)
    .ok (⟨s, fun j => if j = i then some n else c.heads j⟩, .token n)
  | .unlink t => do
    let (s, n) ← c.slab.unlink t
    .ok (⟨s, Client.moveOn c.heads t n⟩, .next n)
  | .remove t => do
    let (s, r) ← c.slab.remove t
    .ok (⟨s, Client.moveOn c.heads t (r.bind (·.2))⟩, .removed r)
  | .write t x =>
    match c.slab.get t with
    | none => .error .unwrapNone
    | some _ => .ok (⟨c.slab.setItem t x, c.heads⟩, .done)
  | .rotate i =>
    match c.heads i with
    | none => .ok (c, .done)
    | some h =>
      match c.slab.get h with
      | none => .error .unwrapNone
      | some (_, n) => .ok (⟨c.slab, fun j => if j = i then some n else c.heads j⟩, .done)
  | .drain => .ok (⟨c.slab.drain.1, fun _ => none⟩, .items c.slab.drain.2)

/-- The ideal tables, with the number of items in the table now and the largest such number since the last `drain`. -/
structure Tables (ι T : Type _) where
  item : Nat → Option T
  list : ι → List Nat
  inUse : Nat
  peak : Nat

/-- Nothing stored, all lists empty. -/
def Tables.empty : Tables ι T := ⟨fun _ => none, fun _ => [], 0, 0⟩

/-- The operation makes sense in this state. -/
def Tables.Allows (a : Tables ι T) : Op ι T → Prop
  | .insert _ => True
  | .link t _ => (a.item t).isSome ∧ ∀ j, t ∉ a.list j
  | .unlink t => (a.item t).isSome
  | .remove t => (a.item t).isSome
  | .write t _ => (a.item t).isSome
  | .rotate _ => True
  | .drain => True

/-- The token after `t` on the circular list `l`. -/
def follower (l : List Nat) (t : Nat) : Option Nat := l[(l.idxOf t + 1) % l.length]?

/-- `n` is the token after `t` on the list `t` is on, if there is another one. -/
def Tables.NextOf (a : Tables ι T) (t : Nat) (n : Option Nat) : Prop :=
  ((∀ i, t ∉ a.list i) → n = none) ∧
  ∀ i, t ∈ a.list i → n = if a.list i = [t] then none else follower (a.list i) t

/-- What the operation must return: a token not in use for an `insert`; the head of the list for a `link`; the next item
on the list for an `unlink` or `remove`, with the item itself in the latter case; every stored item, in the order of the
tokens, for `drain`. -/
def Tables.Returns (a : Tables ι T) : Op ι T → Out T → Prop
  | .insert _, o => ∃ t, o = .token t ∧ a.item t = none ∧ (∀ i, t ∉ a.list i)
  | .link t i, o => o = .token ((a.list i).head?.getD t)
  | .unlink t, o => ∃ n, o = .next n ∧ a.NextOf t n
  | .remove t, o => ∃ x n, o = .removed (some (x, n)) ∧ a.item t = some x ∧ a.NextOf t n
  | .write _ _, o => o = .done
  | .rotate _, o => o = .done
  | .drain, o => o = .items ((List.range a.peak).filterMap a.item) ∧ ∀ t, a.peak ≤ t → a.item t = none

/-- The effect of the operation on the ideal tables. -/
def Tables.apply (a : Tables ι T) : Op ι T → Out T → Tables ι T
  | .insert x, .token t =>
    { a with item := fun u => if u = t then some x else a.item u
             inUse := a.inUse + 1
             peak := max a.peak (a.inUse + 1) }
  | .link t i, _ => { a with list := fun j => if j = i then a.list i ++ [t] else a.list j }
  | .unlink t, _ => { a with list := fun j => (a.list j).filter (· ≠ t) }
  | .remove t, _ =>
    { a with item := fun u => if u = t then none else a.item u
             list := fun j => (a.list j).filter (· ≠ t)
             inUse := a.inUse - 1 }
  | .write t x, _ => { a with item := fun u => if u = t then some x else a.item u }
  | .rotate i, _ =>
    { a with list := fun j => if j = i then (a.list i).tail ++ (a.list i).head?.toList else a.list j }
  | .drain, _ => .empty
  | .insert _, _ => a

/-- The states reached by sensible operations, with the ideal tables alongside. -/
inductive Reach : Tables ι T → Client ι T → Prop
  | new : Reach .empty .new
  | step {a : Tables ι T} {c c' : Client ι T} {op : Op ι T} {o : Out T} : Reach a c → a.Allows op →
      c.exec op = .ok (c', o) → Reach (a.apply op o) c'

end QuickCache.SlabSpec
