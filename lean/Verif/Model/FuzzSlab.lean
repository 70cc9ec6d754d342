import Verif.Model.Validate

/-!
# Model of the crate's own fuzz target for `LinkedSlab`

`/repo/fuzz/fuzz_targets/fuzz_linked_slab.rs`, statement by statement: a program that keeps three circular lists of items
in one slab, next to three ordered maps from item to token, and compares. A failed assertion and a failed `unwrap` are
errors.
-/

namespace QuickCache.FuzzSlab

/-- `enum Op` (`fuzz_linked_slab.rs:7-13`). -/
inductive SOp where
  | add (i : UInt16)
  | remove (i : UInt16)
  | unlink (i : UInt16)
  | link (i : UInt16)
  deriving DecidableEq, Repr

/-- `BTreeMap<u16, Token>` (`fuzz_linked_slab.rs:20-21`): a list in the order of the keys. -/
abbrev Tree := List (UInt16 × Nat)

namespace Tree

/-- `model.range(i..).next()` (`fuzz_linked_slab.rs:26, 57-59`). -/
def range (m : Tree) (i : UInt16) : Option (UInt16 × Nat) := m.find? (fun p => decide (i ≤ p.1))

/-- `get` and `contains_key` (`fuzz_linked_slab.rs:67, 91`). -/
def get (m : Tree) (i : UInt16) : Option Nat := (m.find? (fun p => p.1 == i)).map (·.2)

/-- `insert` (`fuzz_linked_slab.rs:35`). -/
def insert (m : Tree) (i : UInt16) (t : Nat) : Tree :=
  m.takeWhile (fun p => decide (p.1 < i)) ++ (i, t) :: m.dropWhile (fun p => decide (p.1 ≤ i))

/-- The map that `remove` leaves (`fuzz_linked_slab.rs:49`); what it returns is what `get` returns before. -/
def without (m : Tree) (i : UInt16) : Tree := m.filter (fun p => p.1 != i)

/-- `model.range(i..).next().or(model.iter().next()).map(|(_, t)| *t)` (`fuzz_linked_slab.rs:58-62`). -/
def nextToken (m : Tree) (i : UInt16) : Option Nat := ((m.range i).or m.head?).map (·.2)

end Tree

/-- The variables `slab`, `unlinked` and one of the `models` (`fuzz_linked_slab.rs:19-21`). -/
structure World where
  slab : Slab UInt16
  unlinked : Tree
  model : Tree

/-- Where `i` is to be linked in front of: `none` if it is already there (`fuzz_linked_slab.rs:26-44`, `70-85`). -/
def target (m : Tree) (i : UInt16) : Option (Option Nat) :=
  match m.range i with
  | some (gte, next) => if gte = i then none else some (some next)
  | none => some (m.head?.map (·.2))

/-- The body of the loop over the models (`fuzz_linked_slab.rs:24-111`); the Boolean says whether it ends with `break`. -/
def body (w : World) : SOp → Res (World × Bool)
  | .add i =>
    match target w.model i with
    | none => .ok (w, false)
    | some before => do
      let (slab, t) ← w.slab.insert i
      let (slab, _) ← slab.link t before
      .ok (⟨slab, w.unlinked, w.model.insert i t⟩, true)
  | .remove i =>
    match w.model.get i with
    | none => .ok (w, false)
    | some t => do
      let model := w.model.without i
      match ← w.slab.remove t with
      | (_, none) => .error .unwrapNone
      | (slab, some (j, next)) => do
        Shard.assert (j = i)
        Shard.assert (next = model.nextToken i)
        .ok (⟨slab, w.unlinked, model⟩, true)
  | .link i =>
    match w.unlinked.get i with
    | none => .ok (w, true)
    | some t =>
      match target w.model i with
      | none => .ok (w, false)
      | some before => do
        let (slab, _) ← w.slab.link t before
        .ok (⟨slab, w.unlinked.without i, w.model.insert i t⟩, true)
  | .unlink i =>
    if (w.unlinked.get i).isSome then .ok (w, true)
    else
      match w.model.get i with
      | none => .ok (w, false)
      | some t => do
        let model := w.model.without i
        let (slab, next) ← w.slab.unlink t
        Shard.assert (next = model.nextToken i)
        .ok (⟨slab, w.unlinked.insert i t, model⟩, true)

/-- The loop over the models (`fuzz_linked_slab.rs:23-112`). -/
def inner (op : SOp) : Slab UInt16 → Tree → List Tree → Res (Slab UInt16 × Tree × List Tree)
  | slab, unl, [] => .ok (slab, unl, [])
  | slab, unl, m :: ms => do
    let (w, brk) ← body ⟨slab, unl, m⟩ op
    if brk then .ok (w.slab, w.unlinked, w.model :: ms)
    else do
      let (slab, unl, ms) ← inner op w.slab w.unlinked ms
      .ok (slab, unl, w.model :: ms)

/-- The loop over the operations (`fuzz_linked_slab.rs:22-113`). -/
def outer : List SOp → Slab UInt16 → Tree → List Tree → Res (Slab UInt16 × Tree × List Tree)
  | [], slab, unl, ms => .ok (slab, unl, ms)
  | op :: ops, slab, unl, ms => do
    let (slab, unl, ms) ← inner op slab unl ms
    outer ops slab unl ms

/-- The loop over one model at the end (`fuzz_linked_slab.rs:120-125`); returns the last value of `token`. -/
def walk (slab : Slab UInt16) : Nat → Tree → Res Nat
  | token, [] => .ok token
  | token, (i, expected) :: rest => do
    Shard.assert (token = expected)
    match slab.get token with
    | none => .error .unwrapNone
    | some (j, next) => do
      Shard.assert (j = i)
      walk slab next rest

/-- The check of one model (`fuzz_linked_slab.rs:115-127`). -/
def checkModel (slab : Slab UInt16) (m : Tree) : Res Unit :=
  match m with
  | [] => .ok ()
  | (i, first) :: rest => do
    let token ← walk slab first ((i, first) :: rest)
    Shard.assert (token = first)

/-- The check of the unlinked items (`fuzz_linked_slab.rs:129-133`). -/
def checkUnlinked (slab : Slab UInt16) : Tree → Res Unit
  | [] => .ok ()
  | (i, token) :: rest =>
    match slab.get token with
    | none => .error .unwrapNone
    | some (g, next) => do
      Shard.assert (i = g)
      Shard.assert (next = token)
      checkUnlinked slab rest

/-- `for model in &models` (`fuzz_linked_slab.rs:114-128`). -/
def checkModels (slab : Slab UInt16) : List Tree → Res Unit
  | [] => .ok ()
  | m :: ms => do
    checkModel slab m
    checkModels slab ms

/-- `LinkedSlab::len` (`/repo/src/linked_slab.rs:29-32`), compiled only for this fuzz target. -/
def len (slab : Slab UInt16) : Nat := (slab.entries.filter (fun e => e.item.isSome)).length

/-- The fuzz target (`fuzz_linked_slab.rs:15-138`). -/
def run (ops : List SOp) : Res Unit := do
  let (slab, unl, ms) ← outer ops .new [] [[], [], []]
  checkModels slab ms
  checkUnlinked slab unl
  Shard.assert (len slab = unl.length + (ms.map List.length).sum)

end QuickCache.FuzzSlab
