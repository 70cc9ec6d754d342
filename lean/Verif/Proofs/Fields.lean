import Verif.Model.Shard
import Verif.Proofs.Slab

/-!
# Field-access lemmas for the setters of the shard model
-/

namespace QuickCache
namespace Shard
variable {K V : Type _}

@[simp] theorem map_setHead (s : Shard K V) (i : RingId) (h : Option Nat) : (s.setHead i h).map = s.map := by cases i <;> rfl
@[simp] theorem probe_setHead (s : Shard K V) (i : RingId) (h : Option Nat) : (s.setHead i h).probe = s.probe := by cases i <;> rfl
@[simp] theorem entries_setHead (s : Shard K V) (i : RingId) (h : Option Nat) : (s.setHead i h).entries = s.entries := by cases i <;> rfl
@[simp] theorem weightTargetHot_setHead (s : Shard K V) (i : RingId) (h : Option Nat) : (s.setHead i h).weightTargetHot = s.weightTargetHot := by cases i <;> rfl
@[simp] theorem weightCapacity_setHead (s : Shard K V) (i : RingId) (h : Option Nat) : (s.setHead i h).weightCapacity = s.weightCapacity := by cases i <;> rfl
@[simp] theorem weightHot_setHead (s : Shard K V) (i : RingId) (h : Option Nat) : (s.setHead i h).weightHot = s.weightHot := by cases i <;> rfl
@[simp] theorem weightCold_setHead (s : Shard K V) (i : RingId) (h : Option Nat) : (s.setHead i h).weightCold = s.weightCold := by cases i <;> rfl
@[simp] theorem numHot_setHead (s : Shard K V) (i : RingId) (h : Option Nat) : (s.setHead i h).numHot = s.numHot := by cases i <;> rfl
@[simp] theorem numCold_setHead (s : Shard K V) (i : RingId) (h : Option Nat) : (s.setHead i h).numCold = s.numCold := by cases i <;> rfl
@[simp] theorem numNonResident_setHead (s : Shard K V) (i : RingId) (h : Option Nat) : (s.setHead i h).numNonResident = s.numNonResident := by cases i <;> rfl
@[simp] theorem capacityNonResident_setHead (s : Shard K V) (i : RingId) (h : Option Nat) : (s.setHead i h).capacityNonResident = s.capacityNonResident := by cases i <;> rfl
@[simp] theorem hits_setHead (s : Shard K V) (i : RingId) (h : Option Nat) : (s.setHead i h).hits = s.hits := by cases i <;> rfl
@[simp] theorem misses_setHead (s : Shard K V) (i : RingId) (h : Option Nat) : (s.setHead i h).misses = s.misses := by cases i <;> rfl
@[simp] theorem nextPlh_setHead (s : Shard K V) (i : RingId) (h : Option Nat) : (s.setHead i h).nextPlh = s.nextPlh := by cases i <;> rfl
@[simp] theorem wgt_setHead (s : Shard K V) (i : RingId) (h : Option Nat) : (s.setHead i h).wgt = s.wgt := by funext x; cases i <;> cases x <;> rfl
@[simp] theorem num_setHead (s : Shard K V) (i : RingId) (h : Option Nat) : (s.setHead i h).num = s.num := by funext x; cases i <;> cases x <;> rfl
@[simp] theorem map_setWgt (s : Shard K V) (st : St) (w : Nat) : (s.setWgt st w).map = s.map := by cases st <;> rfl
@[simp] theorem probe_setWgt (s : Shard K V) (st : St) (w : Nat) : (s.setWgt st w).probe = s.probe := by cases st <;> rfl
@[simp] theorem entries_setWgt (s : Shard K V) (st : St) (w : Nat) : (s.setWgt st w).entries = s.entries := by cases st <;> rfl
@[simp] theorem coldHead_setWgt (s : Shard K V) (st : St) (w : Nat) : (s.setWgt st w).coldHead = s.coldHead := by cases st <;> rfl
@[simp] theorem hotHead_setWgt (s : Shard K V) (st : St) (w : Nat) : (s.setWgt st w).hotHead = s.hotHead := by cases st <;> rfl
@[simp] theorem ghostHead_setWgt (s : Shard K V) (st : St) (w : Nat) : (s.setWgt st w).ghostHead = s.ghostHead := by cases st <;> rfl
@[simp] theorem weightTargetHot_setWgt (s : Shard K V) (st : St) (w : Nat) : (s.setWgt st w).weightTargetHot = s.weightTargetHot := by cases st <;> rfl
@[simp] theorem weightCapacity_setWgt (s : Shard K V) (st : St) (w : Nat) : (s.setWgt st w).weightCapacity = s.weightCapacity := by cases st <;> rfl
@[simp] theorem numHot_setWgt (s : Shard K V) (st : St) (w : Nat) : (s.setWgt st w).numHot = s.numHot := by cases st <;> rfl
@[simp] theorem numCold_setWgt (s : Shard K V) (st : St) (w : Nat) : (s.setWgt st w).numCold = s.numCold := by cases st <;> rfl
@[simp] theorem numNonResident_setWgt (s : Shard K V) (st : St) (w : Nat) : (s.setWgt st w).numNonResident = s.numNonResident := by cases st <;> rfl
@[simp] theorem capacityNonResident_setWgt (s : Shard K V) (st : St) (w : Nat) : (s.setWgt st w).capacityNonResident = s.capacityNonResident := by cases st <;> rfl
@[simp] theorem hits_setWgt (s : Shard K V) (st : St) (w : Nat) : (s.setWgt st w).hits = s.hits := by cases st <;> rfl
@[simp] theorem misses_setWgt (s : Shard K V) (st : St) (w : Nat) : (s.setWgt st w).misses = s.misses := by cases st <;> rfl
@[simp] theorem nextPlh_setWgt (s : Shard K V) (st : St) (w : Nat) : (s.setWgt st w).nextPlh = s.nextPlh := by cases st <;> rfl
@[simp] theorem num_setWgt (s : Shard K V) (st : St) (w : Nat) : (s.setWgt st w).num = s.num := by funext x; cases st <;> cases x <;> rfl
@[simp] theorem head_setWgt (s : Shard K V) (st : St) (w : Nat) : (s.setWgt st w).head = s.head := by funext x; cases st <;> cases x <;> rfl
@[simp] theorem map_setNum (s : Shard K V) (st : St) (n : Nat) : (s.setNum st n).map = s.map := by cases st <;> rfl
@[simp] theorem probe_setNum (s : Shard K V) (st : St) (n : Nat) : (s.setNum st n).probe = s.probe := by cases st <;> rfl
@[simp] theorem entries_setNum (s : Shard K V) (st : St) (n : Nat) : (s.setNum st n).entries = s.entries := by cases st <;> rfl
@[simp] theorem coldHead_setNum (s : Shard K V) (st : St) (n : Nat) : (s.setNum st n).coldHead = s.coldHead := by cases st <;> rfl
@[simp] theorem hotHead_setNum (s : Shard K V) (st : St) (n : Nat) : (s.setNum st n).hotHead = s.hotHead := by cases st <;> rfl
@[simp] theorem ghostHead_setNum (s : Shard K V) (st : St) (n : Nat) : (s.setNum st n).ghostHead = s.ghostHead := by cases st <;> rfl
@[simp] theorem weightTargetHot_setNum (s : Shard K V) (st : St) (n : Nat) : (s.setNum st n).weightTargetHot = s.weightTargetHot := by cases st <;> rfl
@[simp] theorem weightCapacity_setNum (s : Shard K V) (st : St) (n : Nat) : (s.setNum st n).weightCapacity = s.weightCapacity := by cases st <;> rfl
@[simp] theorem weightHot_setNum (s : Shard K V) (st : St) (n : Nat) : (s.setNum st n).weightHot = s.weightHot := by cases st <;> rfl
@[simp] theorem weightCold_setNum (s : Shard K V) (st : St) (n : Nat) : (s.setNum st n).weightCold = s.weightCold := by cases st <;> rfl
@[simp] theorem numNonResident_setNum (s : Shard K V) (st : St) (n : Nat) : (s.setNum st n).numNonResident = s.numNonResident := by cases st <;> rfl
@[simp] theorem capacityNonResident_setNum (s : Shard K V) (st : St) (n : Nat) : (s.setNum st n).capacityNonResident = s.capacityNonResident := by cases st <;> rfl
@[simp] theorem hits_setNum (s : Shard K V) (st : St) (n : Nat) : (s.setNum st n).hits = s.hits := by cases st <;> rfl
@[simp] theorem misses_setNum (s : Shard K V) (st : St) (n : Nat) : (s.setNum st n).misses = s.misses := by cases st <;> rfl
@[simp] theorem nextPlh_setNum (s : Shard K V) (st : St) (n : Nat) : (s.setNum st n).nextPlh = s.nextPlh := by cases st <;> rfl
@[simp] theorem wgt_setNum (s : Shard K V) (st : St) (n : Nat) : (s.setNum st n).wgt = s.wgt := by funext x; cases st <;> cases x <;> rfl
@[simp] theorem head_setNum (s : Shard K V) (st : St) (n : Nat) : (s.setNum st n).head = s.head := by funext x; cases st <;> cases x <;> rfl
@[simp] theorem map_setEntry (s : Shard K V) (t : Nat) (e : Entry K V) : (s.setEntry t e).map = s.map := rfl
@[simp] theorem probe_setEntry (s : Shard K V) (t : Nat) (e : Entry K V) : (s.setEntry t e).probe = s.probe := rfl
@[simp] theorem coldHead_setEntry (s : Shard K V) (t : Nat) (e : Entry K V) : (s.setEntry t e).coldHead = s.coldHead := rfl
@[simp] theorem hotHead_setEntry (s : Shard K V) (t : Nat) (e : Entry K V) : (s.setEntry t e).hotHead = s.hotHead := rfl
@[simp] theorem ghostHead_setEntry (s : Shard K V) (t : Nat) (e : Entry K V) : (s.setEntry t e).ghostHead = s.ghostHead := rfl
@[simp] theorem weightTargetHot_setEntry (s : Shard K V) (t : Nat) (e : Entry K V) : (s.setEntry t e).weightTargetHot = s.weightTargetHot := rfl
@[simp] theorem weightCapacity_setEntry (s : Shard K V) (t : Nat) (e : Entry K V) : (s.setEntry t e).weightCapacity = s.weightCapacity := rfl
@[simp] theorem weightHot_setEntry (s : Shard K V) (t : Nat) (e : Entry K V) : (s.setEntry t e).weightHot = s.weightHot := rfl
@[simp] theorem weightCold_setEntry (s : Shard K V) (t : Nat) (e : Entry K V) : (s.setEntry t e).weightCold = s.weightCold := rfl
@[simp] theorem numHot_setEntry (s : Shard K V) (t : Nat) (e : Entry K V) : (s.setEntry t e).numHot = s.numHot := rfl
@[simp] theorem numCold_setEntry (s : Shard K V) (t : Nat) (e : Entry K V) : (s.setEntry t e).numCold = s.numCold := rfl
@[simp] theorem numNonResident_setEntry (s : Shard K V) (t : Nat) (e : Entry K V) : (s.setEntry t e).numNonResident = s.numNonResident := rfl
@[simp] theorem capacityNonResident_setEntry (s : Shard K V) (t : Nat) (e : Entry K V) : (s.setEntry t e).capacityNonResident = s.capacityNonResident := rfl
@[simp] theorem hits_setEntry (s : Shard K V) (t : Nat) (e : Entry K V) : (s.setEntry t e).hits = s.hits := rfl
@[simp] theorem misses_setEntry (s : Shard K V) (t : Nat) (e : Entry K V) : (s.setEntry t e).misses = s.misses := rfl
@[simp] theorem nextPlh_setEntry (s : Shard K V) (t : Nat) (e : Entry K V) : (s.setEntry t e).nextPlh = s.nextPlh := rfl
@[simp] theorem wgt_setEntry (s : Shard K V) (t : Nat) (e : Entry K V) : (s.setEntry t e).wgt = s.wgt := by funext x; cases x <;> rfl
@[simp] theorem num_setEntry (s : Shard K V) (t : Nat) (e : Entry K V) : (s.setEntry t e).num = s.num := by funext x; cases x <;> rfl
@[simp] theorem head_setEntry (s : Shard K V) (t : Nat) (e : Entry K V) : (s.setEntry t e).head = s.head := by funext x; cases x <;> rfl

@[simp] theorem head_setHead (s : Shard K V) (i : RingId) (h : Option Nat) : (s.setHead i h).head = upd s.head i h := by
  funext j; cases i <;> cases j <;> simp [head, setHead, upd]

@[simp] theorem wgt_setWgt (s : Shard K V) (st : St) (w : Nat) : (s.setWgt st w).wgt = upd s.wgt st w := by
  funext j; cases st <;> cases j <;> simp [wgt, setWgt, upd]

@[simp] theorem num_setNum (s : Shard K V) (st : St) (n : Nat) : (s.setNum st n).num = upd s.num st n := by
  funext j; cases st <;> cases j <;> simp [num, setNum, upd]

@[simp] theorem entries_setEntry (s : Shard K V) (t : Nat) (e : Entry K V) :
    (s.setEntry t e).entries = s.entries.setItem t e := rfl

end Shard
end QuickCache
