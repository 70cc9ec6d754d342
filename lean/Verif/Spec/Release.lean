import Verif.Model.Release
import Verif.Spec.Ops

/-!
# Vocabulary for the release build
-/

namespace QuickCache.Spec
open Unsync

/-- The panics that only a build with debug assertions and overflow checks has. -/
def DebugOnly : Panic → Prop
  | .debugAssert | .underflow | .overflow | .keyNotFound => True
  | _ => False

/-- The debug build does what the release build does, or stops at one of its checks. -/
def Agree {α : Type _} (debug release : Res α) : Prop := debug = release ∨ ∃ p, DebugOnly p ∧ debug = .error p

/-- The items stored and what the call adds to them weigh less than `2^64`. -/
def Light {K V RS : Type _} [DecidableEq K] (c : Cfg K V RS) (target : Nat) (s : Shard K V) (op : Op K V) : Prop :=
  ∀ w, Adds c target s.contents op w → total c.weight s.iter + w < 2 ^ 64

/-- A run of the release build in which the weights stay below `2^64`. -/
inductive LightRun {K V RS : Type _} [DecidableEq K] (fu : Fuel) (c : Cfg K V RS) (target : Nat) (s0 : Shard K V) :
    List (Call K V) → Shard K V → Prop
  | start : LightRun fu c target s0 [] s0
  | layout {h : List (Call K V)} {s : Shard K V} (m : List (UInt64 × Nat)) (p : UInt64 → UInt64 → Bool)
      (hr : LightRun fu c target s0 h s) (hm : m.Perm s.map) (hp : ∀ x, p x x = true) :
      LightRun fu c target s0 h (s.relayout m p)
  | call {h : List (Call K V)} {s s' : Shard K V} {op : Op K V} {out : Out K V} {q : Req K V RS}
      (hr : LightRun fu c target s0 h s) (light : Light c target s op) (hs : stepR fu c s op = .ok (s', out, q)) :
      LightRun fu c target s0 (h ++ [⟨op, out, q.log⟩]) s'

end QuickCache.Spec
