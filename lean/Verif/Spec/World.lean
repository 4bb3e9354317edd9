import Verif.Model.World
/-
Specification vocabulary for histories of state operations: each function below only looks at the list
of operations performed, never at the stores.
-/
namespace Verif.World.Spec
open Verif Verif.World

/-- The last value stored in slot `t` of contract `b`, if any. -/
def lastState (b : Addr) (t : Hash) : List (Nat × StateOp) → Option Hash
  | [] => none
  | (_, .setState a s v) :: ops =>
    match lastState b t ops with
    | some u => some u
    | none => if a = b ∧ s = t then some v else none
  | _ :: ops => lastState b t ops

/-- The last value contract `b` itself put in its transient slot `k` during execution `e`, if any. -/
def lastTransientOf (e : Nat) (b : Addr) (k : Hash) : List (Nat × StateOp) → Option Hash
  | [] => none
  | (e', .setTransientState a k' v) :: ops =>
    match lastTransientOf e b k ops with
    | some u => some u
    | none => if e' = e ∧ a = b ∧ k' = k then some v else none
  | _ :: ops => lastTransientOf e b k ops

/-- The last value *any* contract put in transient slot `k` during execution `e`, if any. -/
def lastTransientBy (e : Nat) (k : Hash) : List (Nat × StateOp) → Option Hash
  | [] => none
  | (e', .setTransientState _ k' v) :: ops =>
    match lastTransientBy e k ops with
    | some u => some u
    | none => if e' = e ∧ k' = k then some v else none
  | _ :: ops => lastTransientBy e k ops

/-- The logs emitted by execution `e`, in order. -/
def emitted (e : Nat) : List (Nat × StateOp) → List Log
  | [] => []
  | (e', .addLog l) :: ops => if e' = e then l :: emitted e ops else emitted e ops
  | _ :: ops => emitted e ops

/-- The refund counter of execution `e` after the operations, starting from `r`; `none` if it would go
below zero. -/
def refundAfter (e : Nat) (r : Nat) : List (Nat × StateOp) → Option Nat
  | [] => some r
  | (e', .addRefund g) :: ops => refundAfter e (if e' = e then r + g else r) ops
  | (e', .subRefund g) :: ops =>
    if e' = e then (if g > r then none else refundAfter e (r - g) ops) else refundAfter e r ops
  | _ :: ops => refundAfter e r ops

/-- The total added to the refund counter of execution `e`. -/
def totalRefund (e : Nat) : List (Nat × StateOp) → Nat
  | [] => 0
  | (e', .addRefund g) :: ops => (if e' = e then g else 0) + totalRefund e ops
  | _ :: ops => totalRefund e ops

/-- Address `a` was accessed by execution `e`. -/
def accessedAddr (e : Nat) (a : Addr) (ops : List (Nat × StateOp)) : Prop :=
  (e, .addAddress a) ∈ ops ∨ ∃ s, (e, .addSlot a s) ∈ ops

/-- Slot `s` of `a` was accessed by execution `e`. -/
def accessedSlot (e : Nat) (a : Addr) (s : Hash) (ops : List (Nat × StateOp)) : Prop :=
  (e, .addSlot a s) ∈ ops

/-- No transient data exists for execution index `e`. -/
structure Clean (w : World) (e : Nat) : Prop where
  tstate : ∀ k, w.tstate e k = none
  created : ∀ a, w.created e a = false
  destructed : ∀ a, w.destructed e a = false
  logs : ∀ i, w.logs e i = none
  access : ∀ k, w.access e k = false

/-- Account numbers are unique and below the counter. -/
structure NumsUnique (w : World) : Prop where
  lt : ∀ a acc, w.acct a = some acc → acc.num < w.nextNum
  inj : ∀ a b x y, w.acct a = some x → w.acct b = some y → x.num = y.num → a = b

/-- An empty world: no accounts, no storage. Used in examples. -/
def emptyWorld : World :=
  { acct := fun _ => none, nextNum := 0, vm := fun _ => none, tstate := fun _ _ => none,
    created := fun _ _ => false, destructed := fun _ _ => false, logs := fun _ _ => none,
    logSize := fun _ => none, access := fun _ _ => false, refund := fun _ => none, bal := fun _ => 0 }

end Verif.World.Spec
