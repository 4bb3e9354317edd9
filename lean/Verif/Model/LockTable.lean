import Verif.Model.Text
/-
The table of per-sender locks of the JSON-RPC backend (jsonrpc/backend/backend.go:69-105), as an interleaving of any number
of goroutines. A step is one statement that touches shared memory; what happens between `b.mut.Lock()` and `b.mut.Unlock()` is
one step, because no other goroutine can be there (the statement is still not atomic with respect to the unlocked read in
`releaseAccMut`: see `Race`). Objects `&AccMut{}` are numbered in allocation order.
-/
namespace Verif.LockTable
open Verif

/-- Where a goroutine is. -/
inductive Pc where
  /-- outside -/
  | idle
  /-- before `b.mut.Lock()`, backend.go:78 -/
  | wantTable
  /-- holds `b.mut`, before backend.go:79-84 -/
  | inTable
  /-- before `accMut.mut.Lock()`, backend.go:88 -/
  | wantAcc (p : Nat)
  /-- holds the sender's lock: the caller's code (jsonrpc/backend/tx.go:74-109) -/
  | inside
  /-- before `accMut.mut.Unlock()`, backend.go:96 -/
  | unlocking (p : Nat)
  /-- before `b.mut.Lock()`, backend.go:99 -/
  | wantDrop (p : Nat)
  /-- holds `b.mut`, before backend.go:100-103 -/
  | inDrop (p : Nat)
  deriving DecidableEq

/-- A goroutine. -/
structure Thread where
  sender : Nat
  pc : Pc
  deriving DecidableEq

/-- Shared memory and goroutines. -/
structure State where
  threads : Nat → Thread
  /-- holder of `b.mut` -/
  table : Option Nat
  /-- `b.accMuts` -/
  map : Nat → Option Nat
  /-- `AccMut.mut`: holder -/
  lock : Nat → Option Nat
  /-- `AccMut.rc` -/
  rc : Nat → Int
  /-- next object -/
  fresh : Nat

/-- NewJSONRPCBackend, backend.go:62: no locks. -/
def State.init : State := ⟨fun _ => ⟨0, .idle⟩, none, fun _ => none, fun _ => none, fun _ => 0, 0⟩

/-- function update -/
def put {β : Type} (f : Nat → β) (k : Nat) (v : β) : Nat → β := fun x => if x = k then v else f x

/-- move a goroutine -/
def State.go (s : State) (t : Nat) (pc : Pc) : State := { s with threads := put s.threads t ⟨(s.threads t).sender, pc⟩ }

/-- The next step of goroutine `t`; when idle it calls `acquireAccMut(sender)`. `none`: it has to wait. `some none`: it panics. -/
def State.step (s : State) (t sender : Nat) : Option (Option State) :=
  match (s.threads t).pc with
  | .idle => some (some { s with threads := put s.threads t ⟨sender, .wantTable⟩ })
  -- backend.go:78
  | .wantTable => match s.table with
    | none => some (some { s.go t .inTable with table := some t })
    | some _ => none
  -- backend.go:79-85
  | .inTable => match s.map (s.threads t).sender with
    | some p => some (some { s.go t (.wantAcc p) with rc := put s.rc p (s.rc p + 1), table := none })
    | none => some (some { s.go t (.wantAcc s.fresh) with
        rc := put s.rc s.fresh (0 + 1), map := put s.map (s.threads t).sender (some s.fresh),
        lock := put s.lock s.fresh none, fresh := s.fresh + 1, table := none })
  -- backend.go:88
  | .wantAcc p => match s.lock p with
    | none => some (some { s.go t .inside with lock := put s.lock p (some t) })
    | some _ => none
  -- backend.go:95: read of the map; a nil pointer is dereferenced at line 96
  | .inside => match s.map (s.threads t).sender with
    | some p => some (some (s.go t (.unlocking p)))
    | none => some none
  -- backend.go:96: unlocking an unlocked mutex is a fatal error
  | .unlocking p => match s.lock p with
    | some _ => some (some { s.go t (.wantDrop p) with lock := put s.lock p none })
    | none => some none
  -- backend.go:99
  | .wantDrop p => match s.table with
    | none => some (some { s.go t (.inDrop p) with table := some t })
    | some _ => none
  -- backend.go:100-104
  | .inDrop p =>
    if s.rc p - 1 = 0 then
      some (some { s.go t .idle with rc := put s.rc p (s.rc p - 1), map := put s.map (s.threads t).sender none, table := none })
    else some (some { s.go t .idle with rc := put s.rc p (s.rc p - 1), table := none })

/-- States some interleaving leads to. -/
inductive Reach : State → Prop where
  | init : Reach State.init
  | step (s s' : State) (t sender : Nat) : Reach s → s.step t sender = some (some s') → Reach s'

/-- The step of `t` writes the map (backend.go:82, 102). -/
def WritesMap (s : State) (t : Nat) : Prop :=
  match (s.threads t).pc with
  | .inTable => s.map (s.threads t).sender = none
  | .inDrop p => s.rc p - 1 = 0
  | _ => False

/-- The step of `t` reads the map (backend.go:79, 95). -/
def ReadsMap (s : State) (t : Nat) : Prop := (s.threads t).pc = .inTable ∨ (s.threads t).pc = .inside

/-- Two goroutines may access the map at the same time, one of them writing: undefined behaviour in Go, detected at run time as a
fatal error. -/
def Race (s : State) : Prop := ∃ t u, t ≠ u ∧ WritesMap s t ∧ (ReadsMap s u ∨ WritesMap s u)

end Verif.LockTable
