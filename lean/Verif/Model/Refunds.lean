import Verif.Model.CacheStack
/-
Model of the gas refund counter together with the storage writes that move it, over the stack of cache
contexts of Model/CacheStack.lean.

Source: x/evm/state/statedb.go (AddRefund, SubRefund, GetRefund, GetState, GetCommittedState, SetState,
NewStateDB).

Outside /repo, by contract: go-ethereum 1.14.9 core/vm/operations_acl.go `makeGasSStoreFunc(4800)` (the
refund rule of SSTORE, EIP-2200/2929/3529: it moves the counter while it computes the gas price, that is
BEFORE the interpreter knows whether the gas suffices), core/vm/instructions.go `opSstore` (the write,
after the gas has been paid) and core/vm/evm.go `Call` (snapshot before, revert after a failure).

Simplified: one slot is one number (the pair of contract and slot); the contract of every slot has an
account, so `GetState` reads the store; gas prices are not modelled, running out of gas is a choice of the
history.
-/
namespace Verif.Refunds
open Verif.CacheStack (View Delta DB overlay readAt)

/-- What the store holds that matters here: storage slots, the refund counter of this execution
(statedb.go:48, key `execIndex`), everything else. -/
inductive Key
  | slot (n : Nat)
  | refund
  | other (n : Nat)
deriving DecidableEq

abbrev Db := DB Key Nat
abbrev Sto := View Key Nat

/-- statedb.go:463-478 (`GetState`): a slot never written reads as zero. -/
def getState (v : Sto) (s : Nat) : Nat := (v (.slot s)).getD 0

/-- statedb.go:453-460 (`GetRefund`); the counter is written by `NewStateDB`, so it is always there. -/
def getRefund (v : Sto) : Nat := (v .refund).getD 0

/-- Writing one key. -/
def one (k : Key) (n : Nat) : Delta Key Nat := fun j => if j = k then some (some n) else none

/-- statedb.go:92 (`NewStateDB`): the counter starts at zero. -/
def start (base : Sto) : Db := DB.new (overlay (one .refund 0) base)

/-- How an execution can go: on, the panic of `SubRefund` (statedb.go:207-209), or the run-time panic of
`RevertToSnapshot` (index out of range, statedb.go:583-589). -/
inductive Res (α : Type)
  | ok (a : α)
  | underflow
  | index

/-- A panic ends the execution. -/
def Res.bind {α β : Type} (x : Res α) (f : α → Res β) : Res β :=
  match x with
  | .ok a => f a
  | .underflow => .underflow
  | .index => .index

/-- statedb.go:188-198 (`AddRefund`), 64-bit addition. -/
def addRefund (db : Db) (g : Nat) : Db :=
  db.put (one .refund ((getRefund db.view + g) % 18446744073709551616))

/-- statedb.go:201-215 (`SubRefund`). -/
def subRefund (db : Db) (g : Nat) : Res Db :=
  if g > getRefund db.view then .underflow
  else .ok (db.put (one .refund (getRefund db.view - g)))

/-- statedb.go:423-431 (`GetCommittedState`): reads through `initialCtx`. -/
def getCommitted (db : Db) (s : Nat) : Nat := getState (readAt db.base db.heap []) s

/-- What pricing `SSTORE(s, v)` does to the counter (go-ethereum `makeGasSStoreFunc`, by contract). -/
def charge (db : Db) (s v : Nat) : Res Db :=
  let current := getState db.view s
  if current = v then .ok db
  else
    let original := getCommitted db s
    if original = current then
      .ok (if original ≠ 0 ∧ v = 0 then addRefund db 4800 else db)
    else
      Res.bind
        (if original ≠ 0 then
          if current = 0 then subRefund db 4800
          else if v = 0 then .ok (addRefund db 4800)
          else .ok db
        else .ok db)
        fun db => .ok (if original = v then addRefund db (if original = 0 then 19900 else 2800) else db)

/-- statedb.go:525-535 (`SetState`), after the price has been paid. -/
def sstore (db : Db) (s v : Nat) : Res Db :=
  Res.bind (charge db s v) fun db => .ok (db.put (one (.slot s) v))

/-- Writes to anything but slots and the counter (balances of other modules, nonces, code, logs, access
lists), computed from what is visible. -/
def others (f : Sto → Nat → Option (Option Nat)) (v : Sto) : Delta Key Nat
  | .other n => f v n
  | _ => none

/-- One step of a history in which every priced `SSTORE` is paid for. `revert` takes the raw id. -/
inductive Op
  | sstore (s v : Nat)
  | other (f : Sto → Nat → Option (Option Nat))
  | snapshot
  | revert (id : Int)

/-- statedb.go:577-590, with the run-time panic made explicit. -/
def revertWith (rev : Db → Int → Option Db) (db : Db) (i : Int) : Res Db :=
  match rev db i with
  | some db => .ok db
  | none => .index

def step (db : Db) : Op → Res Db
  | .sstore s v => sstore db s v
  | .other f => .ok (db.put (others f db.view))
  | .snapshot => .ok db.snapshot.1
  | .revert i => revertWith DB.revertToSnapshot db i

/-- Any history of the code. -/
def run (db : Db) : List Op → Res Db
  | [] => .ok db
  | o :: os => Res.bind (step db o) fun db => run db os

/-- How a call frame ends: normally, by `REVERT` (or any failure between instructions), or because the gas
does not pay for an `SSTORE` that has already been priced. -/
inductive End
  | ok
  | revert
  | outOfGas (s v : Nat)

/-- What a frame does, in order. -/
inductive Act
  | sstore (s v : Nat)
  | other (f : Sto → Nat → Option (Option Nat))
  | call (body : List Act) (how : End)

mutual
/-- go-ethereum `Call` over the state database (by contract): snapshot, run the callee, go back to the
snapshot if it failed. -/
def drive (rev : Db → Int → Option Db) : Act → Db → Res Db
  | .sstore s v, db => sstore db s v
  | .other f, db => .ok (db.put (others f db.view))
  | .call body how, db => Res.bind (driveAll rev body db.snapshot.1) fun db' =>
    match how with
    | .ok => .ok db'
    | .revert => revertWith rev db' db.snapshot.2
    | .outOfGas s v => Res.bind (charge db' s v) fun db'' => revertWith rev db'' db.snapshot.2
def driveAll (rev : Db → Int → Option Db) : List Act → Db → Res Db
  | [], db => .ok db
  | a :: as, db => Res.bind (drive rev a db) fun db => driveAll rev as db
end

end Verif.Refunds
