import Verif.Model.CacheStack
/-
Call trees of contracts that call others, over the stack of cache contexts of Model/CacheStack.lean (x/evm/state/statedb.go:561-590, 649-658,
driven by go-ethereum's `Call` as in `CacheStack.Act.drive`): nested frames that each write something, calls that fail, and a ledger contract
that debits one account, calls out, and credits another.
-/
namespace Verif.Callbacks
open Verif.CacheStack

variable {K V : Type}

/-- Frames nested in each other: each performs its writes, then calls the next one; the innermost goes on with `inner`. All return normally
(statedb.go:561-574 is called once per frame). -/
def nest : List (View K V → Delta K V) → List (Act K V) → List (Act K V)
  | [], inner => inner
  | w :: ws, inner => [.call (.exec w :: nest ws inner) true]

/-- Calls that do something and then revert (statedb.go:577-590 is called once for each). -/
def fails (fss : List (List (View K V → Delta K V))) : List (Act K V) :=
  fss.map fun fs => .call (fs.map .exec) false

/-- A balance kept in a slot; a slot never written is zero. -/
def bal (v : View Nat Nat) (a : Nat) : Nat := (v a).getD 0

/-- `balances[a] -= x` -/
def debit (a x : Nat) (v : View Nat Nat) : Delta Nat Nat := fun k => if k = a then some (some (bal v a - x)) else none

/-- `balances[b] += x` -/
def credit (b x : Nat) (v : View Nat Nat) : Delta Nat Nat := fun k => if k = b then some (some (bal v b + x)) else none

/-- A ledger contract that debits `a`, calls somebody who runs `callee`, and then credits `b`. -/
def pay (a b x : Nat) (callee : List (Act Nat Nat)) : Act Nat Nat :=
  .call [.exec (debit a x), .call callee true, .exec (credit b x)] true

end Verif.Callbacks
