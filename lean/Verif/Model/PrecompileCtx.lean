import Verif.Model.CacheStack
/-
The context in which precompiles run. `CreateEVM` builds the precompile table with the context it was
given (x/evm/keeper/context.go:182-191, precompiles.go:57-64 `toMap(ctx)`), which is the state database's
initial context, not the context of the innermost snapshot. Every read and write of a precompile
(x/evm/precompiles/cosmos/contract.go:114, erc20_registry/contract.go:73: `e.ctx`) therefore goes to the
store below all snapshots.
-/
namespace Verif.CacheStack

variable {K V : Type}

/-- A frame that may call precompiles: computations of the EVM itself, precompile computations, inner
calls. -/
inductive PAct (K V : Type)
  | exec (f : View K V → Delta K V)
  | precompile (f : View K V → Delta K V)
  | call (body : List (PAct K V)) (ok : Bool)

/-- x/evm/keeper/context.go:182-191: a precompile reads and writes the initial context. -/
def DB.putBase (db : DB K V) (f : View K V → Delta K V) : DB K V :=
  { db with base := overlay (f db.base) db.base }

mutual
/-- Drive the state database for a frame with precompile calls (see `Act.drive`). -/
def PAct.drive : PAct K V → DB K V → Option (DB K V)
  | .exec f, db => some (db.put (f db.view))
  | .precompile f, db => some (db.putBase f)
  | .call body ok, db =>
    match PAct.driveAll body db.snapshot.1 with
    | none => none
    | some db' => if ok then some db' else db'.revertToSnapshot db.snapshot.2
def PAct.driveAll : List (PAct K V) → DB K V → Option (DB K V)
  | [], db => some db
  | a :: as, db => match PAct.drive a db with
    | none => none
    | some db' => PAct.driveAll as db'
end

/-- Keys of the auth store relevant for account creation: the account number counter and accounts. -/
inductive AuthKey
  | counter
  | acct (a : Nat)
deriving DecidableEq

/-- cosmos-sdk `NewAccountWithAddress` + `SetAccount` (by contract) for an address without account, as used
by x/evm/state/statedb.go:266-269 (`CreateAccount`), 290-295 (`CreateContract`) and
x/evm/keeper/erc20_stores.go:42-44 (`RegisterStore`): take the next number and store it with the account.
Values are account numbers. -/
def createAcc (a : Nat) : View AuthKey Nat → Delta AuthKey Nat := fun v k =>
  match k with
  | .counter => some (some ((v .counter).getD 0 + 1))
  | .acct b => if b = a then some (some ((v .counter).getD 0)) else none

end Verif.CacheStack
