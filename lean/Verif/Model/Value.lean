import Verif.Model.Tokens
/-
Model of how native value moves inside the EVM: the balances the EVM sees are the balances of the fee token's ERC20
contract, and value transfers are nested calls of that contract (x/evm/keeper/context.go:71-117, x/evm/state/statedb.go:
122-185, 499-527, 629-647).
-/
namespace Verif.Value
open Verif Verif.Denom Verif.Tokens

/-- x/evm/state/statedb.go:159-185 (`GetBalance`): `balanceOf` of the fee contract; an address without code (also the
zero address, when there is no fee contract) answers no bytes, which counts as zero. -/
def getBalance (w : World) (fee a : Addr) : Nat := balanceOf w fee a

/-- x/evm/state/statedb.go:122-138 (`AddBalance`): `sudoMint` as 0x1. `none`: panic. -/
def addBalance (c : Chain) (fee : Addr) (w : World) (a : Addr) (n : Nat) : Option World :=
  if n = 0 then some w else callToken c w c.chainAddr fee (.sudoMint a n)

/-- x/evm/state/statedb.go:141-156 (`SubBalance`): `sudoBurn` as 0x1. -/
def subBalance (c : Chain) (fee : Addr) (w : World) (a : Addr) (n : Nat) : Option World :=
  if n = 0 then some w else callToken c w c.chainAddr fee (.sudoBurn a n)

/-- x/evm/keeper/context.go:71-101 (`CanTransfer`): no fee contract, or an address without code (the answer cannot be
unpacked): false. -/
def canTransfer (c : Chain) (w : World) (fee a : Addr) (v : Nat) : Bool :=
  if v = 0 then true
  else if fee = c.zero then false
  else match w.tokens fee with
    | none => false
    | some (_, t) => decide (v ≤ t.bal a)

/-- x/evm/keeper/context.go:102-117 (`Transfer`): `transfer` of the fee contract as the payer. `none`: panic. -/
def transfer (c : Chain) (fee : Addr) (w : World) (a b : Addr) (v : Nat) : Option World :=
  if v = 0 then some w else callToken c w a fee (.transfer b v)

/-- What the caller of `evm.Call`/`evm.Create` with a value gets before any code of the target runs. -/
inductive Outcome where
  /-- the transfer was made -/
  | paid (w : World)
  /-- the call failed with "insufficient balance for transfer": the caller goes on, nothing changed -/
  | refused
  /-- the whole transaction is aborted by a panic -/
  | aborted

/-- go-ethereum core/vm/evm.go `Call` and `create`, as far as value goes: the check, then the transfer. (`create` always
makes the check; `Call` only if there is a value, which makes no difference since the check lets zero pass, C72_zero.) -/
def enter (c : Chain) (fee : Addr) (w : World) (a b : Addr) (v : Nat) : Outcome :=
  if canTransfer c w fee a v = false then .refused
  else match transfer c fee w a b v with
    | none => .aborted
    | some w' => .paid w'

/-- go-ethereum core/vm/instructions.go `opSelfdestruct6780` with x/evm/state/statedb.go:499-527: the balance is burned
at the contract and minted at the beneficiary; if the contract was created in this execution what it then has (its
balance again, if it named itself) is burned. -/
def destruct (c : Chain) (fee : Addr) (w : World) (self ben : Addr) (created : Bool) : Option World :=
  let n := getBalance w fee self
  match subBalance c fee w self n with
  | none => none
  | some w1 => match addBalance c fee w1 ben n with
    | none => none
    | some w2 => if created then subBalance c fee w2 self (getBalance w2 fee self) else some w2

/-- x/evm/state/statedb.go:632-639: at the commit, what was sent to a destroyed contract is burned. -/
def burnDestroyed (c : Chain) (fee : Addr) : List Addr → World → Option World
  | [], w => some w
  | a :: rest, w => match subBalance c fee w a (getBalance w fee a) with
    | none => none
    | some w' => burnDestroyed c fee rest w'

/-- An execution as far as tokens are concerned, by arbitrary contract code: calls of token contracts, calls of other
contracts with value (`body` is what the callee does, `ok` whether it ends without a revert), self-destructs. A frame
that reverts has no effect (for the state database's snapshots see C01); a refused call is caught by its caller. -/
inductive Prog where
  | done
  /-- `caller` calls the token contract `contract` (a failing call changes nothing; the caller may go on) -/
  | token (caller contract : Addr) (call : Call) (k : Prog)
  /-- `a` calls `b` with value `v` -/
  | call (a b : Addr) (v : Nat) (body : Prog) (ok : Bool) (k : Prog)
  | destruct (self ben : Addr) (created : Bool) (k : Prog)

/-- Run an execution; `none`: aborted by a panic. -/
def run (c : Chain) (fee : Addr) : Prog → World → Option World
  | .done, w => some w
  | .token caller contract call k, w =>
    run c fee k ((callToken c w caller contract call).getD w)
  | .call a b v body ok k, w =>
    match enter c fee w a b v with
    | .aborted => none
    | .refused => run c fee k w
    | .paid w1 =>
      match run c fee body w1 with
      | none => none
      | some w2 => run c fee k (if ok then w2 else w)
  | .destruct self ben created k, w =>
    match destruct c fee w self ben created with
    | none => none
    | some w1 => run c fee k w1

/-- A message: the execution, then the burning at the commit. -/
def message (c : Chain) (fee : Addr) (p : Prog) (destroyed : List Addr) (w : World) : Option World :=
  match run c fee p w with
  | none => none
  | some w' => burnDestroyed c fee destroyed w'

end Verif.Value
