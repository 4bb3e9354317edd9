import Verif.Model.Bank
/-
Bank queries about one denom: x/bank/keeper/grpc_query.go (`Balance`, `SpendableBalanceByDenom`, `SupplyOf`), the keeper
methods behind them (x/bank/keeper/view.go, keeper.go) and those of x/evm/keeper/erc20.go.
-/
namespace Verif.BankQuery
open Verif Verif.Text Verif.Denom Verif.Tokens Verif.Identity Verif.Bank

/-- Outcome of `DenomToContractAddr`: the contract, `collections.ErrNotFound`, or another error. -/
inductive Found where
  | at (k : Addr)
  | missing
  | bad
deriving DecidableEq

/-- x/evm/types/denom.go:19-30 (`DenomToContractAddr`), with the kinds of error apart: a malformed `evm/` denom is
`ErrInvalidDenom` (22-24), a denom that is not in the collection `ErrNotFound` (29). -/
def lookup (m : Maps) (d : Str) : Found :=
  if isERC20Denom d then
    if isHexAddress (d.drop 4) then .at (hexToAddress (d.drop 4)) else .bad
  else match m.toAddr d with
    | some k => .at k
    | none => .missing

/-- x/evm/keeper/erc20.go:404-426 (`balanceOf`). Without code the call returns nothing, which cannot be unpacked (416-419):
an error. Only contracts of the chain's own code are modelled. -/
def askBalance (w : World) (k a : Addr) : Option Nat := (w.tokens k).map fun p => p.2.bal a

/-- x/evm/keeper/erc20.go:428-450 (`totalSupply`) -/
def askSupply (w : World) (k : Addr) : Option Nat := (w.tokens k).map fun p => p.2.supply

/-- x/evm/keeper/erc20.go:97-116 (`ERC20Keeper.GetBalance`): a denom that is not found has balance zero; other errors
are errors. -/
def ekGetBalance (s : State) (addr : Bytes) (d : Str) : Option Nat :=
  match convert s.accts addr false with
  | none => none
  | some (a, _) => match lookup s.w.maps d with
    | .missing => some 0
    | .bad => none
    | .at k => askBalance s.w k a

/-- cosmos-sdk `NewCoin`: panics for a denom that is not valid. -/
def newCoin (g : Cfg) (d : Str) (n : Nat) : Res (Str × Nat) := if g.validDenom d then .ok (d, n) else .panic

/-- x/bank/keeper/view.go:110-117 (`GetBalance`): an error is a panic. -/
def getBalance (g : Cfg) (s : State) (addr : Bytes) (d : Str) : Res (Str × Nat) :=
  match ekGetBalance s addr d with
  | none => .panic
  | some n => newCoin g d n

/-- x/bank/keeper/view.go:66-69 (`HasBalance`); `none`: panic. -/
def hasBalance (g : Cfg) (s : State) (addr : Bytes) (c : Str × Nat) : Option Bool :=
  match getBalance g s addr c.1 with
  | .ok x => some (decide (c.2 ≤ x.2))
  | _ => none

/-- x/bank/keeper/view.go:148-152 (`LockedCoins`): nothing is locked, for any account. -/
def locked (_ : State) (_ : Bytes) : Coins := []

/-- x/bank/keeper/view.go:162-169 (`SpendableCoin`); `SubAmount` panics below zero. -/
def spendableCoin (g : Cfg) (s : State) (addr : Bytes) (d : Str) : Res (Str × Nat) :=
  match getBalance g s addr d with
  | .ok x => if amountOf (locked s addr) d ≤ x.2 then .ok (x.1, x.2 - amountOf (locked s addr) d) else .panic
  | r => r

/-- x/bank/keeper/grpc_query.go:21-43 (`Balance`): empty texts and addresses that cannot be read are refused; the denom is
not validated. -/
def qBalance (g : Cfg) (s : State) (addr d : Str) : Res (Str × Nat) :=
  if addr = [] then .err
  else if d = [] then .err
  else match g.parseAddr addr with
    | none => .err
    | some b => getBalance g s b d

/-- x/bank/keeper/grpc_query.go:90-110 (`SpendableBalanceByDenom`) -/
def qSpendable (g : Cfg) (s : State) (addr d : Str) : Res (Str × Nat) :=
  match g.parseAddr addr with
  | none => .err
  | some b => if g.validDenom d then spendableCoin g s b d else .err

/-- x/evm/keeper/erc20.go:220-228 (`ERC20Keeper.GetSupply`): a denom that is not found is an error. -/
def ekGetSupply (s : State) (d : Str) : Option Nat :=
  match lookup s.w.maps d with
  | .at k => askSupply s.w k
  | _ => none

/-- x/bank/keeper/keeper.go:151-161 (`GetSupply`): an error is a panic; the coin is made without `NewCoin`. -/
def getSupply (s : State) (d : Str) : Res (Str × Nat) :=
  match ekGetSupply s d with
  | none => .panic
  | some n => .ok (d, n)

/-- x/bank/keeper/grpc_query.go:123-137 (`SupplyOf`) -/
def qSupply (g : Cfg) (s : State) (d : Str) : Res (Str × Nat) :=
  if d = [] then .err
  else match getSupply s d with
    | .ok x => newCoin g d x.2
    | r => r

/-- x/evm/keeper/erc20.go:230-240 (`ERC20Keeper.HasSupply`) with x/bank/keeper/keeper.go:164-171; `none`: panic. -/
def hasSupply (s : State) (d : Str) : Option Bool :=
  match lookup s.w.maps d with
  | .missing => some false
  | .bad => none
  | .at k => some (s.w.erc20s k)

end Verif.BankQuery
