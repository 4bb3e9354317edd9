import Verif.Model.ModuleAcct
/-
The listing of all balances that the genesis export makes (x/bank/keeper/view.go, genesis.go), over accounts of every
kind and length.
-/
namespace Verif.Export
open Verif Verif.Text Verif.Denom Verif.Tokens Verif.Identity Verif.Bank

/-- x/evm/keeper/erc20.go:243-267 (`IterateAccountBalances`) for an account with address bytes `b`: `none` is the error
of `convertToEVMAddress`. -/
def coinsOf (mask : Str → List Bool) (s : State) (b : Bytes) : Option Coins :=
  match convert s.accts b false with
  | none => none
  | some q => some (accountCoins mask s q.1)

/-- x/bank/keeper/view.go:87-104: the callback of `GetAccountsBalances`. (`Coins.Add` merges and sorts; here coins are
appended, which names the same amounts.) -/
def record (b : Bytes) (c : Str × Nat) (acc : List (Bytes × Coins)) : List (Bytes × Coins) :=
  if acc.any (fun e => decide (e.1 = b)) then acc.map fun e => if e.1 = b then (e.1, e.2 ++ [c]) else e
  else acc ++ [(b, [c])]

/-- x/bank/keeper/view.go:134-146 (`IterateAllBalances`) with 83-107 (`GetAccountsBalances`), over the accounts in the
account keeper's order; `none`: panic. -/
def accountsBalances (mask : Str → List Bool) (s : State) : List Bytes → List (Bytes × Coins) → Option (List (Bytes × Coins))
  | [], acc => some acc
  | b :: rest, acc => match coinsOf mask s b with
    | none => none
    | some cs => accountsBalances mask s rest (cs.foldl (fun acc c => record b c acc) acc)

/-- x/bank/keeper/genesis.go:48-61 (`ExportGenesis`): the balances and the supplies (x/evm/keeper/erc20.go:202-219, of the
registered contracts `regs`); `none`: panic. -/
def exportBalances (mask : Str → List Bool) (s : State) (accounts : List Bytes) (regs : List Addr) :
    Option (List (Bytes × Coins) × Coins) :=
  match accountsBalances mask s accounts [] with
  | none => none
  | some l => some (l, regs.map fun k => (contractToDenom mask s.w.maps k, supplyOf s.w k))

end Verif.Export
