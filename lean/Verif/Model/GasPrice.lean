import Verif.Model.Fees
/-
The price of gas: what the node quotes (jsonrpc/backend/gas.go), what the mempool asks for (app/ante/ante.go:71-86 and the OPinit
fee checker it calls), and what contracts see (x/evm/keeper/context_utils.go).

Prices are `LegacyDec`s, scaled by 10^18 (`decOne`). A list of prices or of coins has one entry per denom (`DecCoins`, `Coins`).
-/
namespace Verif.GasPrice
open Verif Verif.Fees

variable {D : Type} [DecidableEq D]

/-- `DecCoins.AmountOf`, `Coins.AmountOf` -/
def amountOf (l : List (D × Nat)) (d : D) : Nat := ((l.find? fun x => x.1 = d).map Prod.snd).getD 0

/-- app/keepers/gas_price.go:26-36 (`GasPrice`); `none`: the parameters are not there yet. -/
def minPrice (prices : Option (List (D × Nat))) (d : D) : Nat :=
  match prices with
  | none => 0
  | some l => amountOf l d

/-- jsonrpc/backend/gas.go:126-148 (`GasPrice`): what eth_gasPrice answers; 150-152 (`MaxPriorityFeePerGas`) is 0. -/
def quote (decimals : Nat) (prices : List (D × Nat)) (feeDenom : D) : Nat :=
  toEthers ((decimals + 9) % 256) (amountOf prices feeDenom * 10 ^ 9 / decOne)

/-- OPinit x/opchild/ante (`computeRequiredFees`, by contract): price × gas, rounded up, per denom. -/
def required (prices : List (D × Nat)) (gas : Nat) : List (D × Nat) :=
  prices.map fun p => (p.1, (p.2 * gas + (decOne - 1)) / decOne)

/-- `Coins.IsAnyGTE` (cosmos-sdk, by contract): one of the coins reaches what is asked for in its denom, if anything is. -/
def anyGTE (fee req : List (D × Nat)) : Bool :=
  fee.any fun c => decide (amountOf req c.1 ≠ 0) && decide (amountOf req c.1 ≤ c.2)

/-- OPinit `CheckTxFeeWithMinGasPrices` in CheckTx (by contract; the node's own prices are merged into `prices` before), with the
free lane of app/ante/ante.go:71-86. -/
def feeOk (free : Bool) (prices : List (D × Nat)) (fee : List (D × Nat)) (gas : Nat) : Bool :=
  if free then true
  else if (required prices gas).all (fun c => decide (c.2 = 0)) then true
  else anyGTE fee (required prices gas)

/-- x/evm/keeper/txutils.go:73-75: the fee of the Cosmos transaction made from an Ethereum transaction (`NewCoins` drops zeros) -/
def ethFee (feeDenom : D) (decimals cap gas : Nat) : List (D × Nat) :=
  let n := computeGasFeeAmount cap gas decimals
  if n = 0 then [] else [(feeDenom, n)]

/-- x/evm/ante/gas_prices.go:29-36 with x/evm/keeper/context_utils.go:41-62 (`extractGasPriceFromContext`): the GASPRICE contracts see in
a transaction with these fees; `none`: the transaction is rejected (no gas). `hasContract`: there is a fee contract. -/
def seenPrice (hasContract : Bool) (decimals : Nat) (feeDenom : D) (fee : List (D × Nat)) (gas : Nat) : Option Nat :=
  (txGasPrice (amountOf fee feeDenom) gas).map fun p => if hasContract then weiGasPrice decimals p else 0

/-- x/evm/keeper/context_utils.go:64-77 (`baseFee`): the BASEFEE contracts see, and the base fee of the headers -/
def seenBase (decimals : Nat) (prices : Option (List (D × Nat))) (feeDenom : D) : Nat := weiGasPrice decimals (minPrice prices feeDenom)

end Verif.GasPrice
