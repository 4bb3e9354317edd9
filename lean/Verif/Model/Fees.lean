import Verif.Model.Bytes
import Verif.Model.Exec
/-
Model of unit conversions, fees, gas price, gas refunds and the EVM chain id.
Amounts are Go `*big.Int` holding non-negative values, modelled by `Nat`; decimals are `uint8`, modelled
by `Nat` below 256. cosmos `LegacyDec` is modelled by its scaled integer (18 fractional digits).
-/
namespace Verif.Fees
open Verif

/-- x/evm/types/decimals.go:10-25 (`ToEthersUint`) -/
def toEthers (decimals val : Nat) : Nat :=
  if decimals = 18 then val
  else if decimals > 18 then val / 10 ^ (decimals - 18)
  else val * 10 ^ (18 - decimals)

/-- x/evm/types/decimals.go:61-75 (`FromEthersUnit`) -/
def fromEthers (decimals val : Nat) : Nat :=
  if decimals = 18 then val
  else if decimals > 18 then val * 10 ^ (decimals - 18)
  else val / 10 ^ (18 - decimals)

/-- x/evm/types/decimals.go:27-42 (`ToGweiUint`) -/
def toGwei (decimals val : Nat) : Nat :=
  if decimals = 9 then val
  else if decimals > 9 then val / 10 ^ (decimals - 9)
  else val * 10 ^ (9 - decimals)

/-- x/evm/types/decimals.go:44-59 (`FromGweiUnit`) -/
def fromGwei (decimals val : Nat) : Nat :=
  if decimals = 9 then val
  else if decimals > 9 then val * 10 ^ (decimals - 9)
  else val / 10 ^ (9 - decimals)

/-- x/evm/keeper/txutils.go:38-48 (`computeGasFeeAmount`) -/
def computeGasFeeAmount (gasFeeCap gas decimals : Nat) : Nat :=
  if gasFeeCap = 0 then 0 else fromEthers decimals (gasFeeCap * gas) + 1

/-- One unit of `LegacyDec`. -/
def decOne : Nat := 10 ^ 18

/-- x/evm/keeper/context_utils.go:58-63, 72-77 (`baseFee`) and 41-62 (`extractGasPriceFromContext`): `price` is the
scaled gas price; multiply by 1e9, truncate, convert with `decimals + 9` computed in `uint8`. -/
def weiGasPrice (decimals price : Nat) : Nat :=
  toEthers ((decimals + 9) % 256) (price * 10 ^ 9 / decOne)

/-- x/evm/ante/gas_prices.go:29-36: the scaled gas price of one fee coin (`NewDecCoinsFromCoins`,
`QuoDecTruncate`); `none`: rejected because the gas limit is 0. -/
def txGasPrice (fee gas : Nat) : Option Nat :=
  if gas = 0 then none else some (fee * decOne / gas)

/-- What the refund decorator looks at. -/
structure RefundInput where
  success : Bool
  finalize : Bool
  isEthereumTx : Bool
  /-- scaled gas price per fee denom, in order (from the ante handler), if present -/
  prices : Option (List (Nat × Nat))
  /-- scaled refund ratio parameter -/
  ratio : Nat
  meter : Exec.Meter

/-- app/posthandler/gasrefund.go:31-59: the coins refunded, per denom (zero coins are dropped by
`TruncateDecimal`). -/
def refundCoins (i : RefundInput) : List (Nat × Nat) :=
  if i.success && i.finalize && i.isEthereumTx then
    match i.prices with
    | none => []
    | some ps =>
      let gasLeft := i.meter.limit - i.meter.consumedToLimit
      let gasRefund := i.ratio * gasLeft / decOne
      (ps.map fun p => (p.1, p.2 * gasRefund / decOne)).filter fun p => p.2 ≠ 0
  else []

/-- app/posthandler/gasrefund.go:61-64: who gets the refund. -/
def refundTo {A : Type} (payer : A) (granter : Option A) : A :=
  match granter with
  | some g => g
  | none => payer

/-- x/evm/types/chain_config.go:13-22 (`ConvertCosmosChainIDToEthereumChainID`); `keccak` is a parameter. -/
def ethChainId (keccak : Bytes → Hash) (chainId : Bytes) : Nat :=
  fromBE ((keccak chainId).bytes.take 8) % 4503599627370476

/-- x/evm/keeper/txutils.go:332 (`v + 35 + 2*chainId` of a legacy transaction) -/
def legacyV (chainId v : Nat) : Nat := v + 35 + chainId * 2

/-! ### Gas accounting of the ante handler -/

/-- Run charges against a meter in order; `none`: out of gas (the transaction is rejected). -/
def chargeAll : List Nat → Exec.Meter → Option Exec.Meter
  | [], m => some m
  | c :: cs, m => match m.consume c with
    | none => none
    | some m' => chargeAll cs m'

/-- app/ante/fee.go:37-61 (`GasFreeFeeDecorator.AnteHandle`). `feeDenomOnly`: the fee is exactly one coin of
the fee denom; `inner`: gas charges of fee deduction; `rest`: gas charges of everything after it in the ante
chain (`next` is called by the inner decorator); `zeroFee`. -/
def gasFreeFee (feeDenomOnly simulate zeroFee : Bool) (inner rest : List Nat) (m : Exec.Meter) :
    Option Exec.Meter :=
  if feeDenomOnly then
    -- everything below runs on an infinite meter, then the original meter is put back
    some m
  else
    let cs := if simulate && zeroFee then 250000 :: (inner ++ rest) else inner ++ rest
    chargeAll cs m

end Verif.Fees
