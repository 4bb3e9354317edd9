import Verif.Model.Pipeline
/-
What an Ethereum transaction costs (Verif.Model.Pipeline) beside what its receipt and its block's header say about gas
(indexer/abci.go:65-147).
-/
namespace Verif.Cost
open Verif Verif.Pipeline Verif.Fees

variable {A W : Type}

/-- x/evm/keeper/txutils.go:88-182 (`ConvertEthereumTxToCosmosTx`), the fee and the gas limit: `cap` is the fee cap of the
Ethereum transaction in wei (its gas price, for the older kinds), `gas` its gas limit; `fd` the fee denom with `d` decimals.
The rest of the transaction is that of `t`. -/
def ethTx (t : Tx A) (fd d cap gas : Nat) : Tx A :=
  { t with fee := [(fd, computeGasFeeAmount cap gas d)], gas := gas, isEth := true }

/-- cosmos-sdk gas meter (by contract): what it has counted after some charges, which stop when it runs out. The charge that
exceeds the limit is counted. -/
def counted (limit : Nat) : List Nat → Nat → Nat
  | [], u => u
  | c :: cs, u => if limit < u + c then u + c else counted limit cs (u + c)

/-- What a receipt says about gas: indexer/abci.go:73, 90-99, jsonrpc/backend/tx.go:456-463. -/
structure Rcpt where
  gasUsed : Nat
  effectiveGasPrice : Nat
  cumulative : Nat
deriving DecidableEq, Repr

/-- A transaction of a block as the listener sees it: its gas limit, the gas the meter counted (`ExecTxResult.GasUsed`, whether it
was executed, failed or was rejected) and, for an Ethereum transaction, its fee cap. -/
structure Ran where
  limit : Nat
  counted : Nat
  cap : Option Nat
deriving DecidableEq, Repr

/-- The receipts of a block, indexer/abci.go:42-112 (the gas part; every converted transaction gets one, whatever its result;
`coretypes.Transaction.GasPrice` is the fee cap). -/
def receipts : List Ran → Nat → List Rcpt
  | [], _ => []
  | r :: rs, cum => match r.cap with
    | none => receipts rs cum
    | some p => ⟨r.counted, p, cum + r.counted⟩ :: receipts rs (cum + r.counted)

/-- The gas used of the header, indexer/abci.go:115, 124: what the block's gas meter counted, up to its limit. baseapp (by
contract) charges it for every transaction, with the gas counted up to the transaction's limit. -/
def headerGasUsed (blockLimit : Nat) (l : List Ran) : Nat :=
  min ((l.map fun r => min r.counted r.limit).sum) blockLimit

/-- The cost of a transaction in wei according to its receipt: gas used times effective gas price. -/
def Rcpt.cost (r : Rcpt) : Nat := r.gasUsed * r.effectiveGasPrice

end Verif.Cost
