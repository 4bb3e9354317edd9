import Verif.Model.Indexer
import Verif.Model.TxPool
/-
Following a transaction by its hash: `eth_getTransactionByHash` and `eth_getTransactionReceipt` (jsonrpc/backend/tx.go), on a node
with a mempool, a queue of transactions that wait for earlier nonces, and an index.

An error of the index other than "not found" and an error in making the query context are outside the model (that a value read
is the value written is C37).
-/
namespace Verif.Follow
open Verif Verif.Indexer

/-- What a node knows of transactions: the mempool, the queue (jsonrpc/backend/tx.go:39-112) and the index. -/
structure Node (P E : Type) where
  pool : List P
  queued : List P
  ix : Index E

variable {P T E : Type}

/-- jsonrpc/backend/tx.go:132-147 (`GetTransactionByHash`); `none`: the answer is null -/
def transactionByHash (n : Node P E) (h : Hash) : Option (RpcTx E) := n.ix.txByHash h

/-- The receipt as it is served, jsonrpc/backend/tx.go:450-464; the fields taken from the transaction itself (sender,
recipient, type) and the price are left out. -/
structure Served where
  blockHash : Hash
  blockNumber : Nat
  txHash : Hash
  txIndex : Nat
  gasUsed : Nat
  cumulative : Nat
  status : Bool
  contract : Option Addr
  logs : List Log

/-- jsonrpc/backend/tx.go:434-482 (`marshalReceipt`): the zero address stands for no contract; the post state is never set, so
the status is given. -/
def marshalReceipt (env : Env T E) (rc : Receipt) (tx : RpcTx E) : Served where
  blockHash := tx.blockHash
  blockNumber := tx.blockNumber
  txHash := env.hash tx.tx
  txIndex := tx.index
  gasUsed := rc.gasUsed
  cumulative := rc.cumulative
  status := rc.ok
  contract := rc.contract.filter (fun a => decide (a ≠ Addr.zero))
  logs := receiptLogs (env.hash tx.tx) tx rc

/-- jsonrpc/backend/tx.go:198-221 (`GetTransactionReceipt`); `none`: the answer is null -/
def transactionReceipt (env : Env T E) (n : Node P E) (h : Hash) : Option Served :=
  match n.ix.txByHash h with
  | none => none
  | some tx => match n.ix.receipts h with
    | none => none
    | some rc => some (marshalReceipt env rc tx)

end Verif.Follow
