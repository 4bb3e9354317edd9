import Verif.Model.RpcTx
/-
The mempool wrapper (indexer/mempool.go) and the transaction pool views (jsonrpc/backend/txpool.go, jsonrpc/backend/tx.go:326-368).

A watcher is one registered pending channel. The wrapped mempool is any state with any insert function. By contract (CometBFT):
`UnconfirmedTxs` gives the first `limit` transactions of its mempool, 30 without a limit. Decoding of transaction bytes is outside
the model: transactions are given decoded, an undecodable one is a conversion error.
-/
namespace Verif.TxPool
open Verif Verif.TxUtils

/-- indexer/mempool.go:32-54 (`Insert`): outcome, new mempool, and the transactions sent to each of the watchers.
`insert`: the wrapped mempool. -/
def insert {K M : Type} (e : Env K) (inner : M → CosmosTx K → M × Bool) (watchers : Nat) (m : M) (tx : CosmosTx K) : M × Bool × List (List EthTx) :=
  if watchers > 0 then
    match cosmosToEth e tx with
    | none => (m, false, List.replicate watchers [])
    | some none => let r := inner m tx; (r.1, r.2, List.replicate watchers [])
    | some (some (x, _)) => let r := inner m tx; (r.1, r.2, List.replicate watchers [x])
  else let r := inner m tx; (r.1, r.2, [])

/-- One of the two halves of the answer: sender, nonce ↦ transaction. -/
abbrev Dump := Addr → Nat → Option EthTx

def Dump.put (d : Dump) (a : Addr) (n : Nat) (t : EthTx) : Dump := fun b k => if b = a ∧ k = n then some t else d b k

/-- jsonrpc/backend/txpool.go:36-58 and 64-86: the loop; `none`: error -/
def dump {K : Type} (e : Env K) : Dump → List (CosmosTx K) → Option Dump
  | d, [] => some d
  | d, tx :: txs => match cosmosToEth e tx with
    | none => none
    | some none => dump e d txs
    | some (some (x, a)) => dump e (d.put a x.nonce x) txs

/-- jsonrpc/backend/txpool.go:14-89 (`TxPoolContent`): pending and queued -/
def content {K : Type} (e : Env K) (pool queued : List (CosmosTx K)) : Option (Dump × Dump) :=
  match dump e (fun _ _ => none) (pool.take 100) with
  | none => none
  | some p => (dump e (fun _ _ => none) queued).map (fun q => (p, q))

/-- jsonrpc/backend/txpool.go:91-102 (`TxPoolContentFrom`) -/
def contentFrom {K : Type} (e : Env K) (pool queued : List (CosmosTx K)) (a : Addr) : Option ((Nat → Option EthTx) × (Nat → Option EthTx)) :=
  (content e pool queued).map (fun c => (c.1 a, c.2 a))

/-- jsonrpc/backend/txpool.go:105-119 (`TxPoolStatus`) -/
def status {K : Type} (pool queued : List (CosmosTx K)) : Nat × Nat := (pool.length, queued.length)

/-- jsonrpc/backend/tx.go:347-365: the loop -/
def pendingLoop {K : Type} (e : Env K) : List (CosmosTx K) → Option (List EthTx)
  | [] => some []
  | tx :: txs => match cosmosToEth e tx with
    | none => none
    | some none => pendingLoop e txs
    | some (some (x, _)) => (pendingLoop e txs).map (x :: ·)

/-- jsonrpc/backend/tx.go:326-368 (`PendingTransactions`) -/
def pendingTransactions {K : Type} (e : Env K) (pool : List (CosmosTx K)) : Option (List EthTx) := pendingLoop e (pool.take 30)

end Verif.TxPool
