import Verif.Model.Bytes
/-
Model of the EVM indexer (indexer/abci.go, reader.go, utils.go) and of the JSON-RPC functions that serve what it stored
(jsonrpc/backend/{tx,block,filters}.go).

The seven collections are maps; that reads return the last write is C37. `BlockAndIndexToTxHashMap` is walked in key order:
it is a list of entries sorted by (height, index), which is the order of the big-endian keys. Outside the model, as
parameters: the transaction codec and conversion (Model/TxUtils), hashes, and the decoding of the response data. Header
fields that no modelled function reads are left out.
-/
namespace Verif.Indexer
open Verif

/-- `coretypes.Log` without the fields filled in when it is served -/
structure RawLog where
  addr : Addr
  topics : List Hash
  data : Bytes
  deriving DecidableEq

/-- `coretypes.Log` as served -/
structure Log where
  raw : RawLog
  blockHash : Hash
  blockNumber : Nat
  txHash : Hash
  txIndex : Nat
  index : Nat
  deriving DecidableEq

/-- `coretypes.Receipt`, the fields set at indexer/abci.go:90-109; the bloom is a function of the logs. -/
structure Receipt where
  ok : Bool
  cumulative : Nat
  gasUsed : Nat
  logs : List RawLog
  txIndex : Nat
  contract : Option Addr

/-- `rpctypes.RPCTransaction`: the transaction and its position. -/
structure RpcTx (E : Type) where
  tx : E
  blockHash : Hash
  blockNumber : Nat
  index : Nat

/-- `coretypes.Header`: number, parent, and the contents the roots and the bloom are computed from. -/
structure Header where
  number : Nat
  parent : Hash
  txs : List Hash
  receipts : List Receipt

/-- Result of a transaction in the block (`abci.ExecTxResult`). -/
structure Result where
  ok : Bool
  gasUsed : Nat
  data : Bytes

/-- A finalized block: height, raw transactions with their results. -/
structure Block where
  height : Nat
  txs : List (Bytes × Result)

/-- Surroundings. `T`: decoded Cosmos transactions; `E`: Ethereum transactions. -/
structure Env (T E : Type) where
  /-- `TxDecoder` -/
  decode : Bytes → Option T
  /-- `ConvertCosmosTxToEthereumTx`; outer `none`: error, inner `none`: not an Ethereum transaction -/
  convert : T → Option (Option E)
  hash : E → Hash
  /-- `ethTx.To() == nil` -/
  isCreate : E → Bool
  /-- `comettypes.Tx(bz).Hash()` -/
  cosHash : Bytes → Bytes
  /-- utils.go:18-45: logs and contract address from the response data of a call or create; `none`: error -/
  unpack : Bytes → Bool → Option (List RawLog × Option Addr)
  headerHash : Header → Hash

/-- The collections (indexer/indexer.go:64-71). -/
structure Index (E : Type) where
  txs : Hash → Option (RpcTx E)
  receipts : Hash → Option Receipt
  headers : Nat → Option Header
  byIndex : List ((Nat × Nat) × Hash)
  numOf : Hash → Option Nat
  toCos : Hash → Option Bytes
  ofCos : Bytes → Option Hash

/-- Empty collections. -/
def Index.empty {E : Type} : Index E := ⟨fun _ => none, fun _ => none, fun _ => none, [], fun _ => none, fun _ => none, fun _ => none⟩

/-- Assignment in a map. -/
def upd {α β : Type} [DecidableEq α] (f : α → Option β) (k : α) (v : β) : α → Option β := fun x => if x = k then some v else f x

/-- Key order of the pair keys. -/
def lt (a b : Nat × Nat) : Bool := a.1 < b.1 || (a.1 == b.1 && a.2 < b.2)

/-- Assignment in the sorted collection. -/
def ins (k : Nat × Nat) (v : Hash) : List ((Nat × Nat) × Hash) → List ((Nat × Nat) × Hash)
  | [] => [(k, v)]
  | (k', v') :: r => if k = k' then (k, v) :: r else if lt k k' then (k, v) :: (k', v') :: r else (k', v') :: ins k v r

/-- Lookup in the sorted collection. -/
def look (k : Nat × Nat) : List ((Nat × Nat) × Hash) → Option Hash
  | [] => none
  | (k', v') :: r => if k = k' then some v' else look k r

variable {T E : Type}

/-- uint64 addition -/
def add64 (a b : Nat) : Nat := (a + b) % 18446744073709551616

/-- indexer/utils.go:18-45 (`extractLogsAndContractAddr`) -/
def extractLogs (env : Env T E) (ok : Bool) (data : Bytes) (create : Bool) : Option (List RawLog × Option Addr) :=
  if ok then env.unpack data create else some ([], none)

/-- First loop of `ListenFinalizeBlock`, indexer/abci.go:44-112. `n`: `txIndex` before the transaction. `false`: error. -/
def collect (env : Env T E) : List (Bytes × Result) → Nat → Nat → Index E → Bool × List (E × Receipt) × Index E
  | [], _, _, ix => (true, [], ix)
  | (raw, res) :: rest, n, cum, ix =>
    match env.decode raw with
    | none => collect env rest n cum ix
    | some t => match env.convert t with
      | none => (false, [], ix)
      | some none => collect env rest n cum ix
      | some (some e) =>
        let ix : Index E := { ix with toCos := upd ix.toCos (env.hash e) (env.cosHash raw), ofCos := upd ix.ofCos (env.cosHash raw) (env.hash e) }
        match extractLogs env res.ok res.data (env.isCreate e) with
        | none => (false, [], ix)
        | some (logs, contract) =>
          let cum' := add64 cum res.gasUsed
          let rc : Receipt := ⟨res.ok, cum', res.gasUsed, logs, n + 1, contract⟩
          let r := collect env rest (n + 1) cum' ix
          (r.1, (e, rc) :: r.2.1, r.2.2)

/-- Second loop, indexer/abci.go:149-184. -/
def storeTxs (env : Env T E) (bh : Hash) (h : Nat) : List (E × Receipt) → Index E → Index E
  | [], ix => ix
  | (e, rc) :: rest, ix =>
    storeTxs env bh h rest { ix with
      txs := upd ix.txs (env.hash e) ⟨e, bh, h, rc.txIndex⟩
      receipts := upd ix.receipts (env.hash e) rc
      byIndex := ins (h, rc.txIndex) (env.hash e) ix.byIndex }

/-- indexer/abci.go:114-147: the block header. -/
def mkHeader (env : Env T E) (h : Nat) (l : List (E × Receipt)) (ix : Index E) : Header :=
  { number := h
    parent := if h > 1 then (match ix.headers (h - 1) with | some p => env.headerHash p | none => Hash.zero) else Hash.zero
    txs := l.map (fun x => env.hash x.1)
    receipts := l.map (·.2) }

/-- indexer/abci.go:30-217 (`ListenFinalizeBlock`). `false`: error. -/
def index (env : Env T E) (ix : Index E) (b : Block) : Bool × Index E :=
  let c := collect env b.txs 0 0 ix
  if c.1 then
    let hd := mkHeader env b.height c.2.1 c.2.2
    let bh := env.headerHash hd
    let ix2 := storeTxs env bh b.height c.2.1 c.2.2
    (true, { ix2 with headers := upd ix2.headers b.height hd, numOf := upd ix2.numOf bh b.height })
  else (false, c.2.2)

/-- The log events sent to subscribers, per transaction: indexer/abci.go:172-183, when there are subscribers. -/
def emitted (env : Env T E) (bh : Hash) (h : Nat) (l : List (E × Receipt)) : List (List Log) :=
  (l.zipIdx.map (fun x => x.1.2.logs.zipIdx.map (fun y => (⟨y.1, bh, h, env.hash x.1.1, x.2, y.2⟩ : Log)))).filter (fun l => !l.isEmpty)

/-! ### Reads -/

/-- indexer/reader.go:44-51 (`TxByHash`) -/
def Index.txByHash (ix : Index E) (h : Hash) : Option (RpcTx E) := ix.txs h

/-- indexer/reader.go:33-41 (`TxByBlockAndIndex`) -/
def Index.txByBlockAndIndex (ix : Index E) (h i : Nat) : Option (RpcTx E) := (look (h, i) ix.byIndex).bind ix.txByHash

/-- the hashes `Walk` visits for a height -/
def Index.blockHashes (ix : Index E) (h : Nat) : List Hash := (ix.byIndex.filter (fun x => x.1.1 == h)).map (·.2)

/-- indexer/reader.go:54-64 (`IterateBlockTxs`) collected as in jsonrpc/backend/tx.go:370-386 (`getBlockTransactions`); `none`: error -/
def Index.blockTxs (ix : Index E) (h : Nat) : Option (List (RpcTx E)) := (ix.blockHashes h).mapM ix.txByHash

/-- indexer/reader.go:67-77 (`IterateBlockTxRecepts`) with jsonrpc/backend/tx.go:388-404 (`getBLockReceipts`) -/
def Index.blockReceipts (ix : Index E) (h : Nat) : Option (List Receipt) := (ix.blockHashes h).mapM ix.receipts

/-- position fields of the logs of one transaction, jsonrpc/backend/filters.go:38-44 -/
def serveLogs (bh : Hash) (h : Nat) (txHash : Hash) (rc : Receipt) : List Log :=
  rc.logs.zipIdx.map (fun y => ⟨y.1, bh, h, txHash, rc.txIndex, y.2⟩)

/-- jsonrpc/backend/filters.go:10-49 (`GetLogsByHeight`); `none`: error -/
def Index.logsByHeight (env : Env T E) (ix : Index E) (h : Nat) : Option (List Log) :=
  match ix.headers h with
  | none => none
  | some hd => match ix.blockTxs h with
    | none => none
    | some txs => match txs.mapM (fun t => (ix.receipts (env.hash t.tx)).map (serveLogs (env.headerHash hd) h (env.hash t.tx))) with
      | none => none
      | some l => some l.flatten

/-- jsonrpc/backend/tx.go:434-448 (`marshalReceipt`): the logs of a receipt, as served with it -/
def receiptLogs (txHash : Hash) (tx : RpcTx E) (rc : Receipt) : List Log :=
  rc.logs.zipIdx.map (fun y => ⟨y.1, tx.blockHash, tx.blockNumber, txHash, tx.index, y.2⟩)

end Verif.Indexer
