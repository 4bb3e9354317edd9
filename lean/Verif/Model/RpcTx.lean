import Verif.Model.TxUtils
/-
The JSON form of transactions (jsonrpc/types/tx.go), its storage in the index (indexer/utils.go:72-104, indexer/reader.go:44-64)
and the raw transactions served (jsonrpc/backend/tx.go:294-324).

By contract (outside the repository): `encoding/json` gives back what it was given; `hexutil.Big` writes every integer but reads
back only those from 0 to 2^256 - 1 (`hexutil.DecodeBig`); the accessors of `coretypes.Transaction`. Absent and empty lists are
the same, as they are in the binary form of a transaction.
-/
namespace Verif.RpcTx
open Verif Verif.TxUtils

/-- `RPCTransaction`, jsonrpc/types/tx.go:12-35, without the blob fields, which are never set. -/
structure Rpc where
  block : Option (Hash × Nat × Nat)
  «from» : Option Addr
  gas : Nat
  gasPrice : Option Int
  feeCap : Option Int
  tipCap : Option Int
  hash : Hash
  input : Bytes
  nonce : Nat
  to : Option Addr
  value : Int
  type : Nat
  accesses : Option EthAccess
  chainId : Int
  v : Int
  r : Int
  s : Int
  yParity : Option Nat
  deriving DecidableEq

/-- jsonrpc/types/tx.go:37-75 (`NewRPCTransaction`). `hashOf`: hash of the signed transaction; `sender`: the recovered sender, `none`
for the zero address of a failed recovery. `tx.GasPrice()` of a dynamic fee transaction is its fee cap. -/
def newRpc (hashOf : EthTx → Hash) (sender : EthTx → Option Addr) (tx : EthTx) (blockHash : Hash) (blockNumber index : Nat) (chainId : Nat) : Rpc :=
  { type := tx.type
    «from» := sender tx
    gas := tx.gas
    gasPrice := some tx.feeCap
    feeCap := some tx.feeCap
    tipCap := some tx.tipCap
    hash := hashOf tx
    input := tx.data
    nonce := tx.nonce
    to := tx.to
    value := tx.value
    v := tx.vrs.1
    r := tx.vrs.2.1
    s := tx.vrs.2.2
    chainId := chainId
    accesses := some tx.access
    block := if blockHash ≠ Hash.zero then some (blockHash, blockNumber, index) else none
    yParity := if tx.type = 0 then none else some (tx.vrs.1 % 18446744073709551616) }

/-- jsonrpc/types/tx.go:77-135 (`ToTransaction`); `none`: nil -/
def toTransaction (t : Rpc) : Option EthTx :=
  let gasPrice := t.gasPrice.getD 0
  let al := t.accesses.getD []
  match t.type with
  | 0 => some (.legacy t.nonce t.gas gasPrice t.to t.value t.input t.v.toNat t.r.toNat t.s.toNat)
  | 1 => t.gasPrice.map (fun p => .accessList t.chainId.toNat t.nonce t.gas p t.to t.value t.input al t.v.toNat t.r.toNat t.s.toNat)
  | 2 => match t.tipCap, t.feeCap with
    | some tip, some cap => some (.dynamic t.chainId.toNat t.nonce t.gas tip cap t.to t.value t.input al t.v.toNat t.r.toNat t.s.toNat)
    | _, _ => none
  | _ => none

/-- go-ethereum `hexutil.DecodeBig`: the range it accepts -/
def bigOk (x : Int) : Bool := decide (0 ≤ x) && decide (x < 115792089237316195423570985008687907853269984665640564039457584007913129639936)

/-- indexer/utils.go:79-96: what is read back from the stored JSON; `none`: error -/
def stored (t : Rpc) : Option Rpc :=
  if t.gasPrice.all bigOk && t.feeCap.all bigOk && t.tipCap.all bigOk && bigOk t.value && bigOk t.chainId && bigOk t.v && bigOk t.r && bigOk t.s then some t
  else none

/-- jsonrpc/backend/tx.go:294-312 (`GetRawTransactionByHash`) for a transaction in the index -/
def rawOf (t : Rpc) : Option EthTx := (stored t).bind toTransaction

/-- jsonrpc/backend/tx.go:370-386 (`getBlockTransactions`), indexer/reader.go:54-64: all transactions of a block, or an error. -/
def readBlock : List Rpc → Option (List Rpc)
  | [] => some []
  | t :: ts => match stored t with
    | none => none
    | some t => (readBlock ts).map (t :: ·)

end Verif.RpcTx
