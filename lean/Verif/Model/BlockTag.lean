import Verif.Model.Indexer
import Verif.Model.Fees
/-
How the block-parametrised JSON-RPC methods choose the block they answer about (jsonrpc/backend/{block,tx,eth,gas}.go).

A node is what a method sees at one moment: the height CometBFT reports, the application's committed states, the CheckTx state
and the index (Model/Indexer). A method makes several accesses; between two of them the node may have moved on, so a method takes
one node per access that matters. Outside the model, by contract: `CreateQueryContext(0)` gives the application's last committed
state, `CreateQueryContext(h)` the state committed at `h`, an error when `h` is in the future or pruned (Cosmos SDK baseapp);
the go-ethereum constants of block tags. Errors of the client and of the codecs are left out.
-/
namespace Verif.BlockTag
open Verif Verif.Indexer

/-- What is asked of the state. `S`: states; `A`: arguments of a call. -/
structure Reads (S A : Type) where
  /-- `Params.FeeDenom` -/
  feeDenom : S → Nat
  /-- `ERC20Keeper.GetDecimals` -/
  decimals : S → Nat → Nat
  /-- `ERC20Keeper.GetBalance` -/
  balance : S → Addr → Nat → Nat
  /-- account sequence, 0 without account -/
  sequence : S → Addr → Nat
  /-- `QueryServer.State` -/
  storage : S → Addr → Hash → Hash
  /-- `QueryServer.Code` -/
  code : S → Addr → Bytes
  /-- `QueryServer.Call`; `none`: error -/
  call : S → A → Option Bytes
  /-- gas of a simulated run -/
  simulate : S → A → Nat

/-- What a method sees at one moment. -/
structure Node (E S : Type) where
  /-- `Status().SyncInfo.LatestBlockHeight` -/
  head : Nat
  /-- `LastBlockHeight` of the application -/
  appHead : Nat
  /-- committed states that are kept -/
  states : Nat → Option S
  /-- CheckTx state -/
  check : S
  ix : Index E

/-- `rpc.BlockNumberOrHash` -/
inductive Req where
  | hash (h : Hash)
  | num (n : Int)
  | neither

/-- An answer: an error, `null`, a value. -/
inductive Ans (α : Type) where
  | err
  | null
  | val (a : α)
  deriving DecidableEq

variable {T E S A : Type}

/-- jsonrpc/backend/block.go:46-60 (`resolveBlockNr`) -/
def resolveBlockNr (n : Node E S) (k : Int) : Nat := if k < 0 then n.head else if k = 0 then 1 else k.toNat

/-- jsonrpc/backend/block.go:24-44 (`resolveBlockNrOrHash`); `none`: error -/
def resolveBlockNrOrHash (n : Node E S) : Req → Option Nat
  | .hash h => n.ix.numOf h
  | .num k => some (resolveBlockNr n k)
  | .neither => some n.head

/-- baseapp `CreateQueryContext` (outside the repository) -/
def createQueryCtx (n : Node E S) (h : Nat) : Option S :=
  if h = 0 then n.states n.appHead else if h > n.appHead then none else n.states h

/-- jsonrpc/backend/tx.go:118-129 (`getQueryCtxWithHeight`); `n1`: the node when the head is read, `n2`: when the context is made -/
def getQueryCtxWithHeight (n1 n2 : Node E S) (h : Nat) : Option S :=
  createQueryCtx n2 (if h ≥ n1.head then 0 else h)

/-- resolve, then the context: eth.go:18-26 and 55-63, 102-110, 125-133 -/
def stateFor (n0 n1 n2 : Node E S) (r : Req) : Option S :=
  match resolveBlockNrOrHash n0 r with
  | none => none
  | some h => getQueryCtxWithHeight n1 n2 h

/-- an answer from an optional state -/
def ans {α : Type} (o : Option S) (f : S → α) : Ans α := match o with | none => .err | some s => .val (f s)

/-- jsonrpc/backend/eth.go:17-39 (`GetBalance`). Fee denom and decimals come from the latest state of the node `n3`. -/
def getBalance (R : Reads S A) (n0 n1 n2 n3 : Node E S) (a : Addr) (r : Req) : Ans Nat :=
  match stateFor n0 n1 n2 r with
  | none => .err
  | some s => match createQueryCtx n3 0 with
    | none => .err
    | some l => .val (Fees.toEthers (R.decimals l (R.feeDenom l)) (R.balance s a (R.feeDenom l)))

/-- jsonrpc/backend/eth.go:101-122 (`GetStorageAt`) -/
def getStorageAt (R : Reads S A) (n0 n1 n2 : Node E S) (a : Addr) (k : Hash) (r : Req) : Ans Hash :=
  ans (stateFor n0 n1 n2 r) (fun s => R.storage s a k)

/-- jsonrpc/backend/eth.go:124-144 (`GetCode`) -/
def getCode (R : Reads S A) (n0 n1 n2 : Node E S) (a : Addr) (r : Req) : Ans Bytes :=
  ans (stateFor n0 n1 n2 r) (fun s => R.code s a)

/-- jsonrpc/backend/eth.go:41-99 (`Call`); `none`: no block given, which means latest (rpc.LatestBlockNumber = -2) -/
def call (R : Reads S A) (n0 n1 n2 : Node E S) (x : A) (r : Option Req) : Ans Bytes :=
  match stateFor n0 n1 n2 (r.getD (.num (-2))) with
  | none => .err
  | some s => match R.call s x with
    | none => .err
    | some b => .val b

/-- jsonrpc/backend/tx.go:150-195 (`GetTransactionCount`) -/
def getTransactionCount (R : Reads S A) (n0 n1 n2 : Node E S) (a : Addr) : Req → Ans Nat
  | .hash h => match n0.ix.numOf h with
    | none => .null
    | some b => ans (getQueryCtxWithHeight n1 n2 b) (fun s => R.sequence s a)
  | .num k =>
    if k = -1 then .val (R.sequence n2.check a)
    else ans (getQueryCtxWithHeight n1 n2 (if k < 0 then 0 else k.toNat)) (fun s => R.sequence s a)
  | .neither => ans (getQueryCtxWithHeight n1 n2 0) (fun s => R.sequence s a)

/-- jsonrpc/backend/gas.go:19-91 (`EstimateGas`): the block is not looked at; `Simulate` runs on the CheckTx state -/
def estimateGas (R : Reads S A) (n : Node E S) (x : A) (_r : Option Req) : Ans Nat := .val (R.simulate n.check x)

/-- jsonrpc/backend/block.go:61-81 (`GetHeaderByNumber`) -/
def getHeaderByNumber (n0 n1 : Node E S) (k : Int) : Ans Header :=
  match n1.ix.headers (resolveBlockNr n0 k) with
  | none => .null
  | some h => .val h

/-- jsonrpc/backend/block.go:100-125 (`GetBlockByNumber`): the header and the transactions -/
def getBlockByNumber (n0 n1 : Node E S) (k : Int) : Ans (Header × List (RpcTx E)) :=
  let b := resolveBlockNr n0 k
  match n1.ix.headers b with
  | none => .null
  | some h => match n1.ix.blockTxs b with
    | none => .err
    | some t => .val (h, t)

/-- jsonrpc/backend/block.go:127-139 (`GetBlockByHash`). An unknown hash is an error. -/
def getBlockByHash (n0 n1 : Node E S) (h : Hash) : Ans (Header × List (RpcTx E)) :=
  match n0.ix.numOf h with
  | none => .err
  | some b => getBlockByNumber n0 n1 b

/-- jsonrpc/backend/tx.go:282-292 (`GetBlockTransactionCountByNumber`) -/
def getBlockTransactionCountByNumber (n0 n1 : Node E S) (k : Int) : Ans Nat :=
  match getBlockByNumber n0 n1 k with
  | .err => .err
  | .null => .null
  | .val b => .val b.2.length

/-- jsonrpc/backend/tx.go:406-432 (`GetBlockReceipts`): the receipts paired with their transactions -/
def getBlockReceipts (n0 n1 : Node E S) (r : Req) : Ans (List (Receipt × RpcTx E)) :=
  match resolveBlockNrOrHash n0 r with
  | none => .err
  | some b => match n1.ix.blockTxs b, n1.ix.blockReceipts b with
    | some t, some rc => if t.length = rc.length then .val (rc.zip t) else .err
    | _, _ => .err

/-- `uint64(x)` of an int64 -/
def u64 (k : Int) : Nat := (k % 18446744073709551616).toNat

/-- jsonrpc/backend/tx.go:250-266 (`GetTransactionByBlockNumberAndIndex`): the number is used as it is -/
def getTransactionByBlockNumberAndIndex (n : Node E S) (k : Int) (i : Nat) : Ans (RpcTx E) :=
  match n.ix.txByBlockAndIndex (u64 k) i with
  | none => .null
  | some t => .val t

/-- jsonrpc/backend/tx.go:224-247 (`GetTransactionByBlockHashAndIndex`) -/
def getTransactionByBlockHashAndIndex (n : Node E S) (h : Hash) (i : Nat) : Ans (RpcTx E) :=
  match n.ix.numOf h with
  | none => .null
  | some b => match n.ix.txByBlockAndIndex b i with
    | none => .null
    | some t => .val t

end Verif.BlockTag
