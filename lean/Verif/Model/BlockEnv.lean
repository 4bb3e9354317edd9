import Verif.Model.GasPrice
import Verif.Model.Params
import Verif.Model.Exec
/-
What contract code is told about the block and the transaction it runs in (x/evm/keeper/context.go:52-148,
x/evm/types/chain_config.go), and what JSON-RPC says about the same block (indexer/abci.go:29-147, jsonrpc/backend/block.go:141-198,
jsonrpc/backend/eth.go:146-159). GASPRICE is in Verif.Model.GasPrice.
-/
namespace Verif.BlockEnv
open Verif Verif.Exec Verif.Params Verif.GasPrice Verif.Fees

/-- What an `sdk.Context` carries. `simulate` is the configured simulation limit in simulation mode. -/
structure Ctx where
  height : Int
  unix : Int
  headerHash : Bytes
  chain : Bytes
  meter : Meter
  simulate : Option Nat

/-- What is read from the state for the base fee: the minimum prices, the fee denom and its decimals (`LoadFee`). -/
structure Setting (D : Type) where
  prices : Option (List (D × Nat))
  feeDenom : D
  decimals : Nat

/-- `vm.BlockContext`, the `Origin` of `vm.TxContext` and the chain id of the chain configuration, as the instructions NUMBER, TIMESTAMP,
GASLIMIT, BASEFEE, PREVRANDAO, COINBASE, BLOBBASEFEE, BLOCKHASH, ORIGIN and CHAINID give them (go-ethereum, by contract). -/
structure Env where
  number : Int
  time : Nat
  gasLimit : Nat
  baseFee : Nat
  random : Hash
  coinbase : Addr
  blobBaseFee : Nat
  blockhash : Nat → Hash
  origin : Addr
  chainId : Nat

/-- Go: `uint64(x)` of an `int64` -/
def toU64 (x : Int) : Nat := (x % 18446744073709551616).toNat

/-- Go: `(*common.Hash)(b)`, the first 32 bytes; `none`: the conversion panics. -/
def sliceToHash (b : Bytes) : Option Hash := if h : 32 ≤ b.length then some ⟨b.take 32, by simp [h]⟩ else none

/-- x/evm/keeper/context.go:52-56, 127: an absent header hash is 32 zero bytes. -/
def randomOf (headerHash : Bytes) : Option Hash := if headerHash.length = 0 then some Hash.zero else sliceToHash headerHash

/-- x/evm/keeper/context.go:52-148 (`buildBlockContext`, `buildTxContext`), 151-190 (`CreateEVM`) for an execution by `caller`; `none`: panic.
The BLOCKHASH instruction compares with the block number (Verif.Model.Params `blockhashOp`). -/
def build {D : Type} [DecidableEq D] (keccak : Bytes → Hash) (hashes : Hashes) (s : Setting D) (c : Ctx) (caller : Addr) : Option Env :=
  (randomOf c.headerHash).map fun r =>
    { number := c.height, time := toU64 c.unix, gasLimit := computeGasLimit c.simulate c.meter,
      baseFee := seenBase s.decimals s.prices s.feeDenom, random := r, coinbase := Addr.zero, blobBaseFee := 0,
      blockhash := blockhashOp hashes c.height.toNat, origin := caller, chainId := ethChainId keccak c.chain }

/-- What eth_getBlockByNumber says of a block, as far as it can be compared with the above. -/
structure Header where
  number : Int
  timestamp : Nat
  gasLimit : Nat
  gasUsed : Nat
  baseFeePerGas : Nat
  mixHash : Hash
  miner : Addr
  difficulty : Nat

/-- indexer/abci.go:29-35, 113-137 and jsonrpc/backend/block.go:164-198 (`formatHeader`): the header made by the listener once the block is
finalized; `blockMeter` is the block's gas meter. -/
def header {D : Type} [DecidableEq D] (s : Setting D) (c : Ctx) (blockMeter : Meter) : Header :=
  { number := c.height, timestamp := toU64 c.unix, gasLimit := blockMeter.limit, gasUsed := blockMeter.consumedToLimit,
    baseFeePerGas := seenBase s.decimals s.prices s.feeDenom, mixHash := Hash.zero, miner := Addr.zero, difficulty := 0 }

/-- jsonrpc/backend/eth.go:146-159 (`ChainId`, `ChainID`) -/
def rpcChainId (keccak : Bytes → Hash) (chain : Bytes) : Nat := ethChainId keccak chain

/-- A chain, block by block: the retention parameter, the header hash and the time that consensus hands over, the settings and the block's
gas meter at the end; its name. -/
structure Chain (D : Type) where
  num : Nat → Nat
  hash : Nat → Hash
  unix : Nat → Int
  after : Nat → Setting D
  meter : Nat → Meter
  name : Bytes

/-- The collection of block hashes in block `h`, after its `PreBlock` (x/evm/abci.go:13-23). -/
def Chain.hashes {D : Type} (c : Chain D) : Nat → Hashes
  | 0 => fun _ => none
  | h + 1 => preBlock (c.num (h + 1)) (c.hashes h) (h + 1) (c.hash (h + 1))

/-- The context of block `h` with the gas meter of a transaction (baseapp, by contract). -/
def Chain.ctx {D : Type} (c : Chain D) (h : Nat) (m : Meter) : Ctx := ⟨h, c.unix h, (c.hash h).bytes, c.name, m, none⟩

/-- An execution within a block: by whom, with which gas, under the settings of the moment. -/
structure Run (D : Type) where
  caller : Addr
  meter : Meter
  setting : Setting D

/-- What an execution in block `h` is told. -/
def Chain.told {D : Type} [DecidableEq D] (keccak : Bytes → Hash) (c : Chain D) (h : Nat) (r : Run D) : Option Env :=
  build keccak (c.hashes h) r.setting (c.ctx h r.meter) r.caller

/-- What JSON-RPC serves for block `h`. -/
def Chain.served {D : Type} [DecidableEq D] (c : Chain D) (h : Nat) : Header := header (c.after h) (c.ctx h ⟨0, 0⟩) (c.meter h)

end Verif.BlockEnv
