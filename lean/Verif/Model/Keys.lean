import Verif.Model.Bytes
/-
The keys under which the EVM module and the indexer store their data: x/evm/types/keys.go, x/evm/keeper/keeper.go:127-155 (which key codec
each collection uses), indexer/keys.go, indexer/indexer.go:108-114; with the key encodings and range bounds of cosmossdk.io/collections
(by contract).
-/
namespace Verif.Keys
open Verif

/-! ### cosmossdk.io/collections, by contract -/

/-- `binary.PutUvarint` -/
def uvarint (n : Nat) : Bytes :=
  if n < 128 then [UInt8.ofNat n] else UInt8.ofNat (n % 128 + 128) :: uvarint (n / 128)
termination_by n
decreasing_by omega

/-- `BytesKey.EncodeNonTerminal`: length and bytes. (As the last part of a key, bytes and strings are written as they are.) -/
def ntBytes (b : Bytes) : Bytes := uvarint b.length ++ b

/-- `Uint64Key`: eight bytes, big-endian, also as the first part of a pair. -/
def u64 (n : Nat) : Bytes := toBE 8 n

/-- `bytes.Compare(a, b) < 0` -/
def ltB : Bytes → Bytes → Bool
  | _, [] => false
  | [], _ :: _ => true
  | x :: xs, y :: ys => x < y || (x == y && ltB xs ys)

/-- `nextBytesPrefixKey`: the last byte that is not 255 is raised by one and what follows is cut off; `none`: no upper bound -/
def prefixEnd : Bytes → Option Bytes
  | [] => none
  | x :: xs => match prefixEnd xs with
    | some e => some (x :: e)
    | none => if x = 255 then none else some [x + 1]

/-- The keys a walk over the prefix range `p` (`NewPrefixedPairRange`, `Range.Prefix`, or a whole collection) visits: from `p` up to, but
not including, `prefixEnd p`. -/
def inRange (p k : Bytes) : Bool :=
  !ltB k p && (match prefixEnd p with
    | none => true
    | some e => ltB k e)

/-! ### The module's store -/

/-- What is stored persistently (x/evm/keeper/keeper.go:40-79). -/
inductive EvmKey
  | params
  | vm (k : Bytes)
  | factory
  | wrapper
  | erc20 (a : Bytes)
  | erc20Store (a c : Bytes)
  | denomByAddr (a : Bytes)
  | addrByDenom (d : Bytes)
  | classURI (a : Bytes)
  | classByAddr (a : Bytes)
  | addrByClass (d : Bytes)
  | blockHash (n : Nat)
deriving DecidableEq

/-- x/evm/types/keys.go:22-47 with the codecs of x/evm/keeper/keeper.go:120-157; strings are given by their bytes. -/
def EvmKey.bytes : EvmKey → Bytes
  | .params => [0x51]
  | .vm k => 0x21 :: k
  | .factory => [0x61]
  | .wrapper => [0x62]
  | .erc20 a => 0x31 :: a
  | .erc20Store a c => 0x32 :: (ntBytes a ++ c)
  | .denomByAddr a => 0x33 :: a
  | .addrByDenom d => 0x34 :: d
  | .classURI a => 0x41 :: a
  | .classByAddr a => 0x42 :: a
  | .addrByClass d => 0x43 :: d
  | .blockHash n => 0x71 :: u64 n

/-- What is stored for the time of a block (x/evm/keeper/keeper.go:54-60). -/
inductive TransKey
  | vm (e : Nat) (k : Bytes)
  | created (e : Nat) (a : Bytes)
  | destruct (e : Nat) (a : Bytes)
  | log (e i : Nat)
  | logSize (e : Nat)
  | access (e : Nat) (k : Bytes)
  | refund (e : Nat)
deriving DecidableEq

/-- x/evm/types/keys.go:24-30 with x/evm/keeper/keeper.go:131-137 -/
def TransKey.bytes : TransKey → Bytes
  | .vm e k => 0x22 :: (u64 e ++ k)
  | .created e a => 0x23 :: (u64 e ++ a)
  | .destruct e a => 0x24 :: (u64 e ++ a)
  | .log e i => 0x25 :: (u64 e ++ u64 i)
  | .logSize e => 0x26 :: u64 e
  | .access e k => 0x27 :: (u64 e ++ k)
  | .refund e => 0x28 :: u64 e

/-! ### The indexer's store -/

/-- indexer/indexer.go:64-71 -/
inductive IndexKey
  | header (n : Nat)
  | numOf (h : Bytes)
  | tx (h : Bytes)
  | receipt (h : Bytes)
  | byIndex (n i : Nat)
  | toCosmos (h : Bytes)
  | ofCosmos (h : Bytes)
deriving DecidableEq

/-- indexer/keys.go:7-20 with indexer/indexer.go:108-114 -/
def IndexKey.bytes : IndexKey → Bytes
  | .header n => [0, 0, 1, 1] ++ u64 n
  | .numOf h => [0, 0, 1, 2] ++ h
  | .tx h => [0, 0, 2, 1] ++ h
  | .receipt h => [0, 0, 2, 2] ++ h
  | .byIndex n i => [0, 0, 2, 3] ++ (u64 n ++ u64 i)
  | .toCosmos h => [0, 0, 3, 1] ++ h
  | .ofCosmos h => [0, 0, 3, 2] ++ h

/-! ### Walks -/

/-- x/evm/keeper/erc20.go:249 (`IterateAccountBalances`): the range of an account's tokens -/
def accountRange (a : Bytes) : Bytes := 0x32 :: ntBytes a

/-- x/evm/keeper/erc20.go:271, genesis.go:172-242: the range of a whole collection, by its prefix -/
def wholeRange (p : Bytes) : Bytes := p

/-- x/evm/state/statedb.go:639 (`vmStore.Clear` in `Commit`): the range cleared for a destroyed account -/
def clearRange (a : Addr) : Bytes := 0x21 :: a.bytes

/-- x/evm/state/statedb.go:631: the accounts destroyed in execution `e` -/
def destructRange (e : Nat) : Bytes := 0x24 :: u64 e

/-- x/evm/state/statedb.go:687: the logs of execution `e` -/
def logRange (e : Nat) : Bytes := 0x25 :: u64 e

/-- indexer/reader.go:53-55 (`IterateBlockTxs`): the transactions of block `n` -/
def blockRange (n : Nat) : Bytes := [0, 0, 2, 3] ++ u64 n

end Verif.Keys
