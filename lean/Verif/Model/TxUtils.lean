import Verif.Model.Text
import Verif.Model.Fees
/-
Model of x/evm/keeper/txutils.go and x/evm/types/txutils.go: conversion between signed Ethereum transactions
and Cosmos transactions. Cryptography, bech32 and JSON are fields of `Env`.
-/
namespace Verif.TxUtils
open Verif Verif.Text

/-- go-ethereum `AccessList` -/
abbrev EthAccess := List (Addr × List Hash)
/-- `[]types.AccessTuple` of the Cosmos messages (strings) -/
abbrev CosAccess := List (Str × List Str)

/-- A signed go-ethereum `Transaction` (core/types): the fields of each inner type. `other` stands for every
other type (blob, set-code) with its type byte. -/
inductive EthTx where
  | legacy (nonce gas : Nat) (gasPrice : Int) (to : Option Addr) (value : Int) (data : Bytes) (v r s : Nat)
  | accessList (chainId nonce gas : Nat) (gasPrice : Int) (to : Option Addr) (value : Int) (data : Bytes)
      (al : EthAccess) (v r s : Nat)
  | dynamic (chainId nonce gas : Nat) (tip cap : Int) (to : Option Addr) (value : Int) (data : Bytes)
      (al : EthAccess) (v r s : Nat)
  | other (type : Nat)
deriving DecidableEq

/-- What an Ethereum signature signs: the fields under `signer.Hash` (go-ethereum core/types/transaction_signing.go). -/
inductive Payload where
  | homestead (nonce gas : Nat) (gasPrice : Int) (to : Option Addr) (value : Int) (data : Bytes)
  | eip155 (chainId nonce gas : Nat) (gasPrice : Int) (to : Option Addr) (value : Int) (data : Bytes)
  | eip2930 (chainId nonce gas : Nat) (gasPrice : Int) (to : Option Addr) (value : Int) (data : Bytes)
      (al : EthAccess)
  | eip1559 (chainId nonce gas : Nat) (tip cap : Int) (to : Option Addr) (value : Int) (data : Bytes)
      (al : EthAccess)
  /-- nothing but the type byte (0: not even that) -/
  | nothing (type : Nat)
deriving DecidableEq

/-- What goes into the hash. RLP has no negative numbers: the encoder fails before it writes anything, and `rlpHash` and
`prefixedRlpHash` (go-ethereum core/types/hashing.go, outside the repository) drop the error. -/
def Payload.hashed : Payload → Payload
  | .homestead nonce gas price to value data =>
    if price < 0 ∨ value < 0 then .nothing 0 else .homestead nonce gas price to value data
  | .eip155 c nonce gas price to value data =>
    if price < 0 ∨ value < 0 then .nothing 0 else .eip155 c nonce gas price to value data
  | .eip2930 c nonce gas price to value data al =>
    if price < 0 ∨ value < 0 then .nothing 1 else .eip2930 c nonce gas price to value data al
  | .eip1559 c nonce gas tip cap to value data al =>
    if tip < 0 ∨ cap < 0 ∨ value < 0 then .nothing 2 else .eip1559 c nonce gas tip cap to value data al
  | .nothing t => .nothing t

/-- x/evm/keeper/txutils.go:184-188 -/
structure Metadata where
  type : Nat
  gasFeeCap : Str
  gasTipCap : Str

/-- Surroundings of the conversion. `K` is the type of public keys. -/
structure Env (K : Type) where
  /-- EIP-55 case mask -/
  mask : Str → List Bool
  /-- `ac.BytesToString` -/
  bech : Bytes → Str
  /-- `ac.StringToBytes` -/
  unbech : Str → Option Bytes
  /-- `PubKey.Address()` -/
  keyAddr : K → Bytes
  /-- `crypto.Ecrecover` of the hash of the payload with (r, s, recovery id), compressed -/
  recover : Payload → Nat → Nat → Nat → Option K
  /-- `json.Marshal(metadata)` -/
  memoEnc : Metadata → Str
  /-- strict `json` decoding of the first value in the memo -/
  memoDec : Str → Option Metadata
  /-- Ethereum chain id of this chain (x/evm/types/chain_config.go:13-22) -/
  chainId : Nat
  /-- `params.FeeDenom` -/
  feeDenom : Str
  /-- decimals of the fee token -/
  decimals : Nat

/-- Assumptions on the surroundings: recovered keys have 20-byte addresses, JSON decoding inverts encoding and
the encoding is not empty. -/
structure Env.Ok {K : Type} (e : Env K) : Prop where
  key20 : ∀ p r s v k, e.recover p r s v = some k → (e.keyAddr k).length = 20
  json : ∀ m, e.memoDec (e.memoEnc m) = some m
  jsonNe : ∀ m, e.memoEnc m ≠ []

/-- The Cosmos messages (proto/minievm/evm/v1/tx.proto); `other` stands for every other message type. -/
inductive Msg where
  | call (sender contractAddr input : Str) (value : Int) (al : CosAccess)
  | create (sender code : Str) (value : Int) (al : CosAccess)
  | create2 (sender code : Str) (salt : Nat) (value : Int) (al : CosAccess)
  | other (content : Str)
deriving DecidableEq

/-- `signing.SignatureData` -/
inductive SigData where
  | single (mode : Nat) (sig : Bytes)
  | multi
deriving DecidableEq

/-- `signing.SignatureV2` -/
structure Sig (K : Type) where
  pubKey : K
  data : SigData
  sequence : Nat

/-- The parts of a Cosmos transaction the code reads. -/
structure CosmosTx (K : Type) where
  msgs : List Msg
  memo : Str
  fee : List (Str × Nat)
  gas : Nat
  sigs : List (Sig K)

/-- x/evm/keeper/txutils.go:26 -/
def ethMode : Nat := 9999

/-- secp256k1 group order -/
def secpN : Nat := 0xfffffffffffffffffffffffffffffffebaaedce6af48a03bbfd25e8cd0364141

/-- `ToEthersUint` on a possibly negative amount (x/evm/types/decimals.go:10-25; `big.Int.Div` is Euclidean,
as Lean's). -/
def toEthersI (d : Nat) (v : Int) : Int :=
  if d = 18 then v else if d > 18 then v / (10 ^ (d - 18) : Nat) else v * (10 ^ (18 - d) : Nat)

/-- `FromEthersUnit` on a possibly negative amount (x/evm/types/decimals.go:61-75). -/
def fromEthersI (d : Nat) (v : Int) : Int :=
  if d = 18 then v else if d > 18 then v * (10 ^ (d - 18) : Nat) else v / (10 ^ (18 - d) : Nat)

/-- x/evm/types/txutils.go:26-42 -/
def toCosAccess {K : Type} (e : Env K) (al : EthAccess) : CosAccess :=
  al.map fun t => (addrHex e.mask t.1, t.2.map hashHex)

/-- x/evm/types/txutils.go:8-24 -/
def toEthAccess (al : CosAccess) : EthAccess :=
  al.map fun t => (hexToAddress t.1, t.2.map hexToHash)

/-- go-ethereum `recoverPlain` + `ValidateSignatureValues(homestead = true)`: `vb` is the adjusted V. -/
def recoverPlain {K : Type} (e : Env K) (p : Payload) (r s vb : Nat) : Option K :=
  if vb ≥ 256 then none
  else if 1 ≤ r ∧ r < secpN ∧ 1 ≤ s ∧ s ≤ secpN / 2 ∧ (vb = 27 ∨ vb = 28) then e.recover p r s (vb - 27)
  else none

/-- Signing payload of a transaction under the signer for chain `c` (`LatestSignerForChainID(c).Hash`). -/
def payloadOf (c : Nat) : EthTx → Option Payload
  | .legacy nonce gas price to value data _ _ _ => some (Payload.eip155 c nonce gas price to value data).hashed
  | .accessList _ nonce gas price to value data al _ _ _ =>
    some (Payload.eip2930 c nonce gas price to value data al).hashed
  | .dynamic _ nonce gas tip cap to value data al _ _ _ =>
    some (Payload.eip1559 c nonce gas tip cap to value data al).hashed
  | .other _ => none

/-- go-ethereum `isProtectedV` -/
def protectedV (v : Nat) : Bool := if v < 256 then v ≠ 27 && v ≠ 28 && v ≠ 1 && v ≠ 0 else true

/-- `LatestSignerForChainID(c).Sender(tx)`: the recovered key (its address is the sender). -/
def senderKey {K : Type} (e : Env K) : EthTx → Option K
  | .legacy nonce gas price to value data v r s =>
    if protectedV v then
      if v < 35 ∨ (v - 35) / 2 ≠ e.chainId then none
      else recoverPlain e (Payload.eip155 e.chainId nonce gas price to value data).hashed r s (v - 2 * e.chainId - 8)
    else recoverPlain e (Payload.homestead nonce gas price to value data).hashed r s v
  | .accessList c nonce gas price to value data al v r s =>
    if c ≠ e.chainId then none
    else recoverPlain e (Payload.eip2930 c nonce gas price to value data al).hashed r s (v + 27)
  | .dynamic c nonce gas tip cap to value data al v r s =>
    if c ≠ e.chainId then none
    else recoverPlain e (Payload.eip1559 c nonce gas tip cap to value data al).hashed r s (v + 27)
  | .other _ => none

/-- Accessors of go-ethereum `Transaction`. -/
def EthTx.type : EthTx → Nat
  | .legacy .. => 0 | .accessList .. => 1 | .dynamic .. => 2 | .other t => t
def EthTx.feeCap : EthTx → Int
  | .legacy _ _ p .. => p | .accessList _ _ _ p .. => p | .dynamic _ _ _ _ c .. => c | .other _ => 0
def EthTx.tipCap : EthTx → Int
  | .legacy _ _ p .. => p | .accessList _ _ _ p .. => p | .dynamic _ _ _ t .. => t | .other _ => 0
def EthTx.gas : EthTx → Nat
  | .legacy _ g .. => g | .accessList _ _ g .. => g | .dynamic _ _ g .. => g | .other _ => 0
def EthTx.nonce : EthTx → Nat
  | .legacy n .. => n | .accessList _ n .. => n | .dynamic _ n .. => n | .other _ => 0
def EthTx.to : EthTx → Option Addr
  | .legacy _ _ _ t .. => t | .accessList _ _ _ _ t .. => t | .dynamic _ _ _ _ _ t .. => t | .other _ => none
def EthTx.value : EthTx → Int
  | .legacy _ _ _ _ v .. => v | .accessList _ _ _ _ _ v .. => v | .dynamic _ _ _ _ _ _ v .. => v
  | .other _ => 0
def EthTx.data : EthTx → Bytes
  | .legacy _ _ _ _ _ d .. => d | .accessList _ _ _ _ _ _ d .. => d | .dynamic _ _ _ _ _ _ _ d .. => d
  | .other _ => []
def EthTx.access : EthTx → EthAccess
  | .legacy .. => [] | .accessList _ _ _ _ _ _ _ al .. => al | .dynamic _ _ _ _ _ _ _ _ al .. => al
  | .other _ => []
def EthTx.vrs : EthTx → Nat × Nat × Nat
  | .legacy _ _ _ _ _ _ v r s => (v, r, s)
  | .accessList _ _ _ _ _ _ _ _ v r s => (v, r, s)
  | .dynamic _ _ _ _ _ _ _ _ _ v r s => (v, r, s)
  | .other _ => (0, 0, 0)

/-- x/evm/keeper/txutils.go:97-104: the recovery byte; `big.Int.Uint64` of a negative difference is the low
64 bits of its absolute value. `none`: unsupported type. -/
def vByte (chainId : Nat) (tx : EthTx) : Option Nat :=
  match tx with
  | .legacy _ _ _ _ _ _ v _ _ =>
    some ((((v : Int) - (2 * (chainId : Int) + 35)).natAbs % 2 ^ 64) % 256)
  | .accessList _ _ _ _ _ _ _ _ v _ _ => some ((v % 2 ^ 64) % 256)
  | .dynamic _ _ _ _ _ _ _ _ _ v _ _ => some ((v % 2 ^ 64) % 256)
  | .other _ => none

/-- x/evm/keeper/txutils.go:50-182. `none`: an error or a panic (`math.NewIntFromBigInt` panics above 256
bits; a negative fee makes `sdk.NewCoin` panic). The `NewCoins` call drops a zero fee. -/
def ethToCosmos {K : Type} (e : Env K) (tx : EthTx) : Option (CosmosTx K) :=
  let feeAmt : Int :=
    if tx.feeCap = 0 then 0 else fromEthersI e.decimals (tx.feeCap * tx.gas) + 1
  if feeAmt < 0 ∨ feeAmt ≥ 2 ^ 256 then none else
  let value := fromEthersI e.decimals tx.value
  if toEthersI e.decimals value ≠ tx.value then none else
  match senderKey e tx, vByte e.chainId tx, payloadOf e.chainId tx with
  | some sk, some vb, some p =>
    let sigBytes := toBE 32 tx.vrs.2.1 ++ toBE 32 tx.vrs.2.2 ++ [UInt8.ofNat vb]
    match e.recover p tx.vrs.2.1 tx.vrs.2.2 vb with
    | none => none
    | some pk =>
      if value.natAbs ≥ 2 ^ 256 then none else
      let sender := e.bech (e.keyAddr sk)
      let al := toCosAccess e tx.access
      let msg : Msg := match tx.to with
        | none => .create sender (encode0x tx.data) value al
        | some a => .call sender (addrHex e.mask a) (encode0x tx.data) value al
      some {
        msgs := [msg]
        memo := e.memoEnc ⟨tx.type, intStr tx.feeCap, intStr tx.tipCap⟩
        fee := if feeAmt = 0 then [] else [(e.feeDenom, feeAmt.toNat)]
        gas := tx.gas
        sigs := [⟨pk, .single ethMode sigBytes, tx.nonce⟩] }
  | _, _, _ => none

/-- x/evm/types/address.go:34-44 (`ContractAddressFromString`) -/
def contractAddressFromString {K : Type} (e : Env K) (s : Str) : Option Addr :=
  if isHexAddress s then some (hexToAddress s)
  else (e.unbech s).map bytesToAddress

/-- Destination, input, value and access list of the message (x/evm/keeper/txutils.go:274-314). Outer `none`:
error; inner `none`: not an Ethereum transaction (`MsgCreate2`). Message types other than the three fall
through with the zero values. -/
def msgFields {K : Type} (e : Env K) : Msg → Option (Option (Option Addr × Bytes × Int × EthAccess))
  | .call _ c input value al =>
    match contractAddressFromString e c, decode0x input with
    | some a, some d => some (some (some a, d, toEthersI e.decimals value, toEthAccess al))
    | _, _ => none
  | .create _ code value al =>
    match decode0x code with
    | some d => some (some (none, d, toEthersI e.decimals value, toEthAccess al))
    | none => none
  | .create2 .. => some none
  | .other _ => some (some (none, [], 0, []))

/-- The transaction assembled at x/evm/keeper/txutils.go:319-368. -/
def assemble (c type seq gas : Nat) (cap tip : Int) (to : Option Addr) (input : Bytes) (value : Int)
    (al : EthAccess) (v r s : Nat) : Option EthTx :=
  match type with
  | 0 => some (.legacy seq gas cap to value input (v + (35 + c * 2)) r s)
  | 1 => some (.accessList c seq gas cap to value input al v r s)
  | 2 => some (.dynamic c seq gas tip cap to value input al v r s)
  | _ => none

/-- x/evm/keeper/txutils.go:255-262: v, r, s of the 65- or 64-byte signature. -/
def splitSig (sig : Bytes) : Option (Nat × Nat × Nat) :=
  if sig.length = 65 then
    some (fromBE (sig.drop 64), fromBE (sig.take 32), fromBE ((sig.drop 32).take 32))
  else if sig.length = 64 then
    some (0, fromBE (sig.take 32), fromBE ((sig.drop 32).take 32))
  else none

/-- x/evm/keeper/txutils.go:228-230 and 406-408: only the first fee coin's denom is looked at. -/
def wrongFeeDenom {K : Type} (e : Env K) (fee : List (Str × Nat)) : Bool :=
  match fee with
  | [] => false
  | f :: _ => decide (f.1 ≠ e.feeDenom)

/-- x/evm/keeper/txutils.go:192-371. Outer `none`: error; `some none`: "not an EVM transaction". -/
def cosmosToEth {K : Type} (e : Env K) (tx : CosmosTx K) : Option (Option (EthTx × Addr)) :=
  match tx.msgs with
  | [msg] =>
    if tx.memo = [] then some none else
    match e.memoDec tx.memo with
    | none => some none
    | some md =>
    match tx.sigs with
    | [sig] =>
      if wrongFeeDenom e tx.fee then some none else
      if (e.keyAddr sig.pubKey).length ≠ 20 then some none else
      match sig.data with
      | .multi => some none
      | .single mode bz =>
        if mode ≠ ethMode then some none else
        match splitSig bz with
        | none => some none
        | some (v, r, s) =>
        match parseInt md.gasFeeCap, parseInt md.gasTipCap with
        | some cap, some tip =>
          match msgFields e msg with
          | none => none
          | some none => some none
          | some (some (to, input, value, al)) =>
            match assemble e.chainId md.type sig.sequence tx.gas cap tip to input value al v r s with
            | none => none
            | some t => some (some (t, bytesToAddress (e.keyAddr sig.pubKey)))
        | _, _ => some none
    | _ => some none
  | _ => some none

/-- x/evm/keeper/txutils.go:374-433 -/
def isEthereumTx {K : Type} (e : Env K) (tx : CosmosTx K) : Bool :=
  match tx.msgs, tx.sigs with
  | [msg], [sig] =>
    tx.memo ≠ [] && (e.memoDec tx.memo).isSome
      && !(wrongFeeDenom e tx.fee)
      && (match msg with | .call .. => true | .create .. => true | _ => false)
      && (e.keyAddr sig.pubKey).length == 20
      && (match sig.data with | .single m _ => m == ethMode | .multi => false)
  | _, _ => false

/-- app/ante/verify.go:56-80: Ethereum-mode signature check of a Cosmos transaction. -/
def verifyEth {K : Type} (e : Env K) (tx : CosmosTx K) : Bool :=
  match cosmosToEth e tx with
  | some (some (ethTx, expected)) =>
    match senderKey e ethTx with
    | some k => bytesToAddress (e.keyAddr k) == expected
    | none => false
  | _ => false

end Verif.TxUtils
