import Verif.Model.TxUtils
/-
Model of the IBC hooks (app/ibc-hooks): which contract calls a received, acknowledged or timed out packet triggers,
with which sender and in which store context, and the local denom / class id computed for a received token.

Outside the model, as parameters of `Env`: the JSON codecs, SHA-256, the ABI encoder, the wrapped IBC application
(`im.App`), the message server's `Call`, the ACL store and the denom/class id collections. `Call` returns a state
even on error, because it writes before it can fail (sequence number, shorthand account). Running out of gas panics
in the code and aborts the whole message; that is in Model/HookGas.lean. Events and logs are not modelled.
-/
namespace Verif.Hooks
open Verif Verif.Text

/-- `evmtypes.MsgCall`, the fields used here (proto/minievm/evm/v1/tx.proto; the access list is left out). -/
structure MsgCall where
  sender : Str
  contractAddr : Str
  input : Str
  value : Int

/-- app/ibc-hooks/message.go:28-34 (`AsyncCallback`) -/
structure AsyncCallback where
  id : Nat
  contractAddress : Str

/-- app/ibc-hooks/message.go:36-45 (`HookData`) -/
structure HookData where
  message : Option MsgCall
  asyncCallback : Option AsyncCallback

/-- `transfertypes.FungibleTokenPacketData` -/
structure Ics20 where
  denom : Str
  amount : Str
  sender : Str
  receiver : Str
  memo : Str

/-- `nfttransfertypes.NonFungibleTokenPacketData` (class data and token data left out) -/
structure Ics721 where
  classId : Str
  tokenIds : List Str
  sender : Str
  receiver : Str
  memo : Str

/-- `channeltypes.Packet` (sequence and timeouts left out) -/
structure Packet where
  srcPort : Str
  srcChan : Str
  dstPort : Str
  dstChan : Str
  data : Bytes

/-- `ibcexported.Acknowledgement`: whether it reports success, and its content. -/
structure Ack where
  success : Bool
  body : Str

/-- The calls the hooks encode themselves (`abi.Pack`). -/
inductive AbiCall where
  | approve20 (spender : Addr) (amount : Int)
  | approve721 (spender : Addr) (tokenId : Int)
  | ibcAck (id : Nat) (success : Bool)
  | ibcTimeout (id : Nat)

/-- Surroundings. `σ`: chain state; `J`: JSON values; `K`: public keys. -/
structure Env (σ J K : Type) where
  tx : TxUtils.Env K
  /-- `json.Unmarshal(memo, &map)`: the value under a key; outer `none`: not a JSON object -/
  jsonField : Str → Str → Option (Option J)
  /-- `json.Unmarshal(bz, &hookData)`: what was decoded, and whether without error -/
  decodeHook : J → HookData × Bool
  /-- strict JSON decoding of ICS20 data (util.go:35-43) and `GetBytes` -/
  decode20 : Bytes → Option Ics20
  encode20 : Ics20 → Bytes
  /-- `nfttransfertypes.DecodePacketData(data, port)` and `GetBytes(port)` -/
  decode721 : Bytes → Str → Option Ics721
  encode721 : Ics721 → Str → Bytes
  /-- SHA-256 -/
  sha : Bytes → Bytes
  /-- UTF-8 -/
  utf8 : Str → Bytes
  pack : AbiCall → Bytes
  /-- JSON decoding of an acknowledgement: `none` when it does not decode, else whether it reports success -/
  ackDecode : Bytes → Option Bool
  /-- `im.App.OnRecvPacket` -/
  appRecv : Packet → σ → Ack × σ
  /-- `im.App.OnAcknowledgementPacket`; `true`: no error -/
  appAck : Packet → Bytes → σ → Bool × σ
  /-- `im.App.OnTimeoutPacket` -/
  appTimeout : Packet → σ → Bool × σ
  /-- `MsgServer.Call`; `true`: no error -/
  call : MsgCall → σ → Bool × σ
  /-- `HooksKeeper.GetAllowed`; `none`: error -/
  allowed : σ → Addr → Option Bool
  /-- `GetContractAddrByDenom`, `GetContractAddrByClassId`: direct collection lookups (x/evm/keeper/keeper.go:225-232, 240-247) -/
  denomContract : σ → Str → Option Addr
  classContract : σ → Str → Option Addr

/-- An operation the hook performed on the surroundings. -/
inductive Op where
  | app (p : Packet)
  | call (m : MsgCall)

/-- The state together with the operations performed so far, oldest first. -/
structure Run (σ : Type) where
  st : σ
  ops : List Op

variable {σ J K : Type}

/-- Run the application's receive callback. -/
def Run.app (e : Env σ J K) (r : Run σ) (p : Packet) : Ack × Run σ :=
  ((e.appRecv p r.st).1, ⟨(e.appRecv p r.st).2, r.ops ++ [.app p]⟩)

/-- Run the message server's `Call` (app/ibc-hooks/receive.go:166-169, `execMsg`). -/
def Run.call (e : Env σ J K) (r : Run σ) (m : MsgCall) : Bool × Run σ :=
  ((e.call m r.st).1, ⟨(e.call m r.st).2, r.ops ++ [.call m]⟩)

/-- app/ibc-hooks/message.go:22 -/
def memoKey : Str := ['e', 'v', 'm']

/-- app/ibc-hooks/util.go:53-79 and 91-115 (`validateAndParseMemo`, `jsonStringHasKey`): is it EVM routed, the hook
data, no error. `json.Marshal` of a decoded value does not fail. -/
def parseMemo (e : Env σ J K) (memo : Str) : Bool × HookData × Bool :=
  if memo = [] then (false, ⟨none, none⟩, true)
  else match e.jsonField memo memoKey with
    | some (some j) => (true, e.decodeHook j)
    | _ => (false, ⟨none, none⟩, true)

/-- app/ibc-hooks/util.go:117-123 (`newEmitErrorAcknowledgement`), without the text. -/
def errorAck : Ack := ⟨false, "ibc evm hook error".toList⟩

/-- app/ibc-hooks/hooks.go:80-87 (`checkACL`) -/
def checkACL (e : Env σ J K) (s : σ) (addr : Str) : Option Bool :=
  match TxUtils.contractAddressFromString e.tx addr with
  | none => none
  | some a => e.allowed s a

/-- app/ibc-hooks/util.go:21 -/
def senderPrefix : Str := "ibc-evm-hook-intermediary".toList

/-- app/ibc-hooks/util.go:29-33 (`DeriveIntermediateSender`) with cosmos-sdk `address.Hash(typ, key)` =
sha256(sha256(typ) ‖ key). -/
def intermediate (e : Env σ J K) (channel sender : Str) : Str :=
  e.tx.bech (e.sha (e.sha (e.utf8 senderPrefix) ++ e.utf8 (channel ++ '/' :: sender)))

/-! ### IBC denom traces (ibc-go v8 modules/apps/transfer/types/{coin,trace}.go, reproduced: not in /repo) -/

/-- `strings.Split(s, "/")` -/
def split : Str → List Str
  | [] => [[]]
  | c :: s => if c = '/' then [] :: split s
    else match split s with
      | [] => [[c]]
      | w :: ws => (c :: w) :: ws

/-- `strings.Join(l, "/")` -/
def join : List Str → Str
  | [] => []
  | [w] => w
  | w :: ws => w ++ '/' :: join ws

/-- `channeltypes.IsValidChannelID`: "channel-" and 1 to 20 digits denoting a uint64 -/
def isChannelId (s : Str) : Bool :=
  let d := s.drop 8
  "channel-".toList.isPrefixOf s && decide (1 ≤ d.length ∧ d.length ≤ 20) &&
    (match parseNat d with | some n => decide (n < 18446744073709551616) | none => false)

/-- loop of `extractPathAndBaseFromFullDenom`: the pairs (port, channel) in front, and the rest -/
def extract : List Str → List Str × List Str
  | p :: c :: rest => if isChannelId c then (p :: c :: (extract rest).1, (extract rest).2) else ([], p :: c :: rest)
  | l => ([], l)

/-- `DenomTrace` -/
structure Trace where
  path : Str
  base : Str

/-- `ParseDenomTrace` (the test `length > 2` concerns the whole list, so it is made once) -/
def parseTrace (raw : Str) : Trace :=
  let items := split raw
  if items.length ≤ 2 then ⟨[], raw⟩
  else ⟨join (extract items).1, join (extract items).2⟩

/-- `GetFullDenomPath` -/
def Trace.full (t : Trace) : Str := if t.path = [] then t.base else t.path ++ '/' :: t.base

/-- upper-case hexadecimal (`HexBytes.String`) -/
def hexUpper (b : Bytes) : Str := (hexEnc b).map upHex

/-- `IBCDenom` -/
def Trace.ibc (e : Env σ J K) (t : Trace) : Str :=
  if t.path = [] then t.base else "ibc/".toList ++ hexUpper (e.sha (e.utf8 t.full))

/-- `GetDenomPrefix` -/
def denomPrefix (port chan : Str) : Str := port ++ '/' :: (chan ++ ['/'])

/-- app/ibc-hooks/util.go:135-163 (`LocalDenom`) -/
def localDenom (e : Env σ J K) (p : Packet) (denom : Str) : Str :=
  let pre := denomPrefix p.srcPort p.srcChan
  if pre.isPrefixOf denom then
    let unprefixed := denom.drop pre.length
    let t := parseTrace unprefixed
    if t.path = [] then unprefixed else t.ibc e
  else (parseTrace (denomPrefix p.dstPort p.dstChan ++ denom)).ibc e

/-- app/ibc-hooks/util.go:165-194 (`LocalClassId`); initia's nft-transfer trace functions mirror ibc-go's. -/
def localClassId (e : Env σ J K) (p : Packet) (classId : Str) : Str :=
  let pre := denomPrefix p.srcPort p.srcChan
  if pre.isPrefixOf classId then
    let unprefixed := classId.drop pre.length
    let t := parseTrace unprefixed
    if t.path = [] then unprefixed else t.ibc e
  else (parseTrace (denomPrefix p.dstPort p.dstChan ++ classId)).ibc e

/-! ### Receive -/

/-- app/ibc-hooks/receive.go:79-103 (`approveERC20`) -/
def approveERC20 (e : Env σ J K) (r : Run σ) (sender : Str) (spender : Addr) (denom amount : Str) : Bool × Run σ :=
  match parseInt amount with
  | none => (false, r)
  | some amt => match e.denomContract r.st denom with
    | none => (false, r)
    | some erc20 => r.call e ⟨sender, addrHex e.tx.mask erc20, encode0x (e.pack (.approve20 spender amt)), 0⟩

/-- x/evm/types/collection.go:24-31 (`TokenIdToBigInt`) -/
def tokenIdToInt (e : Env σ J K) (classId tokenId : Str) : Option Int :=
  if "ibc/".toList.isPrefixOf classId then some (fromBE (e.sha (e.utf8 tokenId)))
  else parseInt tokenId

/-- app/ibc-hooks/receive.go:171-196 (`approveERC721`) -/
def approveERC721 (e : Env σ J K) (r : Run σ) (sender : Str) (spender : Addr) (classId tokenId : Str) : Bool × Run σ :=
  match tokenIdToInt e classId tokenId with
  | none => (false, r)
  | some tid => match e.classContract r.st classId with
    | none => (false, r)
    | some erc721 => r.call e ⟨sender, addrHex e.tx.mask erc721, encode0x (e.pack (.approve721 spender tid)), 0⟩

/-- The loop at app/ibc-hooks/receive.go:152-158. -/
def approveAll (e : Env σ J K) (sender : Str) (spender : Addr) (classId : Str) : List Str → Run σ → Bool × Run σ
  | [], r => (true, r)
  | t :: ts, r =>
    let x := approveERC721 e r sender spender classId t
    if x.1 then approveAll e sender spender classId ts x.2 else x

/-- app/ibc-hooks/receive.go:22-77 (`onRecvIcs20Packet`) -/
def recv20 (e : Env σ J K) (r : Run σ) (p : Packet) (d : Ics20) : Ack × Run σ :=
  match parseMemo e d.memo with
  | (false, _, _) => r.app e p
  | (true, ⟨none, _⟩, _) => r.app e p
  | (true, ⟨some _, _⟩, false) => (errorAck, r)
  | (true, ⟨some msg, _⟩, true) =>
    if checkACL e r.st msg.contractAddr ≠ some true then (errorAck, r)
    else if d.receiver ≠ msg.contractAddr then (errorAck, r)
    else
      let inter := intermediate e p.dstChan d.sender
      let p' : Packet := { p with data := e.encode20 { d with receiver := inter } }
      let x := r.app e p'
      if !x.1.success then x
      else
        let y := approveERC20 e x.2 inter (hexToAddress msg.contractAddr) (localDenom e p' d.denom) d.amount
        if !y.1 then (errorAck, y.2)
        else
          let z := y.2.call e { msg with sender := inter }
          if !z.1 then (errorAck, z.2) else (x.1, z.2)

/-- app/ibc-hooks/receive.go:106-164 (`onRecvIcs721Packet`) -/
def recv721 (e : Env σ J K) (r : Run σ) (p : Packet) (d : Ics721) : Ack × Run σ :=
  match parseMemo e d.memo with
  | (false, _, _) => r.app e p
  | (true, ⟨none, _⟩, _) => r.app e p
  | (true, ⟨some _, _⟩, false) => (errorAck, r)
  | (true, ⟨some msg, _⟩, true) =>
    if checkACL e r.st msg.contractAddr ≠ some true then (errorAck, r)
    else if d.receiver ≠ msg.contractAddr then (errorAck, r)
    else
      let inter := intermediate e p.dstChan d.sender
      let p' : Packet := { p with data := e.encode721 { d with receiver := inter } p.srcPort }
      let x := r.app e p'
      if !x.1.success then x
      else
        let y := approveAll e inter (hexToAddress msg.contractAddr) (localClassId e p' d.classId) d.tokenIds x.2
        if !y.1 then (errorAck, y.2)
        else
          let z := y.2.call e { msg with sender := inter }
          if !z.1 then (errorAck, z.2) else (x.1, z.2)

/-- app/ibc-hooks/hooks.go:44-54 (`OnRecvPacketOverride`) -/
def onRecv (e : Env σ J K) (r : Run σ) (p : Packet) : Ack × Run σ :=
  match e.decode20 p.data with
  | some d => recv20 e r p d
  | none => match e.decode721 p.data p.srcPort with
    | some d => recv721 e r p d
    | none => r.app e p

/-- ibc-go v8 modules/core/keeper/msg_server.go (`RecvPacket`): the callback runs in a cache context which is written
only when the acknowledgement reports success. -/
def coreRecv (e : Env σ J K) (s : σ) (p : Packet) : Ack × σ :=
  let x := onRecv e ⟨s, []⟩ p
  (x.1, if x.1.success then x.2.st else s)

/-! ### Acknowledgement and timeout -/

/-- app/ibc-hooks/util.go:128-135 (`isAckError`) -/
def isAckError (e : Env σ J K) (ack : Bytes) : Bool :=
  match e.ackDecode ack with
  | some ok => !ok
  | none => false

/-- app/ibc-hooks/ack.go:26-91 = 106-170 and timeout.go:26-91 = 104-168, the part after the application's own callback:
`input` is the packed call. The result is always nil; the state is the cache context's if it was written. -/
def callback (e : Env σ J K) (r : Run σ) (memo sender : Str) (call : Nat → AbiCall) : Run σ :=
  match parseMemo e memo with
  | (false, _, _) => r
  | (true, ⟨_, none⟩, _) => r
  | (true, ⟨_, some _⟩, false) => r
  | (true, ⟨_, some cb⟩, true) =>
    if checkACL e r.st cb.contractAddress ≠ some true then r
    else
      let m : MsgCall := ⟨sender, cb.contractAddress, encode0x (e.pack (call cb.id)), 0⟩
      let z := r.call e m
      if z.1 then z.2 else ⟨r.st, z.2.ops⟩

/-- sender and memo of a packet, as the override functions find them (hooks.go:56-78); `none`: neither kind -/
def hookFields (e : Env σ J K) (p : Packet) : Option (Str × Str) :=
  match e.decode20 p.data with
  | some d => some (d.sender, d.memo)
  | none => match e.decode721 p.data p.dstPort with
    | some d => some (d.sender, d.memo)
    | none => none

/-- app/ibc-hooks/hooks.go:56-66 (`OnAcknowledgementPacketOverride`) with ack.go:15-171; `true`: nil error -/
def onAck (e : Env σ J K) (s : σ) (p : Packet) (ack : Bytes) : Bool × Run σ :=
  let x := e.appAck p ack s
  match hookFields e p with
  | none => (x.1, ⟨x.2, []⟩)
  | some (sender, memo) =>
    if !x.1 then (false, ⟨x.2, []⟩)
    else (true, callback e ⟨x.2, []⟩ memo sender (fun id => .ibcAck id (!isAckError e ack)))

/-- app/ibc-hooks/hooks.go:68-78 (`OnTimeoutPacketOverride`) with timeout.go:16-170 -/
def onTimeout (e : Env σ J K) (s : σ) (p : Packet) : Bool × Run σ :=
  let x := e.appTimeout p s
  match hookFields e p with
  | none => (x.1, ⟨x.2, []⟩)
  | some (sender, memo) =>
    if !x.1 then (false, ⟨x.2, []⟩)
    else (true, callback e ⟨x.2, []⟩ memo sender (fun id => .ibcTimeout id))

end Verif.Hooks
