import Verif.Model.TxUtils
import Verif.Model.Identity
import Verif.Model.Params
import Verif.Model.Indexer
/-
The three EVM messages from the message to its execution and its response (x/evm/keeper/msg_server.go), logs as the chain stores them
(x/evm/types/log.go), and what the indexer reads back from the response (indexer/utils.go).
-/
namespace Verif.Messages
open Verif Verif.Text Verif.TxUtils Verif.Identity

/-! ### Logs -/

/-- `types.Log` (proto/minievm/evm/v1/types.proto): strings -/
structure TextLog where
  address : Str
  topics : List Str
  data : Str
deriving DecidableEq

/-- x/evm/types/log.go:20-31 (`NewLog`) -/
def newLog (mask : Str → List Bool) (l : Indexer.RawLog) : TextLog :=
  { address := addrHex mask l.addr, topics := l.topics.map hashHex, data := encode0x l.data }

/-- x/evm/types/log.go:11-18 (`NewLogs`) -/
def newLogs (mask : Str → List Bool) (l : List Indexer.RawLog) : List TextLog := l.map (newLog mask)

/-- x/evm/types/log.go:42-53 (`ToEthLog`); `none`: `MustDecode` panics -/
def toEthLog (t : TextLog) : Option Indexer.RawLog :=
  (decode0x t.data).map fun d => { addr := hexToAddress t.address, topics := t.topics.map hexToHash, data := d }

/-- x/evm/types/log.go:33-40 (`ToEthLogs`) -/
def toEthLogs : List TextLog → Option (List Indexer.RawLog)
  | [] => some []
  | t :: ts => (toEthLog t).bind fun l => (toEthLogs ts).map (l :: ·)

/-! ### Messages -/

/-- What is executed: `EVMCreate`, `EVMCreate2`, `EVMCall` with their arguments (x/evm/keeper/context.go:229, 314, 322) -/
inductive Act where
  | create (caller : Addr) (code : Bytes) (value : Nat) (access : EthAccess)
  | create2 (caller : Addr) (code : Bytes) (value : Nat) (salt : Nat) (access : EthAccess)
  | call (caller contract : Addr) (input : Bytes) (value : Nat) (access : EthAccess)
deriving DecidableEq

/-- `uint256.FromBig` (holiman/uint256, by contract): more than 256 bits is an overflow; a negative number is taken modulo 2^256. -/
def fromBig (v : Int) : Option Nat :=
  if v.natAbs < 2 ^ 256 then some (v % 2 ^ 256).toNat else none

/-- x/evm/keeper/msg_server.go:28-70 (`Create`), 84-126 (`Create2`), 154-186 (`Call`), up to the execution. The sequence number (`Call`
raises it first, 162-164) is in Model/SigAnte. `m`: the accounts, where a shorthand account may be created for the sender. The order of
the checks matters only for which error is returned. `none`: the message fails. -/
def prepare {K : Type} (e : Env K) (p : Params.Params) (m : Accts) : Msg → Option (Act × Accts)
  | .create sender code value al =>
    (e.unbech sender).bind fun s => (convert m s true).bind fun c =>
      if code.length = 0 then none else
      (decode0x code).bind fun b => (fromBig value).bind fun v =>
        if Params.publisherAllowed p sender then some (.create c.1 b v (toEthAccess al), c.2) else none
  | .create2 sender code salt value al =>
    (e.unbech sender).bind fun s => (convert m s true).bind fun c =>
      if code.length = 0 then none else
      (decode0x code).bind fun b => (fromBig value).bind fun v =>
        if Params.publisherAllowed p sender then some (.create2 c.1 b v salt (toEthAccess al), c.2) else none
  | .call sender contract input value _ =>
    (e.unbech sender).bind fun s => (contractAddressFromString e contract).bind fun a =>
      (convert m s true).bind fun c =>
      (decode0x input).bind fun b => (fromBig value).bind fun v => some (.call c.1 a b v [], c.2)
  | .other _ => none

/-- What an execution gives: return data, the new contract (for creations), logs. -/
structure Outcome where
  ret : Bytes
  contract : Addr
  logs : List Indexer.RawLog

/-- `MsgCreateResponse`, `MsgCreate2Response`, `MsgCallResponse` in an `Any`, or another response with its type URL -/
inductive Resp where
  | create (result contract : Str) (logs : List TextLog)
  | create2 (result contract : Str) (logs : List TextLog)
  | call (result : Str) (logs : List TextLog)
  | other (type : Str)
deriving DecidableEq

/-- x/evm/keeper/msg_server.go:76-80, 132-136, 193: the response -/
def respond (mask : Str → List Bool) : Act → Outcome → Resp
  | .create .., o => .create (encode0x o.ret) (addrHex mask o.contract) (newLogs mask o.logs)
  | .create2 .., o => .create2 (encode0x o.ret) (addrHex mask o.contract) (newLogs mask o.logs)
  | .call .., o => .call (encode0x o.ret) (newLogs mask o.logs)

/-- The three handlers (x/evm/keeper/msg_server.go:28-194): `exec` runs the execution in the state `S`; `none`: the message fails. -/
def handle {K S : Type} (e : Env K) (p : Params.Params) (exec : Act → S → Option (Outcome × S)) (m : Accts) (s : S) (msg : Msg) :
    Option (Resp × Accts × S) :=
  (prepare e p m msg).bind fun a => (exec a.1 s).map fun o => (respond e.mask a.1 o.1, a.2, o.2)

/-- indexer/utils.go:18-69 (`extractLogsAndContractAddr` for a successful transaction, `unpackData`). `parse` is the protobuf decoding
of `TxMsgData`. `none`: an error, or a panic of `MustDecode`. -/
def unpack (parse : Bytes → Option (List Resp)) (data : Bytes) (create : Bool) : Option (List Indexer.RawLog × Option Addr) :=
  match parse data with
  | none => none
  | some [] => none
  | some (r :: _) =>
    if create then
      match r with
      | .create _ c logs => (toEthLogs logs).map fun l => (l, some (hexToAddress c))
      | _ => none
    else
      match r with
      | .call _ logs => (toEthLogs logs).map fun l => (l, none)
      | _ => none

end Verif.Messages
