import Verif.Model.Text
/-
Model of how the outcome of an EVM execution is reported: the error texts of the keeper, the message server, the
`Call` query and the JSON-RPC server.

Outside /repo, by contract: `evm.Call`/`Create`/`Create2`/`StaticCall` (an outcome with the gas left over),
`abi.UnpackRevert` (a partial function from revert data to a reason), `errorsmod.Wrap` (the text is
"message: parent"), the go-ethereum JSON-RPC server (code -32000 and no data for a plain Go error).
-/
namespace Verif.RevertText
open Verif Verif.Text

/-- What `evm.Call` and the like end with: bytes, a revert with its data, running out of gas, or another error of the
interpreter with its text. -/
inductive Outcome
  | ok (ret : Bytes)
  | reverted (data : Bytes)
  | outOfGas
  | other (text : Str)
deriving DecidableEq, Repr

/-- An execution: its outcome and the gas left over. -/
structure Run where
  out : Outcome
  left : Nat
deriving DecidableEq, Repr

/-- The texts of go-ethereum's errors (core/vm/errors.go). -/
def Outcome.vmText : Outcome → Str
  | .ok _ => []
  | .reverted _ => "execution reverted".toList
  | .outOfGas => "out of gas".toList
  | .other t => t

/-- cosmossdk.io/errors `Wrap`: the text of the wrapped error. -/
def wrap (msg parent : Str) : Str := msg ++ (": ".toList ++ parent)

/-- x/evm/types/errors.go:41-50 (`NewRevertError`); 32 is the text of `ErrReverted`. -/
def newRevertError (unpack : Bytes → Option Str) (data : Bytes) : Str :=
  match unpack data with
  | some reason => wrap ("reason: ".toList ++ (reason ++ (", revert: ".toList ++ encode0x data))) "Reverted".toList
  | none => wrap ("revert: ".toList ++ encode0x data) "Reverted".toList

/-- `EVMCall`, or `EVMCreate`/`EVMCreate2`. -/
inductive Kind
  | call | create
deriving DecidableEq, Repr

/-- x/evm/types/errors.go:13-14: texts of `ErrEVMCallFailed` and `ErrEVMCreateFailed`. -/
def Kind.failed : Kind → Str
  | .call => "EVMCall failed".toList
  | .create => "EVMCreate failed".toList

/-- x/evm/keeper/context.go:236-318 (`EVMCallWithTracer`), 333-421 (`EVMCreateWithTracer`), the value returned.
`after` is what follows a successful execution (commit, events, dispatch of messages; 279-318), whose error is
returned as it is. The gas meter panic is left out (Verif.Model.Exec). -/
def evmRun (unpack : Bytes → Option Str) (k : Kind) (r : Run) (after : Except Str Unit) : Except Str Bytes :=
  match r.out with
  | .ok ret => match after with
    | .ok _ => .ok ret
    | .error t => .error t
  | .reverted data =>
    -- 262-265: no gas left over and not out of gas
    if r.left = 0 then .error (wrap (Outcome.vmText (.reverted data)) k.failed)
    else .error (wrap (newRevertError unpack data) k.failed)
  | .outOfGas => .error (wrap (Outcome.vmText .outOfGas) k.failed)
  | .other t => .error (wrap t k.failed)

/-- x/evm/keeper/context.go:202-230 (`EVMStaticCallWithTracer`): the data of a revert is not kept. -/
def evmStatic (r : Run) : Except Str Bytes :=
  match r.out with
  | .ok ret => .ok ret
  | o => .error (wrap o.vmText Kind.call.failed)

/-- x/evm/keeper/msg_server.go:72-76 (`Create`), 131-135 (`Create2`), 189-193 (`Call`): the error of the execution is
wrapped once more, always as "EVMCall failed". The result is written in hex. -/
def msgServer (unpack : Bytes → Option Str) (k : Kind) (r : Run) (after : Except Str Unit) : Except Str Str :=
  match evmRun unpack k r after with
  | .ok ret => .ok (encode0x ret)
  | .error t => .error (wrap t Kind.call.failed)

/-- `QueryCallResponse`. -/
structure CallResp where
  response : Str
  error : Str
deriving DecidableEq, Repr

/-- x/evm/keeper/query_server.go:82-104 (`Call`), after the arguments were read. -/
def queryCall (unpack : Bytes → Option Str) (k : Kind) (r : Run) (after : Except Str Unit) : CallResp :=
  match evmRun unpack k r after with
  | .ok ret => { response := encode0x ret, error := [] }
  | .error t => { response := [], error := t }

/-- A JSON-RPC error object. -/
structure RpcErr where
  code : Int
  message : Str
  data : Option Bytes
deriving DecidableEq, Repr

/-- go-ethereum rpc/json.go `errorMessage`: what the server sends for an error that is neither an `rpc.Error` nor an
`rpc.DataError`, as `errors.New` and cosmos errors are. -/
def plainError (t : Str) : RpcErr := { code := -32000, message := t, data := none }

/-- jsonrpc/backend/eth.go:84-98 (`Call`). `none`: `MustDecode` panics. -/
def ethCall (unpack : Bytes → Option Str) (k : Kind) (r : Run) (after : Except Str Unit) :
    Option (Except RpcErr Bytes) :=
  let res := queryCall unpack k r after
  if res.error ≠ [] then some (.error (plainError res.error))
  else (decode0x res.response).map .ok

/-- baseapp `runMsgs` (cosmos-sdk, by contract): the text of a failed message number `i`. -/
def runMsgText (i : Nat) (t : Str) : Str :=
  wrap ("failed to execute message; message index: ".toList ++ natStr i) t

/-- jsonrpc/backend/gas.go:48-91 (`EstimateGas`): the single message is simulated, its error is the answer; `gas` is the
gas used otherwise. -/
def estimateGas (unpack : Bytes → Option Str) (k : Kind) (r : Run) (after : Except Str Unit) (gas : Nat) :
    Except RpcErr Nat :=
  match msgServer unpack k r after with
  | .ok _ => .ok gas
  | .error t => .error (plainError (runMsgText 0 t))

end Verif.RevertText
