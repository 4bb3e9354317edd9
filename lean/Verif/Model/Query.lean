import Verif.Model.CacheStack
import Verif.Model.TxUtils
import Verif.Model.Frames
/-
Model of the read paths: the gRPC query `Call` (x/evm/keeper/query_server.go), `eth_call`
(jsonrpc/backend/eth.go), the static calls the keepers make (x/evm/keeper/context.go:202-233) and the oracle
queries contracts make through the cosmos precompile (x/evm/types/query_cosmos.go).

What a contract may do is left completely open: an execution is any program over contexts that it obtains from
the one context it was given.  Outside /repo, by contract: `CacheContext` and the write function it returns
(cosmos-sdk), the address codec, go-ethereum's read-only mode, gogo `jsonpb`.
-/
namespace Verif.Query
open Verif Verif.Text Verif.CacheStack Verif.TxUtils

variable {K V A : Type}

/-- Committed stores of the height asked about, and the pending writes of every cache context created on top. -/
structure Stores (K V : Type) where
  base : View K V
  heap : Nat → Delta K V
  next : Nat

/-- Read everything visible through a context (list of cache layers, innermost first). -/
def Stores.read (s : Stores K V) (c : List Nat) : View K V := readAt s.base s.heap c

/-- Write through a context. -/
def Stores.write (s : Stores K V) (c : List Nat) (d : Delta K V) : Stores K V :=
  match c with
  | [] => { s with base := overlay d s.base }
  | l :: _ => { s with heap := fun j => if j = l then d.over (s.heap l) else s.heap j }

/-- cosmos-sdk `CacheContext`: a new context with an empty cache on top of `c`. -/
def Stores.cache (s : Stores K V) (c : List Nat) : Stores K V × List Nat :=
  ({ s with heap := fun j => if j = s.next then Delta.empty else s.heap j, next := s.next + 1 }, s.next :: c)

/-- The write function returned by `CacheContext`: copy the pending writes into the parent context and empty the
cache. -/
def Stores.flush (s : Stores K V) (c : List Nat) : Stores K V :=
  match c with
  | [] => s
  | l :: [] =>
    { s with
      base := overlay (s.heap l) s.base
      heap := fun j => if j = l then Delta.empty else s.heap j }
  | l :: p :: _ =>
    { s with
      heap := fun j =>
        if j = l then Delta.empty
        else if j = p then (s.heap l).over (s.heap p)
        else s.heap j }

/-- Any execution that is handed one context: the EVM with its snapshots, precompiles, hooks, dispatched
messages.  Contexts are numbered in the order the program got hold of them, number 0 being the one it was
given; `flush h` calls the write function of a context the program made itself (it has none for number 0:
query_server.go:78 throws it away, msg handlers never see it). -/
inductive Prog (K V A : Type)
  | ret (a : A)
  | panic
  | read (h : Nat) (k : View K V → Prog K V A)
  | write (h : Nat) (d : Delta K V) (k : Prog K V A)
  | cache (h : Nat) (k : Prog K V A)
  | flush (h : Nat) (k : Prog K V A)

/-- Run a program. `none`: it panicked (a context it does not have counts as a panic). -/
def Prog.run : Prog K V A → List (List Nat) → Stores K V → Stores K V × Option A
  | .ret a, _, s => (s, some a)
  | .panic, _, s => (s, none)
  | .read h k, cs, s => match cs[h]? with
    | none => (s, none)
    | some c => (k (s.read c)).run cs s
  | .write h d k, cs, s => match cs[h]? with
    | none => (s, none)
    | some c => k.run cs (s.write c d)
  | .cache h k, cs, s => match cs[h]? with
    | none => (s, none)
    | some c => k.run (cs ++ [(s.cache c).2]) (s.cache c).1
  | .flush h k, cs, s => match cs[h]? with
    | none => (s, none)
    | some c => if h = 0 then (s, none) else k.run cs (s.flush c)

/-! ### The `Call` query -/

/-- proto/minievm/evm/v1/query.proto `QueryCallRequest` without the tracing options; `value = none` is the nil
`math.Int` of a request built without a value. -/
structure CallReq where
  sender : Str
  contract : Str
  input : Str
  value : Option Int

/-- What is executed: caller, called contract (`none`: creation), input, amount. -/
structure Ask where
  caller : Addr
  to : Option Addr
  input : Bytes
  value : Nat
deriving DecidableEq

/-- Result of an execution: return data, or an error. -/
abbrev Outcome := Except Str Bytes

/-- `QueryCallResponse`: either `Response` or `Error`. -/
structure CallResp where
  response : Str
  error : Option Str
deriving DecidableEq

/-- `uint256.FromBig` (holiman/uint256, by contract): nil stays nil (context.go:249-251 then uses zero), more than 256
bits is an overflow, a negative number is taken modulo 2^256. -/
def u256FromBig : Option Int → Option Nat
  | none => some 0
  | some v => if v.natAbs < 2 ^ 256 then some (v % (2 ^ 256)).toNat else none

/-- x/evm/keeper/query_server.go:38-66: the arguments of the query. `none`: an error is returned. -/
def parseCall {P : Type} (e : Env P) (r : CallReq) : Option Ask :=
  let caller := if r.sender = [] then some Addr.zero else (e.unbech r.sender).map bytesToAddress
  let contract := if r.contract = [] then some Addr.zero else contractAddressFromString e r.contract
  match caller, contract, decode0x r.input, u256FromBig r.value with
  | some c, some a, some i, some v =>
    -- query_server.go:83-90: the zero address means creation
    some { caller := c, to := if a = Addr.zero then none else some a, input := i, value := v }
  | _, _, _, _ => none

/-- x/evm/client/cli/query.go:30-104 (`GetCmdCall`), what `query evm call` sends: its arguments are checked with the codec and the
functions the server uses, and sent as typed, without an amount. `none`: the command is refused. -/
def cliCall {P : Type} (e : Env P) (sender contract input : Str) : Option CallReq :=
  match e.unbech sender, contractAddressFromString e contract, decode0x input with
  | some _, some _, some _ => some { sender := sender, contract := contract, input := input, value := none }
  | _, _, _ => none

/-- x/evm/keeper/query_server.go:29-104 (`Call`) on query context `c`: the execution runs in a cache context whose
write function is thrown away (79). Outer `none`: an error is returned (bad arguments or a recovered panic). -/
def callQuery {P : Type} (e : Env P) (exec : Ask → Prog K V Outcome) (r : CallReq) (c : List Nat)
    (s : Stores K V) : Stores K V × Option CallResp :=
  match parseCall e r with
  | none => (s, none)
  | some a =>
    let s1 := s.cache c
    let res := (exec a).run [s1.2] s1.1
    (res.1, res.2.map fun o => match o with
      | .ok ret => { response := encode0x ret, error := none }
      | .error m => { response := [], error := some m })

/-! ### `eth_call` -/

/-- jsonrpc/types/transaction_args.go:12-24 -/
structure TxArgs where
  from_ : Option Addr
  to : Option Addr
  value : Option Nat
  data : Option Bytes
  input : Option Bytes

/-- transaction_args.go:34-42 -/
def TxArgs.getData (a : TxArgs) : Bytes :=
  match a.input, a.data with
  | some i, _ => i
  | none, some d => d
  | none, none => []

/-- jsonrpc/backend/eth.go:69-90: the query `eth_call` makes. `args.Value` is not put into it. -/
def ethCallReq {P : Type} (e : Env P) (a : TxArgs) : CallReq :=
  { sender := e.bech ((a.from_.getD Addr.zero).bytes)
    contract := match a.to with
      | none => []
      | some t => addrHex e.mask t
    input := encode0x a.getData
    value := none }

/-- jsonrpc/backend/eth.go:41-99 (`Call`) after the block was resolved (Verif.Model.BlockTag), on the query
context of that block: the returned bytes, or an error. An empty error text counts as no error (96). -/
def ethCall {P : Type} (e : Env P) (exec : Ask → Prog K V Outcome) (a : TxArgs) (c : List Nat)
    (s : Stores K V) : Stores K V × Option Bytes :=
  let r := callQuery e exec (ethCallReq e a) c s
  (r.1, r.2.bind fun resp => match resp.error with
    | some m => if m = [] then decode0x resp.response else none
    | none => decode0x resp.response)

/-! ### Gas estimation -/

/-- jsonrpc/backend/gas.go:48-62: the message `eth_estimateGas` simulates. -/
def estimateMsg {P : Type} (e : Env P) (a : TxArgs) : Msg :=
  let sender := e.bech ((a.from_.getD Addr.zero).bytes)
  let value := fromEthersI e.decimals ((a.value.getD 0 : Nat) : Int)
  match a.to with
  | none => .create sender (encode0x a.getData) value []
  | some t => .call sender (addrHex e.mask t) (encode0x a.getData) value []

/-- jsonrpc/backend/gas.go:19-91 (`EstimateGas`) with baseapp `Simulate` (cosmos-sdk, by contract): the ante handlers and
messages run in a cache context on top of the check state `c`, whose write function is not called in simulation
mode. `run` is everything they do, the result is the gas used; `none`: an error. -/
def estimateGas {P : Type} (e : Env P) (run : Msg → Prog K V (Option Nat)) (a : TxArgs) (c : List Nat)
    (s : Stores K V) : Stores K V × Option Nat :=
  let s1 := s.cache c
  let res := (run (estimateMsg e a)).run [s1.2] s1.1
  (res.1, res.2.bind id)

/-! ### Static calls -/


/-- go-ethereum (core/vm/instructions.go, interpreter.go `readOnly`, by contract): the state operations a read-only
execution still performs are the bookkeeping of warm addresses and slots and of refunds; every opcode that writes
(SSTORE, TSTORE, LOG, CREATE, SELFDESTRUCT, CALL with value) is refused. `StaticCall` also adds a balance of
zero. -/
def staticOp : World.StateOp → Bool
  | .addAddress _ | .addSlot _ _ | .addRefund _ | .subRefund _ => true
  | .addBalance _ n => decide (n = 0)
  | _ => false

mutual
/-- A frame only performs operations that read-only mode lets through. -/
def readOnlyF : World.Frame' → Bool
  | .op o => staticOp o
  | .call body _ => readOnlyFs body
def readOnlyFs : List World.Frame' → Bool
  | [] => true
  | f :: fs => readOnlyF f && readOnlyFs fs
end

/-- x/evm/keeper/context.go:202-233 (`EVMStaticCallWithTracer`), the state part: `NewStateDB`, `Prepare` (both on the
context the caller passed), the call with its snapshots, and no `Commit`. The result is what the caller of the keeper
sees in its context afterwards; `none`: panic. Balances are read through further static calls inside `StateDB`,
which are themselves of this form (Verif.Model.World keeps balances in a field of their own). -/
def staticCallWorld (keccak : Bytes → Hash) (e : Nat) (w : World.World) (caller target : Addr) (pre : List Addr)
    (al : List World.AccessTuple) (body : List World.Frame') (ok : Bool) : Option World.World :=
  let w0 := (w.newStateDB e).prepare e true true caller Addr.zero (some target) pre al
  match Act.drive DB.revertToSnapshot (.call (World.Frame'.toActs keccak e body) ok) (DB.new fun _ => some w0) with
  | none => none
  | some db => db.base ()

/-! ### Oracle queries from contracts -/

/-- A decoded request message: the fields that are set. -/
abbrev Fields := List Nat → Option (List Nat)

/-- gogo `jsonpb.Unmarshal` into an existing message (by contract): every known field present in the text is
overwritten, the others keep what they had; afterwards an unknown field makes it an error. `txt` is the list of
(field, value) in the text. -/
def unmarshalInto (known : List Nat → Bool) (m : Fields) (txt : List (List Nat × List Nat)) : Fields × Bool :=
  (txt.foldl (fun m p => if known p.1 then fun f => if f = p.1 then some p.2 else m f else m) m,
   txt.all fun p => known p.1)

/-- The empty message (`Reset`). -/
def noFields : Fields := fun _ => none

/-- x/evm/types/query_cosmos.go:52-66 (`ConvertJSONToProto`): decode into the message object kept in the whitelist
(one per path for the life of the process), encode it, reset it. The error return at 57-60 does not reset it.
Result: the object afterwards and the encoded request. -/
def convertReq (known : List Nat → Bool) (shared : Fields) (txt : List (List Nat × List Nat)) :
    Fields × Option Fields :=
  let r := unmarshalInto known shared txt
  if r.2 then (noFields, some r.1) else (r.1, none)

/-- What happens to the shared object over a history of `query_cosmos` calls on one path in one process (block
execution, `eth_call`s, simulations alike), one after the other; the last component is what the last one asked the
oracle (`none`: error). -/
def convertAll (known : List Nat → Bool) (shared : Fields) : List (List (List Nat × List Nat)) → Fields
  | [] => shared
  | t :: ts => convertAll known (convertReq known shared t).1 ts

/-- One step of a conversion running concurrently with others: 0 decode (query_cosmos.go:54), 1 encode (62),
2 reset (66). -/
structure Conv where
  txt : List (List Nat × List Nat)
  pc : Nat
  out : Option Fields

/-- Thread `c` makes a step on the shared object. -/
def Conv.step (known : List Nat → Bool) (shared : Fields) (c : Conv) : Fields × Conv :=
  match c.pc with
  | 0 => let r := unmarshalInto known shared c.txt
         (r.1, { c with pc := if r.2 then 1 else 3 })
  | 1 => (shared, { c with pc := 2, out := some shared })
  | 2 => (noFields, { c with pc := 3 })
  | _ => (shared, c)

/-- Two threads under a schedule (`false`: the first moves). -/
def runTwo (known : List Nat → Bool) : List Bool → Fields × Conv × Conv → Fields × Conv × Conv
  | [], x => x
  | false :: s, (m, a, b) => let r := Conv.step known m a; runTwo known s (r.1, r.2, b)
  | true :: s, (m, a, b) => let r := Conv.step known m b; runTwo known s (r.1, a, r.2)

end Verif.Query
