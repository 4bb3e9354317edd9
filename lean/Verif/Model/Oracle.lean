import Verif.Model.Query
/-
Model of `query_cosmos` (x/evm/precompiles/cosmos/contract.go:251-289) on one node, with any number of executions that
use it at the same time: block execution, `eth_call`s, gas estimates, CheckTx of all the connections.

The message objects in the whitelist (x/evm/types/query_cosmos.go:18-33) are created once per keeper and shared by all
of them; one request object and one response object per path.

Outside /repo, by contract: the query router and the oracle module behind it (`route`, a function of the state the
execution runs on), `cdc.Unmarshal` (gogoproto: resets the object, then fills it), `cdc.MarshalJSON`, ABI packing.
A step is one statement of `ConvertJSONToProto`/`ConvertProtoToJSON`; that decoding itself is not atomic either is left
out.
-/
namespace Verif.Oracle
open Verif Verif.Text Verif.Query

/-- What is outside /repo. `Resp`: a response message; `S`: the state an execution runs on. -/
structure World (S Resp : Type) where
  /-- `GRPCQueryRouter.Route`: there is a handler for the path. -/
  routed : Str → Bool
  /-- The handler of a path: the encoded response, or an error. -/
  route : Str → S → Fields → Option Bytes
  /-- Field names a request of this path can have. -/
  known : Str → List Nat → Bool
  /-- gogoproto `Unmarshal` of a response: what ends up in the object, and whether it went well. -/
  decode : Str → Bytes → Resp × Bool
  /-- The empty response. -/
  noResp : Resp
  /-- `MarshalJSON` of a response. -/
  json : Resp → Option Str

/-- x/evm/types/query_cosmos.go:18-33 (`DefaultQueryCosmosWhitelist`) -/
def whitelist : List Str :=
  ["/connect.oracle.v2.Query/GetPrices".toList, "/connect.oracle.v2.Query/GetPrice".toList,
   "/connect.oracle.v2.Query/GetAllCurrencyPairs".toList]

/-- The two objects of a path. -/
structure Cell (Resp : Type) where
  req : Fields
  resp : Resp

/-- Where an execution is in `query_cosmos`. -/
inductive At (Resp : Type)
  | start
  | decoded
  | encoded (data : Fields)
  | asked (data : Fields)
  | answered (value : Bytes)
  | filled
  | written (out : Str)
  | failed
  | done (out : Str)

/-- One execution of `query_cosmos`: the arguments, the state it runs on, where it is. -/
structure Thread (S Resp : Type) where
  path : Str
  txt : List (List Nat × List Nat)
  state : S
  at_ : At Resp

variable {S Resp : Type}

/-- x/evm/precompiles/cosmos/contract.go:259-284 with query_cosmos.go:35-66: one step of an execution on the objects of
its path. -/
def Thread.step (w : World S Resp) (t : Thread S Resp) (c : Cell Resp) : Thread S Resp × Cell Resp :=
  match t.at_ with
  | .start =>
    -- contract.go:259-267
    if w.routed t.path = false then ({ t with at_ := .failed }, c)
    else if t.path ∉ whitelist then ({ t with at_ := .failed }, c)
    else
      -- query_cosmos.go:54
      let r := unmarshalInto (w.known t.path) c.req t.txt
      ({ t with at_ := if r.2 then .decoded else .failed }, { c with req := r.1 })
  | .decoded => ({ t with at_ := .encoded c.req }, c)                          -- 59
  | .encoded d => ({ t with at_ := .asked d }, { c with req := noFields })     -- 64
  | .asked d =>                                                               -- contract.go:274-280
    ({ t with at_ := match w.route t.path t.state d with
        | some v => .answered v
        | none => .failed }, c)
  | .answered v =>                                                            -- query_cosmos.go:38
    let r := w.decode t.path v
    ({ t with at_ := if r.2 then .filled else .failed }, { c with resp := r.1 })
  | .filled =>                                                                -- 43
    ({ t with at_ := match w.json c.resp with
        | some s => .written s
        | none => .failed }, c)
  | .written s => ({ t with at_ := .done s }, { c with resp := w.noResp })     -- 48
  | .failed => (t, c)
  | .done _ => (t, c)

/-- A node: the objects of every path, and the executions (numbered). -/
structure Node (S Resp : Type) where
  cells : Str → Cell Resp
  threads : Nat → Thread S Resp

/-- Execution `i` makes a step. -/
def Node.step (w : World S Resp) (n : Node S Resp) (i : Nat) : Node S Resp :=
  let t := n.threads i
  let r := t.step w (n.cells t.path)
  { cells := fun p => if p = t.path then r.2 else n.cells p
    threads := fun j => if j = i then r.1 else n.threads j }

/-- A schedule. -/
def Node.run (w : World S Resp) (n : Node S Resp) (sched : List Nat) : Node S Resp := sched.foldl (Node.step w) n

end Verif.Oracle
