import Verif.Model.SendQueue
import Verif.Model.Filters
/-
One node, two JSON-RPC servers: cmd/minitiad/root.go:173-196 calls `StartJSONRPC` once for HTTP and once for WebSocket, and each
call makes its own backend (jsonrpc/jsonrpc.go:66-69, backend.go:35-66: its own queue of waiting transactions and sender locks) and
its own filter API (jsonrpc.go:78-83, filters/api.go:66-88). The two share the chain, hence the account sequences.
-/
namespace Verif.Endpoints
open Verif

/-- The backends of the two servers. -/
structure Two where
  http : SendQueue.State
  ws : SendQueue.State

/-- jsonrpc/backend/backend.go:35-66 (`NewJSONRPCBackend`), once per server. -/
def Two.start (cap : Nat) (seq : Nat → Nat) : Two := ⟨SendQueue.State.init cap seq, SendQueue.State.init cap seq⟩

/-- A step at one server (`false`: HTTP, `true`: WebSocket), or of the chain: the sequences are those of the chain, the same for both. -/
def Two.act (s : Two) (a : Bool × SendQueue.Act) : Option Two :=
  match a.1 with
  | false => (s.http.act a.2).map fun h => ⟨h, { s.ws with seq := h.seq }⟩
  | true => (s.ws.act a.2).map fun w => ⟨{ s.http with seq := w.seq }, w⟩

/-- A run. -/
def Two.run (s : Two) : List (Bool × SendQueue.Act) → Option Two
  | [] => some s
  | a :: l => (s.act a).bind fun s' => s'.run l

/-- A run of the filter API of one server (filters/api.go), from a state. -/
def runFilters (info : Nat → Filters.Sub) (timeout : Nat) (s : Filters.State) : List Filters.Label → Option Filters.State
  | [] => some s
  | l :: ls => (Filters.step info timeout s l).bind fun s' => runFilters info timeout s' ls

end Verif.Endpoints
