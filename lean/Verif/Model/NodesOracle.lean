import Verif.Model.Nodes
import Verif.Model.Oracle
/-
A node whose blocks use the oracle: block execution (Model/Nodes.lean) together with the request and response objects of
`query_cosmos` (Model/Oracle.lean), which live as long as the node and are shared with the queries it serves
(x/evm/types/query_cosmos.go:18-33, handed to every execution by x/evm/keeper/precompiles.go:18-69).

The oracle executions of the blocks are numbered first (`< used`); the others are those of queries. What the blocks are
told is what those executions end with. The blocks of a chain are given their answers at once: when an execution runs
is a matter of the schedule, which is arbitrary. The state an execution runs on is that of the `Thread`.
-/
namespace Verif.NodesOracle
open Verif Verif.Text Verif.Query Verif.World Verif.Nodes Verif.Oracle

variable {S Resp : Type}

/-- How `query_cosmos` returns to the contract: an error or an answer; `none`: not yet.
x/evm/precompiles/cosmos/contract.go:274-289 -/
def told : At Resp → Option (Option Str)
  | .done s => some (some s)
  | .failed => some none
  | _ => none

/-- What the oracle executions of the blocks were told on a node that went through `sched`. -/
def answers (w : Oracle.World S Resp) (n : Node S Resp) (sched : List Nat) (i : Nat) : Option (Option Str) :=
  told ((n.run w sched).threads i).at_

/-- Blocks whose transactions depend on what the oracle tells them. -/
abbrev Asking := (Nat → Option (Option Str)) → List Block

/-- A node: what it does besides in every block (`lives`), its oracle objects and the schedule of all executions that use them. -/
structure Machine (S Resp : Type) where
  ctr : Nat
  lives : Nat → Life
  node : Node S Resp
  sched : List Nat

/-- The chain on that node. -/
def Machine.chain (keccak : Bytes → Hash) (w : Oracle.World S Resp) (d : Store) (m : Machine S Resp) (b : Asking) :
    List (Store × Seen) :=
  Nodes.chain keccak d m.ctr ((b (answers w m.node m.sched)).zipIdx.map fun x => (m.lives x.2, x.1))

end Verif.NodesOracle
