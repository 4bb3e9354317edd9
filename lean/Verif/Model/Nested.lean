import Verif.Model.Exec
/-
Model of nested executions: a contract schedules Cosmos messages, which are handled after it
(x/evm/keeper/context.go:241-318, 330-420, 435-463); their handlers call the EVM again, and so on. There is no limit on the
depth in /repo. The recursion of the Go code is made explicit by a fuel argument: `stuck` means that more than that many
executions are nested.

Outside /repo, by contract: the EVM interpreter (a function of the gas it is given), the message handlers (`Handler`: any
finite interaction with the EVM and the gas meter), the gas meters of cosmos-sdk.
-/
namespace Verif.Nested
open Verif Verif.Exec

/-- What `evm.Call` or `evm.Create` leaves: gas left, refund counter, error, and (if committed) the state and the messages
scheduled through `execute_cosmos` (context.go:312, `CONTEXT_KEY_COSMOS_MESSAGES`). -/
structure Outcome (S M : Type) where
  remaining : Nat
  refund : Nat
  err : Option VmErr
  state : S
  msgs : List M

/-- What handling a message does: it ends with a state or an error, consumes gas, or calls the EVM on a state and goes on
with the result. Any handler of the message router, and any sequence of messages of a transaction. -/
inductive Handler (S C : Type)
  | done (r : Option S)
  | use (gas : Nat) (next : Handler S C)
  | call (c : C) (s : S) (next : Option S → Handler S C)

/-- Result of a computation on the gas meter: too many nested executions; the gas meter or the machine panicked (the transaction ends);
an error or a state, with the meter. -/
inductive Res (S : Type)
  | stuck
  | panic
  | ret (m : Meter) (r : Option S)

/-- The chain: the EVM and the message router. `vm c s g` is the execution of call `c` on state `s` with gas `g`. `crash`: it panics
instead, as the state database does (x/evm/state/statedb.go:201-215, refund counter; 577-597, snapshots; 122-156, the fee token refuses); nothing
between the interpreter and the transaction recovers (Model/Refunds.lean, Model/CacheStack.lean, Model/Value.lean say when it
happens). -/
structure Sys (S C M : Type) where
  vm : C → S → Nat → Outcome S M
  handler : M → S → Handler S C
  crash : C → S → Nat → Bool := fun _ _ _ => false

variable {S C M : Type}

/-- A handler on the gas meter; `rec` executes a call of the EVM. -/
def runHandler (rec : C → S → Meter → Res S) : Handler S C → Meter → Res S
  | .done r, m => .ret m r
  | .use g k, m => match m.consume g with
    | none => .panic
    | some m' => runHandler rec k m'
  | .call c s k, m => match rec c s m with
    | .stuck => .stuck
    | .panic => .panic
    | .ret m' r => runHandler rec (k r) m'

/-- x/evm/keeper/context.go:435-463 (`dispatchMessages`): one message after the other, up to the first error. -/
def dispatch (sys : Sys S C M) (rec : C → S → Meter → Res S) : List M → S → Meter → Res S
  | [], s, m => .ret m (some s)
  | x :: xs, s, m => match runHandler rec (sys.handler x s) m with
    | .stuck => .stuck
    | .panic => .panic
    | .ret m' none => .ret m' none
    | .ret m' (some s') => dispatch sys rec xs s' m'

/-- The rest of an execution once the EVM has returned (context.go:270-318, 372-420): `r` is its outcome on `balance` gas. -/
def afterVm (sys : Sys S C M) (rec : C → S → Meter → Res S) (balance : Nat) (r : Outcome S M) (m : Meter) : Res S :=
  if r.remaining = 0 ∧ r.err.isSome ∧ r.err ≠ some .outOfGas then .ret m none
  else match m.consume (calGasUsed balance r.remaining r.refund) with
    | none => .panic
    | some m' => if r.err.isSome then .ret m' none else dispatch sys rec r.msgs r.state m'

/-- x/evm/keeper/context.go:241-318 (`EVMCallWithTracer`) and 330-420 (`EVMCreateWithTracer`): gas, commit, messages.
`sim`: `some ContractSimulationGasLimit` in simulation mode. -/
def evmCall (sys : Sys S C M) (sim : Option Nat) : Nat → C → S → Meter → Res S
  | 0, _, _, _ => .stuck
  | n + 1, c, s, m => if sys.crash c s (computeGasLimit sim m) then .panic
    else afterVm sys (evmCall sys sim n) (computeGasLimit sim m) (sys.vm c s (computeGasLimit sim m)) m

/-- A transaction, or a query, is a handler run with at most `n` nested executions. -/
def runTop (sys : Sys S C M) (sim : Option Nat) (n : Nat) (h : Handler S C) (m : Meter) : Res S :=
  runHandler (evmCall sys sim n) h m

/-- What is used of the EVM: it never returns more gas than it was given, and scheduling a message costs at least
`EXECUTE_COSMOS_GAS` (x/evm/precompiles/cosmos/types.go:50-63; contract.go:205-206: charged before anything else, and
gas is not given back when a frame reverts). -/
structure Sys.Metered (sys : Sys S C M) : Prop where
  le : ∀ c s g, (sys.vm c s g).remaining ≤ g
  cost : ∀ c s g, (sys.vm c s g).msgs ≠ [] → (sys.vm c s g).remaining + Method.executeCosmos.gas ≤ g

end Verif.Nested
