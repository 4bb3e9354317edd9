import Verif.Model.World
/-
Model of how the keeper runs an EVM execution: gas accounting, scheduling and dispatch of Cosmos
messages, precompile gas, access-list preparation by message type.

The EVM itself (go-ethereum fork, outside /repo) is a parameter: a function from the gas it is given to a
result. Gas values are Go `uint64`.
-/
namespace Verif.Exec
open Verif Verif.World

/-! ### Gas -/

/-- cosmos-sdk `GasMeter` (by contract): limit and consumed gas. -/
structure Meter where
  limit : Nat
  consumed : Nat
deriving DecidableEq, Repr

/-- cosmos-sdk `GasConsumedToLimit` (by contract). -/
def Meter.consumedToLimit (m : Meter) : Nat := min m.consumed m.limit

/-- cosmos-sdk `ConsumeGas` (by contract): `none` is the out-of-gas (or overflow) panic. -/
def Meter.consume (m : Meter) (amt : Nat) : Option Meter :=
  if m.consumed + amt < 2 ^ 64 ∧ m.consumed + amt ≤ m.limit then some { m with consumed := m.consumed + amt }
  else none

/-- x/evm/keeper/context.go:38-45 (`computeGasLimit`): `simulate` is `Some ContractSimulationGasLimit` in
simulation mode. -/
def computeGasLimit (simulate : Option Nat) (m : Meter) : Nat :=
  match simulate with
  | some g => g
  | none => (m.limit + 2 ^ 64 - m.consumedToLimit) % 2 ^ 64

/-- x/evm/types/gas.go:8-16 (`CalGasUsed`), `params.RefundQuotientEIP3529 = 5`; uint64 subtraction. -/
def calGasUsed (balance remaining refunded : Nat) : Nat :=
  let used := (balance + 2 ^ 64 - remaining) % 2 ^ 64
  let refund := used / 5
  let refund := if refund > refunded then refunded else refund
  (used + 2 ^ 64 - refund) % 2 ^ 64

/-- The errors of go-ethereum's interpreter that the keeper distinguishes. -/
inductive VmErr
  | outOfGas
  | reverted
  | other
deriving DecidableEq, Repr

/-- What `evm.Call` / `evm.Create` / `evm.Create2` return, plus the refund counter. -/
structure VmResult where
  remaining : Nat
  refund : Nat
  err : Option VmErr
deriving DecidableEq, Repr

/-- x/evm/keeper/context.go:256-279 (`EVMCallWithTracer`) and 337-376 (`EVMCreateWithTracer`), the gas
part: returns the meter afterwards and whether the execution goes on to commit. `none`: the gas meter
panicked. -/
def evmGas (simulate : Option Nat) (vm : Nat → VmResult) (m : Meter) : Option (Meter × Bool) :=
  let balance := computeGasLimit simulate m
  let r := vm balance
  if r.remaining = 0 ∧ r.err.isSome ∧ r.err ≠ some .outOfGas then some (m, false)
  else (m.consume (calGasUsed balance r.remaining r.refund)).map fun m' => (m', r.err.isNone)

/-- x/evm/keeper/context.go:207-233 (`EVMStaticCallWithTracer`), the gas part. -/
def evmStaticGas (simulate : Option Nat) (vm : Nat → VmResult) (m : Meter) : Option (Meter × Bool) :=
  let balance := computeGasLimit simulate m
  let r := vm balance
  (m.consume (calGasUsed balance r.remaining r.refund)).map fun m' => (m', r.err.isNone)

/-! ### Cosmos messages -/

/-- What a frame does with the cosmos precompile: contract `caller` calls `execute_cosmos` with message
`m`, or there is an inner call (`static` for STATICCALL) that returns (`ok`) or reverts. -/
inductive MFrame (M : Type)
  | schedule (caller : Addr) (m : M)
  | call (static : Bool) (body : List (MFrame M)) (ok : Bool)

/-- x/evm/precompiles/cosmos/contract.go:205-249 (`execute_cosmos`): whether the message is accepted.
`signers` is the list of required signers of the message (codec, outside /repo), `origin` is
`originAddress` (73-87). -/
def accepts {M : Type} (signers : M → List Bytes) (origin : Addr → Bytes) (readOnly : Bool) (caller : Addr)
    (m : M) : Bool :=
  !readOnly && (signers m).all fun s => decide (origin caller = s)

mutual
/-- Running a frame: the scheduled messages live in one slice shared by all frames of the execution
(context.go:183, `CONTEXT_KEY_COSMOS_MESSAGES`, a pointer created once per EVM), which a revert does not
touch. -/
def MFrame.run {M : Type} (signers : M → List Bytes) (origin : Addr → Bytes) (readOnly : Bool) :
    MFrame M → List M → List M
  | .schedule c m, q => if accepts signers origin readOnly c m then q ++ [m] else q
  | .call static body _, q => MFrame.runAll signers origin (readOnly || static) body q
def MFrame.runAll {M : Type} (signers : M → List Bytes) (origin : Addr → Bytes) (readOnly : Bool) :
    List (MFrame M) → List M → List M
  | [], q => q
  | f :: fs, q => MFrame.runAll signers origin readOnly fs (MFrame.run signers origin readOnly f q)
end

/-- x/evm/keeper/context.go:435-463 (`dispatchMessages`): `handle` is validation plus handler; the first
failure stops. Also returns the list of messages whose handler was started. -/
def dispatch {M S : Type} (handle : M → S → Option S) : List M → S → Option S
  | [], s => some s
  | m :: ms, s => match handle m s with
    | none => none
    | some s' => dispatch handle ms s'

/-- x/evm/keeper/context.go:241-318 (`EVMCallWithTracer`), the order of effects: execution; on failure an
error; otherwise commit (`committed` is the committed state) and then the scheduled messages. A failing
message makes the whole call an error. `body`, `ok`: the top-level frame. -/
def evmCallMsgs {M S : Type} (signers : M → List Bytes) (origin : Addr → Bytes) (handle : M → S → Option S)
    (committed : S) (body : List (MFrame M)) (ok : Bool) : Option S :=
  let q := MFrame.runAll signers origin false body []
  if ok then dispatch handle q committed else none

/-- x/evm/keeper/context.go:202-233 (`EVMStaticCallWithTracer`): executed read-only, never dispatches;
the state is unchanged. The returned list is what was scheduled (and dropped). -/
def evmStaticCallMsgs {M S : Type} (signers : M → List Bytes) (origin : Addr → Bytes) (s : S)
    (body : List (MFrame M)) : List M × S :=
  (MFrame.runAll signers origin true body [], s)

/-! ### Precompiles -/

/-- The methods of the two precompiles (x/evm/precompiles/cosmos/types.go:66-78,
x/evm/precompiles/erc20_registry/contract.go:41-46). -/
inductive Method
  | isBlockedAddress | isModuleAddress | toCosmosAddress | toEvmAddress
  | executeCosmos | queryCosmos | toDenom | toErc20
  | register | registerFromFactory | registerStore | isStoreRegistered
deriving DecidableEq, Repr

/-- x/evm/precompiles/cosmos/types.go:50-63, erc20_registry/types.go:22-25 -/
def Method.gas : Method → Nat
  | .isBlockedAddress => 100
  | .isModuleAddress => 200
  | .toCosmosAddress => 200
  | .toEvmAddress => 200
  | .executeCosmos => 200
  | .queryCosmos => 200
  | .toDenom => 100
  | .toErc20 => 100
  | .register => 200
  | .registerFromFactory => 200
  | .registerStore => 200
  | .isStoreRegistered => 200

/-- The methods that start with `if readOnly { return ... ErrNonReadOnlyMethod }`
(cosmos/contract.go:208-210, erc20_registry/contract.go:80-82, 94-96, 115-117). -/
def Method.checksReadOnly : Method → Bool
  | .executeCosmos | .register | .registerFromFactory | .registerStore => true
  | _ => false

/-- Result of `ExtendedRun`: reported gas, success, state afterwards. -/
structure PreResult (S : Type) where
  used : Nat
  ok : Bool
  state : S

/-- The rest of a method: store accesses, each charging gas before its effect; `fails` if it ends in an
error. Effects done before running out of gas stay. -/
def runSteps {S : Type} (supplied : Nat) : List (Nat × (S → S)) → Nat → S → Option Nat × S
  | [], g, s => (some g, s)
  | (c, f) :: rest, g, s =>
    if g + c ≤ supplied then runSteps supplied rest (g + c) (f s) else (none, s)

/-- x/evm/precompiles/cosmos/contract.go:90-335 and erc20_registry/contract.go:49-156 (`ExtendedRun`).
`method = none` is an unknown selector or undecodable arguments (no gas reported). `steps`/`fails` is the
method body. Gas overflow of 64 bits is excluded by `supplied < 2^64` in the meter (ConsumeGas compares
with the limit after adding; lengths are far below 2^63). -/
def extendedRun {S : Type} (supplied inputLen : Nat) (readOnly : Bool) (method : Option Method)
    (steps : List (Nat × (S → S))) (fails : Bool) (s : S) : PreResult S :=
  match method with
  | none => { used := 0, ok := false, state := s }
  | some m =>
    if supplied < inputLen then { used := supplied + 1, ok := false, state := s }
    else if supplied < inputLen + m.gas then { used := supplied + 1, ok := false, state := s }
    else if m.checksReadOnly && readOnly then { used := inputLen + m.gas, ok := false, state := s }
    else match runSteps supplied steps (inputLen + m.gas) s with
      | (none, s') => { used := supplied + 1, ok := false, state := s' }
      | (some g, s') => { used := g, ok := !fails, state := s' }

/-! ### Access lists of messages -/

/-- The three EVM messages. -/
inductive EvmMsgKind
  | call | create | create2
deriving DecidableEq, Repr

/-- The access list passed to the execution: x/evm/keeper/msg_server.go:49,73 (`Create`), 105,129
(`Create2`), 188 (`Call`: the literal `nil`). -/
def passedAccessList : EvmMsgKind → List AccessTuple → List AccessTuple
  | .create, l => l
  | .create2, l => l
  | .call, _ => []

/-- msg_server.go with context.go:257-258 / 345-346: the preparation done for a message. Coinbase is the
zero address (`types.NullAddress`), rules are Shanghai or later. `dst` is the called contract, `none` for
creations. -/
def prepareMsg (w : World) (e : Nat) (kind : EvmMsgKind) (sender : Addr) (target : Addr)
    (precompiles : List Addr) (list : List AccessTuple) : World :=
  let dst := match kind with
    | .call => some target
    | _ => none
  w.prepare e true true sender Addr.zero dst precompiles (passedAccessList kind list)

end Verif.Exec
