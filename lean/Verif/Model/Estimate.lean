import Verif.Model.Fees
/-
The gas estimate (jsonrpc/backend/gas.go `EstimateGas`) beside the transaction it is made for: both run the ante handlers,
the message and the post handlers on a gas meter, the estimate in simulation mode.

What the store accesses of the handlers cost is a parameter (lists of charges); the machine is a function of the gas it is
given (Verif.Model.Exec).
-/
namespace Verif.Estimate
open Verif Verif.Exec Verif.Fees

/-- What the steps of a transaction cost on the gas meter. -/
structure Steps where
  /-- ConsumeGasForTxSize (cosmos-sdk, app/ante/ante.go:96): the price of the transaction's bytes -/
  size : Nat
  /-- the deduction of the fee (app/ante/fee.go:53, 59) -/
  inner : List Nat
  /-- the ante handlers after it (app/ante/ante.go:98-105) -/
  rest : List Nat
  /-- the message server before the machine starts (x/evm/keeper/msg_server.go:159-186, context.go:241-258) -/
  pre : List Nat
  /-- everything after the machine: commit, dispatched messages, post handlers (context.go:281-313,
  app/posthandler/gasrefund.go:30-84, which reads the refund ratio on the transaction's meter when a block is executed) -/
  post : List Nat

/-- app/ante/ante.go:88-106 and baseapp `runTx` (cosmos-sdk, by contract): the ante handlers, the message, the post
handlers. `sim` is the simulation gas limit in simulation mode. `none`: the transaction fails. -/
def runTx (sim : Option Nat) (feeDenomOnly zeroFee : Bool) (c : Steps) (vm : Nat → VmResult) (m : Meter) :
    Option Meter :=
  (m.consume c.size).bind fun m1 =>
    (gasFreeFee feeDenomOnly sim.isSome zeroFee c.inner c.rest m1).bind fun m2 =>
      (chargeAll c.pre m2).bind fun m3 =>
        (evmGas sim vm m3).bind fun r =>
          if r.2 then chargeAll c.post r.1 else none

/-- jsonrpc/backend/gas.go:19-91 (`EstimateGas`): the transaction it builds has the message without an access list, no fee,
no memo and no signature (64-79), and the gas it used in a simulation is the answer (84-90). A simulation runs on the
infinite gas meter (cosmos-sdk `SetUpContextDecorator`). -/
def estimate (simLimit : Nat) (c : Steps) (vm : Nat → VmResult) : Option Nat :=
  (runTx (some simLimit) false true c vm ⟨2 ^ 64 - 1, 0⟩).map (·.consumed)

/-- The transaction itself in a block (x/evm/keeper/txutils.go:88-182 builds it), with a gas limit. `feeDenomOnly`: it pays
a fee, in the fee denom. -/
def execute (feeDenomOnly : Bool) (c : Steps) (vm : Nat → VmResult) (gasLimit : Nat) : Option Meter :=
  runTx none feeDenomOnly (!feeDenomOnly) c vm ⟨gasLimit, 0⟩

/-- A tuple of an access list as far as its length goes: the number of storage keys. proto/minievm/evm/v1/types.proto:72-79:
the address is a text of 42 characters and every key one of 66, each behind a tag and a length byte, and so is the tuple
itself (the length of a longer tuple takes more bytes; counted as one). -/
def tupleBytes (keys : Nat) : Nat := 2 + 44 + 68 * keys

/-- Bytes an access list adds to the transaction, at least. -/
def listBytes : List Nat → Nat
  | [] => 0
  | k :: l => tupleBytes k + listBytes l

/-- x/evm/keeper/txutils.go:139-158: the list is part of the message, so its bytes are part of the transaction. -/
def Steps.withList (c : Steps) (perByte : Nat) (l : List Nat) : Steps :=
  { c with size := c.size + perByte * listBytes l }

end Verif.Estimate
