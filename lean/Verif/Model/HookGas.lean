import Verif.Model.Nested
/-
The gas side of packets, acknowledgements and timeouts whose memo asks for a contract (app/ibc-hooks/receive.go, ack.go, timeout.go), over the model of
nested executions of Model/Nested.lean: the callback runs on the gas meter of the relayer's transaction, without a limit of its own, and
running out of gas panics through the hook (there is no `recover` in app/ibc-hooks). What is decided from the packet and the state is
in Model/Hooks.lean.
-/
namespace Verif.HookGas
open Verif Verif.Exec Verif.Nested

variable {S C M : Type}

/-- What happens to a packet that is acknowledged or has timed out (app/ibc-hooks/ack.go:15-91, 94-170; timeout.go:16-92, 95-170).
`app`: the transfer application's own callback (`none`: an error) and its gas. `asked`: the memo asks for a callback to an allowed
contract (validateAndParseMemo, checkACL), and which call that is. `pre`: the gas of the allow-list, the sequence number and the set-up of
the EVM (x/evm/keeper/msg_server.go:146-190, context.go:150-205). The callback runs on a cached context: what it did counts only if
it succeeded; the gas it used counts in any case. Simplified: the allow-list check belongs to `pre` even when it says no. -/
def process (appGas pre : Nat) (app : S → Option S) (asked : S → Option C) (s : S) : Handler S C :=
  .use appGas (match app s with
    | none => .done none
    | some s1 => match asked s1 with
      | none => .done (some s1)
      | some c => .use pre (.call c s1 fun r => .done (some (r.getD s1))))

/-- The calls that approve what the packet brought for the contract, one after the other (app/ibc-hooks/receive.go: one for ICS20, 81-110; one
for every token of an ICS721 packet, 160-165); the first that fails ends it. -/
def approving (fail : Handler S C) : List C → (S → Handler S C) → S → Handler S C
  | [], next, s => next s
  | a :: as, next, s => .call a s fun
    | none => fail
    | some s' => approving fail as next s'

/-- What a relayer's delivery of a packet whose memo asks for a contract does once IBC has accepted it (app/ibc-hooks/receive.go:22-78,
112-173). `app`: the transfer application's own callback; then the tokens are approved for the contract (`approvals`) and the contract
is called. IBC (by contract, ibc-go `msgServer.RecvPacket`): what was done is kept only if the
acknowledgement is a success, and the acknowledgement is stored in any case (`store`), which uses `ackGas` of the same meter.
`pre`: the gas of the allow-list and of the set-up of the calls; simplified: all of it is used before them. -/
def receive (appGas pre ackGas : Nat) (app : S → Option S) (approvals : List C) (call : C) (store : Bool → S → S) (s : S) : Handler S C :=
  .use appGas (match app s with
    | none => .use ackGas (.done (some (store false s)))
    | some s1 => .use pre (approving (.use ackGas (.done (some (store false s)))) approvals (fun s2 => .call call s2 fun
        | none => .use ackGas (.done (some (store false s)))
        | some s3 => .use ackGas (.done (some (store true s3)))) s1))

/-- A transaction of a relayer outside simulation: its messages one after the other (baseapp `runMsgs`, as in `Nested.dispatch`), with at
most `n` nested executions. -/
def relay (sys : Sys S C M) (n : Nat) (msgs : List M) (s : S) (m : Meter) : Res S :=
  dispatch sys (evmCall sys none n) msgs s m

end Verif.HookGas
