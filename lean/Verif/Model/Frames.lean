import Verif.Model.World
import Verif.Model.CacheStack
/-
The typed operations (Verif.Model.World) performed through the stack of cache contexts
(Verif.Model.CacheStack): the EVM's call frames. The whole `World` is put behind a single key of the
generic store; `none` is an execution that panicked. How go-ethereum drives snapshots is described at
`Verif.CacheStack.Act.drive`.
-/
namespace Verif.World
open Verif Verif.CacheStack

/-- What one EVM call frame does: an operation on the state database, or an inner call which returns
(`ok = true`) or reverts. -/
inductive Frame'
  | op (o : StateOp)
  | call (body : List Frame') (ok : Bool)

/-- One typed operation of execution `e` as a computation on the store: every setter of
x/evm/state/statedb.go reads and writes through `s.ctx`. -/
def opExec (keccak : Bytes → Hash) (e : Nat) (o : StateOp) : View Unit World → Delta Unit World :=
  fun v _ => some ((v ()).bind fun w => w.step keccak e o)

mutual
/-- The frame as a call tree over the generic store. -/
def Frame'.toAct (keccak : Bytes → Hash) (e : Nat) : Frame' → Act Unit World
  | .op o => .exec (opExec keccak e o)
  | .call body ok => .call (Frame'.toActs keccak e body) ok
def Frame'.toActs (keccak : Bytes → Hash) (e : Nat) : List Frame' → List (Act Unit World)
  | [] => []
  | f :: fs => Frame'.toAct keccak e f :: Frame'.toActs keccak e fs
end

/-- x/evm/keeper/context.go:256-318 (`EVMCallWithTracer`), the state part of a successful top-level call:
`NewStateDB` on the initial context, the call, `Commit`, then read the result through the initial context.
`rev` is the revert function. `none`: panic. -/
def commitCall (rev : DB Unit World → Int → Option (DB Unit World)) (keccak : Bytes → Hash) (e : Nat)
    (w : World) (body : List Frame') : Option World :=
  match Act.drive rev (.call (Frame'.toActs keccak e body) true) (DB.new fun _ => some (w.newStateDB e)) with
  | none => none
  | some db => db.commit.base ()

end Verif.World
