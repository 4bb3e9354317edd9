import Verif.Model.Create
import Verif.Model.Params
/-
Model of the contracts the chain deploys for itself and of the software upgrade: x/evm/keeper/genesis.go:16-91
(`Initialize`, `DeployERC20Factory`, `DeployERC20Wrapper`) and app/upgrade.go:14-41. Creations are those of Model/Create.
Events, logs and dispatched messages of the constructors (there are none) are left out, and so is gas: genesis and upgrade
run with an unlimited meter.
-/
namespace Verif.Upgrade
open Verif Verif.World Verif.Create

/-- What the two functions read and write. -/
structure State where
  w : World
  /-- `ERC20FactoryAddr` -/
  factory : Option Bytes
  /-- `ERC20WrapperAddr` -/
  wrapper : Option Bytes
  params : Params.Params
  /-- `EVMBlockHashes` -/
  hashes : Params.Hashes

/-- Surroundings: hash functions, the compiled contracts, and what their constructors do (any program). -/
structure Env where
  keccak : Bytes → Hash
  /-- go-ethereum `crypto.CreateAddress2` from deployer, salt and creation code -/
  derive2 : Addr → Nat → Bytes → Addr
  eip2929 : Bool
  /-- the precompiles the preparation makes warm -/
  precompiles : List Addr
  /-- the constructor of a creation code -/
  constructor : Bytes → Constructor
  /-- `Erc20FactoryBin` -/
  factoryBin : Bytes
  /-- `Erc20WrapperBin` -/
  wrapperBin : Bytes

/-- x/evm/types/address.go:13 -/
def std : Addr := Addr.ofNat 1

/-- x/evm/keeper/context.go:326-421 (`EVMCreate2`) by `StdAddress` without value, as execution number `e`: address and state;
`none`: an error. -/
noncomputable def evmCreate2 (v : Env) (w : World) (e salt : Nat) (code : Bytes) : Option (Addr × World) :=
  match create v.keccak v.eip2929 ((w.newStateDB e).prepare e true true std Addr.zero none v.precompiles []) e std
      (v.derive2 std salt code) 0 (v.constructor code) with
  | .created w' => some (v.derive2 std salt code, w'.commitDestructs e)
  | _ => none

/-- x/evm/keeper/genesis.go:53-65 (`DeployERC20Factory`), salt x/evm/types/address.go:16. -/
noncomputable def deployFactory (v : Env) (e : Nat) (s : State) : Option State :=
  (evmCreate2 v s.w e 1 v.factoryBin).map fun r => { s with w := r.2, factory := some r.1.bytes }

/-- The creation code at x/evm/keeper/genesis.go:75-84: the compiled contract and the packed factory address. -/
def wrapperCode (v : Env) (factory : Bytes) : Bytes :=
  v.wrapperBin ++ (List.replicate 12 0 ++ (bytesToAddress factory).bytes)

/-- x/evm/keeper/genesis.go:68-91 (`DeployERC20Wrapper`), salt x/evm/types/address.go:17. -/
noncomputable def deployWrapper (v : Env) (e : Nat) (s : State) : Option State :=
  match s.factory with
  | none => none
  | some f => (evmCreate2 v s.w e 2 (wrapperCode v f)).map fun r => { s with w := r.2, wrapper := some r.1.bytes }

/-- x/evm/keeper/genesis.go:16-51 (`Initialize`); `feeToken`: what `CreateERC20` of the fee denom does to the state (a call of
the factory, C22), `none`: it fails. -/
noncomputable def boot (v : Env) (e e' : Nat) (feeToken : State → Option State) (s : State) : Option State :=
  ((deployFactory v e s).bind feeToken).bind (deployWrapper v e')

/-- app/upgrade.go:19-39: the handler of the upgrade "0.5.7". `none`: the error the upgrade module turns into a halt of the
node. -/
noncomputable def handler (v : Env) (e : Nat) (s : State) : Option State :=
  deployWrapper v e { s with params := { s.params with gasRefundRatio := 500000000000000000, numRetain := 0 } }

/-- x/evm/abci.go:14-23 at height `h`, with the retention in force. -/
def preBlock (s : State) (h : Nat) (headerHash : Hash) : State :=
  { s with hashes := Params.preBlock s.params.numRetain s.hashes h headerHash }

end Verif.Upgrade
