import Verif.Model.Bank
import Verif.Model.Value
/-
Everything that moves, creates or destroys tokens, in one history: the messages and keeper methods of the bank
(`Verif.Bank`), EVM executions (`Verif.Value`), the factory and the registry (`Verif.Tokens`). Transactions are
all-or-nothing lists of such acts. (Fees are acts of their own: Model/Charges.)
-/
namespace Verif.Books
open Verif Verif.Text Verif.Denom Verif.Tokens Verif.Identity Verif.Bank

/-- One act. -/
inductive Act where
  /-- x/bank/keeper/genesis.go:25-36: a balance of the genesis file -/
  | genesis (r : Bytes) (coins : Bank.Coins)
  /-- x/bank/keeper/msg_server.go:31-85 -/
  | send (m : MsgSend)
  /-- x/bank/keeper/keeper.go:217-231 -/
  | fromModule (m : Str) (r : Bytes) (coins : Bank.Coins)
  /-- x/bank/keeper/keeper.go:234-249 -/
  | betweenModules (m m' : Str) (coins : Bank.Coins)
  /-- x/bank/keeper/keeper.go:252-262 -/
  | toModule (f : Bytes) (m : Str) (coins : Bank.Coins)
  /-- x/bank/keeper/keeper.go:266-280 -/
  | delegate (f : Bytes) (m : Str) (coins : Bank.Coins)
  /-- x/bank/keeper/keeper.go:284-298 -/
  | undelegate (m : Str) (r : Bytes) (coins : Bank.Coins)
  /-- x/evm/keeper/erc20.go:372-402 called directly, past the bank (app/posthandler/gasrefund.go:81) -/
  | pay (f r : Bytes) (coins : Bank.Coins)
  /-- x/bank/keeper/keeper.go:301-335 (also what the IBC transfer and the bridge module use) -/
  | mint (m : Str) (coins : Bank.Coins)
  /-- x/bank/keeper/keeper.go:339-365 -/
  | burn (m : Str) (coins : Bank.Coins)
  /-- x/evm/keeper/context.go (`EVMCall`, `EVMCreate`): an execution with the fee contract `fee` of the moment -/
  | evm (fee : Addr) (p : Value.Prog) (destroyed : List Addr)
  /-- x/evm/contracts/erc20_factory/ERC20Factory.sol:10-25 -/
  | create (caller : Addr)
  /-- somebody deploys an ERC20 contract of the modelled kinds at `a` -/
  | deploy (a owner : Addr) (sudo : Bool)
  /-- x/evm/keeper/erc20_stores.go:49-78, with the parameters of the moment -/
  | register (p : Tokens.Params) (k : Addr)
  /-- x/bank/keeper/msg_server.go:108-142 -/
  | setSendEnabled (authority : Str) (entries : List (Str × Bool)) (useDefault : List Str)
  /-- x/bank/keeper/msg_server.go:91-106 -/
  | updateParams (authority : Str) (p : BankParams)
  /-- x/bank/keeper/custom_msg_server.go:26-38 -/
  | setMetadata (valid : Metadata → Bool) (authority : Str) (md : Metadata)

/-- An `Option` as a result: nothing is an error. -/
def ofOption (s : State) : Option World → Res State
  | none => .err
  | some w => .ok { s with w := w }

/-- Run one act. A contract is created only where there is none (go-ethereum core/vm/evm.go `create`: contract address
collision). -/
def doAct (g : Cfg) : Act → State → Res State
  | .genesis r coins, s => match ekMint g r coins s with
    | none => .panic
    | some s' => .ok s'
  | .send m, s => msgSend g m s
  | .fromModule m r coins, s => moduleToAccount g m r coins s
  | .betweenModules m m' coins, s => moduleToModule g m m' coins s
  | .toModule f m coins, s => accountToModule g f m coins s
  | .delegate f m coins, s => delegateToModule g f m coins s
  | .undelegate m r coins, s => undelegateFromModule g m r coins s
  | .pay f r coins, s => match ekSend g f r coins s with
    | none => .err
    | some s' => .ok s'
  | .mint m coins, s => bankMint g m coins s
  | .burn m coins, s => bankBurn g m coins s
  | .evm fee p destroyed, s => ofOption s (Value.message g.chain fee p destroyed s.w)
  | .create caller, s =>
    if (s.w.tokens (g.tp.deployed s.w.factoryNonce)).isSome then .err
    else .ok { s with w := (factoryCreate g.tp s.w caller).1 }
  | .deploy a owner sudo, s =>
    if (s.w.tokens a).isSome then .err
    else .ok { s with w := { s.w with
      tokens := fun x => if x = a then some (sudo, Token.fresh owner) else s.w.tokens x } }
  | .register p k, s => ofOption s (Tokens.register p s.w k)
  | .setSendEnabled authority entries useDefault, s => msgSetSendEnabled g authority entries useDefault s
  | .updateParams authority p, s => msgUpdateParams g authority p s
  | .setMetadata valid authority md, s => msgSetMetadata g valid authority md s

/-- A transaction: the acts in order; `none` when one of them fails or panics. -/
def doTx (g : Cfg) : List Act → State → Option State
  | [], s => some s
  | a :: rest, s => match doAct g a s with
    | .ok s' => doTx g rest s'
    | .err => none
    | .panic => none

/-- A history: transactions in order; one that fails changes nothing (cosmos-sdk baseapp `runTx`: the message cache is
dropped). -/
def history (g : Cfg) : List (List Act) → State → State
  | [], s => s
  | tx :: rest, s => history g rest ((doTx g tx s).getD s)

/-- The acts of the transactions that went through, in order. -/
def accepted (g : Cfg) : List (List Act) → State → List Act
  | [], _ => []
  | tx :: rest, s => match doTx g tx s with
    | none => accepted g rest s
    | some s' => tx ++ accepted g rest s'

end Verif.Books
