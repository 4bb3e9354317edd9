import Verif.Model.Bank
/-
Which account lies at a module's address. The bank keepers of Model/Bank again, this time with the accounts that are
created on the way: by the registration of a token holder (x/evm/keeper/erc20_stores.go:41-43), by `GetModuleAccount`,
by contract creations and by signers.
-/
namespace Verif.ModuleAcct
open Verif Verif.Text Verif.Denom Verif.Tokens Verif.Identity Verif.Bank

/-- x/evm/keeper/erc20_stores.go:41-43, x/bank/keeper/send.go:143-147, x/evm/state/statedb.go:266-269 (called by the
EVM when the callee of a call with value does not exist): an ordinary account where there was none. -/
def touch (m : Accts) (a : Addr) : Accts :=
  match m a with
  | some _ => m
  | none => put m a (.plain false 0)

/-- cosmos-sdk x/auth/keeper `GetModuleAccount` (by contract), as used at x/bank/keeper/keeper.go:242, 255, 269, 287, 307,
340: the account is created if there is none; an account of another kind at the module's address is a panic
("account is not a module account"). -/
def getModule (m : Accts) (a : Addr) : Option Accts :=
  match m a with
  | none => some (put m a .module)
  | some .module => some m
  | some _ => none

/-- x/evm/state/statedb.go:272-303 (`CreateContract`); `none`: panic. -/
def createContract (m : Accts) (a : Addr) : Option Accts :=
  match m a with
  | none => some (put m a .contract)
  | some x => if isEmpty x then some (put m a .contract) else none

/-- x/evm/state/statedb.go:444-450 (`SetNonce`), x/evm/keeper/msg_server.go:147-156 (`increaseNonce`), ante handler:
module accounts have no sequence (cosmos-sdk); that of contracts does not matter here. -/
def setSeq (m : Accts) (a : Addr) (n : Nat) : Option Accts :=
  match m a with
  | none => some (put m a (.plain false n))
  | some (.plain pk _) => some (put m a (.plain pk n))
  | some (.shorthand o _) => some (put m a (.shorthand o n))
  | some .contract => some m
  | some .module => none

/-- The ante handler (cosmos-sdk `SetPubKeyDecorator`) puts a key on an account that has none; x/evm/types/auth.go:32-34,
56-58 and the SDK's module accounts refuse. -/
def setKey (m : Accts) (a : Addr) : Option Accts :=
  match m a with
  | some (.plain _ n) => some (put m a (.plain true n))
  | _ => none

/-- x/evm/state/statedb.go:632-644 (`Commit`): the accounts of contracts destroyed in the execution that created them are
removed. -/
def destroy (m : Accts) (a : Addr) : Option Accts :=
  match m a with
  | some .contract => some fun x => if x = a then none else m x
  | _ => none

/-- A message call of a token contract (`callToken`) with the account the registration creates: the modifier of
x/evm/contracts/erc20_registry/ERC20Registry.sol:16-22 registers the receiver unless it is registered already. -/
def callTokenA (c : Chain) (caller contract : Addr) (call : Call) (p : World × Accts) : Option (World × Accts) :=
  match callToken c p.1 caller contract call with
  | none => none
  | some w' => some (w', match p.1.tokens contract, regTarget call with
    | some _, some a => if p.1.erc20s contract ∧ contract ∉ p.1.stores a then touch p.2 a else p.2
    | _, _ => p.2)

/-- x/evm/keeper/erc20.go:383-399 (`SendCoins`) -/
def sendLoop (c : Chain) (f r : Addr) : Coins → World × Accts → Option (World × Accts)
  | [], p => some p
  | (d, amt) :: rest, p =>
    match denomToContract p.1.maps d with
    | none => none
    | some a => match callTokenA c c.chainAddr a (.sudoTransfer f r amt) p with
      | none => none
      | some p' => sendLoop c f r rest p'

/-- x/evm/keeper/erc20.go:329-358 (`CreateERC20`), with the account of the new contract (ERC20Factory.sol:10-25). -/
def newToken (c : Chain) (tp : Tokens.Params) (d : Str) (p : World × Accts) : Option (World × Accts) :=
  match createContract p.2 (tp.deployed p.1.factoryNonce) with
  | none => none
  | some m => some ({ (factoryCreate tp p.1 c.chainAddr).1 with
      maps := createERC20 (factoryCreate tp p.1 c.chainAddr).1.maps d (tp.deployed p.1.factoryNonce) }, m)

/-- x/evm/keeper/erc20.go:293-324 (`MintCoins`) -/
def mintLoop (c : Chain) (tp : Tokens.Params) (r : Addr) : Coins → World × Accts → Option (World × Accts)
  | [], p => some p
  | (d, amt) :: rest, p =>
    if isERC20Denom d then none
    else match (match p.1.maps.toAddr d with
        | some _ => some p
        | none => newToken c tp d p) with
      | none => none
      | some p1 => match denomToContract p1.1.maps d with
        | none => none
        | some a => match callTokenA c c.chainAddr a (.sudoMint r amt) p1 with
          | none => none
          | some p2 => mintLoop c tp r rest p2

/-- The part of the state the ledger works on. -/
def withPair (s : State) (p : World × Accts) : State := { s with w := p.1, accts := p.2 }

/-- x/evm/keeper/erc20.go:372-402 (`ERC20Keeper.SendCoins`) -/
def ekSendA (g : Cfg) (f r : Bytes) (coins : Coins) (s : State) : Option State :=
  match convert s.accts f true with
  | none => none
  | some (ef, m1) => match convert m1 r false with
    | none => none
    | some (er, m2) => (sendLoop g.chain ef er coins (s.w, m2)).map (withPair s)

/-- x/bank/keeper/send.go:116-164 (`SendCoins`) -/
def bankSendA (g : Cfg) (f r : Bytes) (coins : Coins) (s : State) : Res State :=
  match Bank.apply g.restr s f r coins with
  | none => .err
  | some r' => match ekSendA g f r' coins s with
    | none => .err
    | some s1 => if hasAccount s1 r' then .ok s1 else .ok (createAccount s1 r')

/-- x/bank/keeper/msg_server.go:31-85 (`Send`) -/
def msgSendA (g : Cfg) (m : MsgSend) (s : State) : Res State :=
  match g.parseAddr m.from_ with
  | none => .err
  | some f => match g.parseAddr m.to with
    | none => .err
    | some r =>
      if !coinsValid g m.amount then .err
      else if !allPositive m.amount then .err
      else if !isSendEnabledCoins s m.amount then .err
      else if g.blockedAddrs r then .err
      else bankSendA g f r (natCoins m.amount) s

/-- `GetModuleAccount` by name: `none` is a panic (no such module, or the address is taken). -/
def moduleAccount (g : Cfg) (m : Str) (s : State) : Option (Module × State) :=
  match g.modules m with
  | none => none
  | some mo => (getModule s.accts (bytesToAddress mo.addr)).map fun a => (mo, { s with accts := a })

/-- x/bank/keeper/keeper.go:217-231 (`SendCoinsFromModuleToAccount`; `GetModuleAddress` only) -/
def moduleToAccountA (g : Cfg) (m : Str) (r : Bytes) (coins : Coins) (s : State) : Res State :=
  match g.modules m with
  | none => .panic
  | some mo => if g.blockedAddrs r then .err else bankSendA g mo.addr r coins s

/-- x/bank/keeper/keeper.go:234-249 (`SendCoinsFromModuleToModule`) -/
def moduleToModuleA (g : Cfg) (m m' : Str) (coins : Coins) (s : State) : Res State :=
  match g.modules m with
  | none => .panic
  | some mo => match moduleAccount g m' s with
    | none => .panic
    | some (mo', s1) => bankSendA g mo.addr mo'.addr coins s1

/-- x/bank/keeper/keeper.go:252-262 (`SendCoinsFromAccountToModule`) -/
def accountToModuleA (g : Cfg) (f : Bytes) (m : Str) (coins : Coins) (s : State) : Res State :=
  match moduleAccount g m s with
  | none => .panic
  | some (mo, s1) => bankSendA g f mo.addr coins s1

/-- x/bank/keeper/keeper.go:301-335 (`MintCoins`) -/
def bankMintA (g : Cfg) (m : Str) (coins : Coins) (s : State) : Res State :=
  if !g.mintOk coins then .err
  else match moduleAccount g m s with
    | none => .panic
    | some (mo, s1) =>
      if !mo.minter then .panic
      else if !coinsValid g (coins.map fun x => (x.1, (x.2 : Int))) then .err
      else match convert s1.accts mo.addr false with
        | none => .err
        | some (er, m1) => match mintLoop g.chain g.tp er coins (s1.w, m1) with
          | none => .err
          | some p => .ok (withPair s1 p)

/-- x/evm/keeper/erc20.go:65-92 (`BurnCoins`): third-party coins go to the fee collector `fc`
(app/keepers/community_pool.go:25-27). -/
def burnLoopA (g : Cfg) (fc : Str) (f : Addr) (all : Coins) : Coins → State → Res State
  | [], s => .ok s
  | (d, amt) :: rest, s =>
    if isERC20Denom d then
      match accountToModuleA g f.bytes fc all s with
      | .ok s' => burnLoopA g fc f all rest s'
      | .err => .err
      | .panic => .panic
    else match denomToContract s.w.maps d with
      | none => .err
      | some a => match callTokenA g.chain g.chain.chainAddr a (.sudoBurn f amt) (s.w, s.accts) with
        | none => .err
        | some p => burnLoopA g fc f all rest (withPair s p)

/-- x/bank/keeper/keeper.go:339-365 (`BurnCoins`) -/
def bankBurnA (g : Cfg) (fc : Str) (m : Str) (coins : Coins) (s : State) : Res State :=
  match moduleAccount g m s with
  | none => .panic
  | some (mo, s1) =>
    if !mo.burner then .panic
    else match convert s1.accts mo.addr false with
      | none => .err
      | some (ef, m1) => burnLoopA g fc ef coins coins { s1 with accts := m1 }

/-- x/evm/precompiles/erc20_registry/contract.go:112-131 (`register_erc20_store`), called by contract `k` for any account
(there is no comparison with the block list). -/
def registerStoreA (k a : Addr) (s : State) : State :=
  { s with w := registerStore s.w a k, accts := if s.w.erc20s k then touch s.accts a else s.accts }

/-- What can happen on the chain, as far as accounts and tokens are concerned. -/
inductive Op where
  | send (m : MsgSend)
  | moduleToAccount (m : Str) (r : Bytes) (coins : Coins)
  | moduleToModule (m m' : Str) (coins : Coins)
  | accountToModule (f : Bytes) (m : Str) (coins : Coins)
  | mint (m : Str) (coins : Coins)
  | burn (m : Str) (coins : Coins)
  /-- a call of a token contract by anybody: users, contracts, and 0x1 for self-destructs
  (x/evm/state/statedb.go:122-156) -/
  | token (caller k : Addr) (call : Call)
  | registerStore (k a : Addr)
  /-- contract creation by a message or a contract -/
  | create (a : Addr)
  /-- a contract is destroyed in the execution that created it -/
  | destroy (a : Addr)
  /-- a call with value to an address without account -/
  | evmCall (a : Addr)
  | nonce (a : Addr) (n : Nat)
  | key (a : Addr)
  /-- an address acts as the sender of an EVM message (x/evm/keeper/address.go:16-54) -/
  | signer (addr : Bytes)

/-- A result for the accounts. -/
def onAccts (s : State) : Option Accts → Res State
  | none => .err
  | some m => .ok { s with accts := m }

/-- One operation. -/
def step (g : Cfg) (fc : Str) : Op → State → Res State
  | .send m, s => msgSendA g m s
  | .moduleToAccount m r coins, s => moduleToAccountA g m r coins s
  | .moduleToModule m m' coins, s => moduleToModuleA g m m' coins s
  | .accountToModule f m coins, s => accountToModuleA g f m coins s
  | .mint m coins, s => bankMintA g m coins s
  | .burn m coins, s => bankBurnA g fc m coins s
  | .token caller k call, s => match callTokenA g.chain caller k call (s.w, s.accts) with
    | none => .err
    | some p => .ok (withPair s p)
  | .registerStore k a, s => .ok (registerStoreA k a s)
  | .create a, s => onAccts s (createContract s.accts a)
  | .destroy a, s => onAccts s (destroy s.accts a)
  | .evmCall a, s => .ok { s with accts := touch s.accts a }
  | .nonce a n, s => onAccts s (setSeq s.accts a n)
  | .key a, s => onAccts s (setKey s.accts a)
  | .signer addr, s => onAccts s ((convert s.accts addr true).map Prod.snd)

/-- A history: what fails changes nothing. -/
def run (g : Cfg) (fc : Str) : List Op → State → State
  | [], s => s
  | o :: rest, s => match step g fc o s with
    | .ok s' => run g fc rest s'
    | _ => run g fc rest s

end Verif.ModuleAcct
