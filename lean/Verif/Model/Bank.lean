import Verif.Model.Tokens
import Verif.Model.Identity
/-
Model of the bank module on top of the ERC20 ledger: x/bank/keeper (send.go, keeper.go, msg_server.go,
custom_msg_server.go, view.go, genesis.go, grpc_query.go).
-/
namespace Verif.Bank
open Verif Verif.Text Verif.Denom Verif.Tokens Verif.Identity

/-- Coins as modules pass them on (amounts of `sdk.Coins` built by the SDK constructors are not negative). -/
abbrev Coins := List (Str × Nat)

/-- Denom metadata; only the base denom matters here. -/
structure Metadata where
  base : Str
  body : Str
deriving DecidableEq

/-- Chain state the bank module reads and writes. -/
structure State where
  /-- the ERC20 ledger -/
  w : World
  /-- accounts at 20-byte addresses -/
  accts : Accts
  /-- accounts at addresses of another length -/
  long : Bytes → Bool
  /-- `Params.DefaultSendEnabled` -/
  dflt : Bool
  /-- `SendEnabled` collection -/
  enabled : Str → Option Bool
  /-- `DenomMetadata` collection -/
  mdata : Str → Option Metadata

/-- A send restriction (cosmos-sdk x/bank/types `SendRestrictionFn`): may refuse, or name another recipient. It may
read the state; restrictions that write are not modelled. -/
abbrev Restr := State → Bytes → Bytes → Coins → Option Bytes

/-- A module account of the app (app/app.go `maccPerms`): its address and permissions. -/
structure Module where
  addr : Bytes
  minter : Bool
  burner : Bool
  staking : Bool

/-- What is fixed when the keepers are built. -/
structure Cfg where
  chain : Chain
  tp : Tokens.Params
  /-- `blockedAddrs`, looked up by the bech32 string of the address -/
  blockedAddrs : Bytes → Bool
  authority : Str
  /-- the address codec -/
  parseAddr : Str → Option Bytes
  /-- cosmos-sdk `ValidateDenom` -/
  validDenom : Str → Bool
  /-- `sendRestriction.fn`; `none`: nil -/
  restr : Option Restr
  /-- `mintCoinsRestrictionFn` allows these coins -/
  mintOk : Coins → Bool
  modules : Str → Option Module

/-- Outcome of a keeper method: new state, error, or panic. -/
inductive Res (α : Type) where
  | ok (a : α)
  | err
  | panic

/-! ### Send restrictions -/

/-- cosmos-sdk x/bank/types/restrictions.go (`Then` = `ComposeSendRestrictions`, outside /repo, by contract): nil
functions are dropped; the others run in order, each given the recipient the previous one chose. -/
def then_ : Option Restr → Option Restr → Option Restr
  | none, r => r
  | some f, none => some f
  | some f, some g => some fun s a b c => match f s a b c with
    | none => none
    | some b' => g s a b' c

/-- x/bank/keeper/send.go:313-315 (`append`) -/
def append (fn : Option Restr) (r : Restr) : Option Restr := then_ fn (some r)

/-- x/bank/keeper/send.go:318-320 (`prepend`) -/
def prepend (fn : Option Restr) (r : Restr) : Option Restr := then_ (some r) fn

/-- x/bank/keeper/send.go:323-325 (`clear`) -/
def clear (_ : Option Restr) : Option Restr := none

/-- x/bank/keeper/send.go:330-335 (`apply`) -/
def apply (fn : Option Restr) (s : State) (a b : Bytes) (c : Coins) : Option Bytes :=
  match fn with
  | none => some b
  | some f => f s a b c

/-! ### Transfers -/

/-- `AccountKeeper.HasAccount` -/
def hasAccount (s : State) (a : Bytes) : Bool :=
  if a.length = 20 then (s.accts (bytesToAddress a)).isSome else s.long a

/-- `SetAccount(NewAccountWithAddress(a))` -/
def createAccount (s : State) (a : Bytes) : State :=
  if a.length = 20 then { s with accts := put s.accts (bytesToAddress a) (.plain false 0) }
  else { s with long := fun x => if x = a then true else s.long x }

/-- x/evm/keeper/erc20.go:372-402 (`ERC20Keeper.SendCoins`): both addresses are converted to EVM addresses, the
sender as signer. (The account that the registration of a store creates for the recipient's EVM address,
x/evm/keeper/erc20_stores.go:33-46, is not modelled.) -/
def ekSend (g : Cfg) (f r : Bytes) (coins : Coins) (s : State) : Option State :=
  match convert s.accts f true with
  | none => none
  | some (ef, m1) =>
    match convert m1 r false with
    | none => none
    | some (er, m2) =>
      match sendCoins g.chain ef er coins s.w with
      | none => none
      | some w' => some { s with w := w', accts := m2 }

/-- x/bank/keeper/send.go:116-164 (`SendCoins`; events omitted) -/
def sendCoinsB (g : Cfg) (f r : Bytes) (coins : Coins) (s : State) : Res State :=
  match apply g.restr s f r coins with
  | none => .err
  | some r' =>
    match ekSend g f r' coins s with
    | none => .err
    | some s1 => if hasAccount s1 r' then .ok s1 else .ok (createAccount s1 r')

/-- x/bank/keeper/send.go:274-286 and 290-297 (`getSendEnabled`, `getSendEnabledOrDefault`) -/
def sendEnabledOrDefault (s : State) (d : Str) (dflt : Bool) : Bool :=
  match s.enabled d with
  | some v => v
  | none => dflt

/-- x/bank/keeper/send.go:174-188 (`IsSendEnabledCoins`) -/
def isSendEnabledCoins (s : State) (coins : List (Str × Int)) : Bool :=
  coins.all fun x => sendEnabledOrDefault s x.1 s.dflt

/-- Strictly increasing in the denom (cosmos-sdk types/coin.go `Coins.Validate`). -/
def sortedDenoms : List (Str × Int) → Bool
  | [] => true
  | [_] => true
  | x :: y :: rest => decide (x.1 < y.1) && sortedDenoms (y :: rest)

/-- cosmos-sdk types/coin.go `Coins.IsValid` (outside /repo, by contract): valid denoms, positive amounts, strictly
sorted; the empty list is valid. -/
def coinsValid (g : Cfg) (coins : List (Str × Int)) : Bool :=
  coins.all (fun x => g.validDenom x.1 && decide (0 < x.2)) && sortedDenoms coins

/-- cosmos-sdk `Coins.IsAllPositive`: false for the empty list. -/
def allPositive (coins : List (Str × Int)) : Bool :=
  !coins.isEmpty && coins.all fun x => decide (0 < x.2)

/-- Amounts as the ledger takes them (they are positive when this is used). -/
def natCoins (coins : List (Str × Int)) : Coins := coins.map fun x => (x.1, x.2.toNat)

/-- cosmos-sdk x/bank/types `MsgSend` -/
structure MsgSend where
  from_ : Str
  to : Str
  amount : List (Str × Int)

/-- x/bank/keeper/msg_server.go:31-85 (`Send`) -/
def msgSend (g : Cfg) (m : MsgSend) (s : State) : Res State :=
  match g.parseAddr m.from_ with
  | none => .err
  | some f =>
    match g.parseAddr m.to with
    | none => .err
    | some r =>
      if !coinsValid g m.amount then .err
      else if !allPositive m.amount then .err
      else if !isSendEnabledCoins s m.amount then .err
      else if g.blockedAddrs r then .err
      else sendCoinsB g f r (natCoins m.amount) s

/-! ### Modules -/

/-- x/bank/keeper/keeper.go:217-231 (`SendCoinsFromModuleToAccount`) -/
def moduleToAccount (g : Cfg) (m : Str) (r : Bytes) (coins : Coins) (s : State) : Res State :=
  match g.modules m with
  | none => .panic
  | some mo => if g.blockedAddrs r then .err else sendCoinsB g mo.addr r coins s

/-- x/bank/keeper/keeper.go:234-249 (`SendCoinsFromModuleToModule`; that `GetModuleAccount` creates the account is
not modelled) -/
def moduleToModule (g : Cfg) (m m' : Str) (coins : Coins) (s : State) : Res State :=
  match g.modules m with
  | none => .panic
  | some mo =>
    match g.modules m' with
    | none => .panic
    | some mo' => sendCoinsB g mo.addr mo'.addr coins s

/-- x/bank/keeper/keeper.go:252-262 (`SendCoinsFromAccountToModule`) -/
def accountToModule (g : Cfg) (f : Bytes) (m : Str) (coins : Coins) (s : State) : Res State :=
  match g.modules m with
  | none => .panic
  | some mo => sendCoinsB g f mo.addr coins s

/-- x/bank/keeper/keeper.go:84-113 (`DelegateCoins`): note that it calls the ledger directly. -/
def delegateCoins (g : Cfg) (f r : Bytes) (coins : Coins) (s : State) : Res State :=
  if !hasAccount s r then .err
  else if !coinsValid g (coins.map fun x => (x.1, (x.2 : Int))) then .err
  else match ekSend g f r coins s with
    | none => .err
    | some s' => .ok s'

/-- x/bank/keeper/keeper.go:119-148 (`UndelegateCoins`) -/
def undelegateCoins (g : Cfg) (modAddr r : Bytes) (coins : Coins) (s : State) : Res State :=
  if !hasAccount s modAddr then .err
  else if !coinsValid g (coins.map fun x => (x.1, (x.2 : Int))) then .err
  else match ekSend g modAddr r coins s with
    | none => .err
    | some s' => .ok s'

/-- x/bank/keeper/keeper.go:266-280 (`DelegateCoinsFromAccountToModule`; `GetModuleAccount` makes sure the module's
account exists) -/
def delegateToModule (g : Cfg) (f : Bytes) (m : Str) (coins : Coins) (s : State) : Res State :=
  match g.modules m with
  | none => .panic
  | some mo => if !mo.staking then .panic else delegateCoins g f mo.addr coins s

/-- x/bank/keeper/keeper.go:284-298 (`UndelegateCoinsFromModuleToAccount`) -/
def undelegateFromModule (g : Cfg) (m : Str) (r : Bytes) (coins : Coins) (s : State) : Res State :=
  match g.modules m with
  | none => .panic
  | some mo => if !mo.staking then .panic else undelegateCoins g mo.addr r coins s

/-- x/evm/keeper/erc20.go:287-327 (`ERC20Keeper.MintCoins`): convert, then the loop. -/
def ekMint (g : Cfg) (r : Bytes) (coins : Coins) (s : State) : Option State :=
  match convert s.accts r false with
  | none => none
  | some (er, m1) =>
    match mintCoins g.chain g.tp er coins s.w with
    | none => none
    | some w' => some { s with w := w', accts := m1 }

/-- x/evm/keeper/erc20.go:59-95 (`ERC20Keeper.BurnCoins`): convert, then the loop. -/
def ekBurn (g : Cfg) (f : Bytes) (coins : Coins) (s : State) : Option State :=
  match convert s.accts f false with
  | none => none
  | some (ef, m1) =>
    match burnCoins g.chain g.tp ef coins coins s.w with
    | none => none
    | some w' => some { s with w := w', accts := m1 }

/-- x/bank/keeper/keeper.go:301-335 (`MintCoins`) -/
def bankMint (g : Cfg) (m : Str) (coins : Coins) (s : State) : Res State :=
  if !g.mintOk coins then .err
  else match g.modules m with
    | none => .panic
    | some mo =>
      if !mo.minter then .panic
      else if !coinsValid g (coins.map fun x => (x.1, (x.2 : Int))) then .err
      else match ekMint g mo.addr coins s with
        | none => .err
        | some s' => .ok s'

/-- x/bank/keeper/keeper.go:339-365 (`BurnCoins`) -/
def bankBurn (g : Cfg) (m : Str) (coins : Coins) (s : State) : Res State :=
  match g.modules m with
  | none => .panic
  | some mo =>
    if !mo.burner then .panic
    else match ekBurn g mo.addr coins s with
      | none => .err
      | some s' => .ok s'

/-! ### Administration -/

/-- x/bank/keeper/send.go:228-232 (`SetAllSendEnabled`) -/
def setAllEnabled : List (Str × Bool) → State → State
  | [], s => s
  | (d, v) :: rest, s => setAllEnabled rest { s with enabled := fun x => if x = d then some v else s.enabled x }

/-- x/bank/keeper/send.go:236-240 (`DeleteSendEnabled`) -/
def deleteEnabled : List Str → State → State
  | [], s => s
  | d :: rest, s => deleteEnabled rest { s with enabled := fun x => if x = d then none else s.enabled x }

/-- The duplicate test of msg_server.go:113-124. -/
def noDup : List Str → Bool
  | [] => true
  | d :: rest => !rest.contains d && noDup rest

/-- x/bank/keeper/msg_server.go:108-142 (`SetSendEnabled`; `Validate` checks the denom) -/
def msgSetSendEnabled (g : Cfg) (authority : Str) (entries : List (Str × Bool)) (useDefault : List Str) (s : State) :
    Res State :=
  if g.authority ≠ authority then .err
  else if !noDup (entries.map Prod.fst) then .err
  else if !entries.all (fun x => g.validDenom x.1) then .err
  else if !useDefault.all g.validDenom then .err
  else .ok (deleteEnabled useDefault (setAllEnabled entries s))

/-- cosmos-sdk x/bank/types `Params` -/
structure BankParams where
  sendEnabled : List (Str × Bool)
  dflt : Bool

/-- x/bank/keeper/send.go:94-105 (`SetParams`) -/
def setParams (p : BankParams) (s : State) : State :=
  { setAllEnabled p.sendEnabled s with dflt := p.dflt }

/-- x/bank/keeper/msg_server.go:91-106 (`UpdateParams`); `Params.Validate` (cosmos-sdk) refuses the deprecated
`SendEnabled` entries. -/
def msgUpdateParams (g : Cfg) (authority : Str) (p : BankParams) (s : State) : Res State :=
  if g.authority ≠ authority then .err
  else if !p.sendEnabled.isEmpty then .err
  else .ok (setParams p s)

/-- x/bank/keeper/custom_msg_server.go:26-38 (`SetDenomMetadata`) with keeper.go:210-212; `valid`: the SDK's
`Metadata.Validate`. -/
def msgSetMetadata (g : Cfg) (valid : Metadata → Bool) (authority : Str) (md : Metadata) (s : State) : Res State :=
  if g.authority ≠ authority then .err
  else if !valid md then .err
  else .ok { s with mdata := fun d => if d = md.base then some md else s.mdata d }

/-! ### Views -/

/-- A callback with state `β`: it may ask to stop. -/
abbrev Cb (α β : Type) := α → β → β × Bool

/-- Feed a list to a callback until it asks to stop; also say whether it did (`Walk` of the collections library, used
by x/evm/keeper/erc20.go:243-267). -/
def feed {α β : Type} (cb : Cb α β) : List α → β → β × Bool
  | [], b => (b, false)
  | a :: rest, b => match cb a b with
    | (b', true) => (b', true)
    | (b', false) => feed cb rest b'

/-- The coins of the account at EVM address `a` as `IterateAccountBalances` visits them (x/evm/keeper/erc20.go:243-267).
`mask`: the checksum rule of hex addresses. -/
def accountCoins (mask : Str → List Bool) (s : State) (a : Addr) : Coins :=
  (accountBalances s.w a).map fun x => (contractToDenom mask s.w.maps x.1, x.2)

/-- x/bank/keeper/view.go:134-146 (`IterateAllBalances`): over the existing accounts (given as a list, in the order
the account keeper iterates); the callback's wish to stop ends the walk of one account only. -/
def iterateAll {β : Type} (coinsOf : Bytes → List (Str × Nat)) (accounts : List Bytes)
    (cb : Bytes → Cb (Str × Nat) β) (b : β) : β :=
  accounts.foldl (fun b a => (feed (cb a) (coinsOf a) b).1) b

/-- x/bank/keeper/grpc_query.go:178-203 (`DenomMetadata`); `contract`: `ek.GetMetadata`, which asks the contract. -/
def queryMetadata (g : Cfg) (contract : Str → Option Metadata) (d : Str) (s : State) : Option Metadata :=
  if !g.validDenom d then none
  else match s.mdata d with
    | some md => some md
    | none => contract d

/-- x/bank/keeper/grpc_query.go:206-225 (`DenomMetadataByQueryString`) -/
def queryMetadataByString (g : Cfg) (_contract : Str → Option Metadata) (d : Str) (s : State) : Option Metadata :=
  if !g.validDenom d then none else s.mdata d

/-- x/bank/keeper/grpc_query.go:238-250 (`SendEnabled` for given denoms) -/
def querySendEnabled (denoms : List Str) (s : State) : List (Str × Bool) :=
  denoms.filterMap fun d => (s.enabled d).map fun v => (d, v)

/-- x/evm/keeper/erc20.go:175-200 (`GetPaginatedBalances` without the pagination, which `Verif.Paging`
covers with the final sort): unlike `accountCoins`, zero balances are listed. -/
def allBalances (mask : Str → List Bool) (s : State) (a : Addr) : Coins :=
  (s.w.stores a).map fun k => (contractToDenom mask s.w.maps k, balanceOf s.w k a)

/-! ### Genesis -/

/-- cosmos-sdk x/bank/types `GenesisState` -/
structure Genesis where
  params : BankParams
  enabled : List (Str × Bool)
  balances : List (Bytes × Coins)
  supply : Coins
  mdata : List Metadata

/-- How much of denom `d` a list of coins names. -/
def amountOf (coins : Coins) (d : Str) : Nat := (coins.map fun x => if x.1 = d then x.2 else 0).sum

/-- x/bank/keeper/genesis.go:25-36: mint the balances. (`SanitizeGenesisBalances` sorts them; the order does not
matter for the theorems, which hold for every order.) -/
def initBalances (g : Cfg) : List (Bytes × Coins) → State → Option State
  | [], s => some s
  | (a, cs) :: rest, s => match ekMint g a cs s with
    | none => none
    | some s' => initBalances g rest s'

/-- x/bank/keeper/genesis.go:38 and cosmos-sdk `Coins.Equal`: the stated supply is empty or is, as a list without
zero entries, the sum of the balances. -/
def supplyOk (g : Genesis) : Bool :=
  let total := (g.balances.map Prod.snd).flatten
  g.supply.isEmpty ||
    (g.supply.all (fun x => decide (amountOf total x.1 = x.2) && decide (x.2 ≠ 0)) &&
     total.all fun x => decide (amountOf g.supply x.1 = amountOf total x.1))

/-- Metadata entries, in order (genesis.go:42-44). -/
def setAllMeta : List Metadata → State → State
  | [], s => s
  | md :: rest, s => setAllMeta rest { s with mdata := fun d => if d = md.base then some md else s.mdata d }

/-- x/bank/keeper/genesis.go:13-45 (`InitGenesis`); `none`: panic. -/
def initGenesis (g : Cfg) (ge : Genesis) (s : State) : Option State :=
  match initBalances g ge.balances (setAllEnabled ge.enabled (setParams ge.params s)) with
  | none => none
  | some s' => if supplyOk ge then some (setAllMeta ge.mdata s') else none

/-- x/bank/keeper/genesis.go:48-61 (`ExportGenesis`) with view.go:83-106 and erc20.go:202-219: balances of the
existing accounts (`accounts`), without those that hold nothing; supplies of the registered contracts (`regs`), with
zero supplies; `denoms`, `mds`: the denoms with a `SendEnabled` entry and with metadata. -/
def exportGenesis (mask : Str → List Bool) (accounts : List Addr) (regs : List Addr) (denoms mds : List Str)
    (s : State) : Genesis where
  params := ⟨[], s.dflt⟩
  enabled := denoms.filterMap fun d => (s.enabled d).map fun v => (d, v)
  balances := accounts.filterMap fun a =>
    if accountCoins mask s a = [] then none else some (a.bytes, accountCoins mask s a)
  supply := regs.map fun k => (contractToDenom mask s.w.maps k, supplyOf s.w k)
  mdata := mds.filterMap s.mdata

/-- app/modules.go:189-193 with x/evm/keeper/genesis.go:93-163: a chain restarted from an export first gets back its
accounts and its EVM state (C34), and only then runs the bank's import; the bank's own entries start empty. -/
def restart (g : Cfg) (ge : Genesis) (s : State) : Option State :=
  initGenesis g ge { s with dflt := false, enabled := fun _ => none, mdata := fun _ => none }

end Verif.Bank
