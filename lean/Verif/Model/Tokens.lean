import Verif.Model.Denom
/-
Model of the ERC20 contracts (x/evm/contracts/erc20/ERC20.sol, initia_erc20/InitiaERC20.sol) as a state machine,
of the ERC20 registry (x/evm/keeper/erc20_stores.go) and of the bank ledger built on them
(x/evm/keeper/erc20.go).
-/
namespace Verif.Tokens
open Verif Verif.Denom

/-- Storage of one ERC20 contract (ERC20.sol:18-23, Ownable.sol:10). -/
structure Token where
  bal : Addr → Nat
  allow : Addr → Addr → Nat
  supply : Nat
  owner : Addr

/-- The constructor (ERC20.sol:37-41, Ownable.sol:17-19). -/
def Token.fresh (owner : Addr) : Token := ⟨fun _ => 0, fun _ _ => 0, 0, owner⟩

/-- What the contracts ask the chain (cosmos precompile): blocked and module addresses; and the chain's own
address 0x1 (ERC20ACL.sol:7). -/
structure Chain where
  blocked : Addr → Bool
  isModule : Addr → Bool
  chainAddr : Addr
  zero : Addr

/-- Solidity 0.8 checked addition on `uint256`. -/
def addU (x y : Nat) : Option Nat := if x + y < 2 ^ 256 then some (x + y) else none

/-- Solidity 0.8 checked subtraction. -/
def subU (x y : Nat) : Option Nat := if y ≤ x then some (x - y) else none

/-- Assignment to a mapping entry. -/
def setB (f : Addr → Nat) (a : Addr) (v : Nat) : Addr → Nat := fun x => if x = a then v else f x

/-- Assignment to a nested mapping entry. -/
def set2 (f : Addr → Addr → Nat) (a b : Addr) (v : Nat) : Addr → Addr → Nat :=
  fun x y => if x = a ∧ y = b then v else f x y

/-- ERC20.sol:43-51 (`_transfer`; the store registration is in `regTarget`). -/
def doTransfer (t : Token) (s r : Addr) (amt : Nat) : Option Token :=
  match subU (t.bal s) amt with
  | none => none
  | some v =>
    let b1 := setB t.bal s v
    match addU (b1 r) amt with
    | none => none
    | some w => some { t with bal := setB b1 r w }

/-- ERC20.sol:53-60 (`_mint`) -/
def doMint (t : Token) (to : Addr) (amt : Nat) : Option Token :=
  match addU (t.bal to) amt, addU t.supply amt with
  | some v, some s => some { t with bal := setB t.bal to v, supply := s }
  | _, _ => none

/-- ERC20.sol:62-66 (`_burn`) -/
def doBurn (t : Token) (f : Addr) (amt : Nat) : Option Token :=
  match subU (t.bal f) amt, subU t.supply amt with
  | some v, some s => some { t with bal := setB t.bal f v, supply := s }
  | _, _ => none

/-- `allowance[from][spender] -= amount` (ERC20.sol:87, 106) -/
def spendAllowance (t : Token) (f spender : Addr) (amt : Nat) : Option Token :=
  match subU (t.allow f spender) amt with
  | none => none
  | some v => some { t with allow := set2 t.allow f spender v }

/-- The state-changing entry points. -/
inductive Call where
  | transfer (to : Addr) (amt : Nat)
  | approve (spender : Addr) (amt : Nat)
  | transferFrom (sender recipient : Addr) (amt : Nat)
  | mint (to : Addr) (amt : Nat)
  | burn (amt : Nat)
  | burnFrom (f : Addr) (amt : Nat)
  | sudoTransfer (sender recipient : Addr) (amt : Nat)
  | sudoMint (to : Addr) (amt : Nat)
  | sudoBurn (f : Addr) (amt : Nat)
  | transferOwnership (newOwner : Addr)

/-- ERC20.sol:68-125 and Ownable.sol:33-38: run a call by `caller`; `none` is a revert. `sudo`: does the contract
have `sudoMint`/`sudoBurn` (ERC20.sol does, InitiaERC20.sol does not: unknown selector, revert). -/
def exec (c : Chain) (sudo : Bool) (caller : Addr) (call : Call) (t : Token) : Option Token :=
  match call with
  | .transfer to amt => if c.blocked to then none else doTransfer t caller to amt
  | .approve spender amt => some { t with allow := set2 t.allow caller spender amt }
  | .transferFrom s r amt =>
    if c.blocked r then none
    else match spendAllowance t s caller amt with
      | none => none
      | some t' => doTransfer t' s r amt
  | .mint to amt => if c.blocked to then none else if caller ≠ t.owner then none else doMint t to amt
  | .burn amt => if c.isModule caller then none else doBurn t caller amt
  | .burnFrom f amt =>
    if c.isModule f then none
    else match spendAllowance t f caller amt with
      | none => none
      | some t' => doBurn t' f amt
  | .sudoTransfer s r amt => if caller ≠ c.chainAddr then none else doTransfer t s r amt
  | .sudoMint to amt => if ¬ sudo ∨ caller ≠ c.chainAddr then none else doMint t to amt
  | .sudoBurn f amt => if ¬ sudo ∨ caller ≠ c.chainAddr then none else doBurn t f amt
  | .transferOwnership n => if caller ≠ t.owner then none else if n = c.zero then none else some { t with owner := n }

/-- The account whose store the call registers (`register_erc20_store` modifier, ERC20.sol:47, 56). -/
def regTarget : Call → Option Addr
  | .transfer to _ => some to
  | .transferFrom _ r _ => some r
  | .mint to _ => some to
  | .sudoTransfer _ r _ => some r
  | .sudoMint to _ => some to
  | _ => none

/-- Chain state relevant to tokens. -/
structure World where
  maps : Maps
  /-- deployed ERC20 contracts (with their `sudo` flag); `none`: no code at that address -/
  tokens : Addr → Option (Bool × Token)
  /-- `ERC20s`: registered contracts -/
  erc20s : Addr → Bool
  /-- `ERC20Stores`: per account the registered contracts, in iteration order -/
  stores : Addr → List Addr
  /-- number of contracts the factory has deployed -/
  factoryNonce : Nat

/-- Parameters of the registry (x/evm/types/params.go) and the factory. -/
structure Params where
  allowCustom : Bool
  /-- allow list, already parsed; empty: everything allowed -/
  allowList : List Addr
  factory : Addr
  /-- address of the n-th contract deployed by the factory -/
  deployed : Nat → Addr
  feeCollector : Addr

/-- x/evm/keeper/erc20_stores.go:33-46 (`RegisterStore`, without the account creation). -/
def registerStore (w : World) (a contract : Addr) : World :=
  if w.erc20s contract then
    if contract ∈ w.stores a then w
    else { w with stores := fun x => if x = a then w.stores a ++ [contract] else w.stores x }
  else w

/-- x/evm/keeper/erc20_stores.go:49-78 (`Register`): a contract registers itself. -/
def register (p : Params) (w : World) (contract : Addr) : Option World :=
  if !p.allowCustom then none
  else if w.erc20s contract then some w
  else if p.allowList ≠ [] ∧ contract ∉ p.allowList then none
  else some { w with erc20s := fun x => if x = contract then true else w.erc20s x }

/-- x/evm/keeper/erc20_stores.go:81-89 (`RegisterFromFactory`) -/
def registerFromFactory (p : Params) (w : World) (caller contract : Addr) : Option World :=
  if p.factory ≠ caller then none
  else some { w with erc20s := fun x => if x = contract then true else w.erc20s x }

/-- A message call to `contract` by `caller`. Calling an account without code succeeds and does nothing
(go-ethereum `EVM.Call`). Only ERC20 contracts of the two kinds above are modelled. -/
def callToken (c : Chain) (w : World) (caller contract : Addr) (call : Call) : Option World :=
  match w.tokens contract with
  | none => some w
  | some (sudo, t) =>
    match exec c sudo caller call t with
    | none => none
    | some t' =>
      let w1 := match regTarget call with
        | some a => registerStore w a contract
        | none => w
      some { w1 with tokens := fun x => if x = contract then some (sudo, t') else w1.tokens x }

/-- ERC20Factory.sol:10-25 (`createERC20`): deploy, register, hand over to the caller. -/
def factoryCreate (p : Params) (w : World) (caller : Addr) : World × Addr :=
  let a := p.deployed w.factoryNonce
  ({ w with
      tokens := fun x => if x = a then some (true, Token.fresh caller) else w.tokens x
      erc20s := fun x => if x = a then true else w.erc20s x
      factoryNonce := w.factoryNonce + 1 }, a)

/-- x/evm/keeper/erc20.go:383-399: the loop of `SendCoins` (coins are (denom, amount)). An error leaves the
transaction to be rolled back by the caller. -/
def sendCoins (c : Chain) (from_ to : Addr) : List (Str × Nat) → World → Option World
  | [], w => some w
  | (d, amt) :: rest, w =>
    match denomToContract w.maps d with
    | none => none
    | some a => match callToken c w c.chainAddr a (.sudoTransfer from_ to amt) with
      | none => none
      | some w' => sendCoins c from_ to rest w'

/-- x/evm/keeper/erc20.go:293-324 with 329-358: the loop of `MintCoins`. -/
def mintCoins (c : Chain) (p : Params) (to : Addr) : List (Str × Nat) → World → Option World
  | [], w => some w
  | (d, amt) :: rest, w =>
    if isERC20Denom d then none
    else
      let w1 : World := match w.maps.toAddr d with
        | some _ => w
        | none =>
          let r := factoryCreate p w c.chainAddr
          { r.1 with maps := createERC20 r.1.maps d r.2 }
      match denomToContract w1.maps d with
      | none => none
      | some a => match callToken c w1 c.chainAddr a (.sudoMint to amt) with
        | none => none
        | some w' => mintCoins c p to rest w'

/-- x/evm/keeper/erc20.go:65-92: the loop of `BurnCoins`; `all` is the whole amount. `FundCommunityPool`
(app/keepers/community_pool.go:25-27) sends the given coins to the fee collector. -/
def burnCoins (c : Chain) (p : Params) (from_ : Addr) (all : List (Str × Nat)) :
    List (Str × Nat) → World → Option World
  | [], w => some w
  | (d, amt) :: rest, w =>
    if isERC20Denom d then
      match sendCoins c from_ p.feeCollector all w with
      | none => none
      | some w' => burnCoins c p from_ all rest w'
    else match denomToContract w.maps d with
      | none => none
      | some a => match callToken c w c.chainAddr a (.sudoBurn from_ amt) with
        | none => none
        | some w' => burnCoins c p from_ all rest w'

/-- Balance of account `a` in contract `k` (x/evm/keeper/erc20.go:404-426; no code: the query fails and counts
as zero). -/
def balanceOf (w : World) (k a : Addr) : Nat :=
  match w.tokens k with
  | some (_, t) => t.bal a
  | none => 0

/-- Total supply (x/evm/keeper/erc20.go:428-450). -/
def supplyOf (w : World) (k : Addr) : Nat :=
  match w.tokens k with
  | some (_, t) => t.supply
  | none => 0

/-- x/evm/keeper/erc20.go:243-267 (`IterateAccountBalances`): the coins reported, as (contract, amount). -/
def accountBalances (w : World) (a : Addr) : List (Addr × Nat) :=
  (w.stores a).filterMap fun k => if balanceOf w k a = 0 then none else some (k, balanceOf w k a)

end Verif.Tokens
