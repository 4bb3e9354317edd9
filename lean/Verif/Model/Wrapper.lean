import Verif.Model.Tokens
/-
Model of the ERC20 wrapper contract: x/evm/contracts/erc20_wrapper/ERC20Wrapper.sol, over ERC20 contracts of the two
kinds of Model/Tokens (foreign token code is not modelled).
-/
namespace Verif.Wrapper
open Verif Verif.Tokens

/-- Fixed surroundings: the chain, the wrapper's own address, and the address of the n-th contract of the factory. -/
structure Env where
  chain : Chain
  self : Addr
  deployed : Nat → Addr

/-- Chain state relevant to the wrapper. -/
structure WS where
  /-- ERC20 contracts (with their `sudo` flag); `none`: no code -/
  ts : Addr → Option (Bool × Token)
  /-- `decimals()` of each token (immutable, ERC20.sol:22) -/
  dec : Addr → Nat
  /-- ERC20Wrapper.sol:31 `wrappedTokens`; `none` is the zero address -/
  wrapped : Addr → Option Addr
  /-- ERC20Wrapper.sol:32 `originTokens` -/
  origin : Addr → Option Addr
  /-- ERC20Wrapper.sol:33 `ibcCallBack`: sender, wrapped token (its denom, resolved), amount -/
  cbs : Nat → Option (Addr × Addr × Nat)
  /-- ERC20Wrapper.sol:29 `callBackId` -/
  cbId : Nat
  /-- contracts the factory has deployed -/
  nonce : Nat

/-- Replace one token. -/
def upd (ts : Addr → Option (Bool × Token)) (a : Addr) (v : Bool × Token) : Addr → Option (Bool × Token) :=
  fun x => if x = a then some v else ts x

/-- A high-level Solidity call: reverts if there is no code at the address. -/
def solCall (c : Chain) (ts : Addr → Option (Bool × Token)) (caller a : Addr) (call : Call) :
    Option (Addr → Option (Bool × Token)) :=
  match ts a with
  | none => none
  | some (b, t) => match exec c b caller call t with
    | none => none
    | some t' => some (upd ts a (b, t'))

/-- `10 ** n` in checked `uint256` arithmetic. -/
def pow10 (n : Nat) : Option Nat := if 10 ^ n < 2 ^ 256 then some (10 ^ n) else none

/-- Checked multiplication. -/
def mulU (x y : Nat) : Option Nat := if x * y < 2 ^ 256 then some (x * y) else none

/-- The conversion of ERC20Wrapper.sol:145-160. -/
def scale (amount d nd : Nat) : Option Nat :=
  if nd < d then (pow10 (d - nd)).map fun f => amount / f
  else if d < nd then match pow10 (nd - d) with
    | none => none
    | some f => mulU amount f
  else some amount

/-- ERC20Wrapper.sol:145-160 (`_convertDecimal`) -/
def convertDecimal (amount d nd : Nat) : Option Nat :=
  match scale amount d nd with
  | none => none
  | some v => if v = 0 then none else some v

/-- ERC20Factory.sol:10-25 (`createERC20`), called by `owner`: `new` fails if there already is a contract. -/
def create (e : Env) (owner : Addr) (decimals : Nat) (s : WS) : Option (WS × Addr) :=
  let a := e.deployed s.nonce
  match s.ts a with
  | some _ => none
  | none => some ({ s with
      ts := upd s.ts a (true, Token.fresh owner)
      dec := fun x => if x = a then decimals else s.dec x
      nonce := s.nonce + 1 }, a)

/-- ERC20Wrapper.sol:133-143 (`_ensureWrappedTokenExists`; `name()` and `symbol()` need code at `token`). -/
def ensureWrapped (e : Env) (token : Addr) (s : WS) : Option WS :=
  match s.wrapped token with
  | some _ => some s
  | none =>
    if (s.ts token).isNone then none
    else match create e e.self 6 s with
      | none => none
      | some (s1, w) => some { s1 with
          wrapped := fun x => if x = token then some w else s1.wrapped x
          origin := fun x => if x = w then some token else s1.origin x }

/-- ERC20Wrapper.sol:43-82 (`wrap`), without the dispatch of the IBC transfer message, which runs later and is
modelled as a transfer by the chain. -/
def wrap (e : Env) (user token : Addr) (amount : Nat) (s : WS) : Option WS :=
  match ensureWrapped e token s with
  | none => none
  | some s1 =>
    match solCall e.chain s1.ts e.self token (.transferFrom user e.self amount) with
    | none => none
    | some ts2 =>
      match convertDecimal amount (s1.dec token) 6 with
      | none => none
      | some wa =>
        match s1.wrapped token with
        | none => none
        | some w =>
          match solCall e.chain ts2 e.self w (.mint e.self wa) with
          | none => none
          | some ts3 =>
            if s1.cbId + 1 < 18446744073709551616 then some { s1 with
              ts := ts3
              cbId := s1.cbId + 1
              cbs := fun i => if i = s1.cbId + 1 then some (user, w, wa) else s1.cbs i }
            else none

/-- ERC20Wrapper.sol:87-109 (`unwrap`), called by `sender` (`msg.sender`); the denom is already resolved to `w`. -/
def unwrap (e : Env) (sender w receiver : Addr) (wa : Nat) (s : WS) : Option WS :=
  match s.origin w with
  | none => none
  | some o =>
    match solCall e.chain s.ts e.self w (.burnFrom sender wa) with
    | none => none
    | some ts1 =>
      match convertDecimal wa 6 (s.dec o) with
      | none => none
      | some amount =>
        match solCall e.chain ts1 e.self o (.transfer receiver amount) with
        | none => none
        | some ts2 => some { s with ts := ts2 }

/-- ERC20Wrapper.sol:111-130 (`ibc_ack` with `success = false`, `ibc_timeout`, `_handleFailedIbcTransfer`). The IBC hook
calls it with the sender of the packet, the wrapper itself, as `msg.sender` (app/ibc-hooks/ack.go:72-76,
timeout.go); `unwrap` is called internally and sees that `msg.sender`. An unused id has the empty denom, which does
not resolve. -/
def failedTransfer (e : Env) (sender : Addr) (id : Nat) (s : WS) : Option WS :=
  match s.cbs id with
  | none => none
  | some (user, w, wa) => unwrap e sender w user wa s

end Verif.Wrapper
