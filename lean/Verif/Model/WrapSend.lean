import Verif.Model.Wrapper
import Verif.Model.WrapMsg
/-
A transaction that calls `wrap` of the ERC20 wrapper as a whole: the contract (Model/Wrapper.lean), the text of the IBC transfer it
sends (Model/WrapMsg.lean), and the transfer itself, which is dispatched after the contract (x/evm/keeper/context.go:435-463). If
any of them fails, the transaction does.

Outside /repo, by contract: the transfer application escrows the coins of a token that comes from this chain: a bank transfer from the
sender to the escrow account of the channel, here a call of `sudoTransfer` of the token's contract by the chain
(x/evm/keeper/erc20.go:365-405); its own validation of channel, timeout and receiver is not modelled.
-/
namespace Verif.WrapSend
open Verif Verif.Text Verif.Tokens Verif.Wrapper Verif.WrapMsg

/-- How addresses and denoms are written on the chain: `to_denom`, `to_cosmos_address` of the wrapper, and back; the escrow account
of a channel. -/
structure Names where
  denomOf : Addr → Str
  selfText : Str
  resolve : Str → Option Addr
  escrow : Str → Addr

/-- ERC20Wrapper.sol:69-81: what `_ibc_transfer` is called with, on the state after the rest of `wrap`; the amount is the one recorded
for the callback. -/
def argsOf (x : Names) (e : Env) (channel receiver : Str) (timeout : Nat) (w : Addr) (wa : Nat) (s : WS) : Args :=
  { channel := channel, denom := x.denomOf w, amount := wa, timeout := timeout, receiver := receiver, selfText := x.selfText,
    callBackId := s.cbId, self := e.self }

/-- The transfer moves the coins from the wrapper to the escrow account. -/
def escrowed (x : Names) (e : Env) (t : Transfer) (s : WS) : Option WS :=
  match x.resolve t.denom with
  | none => none
  | some a =>
    if t.amount ≤ 0 then none
    else (solCall e.chain s.ts e.chain.chainAddr a (.sudoTransfer e.self (x.escrow t.channel) t.amount.toNat)).map fun ts =>
      { s with ts := ts }

/-- ERC20Wrapper.sol:43-82 (`wrap`) in a transaction of `user`, with the dispatch of its message. -/
def wrapTx (x : Names) (e : Env) (user token : Addr) (amount : Nat) (channel receiver : Str) (timeout : Nat) (s : WS) : Option WS :=
  match wrap e user token amount s with
  | none => none
  | some s1 =>
    match s1.cbs s1.cbId with
    | none => none
    | some c =>
      match dispatched false (argsOf x e channel receiver timeout c.2.1 c.2.2 s1) with
      | none => none
      | some t => escrowed x e t s1

end Verif.WrapSend
