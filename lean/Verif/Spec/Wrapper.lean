import Verif.Model.Wrapper
import Verif.Spec.Tokens
/-
Specification vocabulary for the wrapper (C49): what can happen on the chain, and what solvency means.
-/
namespace Verif.Spec.Wrapper
open Verif Verif.Tokens Verif.Wrapper Verif.Spec.Tokens

/-- `locked` units of an origin token with `d` decimals cover `supply` units of its wrapped token (6 decimals). -/
def Covers (d locked supply : Nat) : Prop :=
  if 6 ≤ d then supply * 10 ^ (d - 6) ≤ locked else supply ≤ locked * 10 ^ (6 - d)

/-- What the chain itself (address 0x1) may do: bank transfers, except that the wrapper's own tokens are moved only by
the wrapper's own messages, which are IBC transfers of wrapped tokens; mints of denoms it made itself (a wrapped token
has an `evm/` denom, C27); burns of module balances. -/
def ChainMay (e : Env) (s : WS) (a : Addr) : Call → Prop
  | .sudoTransfer f _ _ => f ≠ e.self ∨ s.origin a ≠ none
  | .sudoMint _ _ => s.origin a = none
  | .sudoBurn f _ => f ≠ e.self
  | _ => True

/-- One event on the chain: a use of the wrapper, or anything anyone does with any ERC20 token. `nested`: may wrapped
tokens be wrapped again? -/
inductive Step (e : Env) (nested : Bool) (s : WS) : WS → Prop where
  | wrap (user token : Addr) (amount : Nat) (s' : WS) (hu : user ≠ e.self)
      (hn : nested = true ∨ s.origin token = none) (h : wrap e user token amount s = some s') : Step e nested s s'
  | unwrap (user w r : Addr) (wa : Nat) (s' : WS) (hu : user ≠ e.self) (h : unwrap e user w r wa s = some s') :
      Step e nested s s'
  | failed (sender : Addr) (id : Nat) (s' : WS) (h : failedTransfer e sender id s = some s') : Step e nested s s'
  | other (caller a : Addr) (call : Call) (ts' : Addr → Option (Bool × Token)) (hc : caller ≠ e.self)
      (hch : caller = e.chain.chainAddr → ChainMay e s a call)
      (h : solCall e.chain s.ts caller a call = some ts') : Step e nested s { s with ts := ts' }
  | create (owner a : Addr) (d : Nat) (s' : WS) (h : create e owner d s = some (s', a)) : Step e nested s s'

/-- Histories. -/
inductive Reach (e : Env) (nested : Bool) (s0 : WS) : WS → Prop where
  | init : Reach e nested s0 s0
  | step (s s' : WS) (hr : Reach e nested s0 s) (h : Step e nested s s') : Reach e nested s0 s'

/-- When the wrapper has just been deployed: nothing wrapped, no callbacks, no approvals by it, and sound
token contracts (C23). -/
structure Start (e : Env) (s : WS) : Prop where
  wrapped : ∀ k, s.wrapped k = none
  origin : ∀ k, s.origin k = none
  cbs : ∀ i, s.cbs i = none
  allow : ∀ k b t x, s.ts k = some (b, t) → t.allow e.self x = 0
  sound : ∀ k b t, s.ts k = some (b, t) → SumsTo t.bal t.supply ∧ t.supply < 2 ^ 256

/-- Every wrapped token is covered by the wrapper's holdings of its origin token. -/
def Solvent (e : Env) (s : WS) : Prop :=
  ∀ w o b t b' t', s.origin w = some o → s.ts w = some (b, t) → s.ts o = some (b', t') →
    Covers (s.dec o) (t'.bal e.self) t.supply

end Verif.Spec.Wrapper
