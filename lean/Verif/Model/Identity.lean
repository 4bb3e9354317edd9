import Verif.Model.Bytes
/-
Model of the mapping from Cosmos addresses to EVM addresses: x/evm/keeper/address.go, x/evm/types/auth.go.
-/
namespace Verif.Identity
open Verif

/-- What kind of account lies at a 20-byte address, as far as x/evm/types/auth.go:66-72 distinguishes. -/
inductive Acct where
  /-- any account type without special meaning (base accounts, interchain accounts, ...): has it a public key, and
  its sequence -/
  | plain (pubKey : Bool) (seq : Nat)
  | module
  | contract
  /-- shorthand account with the original address (kept as a bech32 string; the codec round-trips, C52) -/
  | shorthand (orig : Bytes) (seq : Nat)
deriving DecidableEq

/-- The account store at 20-byte addresses. -/
abbrev Accts := Addr → Option Acct

/-- x/evm/types/auth.go:66-72 (`IsEmptyAccount`) -/
def isEmpty : Acct → Bool
  | .plain pk seq => !pk && seq == 0
  | _ => false

/-- Assignment. -/
def put (m : Accts) (a : Addr) (x : Acct) : Accts := fun b => if b = a then some x else m b

/-- x/evm/keeper/address.go:16-54 (`convertToEVMAddress`, without the account number). `none`: error. -/
def convert (m : Accts) (addr : Bytes) (isSigner : Bool) : Option (Addr × Accts) :=
  if addr.length = 20 then some (bytesToAddress addr, m)
  else
    let s := bytesToAddress addr
    let create : Option (Addr × Accts) :=
      if isSigner then some (s, put m s (.shorthand addr 0)) else some (s, m)
    match m s with
    | none => create
    | some acc =>
      if isEmpty acc then create
      else match acc with
        | .shorthand orig _ => if orig = addr then some (s, m) else none
        | _ => none

/-- What else happens to accounts: creation at unused addresses, sequence numbers (ante handler, `increaseNonce`),
public keys (ante handler; refused for shorthand and contract accounts, auth.go:32-34, 56-58), and contract
deployment, which replaces an unused, plain account (x/evm/state/statedb.go:272-303); deployment at the address of
a shorthand account is excluded: it would need a hash collision. -/
inductive Other (m : Accts) : Accts → Prop where
  | create (a : Addr) (x : Acct) (h : m a = none) (hx : ∀ o n, x ≠ .shorthand o n) : Other m (put m a x)
  | plain (a : Addr) (pk pk' : Bool) (n n' : Nat) (h : m a = some (.plain pk n)) : Other m (put m a (.plain pk' n'))
  | bump (a : Addr) (o : Bytes) (n n' : Nat) (h : m a = some (.shorthand o n)) :
      Other m (put m a (.shorthand o n'))
  | deploy (a : Addr) (pk : Bool) (n : Nat) (h : m a = some (.plain pk n)) : Other m (put m a .contract)

end Verif.Identity
