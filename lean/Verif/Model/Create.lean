import Verif.Model.World
/-
Model of contract creation: x/evm/keeper/context.go:333-421 (`EVMCreateWithTracer`) as far as state is concerned,
x/evm/state/statedb.go:698-723 (`GetStorageRoot`), and the part of go-ethereum's `evm.create` (core/vm/evm.go, outside
/repo, modelled by its documented order of steps) that decides whether an address may be used.
-/
namespace Verif.Create
open Verif Verif.World

/-- x/evm/state/statedb.go:714-719: some key of `vmStore` starts with the address's storage prefix. -/
def HasRecord (w : World) (a : Addr) : Prop := ∃ k, (w.vm (stateKeyPrefix a ++ k)).isSome = true

/-- x/evm/state/statedb.go:703-711: there is an account that is not empty. -/
def occupied (w : World) (a : Addr) : Bool :=
  match w.acct a with
  | some acc => !acc.isEmpty
  | none => false

open Classical in
/-- x/evm/state/statedb.go:698-723 (`GetStorageRoot`): the non-empty hash (`true`) if there is an account that is not
empty, or any storage record; the empty hash (`false`) otherwise. The iterator is a predicate here. -/
noncomputable def storageRoot (w : World) (a : Addr) : Bool :=
  if occupied w a then true else decide (HasRecord w a)

/-- go-ethereum core/vm/evm.go `create`: "ensure there's no existing contract already at the designated address" —
nonce, code hash (neither zero nor the hash of no code) or storage root. -/
noncomputable def collides (emptyCodeHash : Hash) (w : World) (a : Addr) : Bool :=
  w.getNonce a ≠ 0 ||
  (w.getCodeHash emptyCodeHash a ≠ Hash.zero && w.getCodeHash emptyCodeHash a ≠ emptyCodeHash) ||
  storageRoot w a

/-- x/evm/keeper/context.go:102-117 (`Transfer`), seen at the fee token's balances (the nested call of the token
contract is the subject of C72). `none`: panic. -/
def pay (w : World) (a b : Addr) (v : Nat) : Option World :=
  (w.subBalance a v).bind fun w => w.addBalance b v

/-- How a creation starts. -/
inductive Entry where
  /-- not even begun: the value is not there, or the nonce is exhausted; the gas is kept -/
  | refused
  /-- the address is taken: all gas is gone, the caller's nonce is used -/
  | collision (w : World)
  /-- the constructor is about to run in this state; `undo` is the state a failing constructor returns to -/
  | entered (w undo : World)
  /-- a panic: the transaction is aborted -/
  | aborted

/-- go-ethereum core/vm/evm.go `create`: the caller's nonce is used and the address becomes warm, before the snapshot. -/
def begun (eip2929 : Bool) (w : World) (e : Nat) (caller a : Addr) : World :=
  if eip2929 then (w.setNonce caller (w.getNonce caller + 1)).addAddress e a
  else w.setNonce caller (w.getNonce caller + 1)

/-- go-ethereum core/vm/evm.go `create`, up to the constructor (the chain configuration,
x/evm/types/chain_config.go:31-60, has every fork active, so the nonce starts at 1; whether the access list is used
depends on go-ethereum's treatment of `VerkleTime`, hence the flag `eip2929`). -/
noncomputable def enter (emptyCodeHash : Hash) (eip2929 : Bool) (w : World) (e : Nat) (caller a : Addr) (value : Nat) : Entry :=
  if w.getBalance caller < value then .refused
  else if w.getNonce caller + 1 = 18446744073709551616 then .refused
  else if collides emptyCodeHash (begun eip2929 w e caller a) a then .collision (begun eip2929 w e caller a)
  else match (if (begun eip2929 w e caller a).exist a then begun eip2929 w e caller a
      else (begun eip2929 w e caller a).createAccount a).createContract e a with
    | none => .aborted
    | some w3 => match pay (w3.setNonce a 1) caller a value with
      | none => .aborted
      | some w4 => .entered w4 (begun eip2929 w e caller a)

/-- What a constructor ends with: the state and the code to deploy, or a failure (revert, out of gas, code too large,
code starting with 0xEF, not enough gas to store it). -/
abbrev Constructor := World → Option (World × Bytes)

/-- How a creation ends. -/
inductive Outcome where
  | refused (w : World)
  | collision (w : World)
  | failed (w : World)
  | created (w : World)
  | aborted

/-- go-ethereum core/vm/evm.go `create` with `initNewContract`: a failing constructor is undone (C01), a successful one
has its code stored. -/
noncomputable def create (keccak : Bytes → Hash) (eip2929 : Bool) (w : World) (e : Nat) (caller a : Addr) (value : Nat)
    (init : Constructor) : Outcome :=
  match enter (keccak []) eip2929 w e caller a value with
  | .refused => .refused w
  | .collision w1 => .collision w1
  | .aborted => .aborted
  | .entered w1 undo => match init w1 with
    | none => .failed undo
    | some (w2, code) => match w2.setCode keccak a code with
      | none => .aborted
      | some w3 => .created w3

/-- go-ethereum crypto.CreateAddress, from the caller and its nonce; core/vm/evm.go `Create` reads the nonce before the
creation advances it. `derive` stands for the hash of the RLP pair. -/
noncomputable def createByNonce (keccak : Bytes → Hash) (eip2929 : Bool) (derive : Addr → Nat → Addr) (w : World) (e : Nat)
    (caller : Addr) (value : Nat) (init : Constructor) : Addr × Outcome :=
  (derive caller (w.getNonce caller),
   create keccak eip2929 w e caller (derive caller (w.getNonce caller)) value init)

/-- x/evm/keeper/context.go:423-432 (`NextContractAddress`). -/
def nextContractAddress (derive : Addr → Nat → Addr) (w : World) (caller : Addr) : Addr :=
  derive caller (w.getNonce caller)

end Verif.Create
