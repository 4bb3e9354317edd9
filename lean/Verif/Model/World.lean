import Verif.Model.Bytes
import Verif.Model.CacheStack
/-
Model of the typed operations of the EVM state database (x/evm/state/statedb.go) on the stores visible
through one context.  The layering of contexts is modelled separately (Verif.Model.CacheStack); a
`World` is what is visible through one context.

Simplifications:
* the native balance is kept in a field of its own, whereas the code keeps it in the storage of the fee
  ERC20 contract and reaches it by `sudoMint`/`sudoBurn`/`balanceOf` EVM calls (statedb.go:122-185); that the two agree is
  `C70_fee_token` (Verif.Props.FeeToken);
* cosmos events (statedb.go:298-302) are not modelled;
* `keccak` is a parameter (any function to 32 bytes).
-/
namespace Verif.World
open Verif

/-- The kinds of account the code distinguishes (x/evm/types/auth.go:66-72). -/
inductive Kind
  | base
  | module
  /-- `ShorthandAccount` with the original long address -/
  | shorthand (original : Bytes)
  /-- `ContractAccount` with its `CodeHash` -/
  | contract (codeHash : Bytes)
deriving DecidableEq

/-- An auth account: kind, account number, sequence, public key (x/evm/types/auth.go, cosmos-sdk
`BaseAccount`). -/
structure Account where
  kind : Kind
  num : Nat
  seq : Nat
  pubKey : Option Bytes
deriving DecidableEq

/-- x/evm/types/auth.go:66-72 (`IsEmptyAccount`). -/
def Account.isEmpty (a : Account) : Bool :=
  match a.kind with
  | .base => a.pubKey.isNone && a.seq == 0
  | .module => false
  | .shorthand _ => false
  | .contract _ => false

/-- An EVM log (x/evm/types/log.go: address, topics, data). -/
structure Log where
  addr : Addr
  topics : List Hash
  data : Bytes
deriving DecidableEq

/-- The stores used by `StateDB` (x/evm/state/statedb.go:41-49) plus the auth accounts and the fee token
balances. Transient stores are keyed by the execution index. -/
structure World where
  /-- auth accounts with 20-byte addresses -/
  acct : Addr → Option Account
  /-- next account number of the auth module -/
  nextNum : Nat
  /-- `vmStore` -/
  vm : Bytes → Option Bytes
  /-- `transientVMStore`, keyed by (execIndex, key) — statedb.go:543,550 -/
  tstate : Nat → Hash → Option Hash
  /-- `transientCreated` -/
  created : Nat → Addr → Bool
  /-- `transientSelfDestruct` -/
  destructed : Nat → Addr → Bool
  /-- `transientLogs`, keyed by (execIndex, position) -/
  logs : Nat → Nat → Option Log
  /-- `transientLogSize` -/
  logSize : Nat → Option Nat
  /-- `transientAccessList`, keyed by (execIndex, address or address++slot) -/
  access : Nat → Bytes → Bool
  /-- `transientRefund` -/
  refund : Nat → Option Nat
  /-- fee token balances -/
  bal : Addr → Nat

/-- x/evm/state/keys.go:10 — "code" -/
def codePrefix : Bytes := [0x63, 0x6f, 0x64, 0x65]
/-- x/evm/state/keys.go:11 — "codesize" -/
def codeSizePrefix : Bytes := [0x63, 0x6f, 0x64, 0x65, 0x73, 0x69, 0x7a, 0x65]
/-- x/evm/state/keys.go:12 — "state" -/
def statePrefix : Bytes := [0x73, 0x74, 0x61, 0x74, 0x65]

/-- x/evm/state/keys.go:15-17 -/
def codeKey (a : Addr) (codeHash : Bytes) : Bytes := a.bytes ++ (codePrefix ++ codeHash)
/-- x/evm/state/keys.go:19-21 -/
def codeSizeKey (a : Addr) (codeHash : Bytes) : Bytes := a.bytes ++ (codeSizePrefix ++ codeHash)
/-- x/evm/state/keys.go:23-25 -/
def stateKey (a : Addr) (slot : Hash) : Bytes := a.bytes ++ (statePrefix ++ slot.bytes)
/-- x/evm/state/keys.go:27-29 -/
def stateKeyPrefix (a : Addr) : Bytes := a.bytes ++ statePrefix

/-- x/evm/state/keys.go:31-35 -/
def uint64ToBytes (v : Nat) : Bytes := toBE 8 v
/-- x/evm/state/keys.go:37-39 -/
def bytesToUint64 (b : Bytes) : Nat := fromBE b

/-- Point update of a function. -/
def upd {α β : Type} [DecidableEq α] (f : α → β) (a : α) (b : β) : α → β :=
  fun x => if x = a then b else f x

/-- Point update of a two-argument function. -/
def upd2 {α β γ : Type} [DecidableEq α] [DecidableEq β] (f : α → β → γ) (a : α) (b : β) (c : γ) :
    α → β → γ :=
  fun x y => if x = a ∧ y = b then c else f x y

/-! #### Readers -/

/-- statedb.go:159-185 (`GetBalance`) -/
def World.getBalance (w : World) (a : Addr) : Nat := w.bal a

/-- statedb.go:434-441 (`GetNonce`) -/
def World.getNonce (w : World) (a : Addr) : Nat :=
  match w.acct a with
  | none => 0
  | some acc => acc.seq

/-- statedb.go:331-334 (`Exist`) -/
def World.exist (w : World) (a : Addr) : Bool := (w.acct a).isSome

/-- statedb.go:319-327 (`Empty`) -/
def World.isEmpty (w : World) (a : Addr) : Bool :=
  if w.getBalance a ≠ 0 then false
  else match w.acct a with
    | none => true
    | some acc => acc.isEmpty

/-- statedb.go:337-356 (`GetCode`); a missing entry reads as no code. -/
def World.getCode (w : World) (a : Addr) : Bytes :=
  match w.acct a with
  | some { kind := .contract h, .. } => (w.vm (codeKey a h)).getD []
  | _ => []

/-- statedb.go:386-398 (`GetCodeHash`); `emptyCodeHash` is `types.EmptyCodeHash`. -/
def World.getCodeHash (emptyCodeHash : Hash) (w : World) (a : Addr) : Hash :=
  match w.acct a with
  | none => Hash.zero
  | some { kind := .contract h, .. } => bytesToHash h
  | some _ => emptyCodeHash

/-- statedb.go:401-420 (`GetCodeSize`); a missing entry reads as 0. -/
def World.getCodeSize (w : World) (a : Addr) : Nat :=
  match w.acct a with
  | some { kind := .contract h, .. } =>
    match w.vm (codeSizeKey a h) with
    | none => 0
    | some b => bytesToUint64 b
  | _ => 0

/-- statedb.go:463-477 (`GetState`) -/
def World.getState (w : World) (a : Addr) (s : Hash) : Hash :=
  match w.acct a with
  | none => Hash.zero
  | some _ =>
    match w.vm (stateKey a s) with
    | none => Hash.zero
    | some b => bytesToHash b

/-- statedb.go:549-558 (`GetTransientState`): the address argument is not used by the code. -/
def World.getTransientState (w : World) (e : Nat) (_addr : Addr) (key : Hash) : Hash :=
  (w.tstate e key).getD Hash.zero

/-- statedb.go:480-492 (`HasSelfDestructed`) -/
def World.hasSelfDestructed (w : World) (e : Nat) (a : Addr) : Bool :=
  match w.acct a with
  | none => false
  | some _ => w.destructed e a

/-- statedb.go:239-246 (`AddressInAccessList`) -/
def World.addressInAccessList (w : World) (e : Nat) (a : Addr) : Bool := w.access e a.bytes

/-- statedb.go:249-263 (`SlotInAccessList`) -/
def World.slotInAccessList (w : World) (e : Nat) (a : Addr) (s : Hash) : Bool × Bool :=
  if w.access e a.bytes = false then (false, false)
  else (true, w.access e (a.bytes ++ s.bytes))

/-- statedb.go:453-460 (`GetRefund`); `none` is the panic of a missing entry. -/
def World.getRefund (w : World) (e : Nat) : Option Nat := w.refund e

/-- statedb.go:678-696 (`Logs`): an array of `logSize` entries filled from the stored logs; `none` is the
panic of a missing size. An entry that was never written stays the zero log. -/
def World.getLogs (w : World) (e : Nat) : Option (List Log) :=
  match w.logSize e with
  | none => none
  | some n => some ((List.range n).map fun i => (w.logs e i).getD ⟨Addr.zero, [], []⟩)

/-! #### Writers. `none` is a Go panic (the EVM execution aborts). -/

/-- The mutating operations of `vm.StateDB`. -/
inductive StateOp
  | addBalance (a : Addr) (n : Nat)
  | subBalance (a : Addr) (n : Nat)
  | addRefund (g : Nat)
  | subRefund (g : Nat)
  | addAddress (a : Addr)
  | addSlot (a : Addr) (s : Hash)
  | createAccount (a : Addr)
  | createContract (a : Addr)
  | setCode (a : Addr) (code : Bytes)
  | setNonce (a : Addr) (n : Nat)
  | setState (a : Addr) (s : Hash) (v : Hash)
  | setTransientState (a : Addr) (k : Hash) (v : Hash)
  | selfDestruct (a : Addr)
  | selfDestruct6780 (a : Addr)
  | addLog (l : Log)

/-- statedb.go:122-138 (`AddBalance` by `sudoMint`): panics if the token contract's 256-bit arithmetic
overflows. -/
def World.addBalance (w : World) (a : Addr) (n : Nat) : Option World :=
  if n = 0 then some w
  else if w.bal a + n < 2 ^ 256 then some { w with bal := upd w.bal a (w.bal a + n) }
  else none

/-- statedb.go:141-156 (`SubBalance` by `sudoBurn`): panics on insufficient balance. -/
def World.subBalance (w : World) (a : Addr) (n : Nat) : Option World :=
  if n = 0 then some w
  else if n ≤ w.bal a then some { w with bal := upd w.bal a (w.bal a - n) }
  else none

/-- statedb.go:188-198 (`AddRefund`), 64-bit. -/
def World.addRefund (w : World) (e g : Nat) : Option World :=
  match w.refund e with
  | none => none
  | some r => some { w with refund := upd w.refund e (some ((r + g) % 2 ^ 64)) }

/-- statedb.go:201-215 (`SubRefund`). -/
def World.subRefund (w : World) (e g : Nat) : Option World :=
  match w.refund e with
  | none => none
  | some r => if g > r then none else some { w with refund := upd w.refund e (some (r - g)) }

/-- statedb.go:218-224 (`AddAddressToAccessList`) -/
def World.addAddress (w : World) (e : Nat) (a : Addr) : World :=
  { w with access := upd2 w.access e a.bytes true }

/-- statedb.go:227-236 (`AddSlotToAccessList`) -/
def World.addSlot (w : World) (e : Nat) (a : Addr) (s : Hash) : World :=
  let w := if w.addressInAccessList e a then w else w.addAddress e a
  { w with access := upd2 w.access e (a.bytes ++ s.bytes) true }

/-- cosmos-sdk `AccountKeeper.NewAccountWithAddress` (outside /repo, by contract): a base account with
the next account number, sequence 0 and no key; the counter advances. -/
def World.newAccount (w : World) : World × Account :=
  ({ w with nextNum := w.nextNum + 1 }, { kind := .base, num := w.nextNum, seq := 0, pubKey := none })

/-- statedb.go:266-269 (`CreateAccount`) -/
def World.createAccount (w : World) (a : Addr) : World :=
  let (w, acc) := w.newAccount
  { w with acct := upd w.acct a (some acc) }

/-- x/evm/types/auth.go:24-29 (`NewContractAccountWithAddress`) with an account number. -/
def newContractAccount (num : Nat) : Account := { kind := .contract [], num := num, seq := 0, pubKey := none }

/-- statedb.go:272-303 (`CreateContract`) -/
def World.createContract (w : World) (e : Nat) (a : Addr) : Option World :=
  let w := { w with created := upd2 w.created e a true }
  match w.acct a with
  | some acc =>
    if acc.isEmpty then some { w with acct := upd w.acct a (some (newContractAccount acc.num)) }
    else none
  | none =>
    some { w with acct := upd w.acct a (some (newContractAccount w.nextNum)), nextNum := w.nextNum + 1 }

/-- statedb.go:309-316 (`getOrNewAccount`) -/
def World.getOrNew (w : World) (a : Addr) : World × Account :=
  match w.acct a with
  | some acc => (w, acc)
  | none => w.newAccount

/-- statedb.go:360-383 (`SetCode`); the type assertion at line 371 panics when the account is neither
empty nor a contract account. -/
def World.setCode (keccak : Bytes → Hash) (w : World) (a : Addr) (code : Bytes) : Option World :=
  let (w, acc) := w.getOrNew a
  let acc := if acc.isEmpty then newContractAccount acc.num else acc
  match acc.kind with
  | .contract _ =>
    let h := (keccak code).bytes
    some { w with
      acct := upd w.acct a (some { acc with kind := .contract h })
      vm := upd (upd w.vm (codeKey a h) (some code)) (codeSizeKey a h) (some (uint64ToBytes code.length)) }
  | _ => none

/-- statedb.go:444-450 (`SetNonce`) -/
def World.setNonce (w : World) (a : Addr) (n : Nat) : World :=
  let (w, acc) := w.getOrNew a
  { w with acct := upd w.acct a (some { acc with seq := n }) }

/-- statedb.go:530-534 (`SetState`) -/
def World.setState (w : World) (a : Addr) (s v : Hash) : World :=
  { w with vm := upd w.vm (stateKey a s) (some v.bytes) }

/-- statedb.go:537-546 (`SetTransientState`): the address argument is not used by the code. -/
def World.setTransientState (w : World) (e : Nat) (a : Addr) (k v : Hash) : World :=
  if w.getTransientState e a k = v then w
  else { w with tstate := upd2 w.tstate e k (some v) }

/-- statedb.go:499-512 (`SelfDestruct`) -/
def World.selfDestruct (w : World) (e : Nat) (a : Addr) : Option World :=
  match w.acct a with
  | none => some w
  | some _ => { w with destructed := upd2 w.destructed e a true }.subBalance a (w.getBalance a)

/-- statedb.go:515-527 (`Selfdestruct6780`) -/
def World.selfDestruct6780 (w : World) (e : Nat) (a : Addr) : Option World :=
  match w.acct a with
  | none => some w
  | some _ => if w.created e a then w.selfDestruct e a else some w

/-- statedb.go:661-676 (`AddLog`) -/
def World.addLog (w : World) (e : Nat) (l : Log) : Option World :=
  match w.logSize e with
  | none => none
  | some n => some { w with
      logSize := upd w.logSize e (some (n + 1))
      logs := upd2 w.logs e n (some l) }

/-- One mutating operation of the execution with index `e`. -/
def World.step (keccak : Bytes → Hash) (e : Nat) (w : World) : StateOp → Option World
  | .addBalance a n => w.addBalance a n
  | .subBalance a n => w.subBalance a n
  | .addRefund g => w.addRefund e g
  | .subRefund g => w.subRefund e g
  | .addAddress a => some (w.addAddress e a)
  | .addSlot a s => some (w.addSlot e a s)
  | .createAccount a => some (w.createAccount a)
  | .createContract a => w.createContract e a
  | .setCode a code => w.setCode keccak a code
  | .setNonce a n => some (w.setNonce a n)
  | .setState a s v => some (w.setState a s v)
  | .setTransientState a k v => some (w.setTransientState e a k v)
  | .selfDestruct a => w.selfDestruct e a
  | .selfDestruct6780 a => w.selfDestruct6780 e a
  | .addLog l => w.addLog e l

/-- A sequence of operations, each tagged with the index of the execution that performs it (several
executions of one block, possibly nested, interleave arbitrarily). -/
def World.run (keccak : Bytes → Hash) (w : World) : List (Nat × StateOp) → Option World
  | [] => some w
  | (e, op) :: ops => match w.step keccak e op with
    | none => none
    | some w' => w'.run keccak ops

/-- statedb.go:82-95 (`NewStateDB` initialising its transient counters for a new execution index). -/
def World.newStateDB (w : World) (e : Nat) : World :=
  { w with logSize := upd w.logSize e (some 0), refund := upd w.refund e (some 0) }

/-- The address whose 20 bytes start a `vmStore` key. -/
def keyAddr (k : Bytes) : Option Addr :=
  if h : 20 ≤ k.length then some ⟨k.take 20, by simp [List.length_take]; omega⟩ else none

/-- statedb.go:629-647 (the self-destruct clean-up of `Commit`): for every address marked by this
execution burn what is left of its balance, clear all `vmStore` keys starting with the address and remove
the account. The walk handles one address after the other; the effects are on disjoint data, so they are
given pointwise. -/
def World.commitDestructs (w : World) (e : Nat) : World :=
  { w with
    bal := fun a => if w.destructed e a then 0 else w.bal a
    acct := fun a => if w.destructed e a then none else w.acct a
    vm := fun k => match keyAddr k with
      | some a => if w.destructed e a then none else w.vm k
      | none => w.vm k }

/-! #### Preparation (statedb.go:605-627) -/

/-- An EIP-2930 access list entry. -/
structure AccessTuple where
  addr : Addr
  keys : List Hash
deriving DecidableEq

/-- statedb.go:617-622 -/
def World.addTuple (w : World) (e : Nat) (t : AccessTuple) : World :=
  t.keys.foldl (fun w k => w.addSlot e t.addr k) (w.addAddress e t.addr)

/-- statedb.go:605-627 (`Prepare`); `isBerlin`/`isShanghai` are the two flags of `params.Rules` it
reads. -/
def World.prepare (w : World) (e : Nat) (isBerlin isShanghai : Bool) (sender coinbase : Addr)
    (dst : Option Addr) (precompiles : List Addr) (list : List AccessTuple) : World :=
  if isBerlin then
    let w := w.addAddress e sender
    let w := match dst with
      | some d => w.addAddress e d
      | none => w
    let w := precompiles.foldl (fun w a => w.addAddress e a) w
    let w := list.foldl (fun w t => w.addTuple e t) w
    if isShanghai then w.addAddress e coinbase else w
  else w

/-! #### Execution indices (statedb.go:81) -/

/-- What happens in one block as seen by the execution-index mechanism: a new EVM execution starts, or
execution number `e` (already started, possibly interleaved with or nested in others) performs an
operation. -/
inductive BlockOp
  | start
  | perform (e : Nat) (op : StateOp)

/-- One step. `start` is statedb.go:81 (`atomic.AddUint64(execIndex, 1)`, the wrap-around after 2^64
executions is not modelled) followed by statedb.go:83-95. `perform` by an execution that was never started
cannot happen: such a step is `none`. The counter is in memory and is never rolled back. -/
def blockStep (keccak : Bytes → Hash) : Nat × World → BlockOp → Option (Nat × World)
  | (c, w), .start => some (c + 1, w.newStateDB (c + 1))
  | (c, w), .perform e op =>
    if 1 ≤ e ∧ e ≤ c then (w.step keccak e op).map fun w' => (c, w') else none

/-- A history of a block. -/
def blockRun (keccak : Bytes → Hash) : Nat × World → List BlockOp → Option (Nat × World)
  | s, [] => some s
  | s, o :: os => match blockStep keccak s o with
    | none => none
    | some s' => blockRun keccak s' os

end Verif.World
