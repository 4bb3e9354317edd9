import Verif.Model.World
/-
An abstract Ethereum state, written without store keys, encodings or account objects: what a contract
developer believes the state database to be. Used by the refinement theorems of `Props/Eth.lean` (C70).
Only the types `Addr`, `Hash`, `Bytes`, `Log` and the operation names `StateOp` are shared with the model.
-/
namespace Verif.Eth
open Verif Verif.World

/-- What an account is. -/
inductive Role
  /-- a user account; `true` if a public key is on record -/
  | user (hasKey : Bool)
  /-- a module account or the shorthand of a longer address -/
  | reserved
  /-- a contract whose constructor has not returned -/
  | building
  /-- a contract with its code -/
  | deployed (code : Bytes)
deriving DecidableEq

/-- An account. -/
structure EAcc where
  role : Role
  nonce : Nat
deriving DecidableEq

/-- What one transaction execution accumulates. -/
@[ext] structure Trans where
  /-- the refund counter; `none` before the execution starts -/
  refund : Option Nat
  /-- the logs, oldest first; `none` before the execution starts -/
  logs : Option (List Log)
  warmAddr : Addr → Bool
  warmSlot : Addr → Hash → Bool
  /-- transient storage: one for all contracts (the known deviation of C05) -/
  tload : Hash → Hash
  created : Addr → Bool
  destroyed : Addr → Bool

/-- The state. -/
@[ext] structure EState where
  acc : Addr → Option EAcc
  bal : Addr → Nat
  /-- storage words ever written, whether or not there is an account -/
  slot : Addr → Hash → Hash
  /-- per execution -/
  tr : Nat → Trans

/-! ### What can be observed -/

def EState.nonce (s : EState) (a : Addr) : Nat := ((s.acc a).map EAcc.nonce).getD 0

/-- Nobody has used the account: a keyless user account that never sent anything. -/
def EAcc.unused (x : EAcc) : Bool := x.role = .user false && x.nonce = 0

/-- EIP-161 emptiness. -/
def EState.empty (s : EState) (a : Addr) : Bool :=
  s.bal a = 0 && match s.acc a with
    | none => true
    | some x => x.unused

/-- The code at an address (empty unless a contract is deployed there). -/
def EState.code (s : EState) (a : Addr) : Bytes :=
  match s.acc a with
  | some ⟨.deployed c, _⟩ => c
  | _ => []

/-- The code hash at an address; for a contract under construction the code answers zero. -/
def EState.codeHash (keccak : Bytes → Hash) (s : EState) (a : Addr) : Hash :=
  match s.acc a with
  | none => Hash.zero
  | some ⟨.deployed c, _⟩ => keccak c
  | some ⟨.building, _⟩ => Hash.zero
  | some _ => keccak []

/-- A storage word. -/
def EState.sload (s : EState) (a : Addr) (k : Hash) : Hash :=
  if (s.acc a).isSome then s.slot a k else Hash.zero

/-! ### Operations -/

/-- Change one address's account. -/
def EState.putAcc (s : EState) (a : Addr) (x : EAcc) : EState :=
  { s with acc := fun b => if b = a then some x else s.acc b }

/-- Change one address's balance. -/
def EState.putBal (s : EState) (a : Addr) (n : Nat) : EState :=
  { s with bal := fun b => if b = a then n else s.bal b }

/-- Change what one execution accumulates. -/
def EState.putTr (s : EState) (e : Nat) (t : Trans) : EState :=
  { s with tr := fun e' => if e' = e then t else s.tr e' }

/-- The account at `a`, or a new keyless user account. -/
def EState.accOrNew (s : EState) (a : Addr) : EAcc := (s.acc a).getD ⟨.user false, 0⟩

/-- One operation of execution `e`; `none` aborts the execution. -/
def EState.step (s : EState) (e : Nat) : StateOp → Option EState
  | .addBalance a n => if n = 0 ∨ s.bal a + n < 2 ^ 256 then some (s.putBal a (s.bal a + n)) else none
  | .subBalance a n => if n ≤ s.bal a then some (s.putBal a (s.bal a - n)) else none
  | .addRefund g => (s.tr e).refund.map fun r => s.putTr e { s.tr e with refund := some ((r + g) % 2 ^ 64) }
  | .subRefund g => (s.tr e).refund.bind fun r =>
      if g ≤ r then some (s.putTr e { s.tr e with refund := some (r - g) }) else none
  | .addAddress a => some (s.putTr e { s.tr e with warmAddr := fun b => b = a || (s.tr e).warmAddr b })
  | .addSlot a k => some (s.putTr e { s.tr e with
      warmAddr := fun b => b = a || (s.tr e).warmAddr b
      warmSlot := fun b k' => (b = a && k' = k) || (s.tr e).warmSlot b k' })
  | .createAccount a => some (s.putAcc a ⟨.user false, 0⟩)
  | .createContract a =>
      if (s.accOrNew a).unused then
        some ((s.putAcc a ⟨.building, 0⟩).putTr e
          { s.tr e with created := fun b => b = a || (s.tr e).created b })
      else none
  | .setCode a c =>
      match (s.accOrNew a).role with
      | .building => some (s.putAcc a ⟨.deployed c, (s.accOrNew a).nonce⟩)
      | .deployed _ => some (s.putAcc a ⟨.deployed c, (s.accOrNew a).nonce⟩)
      | .user _ => if (s.accOrNew a).unused then some (s.putAcc a ⟨.deployed c, 0⟩) else none
      | .reserved => none
  | .setNonce a n => some (s.putAcc a ⟨(s.accOrNew a).role, n⟩)
  | .setState a k v => some { s with slot := fun b k' => if b = a ∧ k' = k then v else s.slot b k' }
  | .setTransientState _ k v => some (s.putTr e { s.tr e with
      tload := fun k' => if k' = k then v else (s.tr e).tload k' })
  | .selfDestruct a =>
      if (s.acc a).isSome then
        some ((s.putBal a 0).putTr e { s.tr e with destroyed := fun b => b = a || (s.tr e).destroyed b })
      else some s
  | .selfDestruct6780 a =>
      if (s.acc a).isSome ∧ (s.tr e).created a then
        some ((s.putBal a 0).putTr e { s.tr e with destroyed := fun b => b = a || (s.tr e).destroyed b })
      else some s
  | .addLog l => (s.tr e).logs.map fun ls => s.putTr e { s.tr e with logs := some (ls ++ [l]) }

/-- A history. -/
def EState.run (s : EState) : List (Nat × StateOp) → Option EState
  | [] => some s
  | (e, op) :: ops => (s.step e op).bind fun s' => s'.run ops

/-- The start of execution `e`. -/
def EState.start (s : EState) (e : Nat) : EState :=
  s.putTr e { s.tr e with refund := some 0, logs := some [] }

/-- The end of execution `e`: everything about the destroyed addresses disappears. -/
def EState.commit (s : EState) (e : Nat) : EState where
  acc a := if (s.tr e).destroyed a then none else s.acc a
  bal a := if (s.tr e).destroyed a then 0 else s.bal a
  slot a k := if (s.tr e).destroyed a then Hash.zero else s.slot a k
  tr := s.tr

/-- Nothing has happened yet. -/
def EState.genesis : EState where
  acc _ := none
  bal _ := 0
  slot _ _ := Hash.zero
  tr _ := ⟨none, none, fun _ => false, fun _ _ => false, fun _ => Hash.zero, fun _ => false, fun _ => false⟩

/-! ### How the stored state represents the abstract one -/

/-- The role of an account object. -/
def absRole (w : World) (a : Addr) : Kind → Bool → Role
  | .base, k => .user k
  | .module, _ => .reserved
  | .shorthand _, _ => .reserved
  | .contract h, _ => if h = [] then .building else .deployed ((w.vm (codeKey a h)).getD [])

/-- The abstract state a store content stands for. -/
def abs (w : World) : EState where
  acc a := (w.acct a).map fun x => ⟨absRole w a x.kind x.pubKey.isSome, x.seq⟩
  bal := w.bal
  slot a k := ((w.vm (stateKey a k)).map bytesToHash).getD Hash.zero
  tr e := {
    refund := w.refund e
    logs := w.getLogs e
    warmAddr := fun a => w.access e a.bytes
    warmSlot := fun a k => w.access e (a.bytes ++ k.bytes)
    tload := fun k => (w.tstate e k).getD Hash.zero
    created := w.created e
    destroyed := w.destructed e }

/-- What every reachable store content satisfies: each deployed contract's code and its size are stored
under the code's hash, nothing is stored under the missing hash, and a warm slot has a warm address. -/
structure Good (keccak : Bytes → Hash) (w : World) : Prop where
  code : ∀ a x h, w.acct a = some x → x.kind = .contract h → h = [] ∨
    ∃ c, h = (keccak c).bytes ∧ w.vm (codeKey a h) = some c ∧
      w.vm (codeSizeKey a h) = some (uint64ToBytes c.length)
  nohash : ∀ a, w.vm (codeKey a []) = none ∧ w.vm (codeSizeKey a []) = none
  warm : ∀ (e : Nat) (a : Addr) (k : Hash), w.access e (a.bytes ++ k.bytes) = true → w.access e a.bytes = true

end Verif.Eth
