import Verif.Model.TxUtils
/-
Model of the signature and sequence part of the ante handler and of the sequence post handler:
app/ante/sigverify.go, app/ante/verify.go, app/posthandler/sequence.go, x/evm/keeper/msg_server.go
(increaseNonce) and the nonce bump of an EVM create.
-/
namespace Verif.SigAnte
open Verif Verif.TxUtils

/-- An account as the ante handler sees it. -/
structure Acc (K : Type) where
  pubKey : Option K
  seq : Nat
  num : Nat

/-- A signature attached to a transaction; the public key may be absent. -/
structure ASig (K : Type) where
  pubKey : Option K
  data : SigData
  sequence : Nat

/-- A transaction with possibly absent public keys, and its signers in order (`GetSigners`). -/
structure ATx (K : Type) where
  msgs : List Msg
  memo : Str
  fee : List (Str × Nat)
  gas : Nat
  sigs : List (ASig K)
  signers : List Bytes

/-- Execution flags: simulation, CheckTx re-check, genesis (height 0). -/
structure Mode where
  simulate : Bool
  recheck : Bool
  genesis : Bool

/-- The transaction as the Ethereum conversion reads it; `none` when a public key is missing (dereferencing it
panics, which rejects the transaction: x/evm/keeper/txutils.go:239). -/
def ATx.toCosmos {K : Type} (t : ATx K) : Option (CosmosTx K) :=
  (t.sigs.mapM fun s : ASig K => s.pubKey.map fun k => (⟨k, s.data, s.sequence⟩ : Sig K)).map
    fun sigs => ⟨t.msgs, t.memo, t.fee, t.gas, sigs⟩

/-- app/ante/verify.go:43-116. `other` is the check of every other mode (sign bytes of the transaction for the
given account number and sequence, verified under `pubKey`), including multisig; it is outside /repo. -/
def verifySignature {K : Type} (e : Env K) (other : ATx K → K → Nat → Nat → SigData → Bool)
    (t : ATx K) (pubKey : K) (accNum seq : Nat) (d : SigData) : Bool :=
  match d with
  | .single mode _ =>
    if mode = ethMode then
      match t.toCosmos with
      | some c => verifyEth e c
      | none => false
    else other t pubKey accNum seq d
  | .multi => other t pubKey accNum seq d

/-- One iteration of the loop of app/ante/sigverify.go:74-134. -/
def checkSig {K : Type} (e : Env K) (other : ATx K → K → Nat → Nat → SigData → Bool) (m : Mode) (t : ATx K)
    (accs : Bytes → Option (Acc K)) (sig : ASig K) (signer : Bytes) : Bool :=
  match accs signer with
  | none => false
  | some acc =>
    if !m.simulate && acc.pubKey.isNone then false
    else if sig.sequence ≠ acc.seq then false
    else if !m.simulate && !m.recheck then
      match acc.pubKey with
      | some pk => verifySignature e other t pk (if m.genesis then 0 else acc.num) acc.seq sig.data
      | none => false
    else true

/-- app/ante/sigverify.go:50-137 (`SigVerificationDecorator.AnteHandle`): is the transaction passed on? -/
def sigVerify {K : Type} (e : Env K) (other : ATx K → K → Nat → Nat → SigData → Bool) (m : Mode) (t : ATx K)
    (accs : Bytes → Option (Acc K)) : Bool :=
  t.sigs.length == t.signers.length &&
    (t.sigs.zip t.signers).all fun p => checkSig e other m t accs p.1 p.2

/-- cosmos-sdk `SetPubKeyDecorator` (in the chain at app/ante/ante.go:96, outside /repo, by contract): outside
simulation every attached key must hash to its signer's address; keys are stored on accounts that have none.
Zipped with the signers in order. `none`: rejected. -/
def setPubKeys {K : Type} (e : Env K) (m : Mode) :
    List (ASig K × Bytes) → (Bytes → Option (Acc K)) → Option (Bytes → Option (Acc K))
  | [], accs => some accs
  | (s, signer) :: rest, accs =>
    match s.pubKey with
    | none => setPubKeys e m rest accs
    | some pk =>
      if !m.simulate && e.keyAddr pk ≠ signer then none
      else match accs signer with
        | none => none
        | some acc =>
          let acc' := if acc.pubKey.isSome then acc else { acc with pubKey := some pk }
          setPubKeys e m rest (fun a => if a = signer then some acc' else accs a)

/-- The two decorators in the order of app/ante/ante.go:96-99 (the gas and count decorators between them only
reject). -/
def anteSig {K : Type} (e : Env K) (other : ATx K → K → Nat → Nat → SigData → Bool) (m : Mode) (t : ATx K)
    (accs : Bytes → Option (Acc K)) : Bool :=
  match setPubKeys e m (t.sigs.zip t.signers) accs with
  | none => false
  | some accs' => sigVerify e other m t accs'

/-! ### Sequences -/

/-- A message, as far as sequences are concerned: an EVM call or create by the named sender, or another message
that (through nested execution, e.g. authz) runs EVM calls on behalf of the listed accounts. -/
inductive SMsg (A : Type) where
  | call (sender : Str)
  | create (sender : Str)
  | other (bumps : List A)

/-- The sender of an EVM message (app/ante/sigverify.go:251-261, app/posthandler/sequence.go:26-35). -/
def SMsg.evmSender {A : Type} : SMsg A → Option Str
  | .call s => some s
  | .create s => some s
  | .other _ => none

/-- Add `d` to one sequence. Sequences are `uint64` in the code; the wrap-around at 2^64 (and at an
intermediate value below zero, which a later increment undoes) is not modelled: integers instead. -/
def bump {A : Type} [DecidableEq A] (s : A → Int) (a : A) (d : Int) : A → Int :=
  fun b => if b = a then s b + d else s b

/-- The loop over distinct sender strings shared by app/ante/sigverify.go:249-281 and
app/posthandler/sequence.go:24-53. `none`: a sender does not parse. -/
def perSender {A : Type} [DecidableEq A] (dec : Str → Option A) (d : Int) :
    List (SMsg A) → List Str → (A → Int) → Option (A → Int)
  | [], _, s => some s
  | m :: ms, seen, s =>
    match m.evmSender with
    | none => perSender dec d ms seen s
    | some c =>
      if c ∈ seen then perSender dec d ms seen s
      else match dec c with
        | none => none
        | some a => perSender dec d ms (c :: seen) (bump s a d)

/-- app/ante/sigverify.go:224-284 (`IncrementSequenceDecorator.AnteHandle`). `evmMode`: simulation or block
execution. -/
def incrementSequences {A : Type} [DecidableEq A] (dec : Str → Option A) (evmMode : Bool) (signers : List A)
    (msgs : List (SMsg A)) (s : A → Int) : Option (A → Int) :=
  let s1 := signers.foldl (fun s a => bump s a 1) s
  if evmMode then perSender dec (-1) msgs [] s1 else some s1

/-- The effect of one successful message on sequences: `MsgCall` bumps the sender's own account
(x/evm/keeper/msg_server.go:146-170); `MsgCreate` bumps, through the EVM, the nonce of the account behind the
sender's EVM address (`evmId`, x/evm/keeper/address.go:16-54). `none`: the sender does not parse. -/
def runMsg {A : Type} [DecidableEq A] (dec : Str → Option A) (evmId : A → A) (m : SMsg A) (s : A → Int) :
    Option (A → Int) :=
  match m with
  | .call c => (dec c).map fun a => bump s a 1
  | .create c => (dec c).map fun a => bump s (evmId a) 1
  | .other bs => some (bs.foldl (fun s a => bump s a 1) s)

/-- All messages, in order. -/
def runMsgs {A : Type} [DecidableEq A] (dec : Str → Option A) (evmId : A → A) :
    List (SMsg A) → (A → Int) → Option (A → Int)
  | [], s => some s
  | m :: ms, s => match runMsg dec evmId m s with
    | none => none
    | some s' => runMsgs dec evmId ms s'

/-- A transaction in block execution: ante handler (committed whatever happens next), then the messages, then
app/posthandler/sequence.go:23-57. `fails`: some message fails for another reason; all message writes are then
dropped. `keepPost`: does BaseApp keep what the post handler wrote when the messages failed? (cosmos-sdk's
`runTx` is outside /repo: it runs the post handler on the messages' branch, which it writes back only if the
messages succeeded.) `none`: rejected by the ante handler. -/
def deliver {A : Type} [DecidableEq A] (dec : Str → Option A) (evmId : A → A) (keepPost fails : Bool)
    (signers : List A) (msgs : List (SMsg A)) (s : A → Int) : Option (A → Int) :=
  match incrementSequences dec true signers msgs s with
  | none => none
  | some s1 =>
    match (if fails then none else runMsgs dec evmId msgs s1) with
    | some s2 => some s2
    | none => if keepPost then perSender dec 1 msgs [] s1 else some s1

/-- Transactions in a block, one after another: the sequences after those the ante handler lets through (`false` in the list: all
messages succeed, `true`: some message fails). A transaction the ante handler rejects changes nothing. -/
def deliverAll {A : Type} [DecidableEq A] (dec : Str → Option A) (evmId : A → A) (keepPost : Bool) :
    List (Bool × List A × List (SMsg A)) → (A → Int) → (A → Int)
  | [], s => s
  | (fails, signers, msgs) :: txs, s =>
    deliverAll dec evmId keepPost txs ((deliver dec evmId keepPost fails signers msgs s).getD s)

/-- The transaction in the hook of a deposit: app/ante/ante.go:108-116 (`CreateAnteHandlerForOPinit`, whose last decorator is the one
above), given to the deposit keeper in app/keepers/keepers.go:241-255; the keeper (OPinit, outside /repo, by contract) runs it, keeps
what it wrote, and runs the messages on a branch that it writes back if all succeed. There is no post handler.
Simplification: `ctx.ExecMode()` is block execution. -/
def deliverHook {A : Type} [DecidableEq A] (dec : Str → Option A) (evmId : A → A) (fails : Bool)
    (signers : List A) (msgs : List (SMsg A)) (s : A → Int) : Option (A → Int) :=
  match incrementSequences dec true signers msgs s with
  | none => none
  | some s1 => match (if fails then none else runMsgs dec evmId msgs s1) with
    | some s2 => some s2
    | none => some s1

end Verif.SigAnte
