import Verif.Model.SigAnte
import Verif.Model.Fees
/-
A whole transaction in block execution: the ante handler (app/ante/ante.go:83-104), the messages and the post handler
(app/posthandler/posthandler.go:14-22) put together as cosmos-sdk's `runTx` does (outside /repo, by contract: the ante handler's writes are kept
if it passes; the messages' and the post handler's writes are kept together, and only if both succeed).
-/
namespace Verif.Pipeline
open Verif Verif.SigAnte Verif.Fees

/-- Balances of the tokens fees are paid in, per account and denomination (numbered). -/
abbrev Bal (A : Type) := A → Nat → Nat

/-- A transaction in block execution. -/
structure Tx (A : Type) where
  /-- the signers, each with the sequence it signed -/
  signed : List (A × Int)
  msgs : List (SMsg A)
  fee : List (Nat × Nat)
  gas : Nat
  payer : A
  granter : Option A
  /-- `IsEthereumTx` -/
  isEth : Bool
  /-- matched by the free lane -/
  free : Bool

/-- The state a transaction works on: sequences, token balances and everything else. -/
structure St (A W : Type) where
  seq : A → Int
  bal : Bal A
  world : W

/-- What the pipeline calls. -/
structure Chain (A W : Type) where
  dec : Str → Option A
  evmId : A → A
  /-- see `SigAnte.deliver` -/
  keepPost : Bool
  collector : A
  /-- refund ratio, scaled -/
  ratio : Nat
  /-- `CheckTxFeeWithMinGasPrices` of opchild (outside /repo): is the fee high enough? -/
  feeOk : Tx A → Bool
  /-- every other check of the ante handler, including signatures (`SigAnte.anteSig`, without sequences) -/
  checks : Tx A → St A W → Bool
  /-- feegrant `UseGrantedFees` (outside /repo) -/
  useGrant : W → A → A → List (Nat × Nat) → Option W
  /-- execution of the messages: balances, other state and the gas consumed so far in the transaction; `none`: failed -/
  exec : Tx A → Bal A → W → Option (Bal A × W × Nat)

variable {A W : Type} [DecidableEq A]

/-- One coin of `SendCoins` (C25: exactly the amount moves, or nothing). -/
def moveCoin (b : Bal A) (x y : A) (c : Nat × Nat) : Option (Bal A) :=
  if b x c.1 < c.2 then none
  else
    let b1 : Bal A := fun a d => if a = x ∧ d = c.1 then b a d - c.2 else b a d
    some fun a d => if a = y ∧ d = c.1 then b1 a d + c.2 else b1 a d

/-- `SendCoins`, coin by coin. -/
def moveCoins : Bal A → A → A → List (Nat × Nat) → Option (Bal A)
  | b, _, _, [] => some b
  | b, x, y, c :: cs => (moveCoin b x y c).bind fun b' => moveCoins b' x y cs

/-- The account that pays: cosmos-sdk `DeductFeeDecorator` (by contract); app/posthandler/gasrefund.go:59-62. -/
def Tx.feeFrom (t : Tx A) : A := refundTo t.payer t.granter

/-- `GetSigners` -/
def Tx.signers (t : Tx A) : List A := t.signed.map (·.1)

/-- cosmos-sdk `DeductFeeDecorator` inside app/ante/fee.go:37-61, with the fee check of app/ante/ante.go:66-81. -/
def deductFee (c : Chain A W) (t : Tx A) (s : St A W) : Option (St A W) :=
  if !t.free && !c.feeOk t then none
  else
    (match t.granter with
      | some g => if g = t.payer then some s.world else c.useGrant s.world g t.payer t.fee
      | none => some s.world).bind fun w =>
    (moveCoins s.bal t.feeFrom c.collector t.fee).map fun b => { s with bal := b, world := w }

/-- app/ante/ante.go:83-104: gas price (x/evm/ante/gas_prices.go:19-43: zero gas is refused), fee, checks and signatures, signed sequences
(app/ante/sigverify.go:85-91), sequence increments. -/
def ante (c : Chain A W) (t : Tx A) (s : St A W) : Option (St A W) :=
  if t.gas = 0 then none
  else (deductFee c t s).bind fun s1 =>
    if !c.checks t s1 then none
    else if t.signed.all (fun p => s1.seq p.1 == p.2) then
      (incrementSequences c.dec true t.signers t.msgs s1.seq).map fun q => { s1 with seq := q }
    else none

/-- app/posthandler/gasrefund.go:31-59: the coins given back for `used` of the gas limit. -/
def refund (c : Chain A W) (t : Tx A) (used : Nat) : List (Nat × Nat) :=
  refundCoins ⟨true, true, t.isEth, some (t.fee.map fun f => (f.1, f.2 * decOne / t.gas)), c.ratio, ⟨t.gas, used⟩⟩

/-- What came of a transaction. -/
inductive Outcome
  | rejected
  | failed
  | ok (used : Nat)
deriving DecidableEq

/-- The messages and the refund, on the messages' branch of the state; `none`: nothing of it is kept. -/
def body (c : Chain A W) (t : Tx A) (s1 : St A W) : Option (Nat × St A W) :=
  (c.exec t s1.bal s1.world).bind fun r =>
  (runMsgs c.dec c.evmId t.msgs s1.seq).bind fun q =>
    if t.gas < r.2.2 then none
    else (moveCoins r.1 c.collector t.feeFrom (refund c t r.2.2)).map fun b => (r.2.2, ⟨q, b, r.2.1⟩)

/-- Did the messages themselves succeed (so that the sequence post handler does nothing)? -/
def msgsOk (c : Chain A W) (t : Tx A) (s1 : St A W) : Bool :=
  match c.exec t s1.bal s1.world, runMsgs c.dec c.evmId t.msgs s1.seq with
  | some r, some _ => r.2.2 ≤ t.gas
  | _, _ => false

/-- cosmos-sdk `runTx` in block execution (by contract), with the handlers of app/app.go:307, 369-372. -/
def runTx (c : Chain A W) (t : Tx A) (s : St A W) : Outcome × St A W :=
  match ante c t s with
  | none => (.rejected, s)
  | some s1 =>
    match body c t s1 with
    | some (used, s2) => (.ok used, s2)
    | none =>
      if c.keepPost && !msgsOk c t s1 then
        (.failed, { s1 with seq := (perSender c.dec 1 t.msgs [] s1.seq).getD s1.seq })
      else (.failed, s1)

/-- A history: transactions one after the other. -/
def runAll (c : Chain A W) : List (Tx A) → St A W → St A W
  | [], s => s
  | t :: ts, s => runAll c ts (runTx c t s).2

end Verif.Pipeline
