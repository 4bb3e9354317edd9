import Verif.Model.Books
import Verif.Model.Fees
/-
Whole transactions on the token ledger: the fee is taken by the ante handler and kept whatever happens after it, the
messages and the refund of the post handler take effect together or not at all (cosmos-sdk baseapp `runTx`, by contract;
app/ante/ante.go:83-104, app/posthandler/posthandler.go:14-22). `Verif.Model.Pipeline` has the same pipeline over abstract
balances; here balances are those of the token contracts, addresses go through the conversion of x/evm/keeper/address.go,
and the messages are the acts of `Verif.Model.Books`.
-/
namespace Verif.Charges
open Verif Verif.Text Verif.Identity Verif.Bank Verif.Books Verif.Fees

/-- A transaction in block execution. -/
structure CTx where
  /-- the signers, with the sequence the ante handler leaves them (Model/SigAnte) -/
  signers : List (Bytes × Nat)
  payer : Bytes
  granter : Option Bytes
  fee : Bank.Coins
  gas : Nat
  /-- `IsEthereumTx` -/
  isEth : Bool
  /-- what the messages do -/
  acts : List Act
  /-- the gas they have consumed when they end -/
  used : Nat

/-- The chain: the ledger's configuration, the name of the fee collector's module account, the refund ratio (scaled), and
every other check of the ante handler (signatures, sequences, minimum gas prices, fee grants, size, memo, timeout). -/
structure Conf where
  g : Cfg
  collector : Str
  ratio : Nat
  checks : CTx → State → Bool

/-- Who pays and is refunded: cosmos-sdk `DeductFeeDecorator` (by contract), app/posthandler/gasrefund.go:61-64. -/
def CTx.feeFrom (t : CTx) : Bytes := refundTo t.payer t.granter

/-- cosmos-sdk `DeductFeeDecorator` (by contract), inside app/ante/fee.go:37-61: a fee of zero is not deducted, any other
is sent to the fee collector with `SendCoinsFromAccountToModule`. -/
def feeActs (c : Conf) (t : CTx) : List Act :=
  if t.fee.all (fun x => x.2 == 0) then [] else [.toModule t.feeFrom c.collector t.fee]

/-- app/posthandler/gasrefund.go:47-57: price per unit of gas (x/evm/ante/gas_prices.go:29-36) times the gas given back;
zero coins are dropped. Only Ethereum transactions get something back. -/
def refundOf (c : Conf) (t : CTx) : Bank.Coins :=
  if t.isEth then
    (t.fee.map fun f => (f.1, f.2 * decOne / t.gas * (c.ratio * (t.gas - t.used) / decOne) / decOne)).filter
      fun f => f.2 ≠ 0
  else []

/-- app/posthandler/gasrefund.go:56-84: the refund is sent by the token ledger itself, past the bank. -/
def refundActs (c : Conf) (t : CTx) : List Act :=
  match c.g.modules c.collector with
  | none => []
  | some mo => if (refundOf c t).isEmpty then [] else [.pay mo.addr t.feeFrom (refundOf c t)]

/-- cosmos-sdk `SetPubKeyDecorator` (by contract) and app/ante/sigverify.go:124-178: the account of a signer has a public
key and a new sequence. Only plain accounts sign. Accounts of longer addresses are left out (they are not at an EVM
address). -/
def sign (m : Accts) (a : Bytes × Nat) : Accts :=
  if a.1.length = 20 then
    match m (bytesToAddress a.1) with
    | some (.plain _ _) => put m (bytesToAddress a.1) (.plain true a.2)
    | _ => m
  else m

/-- All signers. -/
def signAll (l : List (Bytes × Nat)) (s : State) : State := { s with accts := l.foldl sign s.accts }

inductive Outcome
  | rejected
  | failed
  | ok
deriving DecidableEq

/-- One transaction. -/
def run (c : Conf) (t : CTx) (s : State) : Outcome × State :=
  -- x/evm/ante/gas_prices.go:24-27 and the rest of the ante handler
  if t.gas = 0 || !c.checks t s then (.rejected, s)
  else match doTx c.g (feeActs c t) s with
    | none => (.rejected, s)
    | some s1 =>
      let s1 := signAll t.signers s1
      if t.gas < t.used then (.failed, s1)
      else match doTx c.g (t.acts ++ refundActs c t) s1 with
        | none => (.failed, s1)
        | some s2 => (.ok, s2)

/-- Transactions in order. -/
def runAll (c : Conf) : List CTx → State → State
  | [], s => s
  | t :: ts, s => runAll c ts (run c t s).2

end Verif.Charges
