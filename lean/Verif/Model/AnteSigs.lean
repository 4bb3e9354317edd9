import Verif.Model.SigGas
import Verif.Model.Fees
/-
Signature checks behind the fee decorator: the fee decorator (app/ante/fee.go) calls the rest of the chain from within the inner
decorator, so the gas meter it puts in place for the fee is the meter the signature decorators charge.
-/
namespace Verif.AnteSigs
open Verif Verif.SigGas Verif.Fees

/-- app/ante/ante.go:97-101 (the fee decorator, app/ante/fee.go:37-61, then the signature decorators) for the gas of fee deduction
`inner`, the signatures of a transaction and its meter: the signature checks made with their verdict, and the transaction's meter
afterwards. A transaction that runs out of gas is refused before any check; a refused transaction's meter is given as it was
(what it had used is of no interest here). Outside simulation; `feeDenomOnly`: the fee is exactly one coin of the fee denom. -/
def anteTx (p : Prices) (feeDenomOnly : Bool) (inner : List Nat) (m : Exec.Meter) (valid : Key → Nat → Bool) (ethOk : Bool)
    (sigs : List (Key × Data)) : Checked × Exec.Meter :=
  let bill := billAll true sigs
  if bill.ok = false then (⟨0, false⟩, m)
  else match gasFreeFee feeDenomOnly false false inner (bill.charged.map p.of) m with
    | none => (⟨0, false⟩, m)
    | some m' => (checkAll valid ethOk sigs, m')

end Verif.AnteSigs
