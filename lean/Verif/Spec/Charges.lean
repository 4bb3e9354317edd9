import Verif.Model.Charges
import Verif.Spec.Safe
/-
Specification vocabulary for C100: the bill.
-/
namespace Verif.Spec.Charges
open Verif Verif.Denom Verif.Identity Verif.Bank Verif.Books Verif.Charges Verif.Spec.Safe

/-- Who bears the fee: the granter if the transaction names one, otherwise the payer. -/
def bearer (t : CTx) : Bytes := t.granter.getD t.payer

/-- What a transaction that ended with `o` may take from the holder `A` at `x`: nothing if it was rejected; the fee, if he
pays it; and, if it succeeded, what its messages say they take from him. (The refund comes from the fee collector, who is
billed for it.) -/
def bill (c : Conf) (A : Bytes) (x : Addr) (t : CTx) : Outcome → Bank.Coins
  | .rejected => []
  | .failed => if mine A x (bearer t) then t.fee else []
  | .ok => (if mine A x (bearer t) then t.fee else []) ++ t.acts.flatMap (takes c.g A x) ++
      (if moduleIs c.g A x c.collector then refundOf c t else [])

/-- Over a history. -/
def billAll (c : Conf) (A : Bytes) (x : Addr) : List CTx → State → Bank.Coins
  | [], _ => []
  | t :: ts, s => bill c A x t (run c t s).1 ++ billAll c A x ts (run c t s).2

/-- What took effect of a transaction's messages. -/
def did (t : CTx) : Outcome → List Act
  | .ok => t.acts
  | _ => []

/-- Over a history. -/
def didAll (c : Conf) : List CTx → State → List Act
  | [], _ => []
  | t :: ts, s => did t (run c t s).1 ++ didAll c ts (run c t s).2

/-- The fee is in denoms of the chain (not in ERC20 tokens of other people). -/
def OwnDenoms (t : CTx) : Prop := ∀ f ∈ t.fee, isERC20Denom f.1 = false

/-- How many contracts the messages may make the factory create. -/
def contracts (ts : List CTx) : Nat := Spec.Books.allCreations (ts.map (·.acts))

end Verif.Spec.Charges
