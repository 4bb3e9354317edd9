import Verif.Model.Denom
/-
Specification vocabulary for the bank: how much of each token a list of coins names.
-/
namespace Verif.Spec.Ledger
open Verif Verif.Text Verif.Denom

/-- A list of coins: denom and amount. -/
abbrev Coins := List (Str × Nat)

/-- How much of token `k` the coins name: the sum of the amounts of the coins whose denom stands for `k`. -/
def listed (m : Maps) (coins : Coins) (k : Addr) : Nat :=
  (coins.map fun x => if denomToContract m x.1 = some k then x.2 else 0).sum

theorem listed_cons (m : Maps) (d : Str) (n : Nat) (cs : Coins) (k : Addr) :
    listed m ((d, n) :: cs) k = (if denomToContract m d = some k then n else 0) + listed m cs k := by
  simp [listed]

theorem listed_nil (m : Maps) (k : Addr) : listed m [] k = 0 := rfl

end Verif.Spec.Ledger
