import Verif.Model.Books
import Verif.Spec.Value
/-
Specification vocabulary for whole histories (C97): what the accepted acts issued and destroyed of a denom.
-/
namespace Verif.Spec.Books
open Verif Verif.Text Verif.Books

/-- How much of denom `d` a list of coins names. -/
def named (d : Str) (coins : List (Str × Nat)) : Nat := (coins.map fun x => if x.1 = d then x.2 else 0).sum

/-- What an act issues of `d`: bank mints and genesis balances do, nothing else. -/
def issues (d : Str) : Act → Nat
  | .mint _ coins => named d coins
  | .genesis _ coins => named d coins
  | _ => 0

/-- What an act takes back of `d`: bank burns do. -/
def redeems (d : Str) : Act → Nat
  | .burn _ coins => named d coins
  | _ => 0

/-- Total issued. -/
def issued (d : Str) (acts : List Act) : Nat := (acts.map (issues d)).sum

/-- Total taken back. -/
def redeemed (d : Str) (acts : List Act) : Nat := (acts.map (redeems d)).sum

/-- The act contains no contract code. -/
def NoCode : Act → Prop
  | .evm _ _ _ => False
  | _ => True

/-- What cannot happen on a chain whose addresses do not collide: code acting in the name of the chain's own address
`chain`, and a user's contract landing on an address of the factory's. -/
def Possible (g : Bank.Cfg) : Act → Prop
  | .evm _ p _ => Spec.Value.CallersIn (· ≠ g.chain.chainAddr) p
  | .deploy a _ _ => ∀ n, n < 2 ^ 64 → a ≠ g.tp.deployed n
  | _ => True

/-- At most how many contracts the act makes the factory create. -/
def creations : Act → Nat
  | .mint _ coins => coins.length
  | .genesis _ coins => coins.length
  | .create _ => 1
  | _ => 0

/-- For a whole history, refused transactions included. -/
def allCreations (txs : List (List Act)) : Nat := (txs.flatten.map creations).sum

end Verif.Spec.Books
