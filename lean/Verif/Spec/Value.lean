import Verif.Model.Value
/-
Specification vocabulary for native value (C72, C73, C75, C97).
-/
namespace Verif.Spec.Value
open Verif Verif.Tokens Verif.Value

/-- Every account in whose name something is done in the execution satisfies `P`: callers of token contracts, payers of
values, destroyed contracts. -/
def CallersIn (P : Addr → Prop) : Prog → Prop
  | .done => True
  | .token caller _ _ k => P caller ∧ CallersIn P k
  | .call a _ _ body _ k => P a ∧ CallersIn P body ∧ CallersIn P k
  | .destruct self _ _ k => P self ∧ CallersIn P k

/-- `x` has approved nobody of `P` in any token. -/
def NoAllowance (x : Addr) (P : Addr → Prop) (w : World) : Prop :=
  ∀ k s t, w.tokens k = some (s, t) → ∀ y, P y → t.allow x y = 0

/-- Nobody of `P` owns a token. -/
def NoOwner (P : Addr → Prop) (w : World) : Prop := ∀ k s t, w.tokens k = some (s, t) → ¬ P t.owner

/-- The same tokens exist, with the same owners. -/
def SameOwners (w w' : World) : Prop :=
  ∀ k, (w'.tokens k).map (fun p => (p.1, p.2.owner)) = (w.tokens k).map (fun p => (p.1, p.2.owner))

/-- Nobody of `P` owns token `k`. -/
def NotOwner (P : Addr → Prop) (k : Addr) (w : World) : Prop := ∀ s t, w.tokens k = some (s, t) → ¬ P t.owner

/-- Token `k` exists as before, with the same owner. -/
def SameOwner (k : Addr) (w w' : World) : Prop :=
  (w'.tokens k).map (fun p => (p.1, p.2.owner)) = (w.tokens k).map (fun p => (p.1, p.2.owner))

/-- Everything but balances is the same, for every token. -/
def SameRest (w w' : World) : Prop :=
  ∀ k, (w'.tokens k).map (fun p => (p.1, p.2.supply, p.2.allow, p.2.owner)) =
    (w.tokens k).map (fun p => (p.1, p.2.supply, p.2.allow, p.2.owner))

/-- Exactly `v` of token `fee` went from `a` to `b`. -/
def Paid (fee a b : Addr) (v : Nat) (w w' : World) : Prop :=
  SameRest w w' ∧ ∀ k x, balanceOf w' k x + (if k = fee ∧ x = a then v else 0) =
    balanceOf w k x + (if k = fee ∧ x = b then v else 0)

end Verif.Spec.Value
