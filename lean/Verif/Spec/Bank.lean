import Verif.Model.Bank
/-
Specification vocabulary for the bank module (C44, C66): what is enabled, what a list of restrictions decides, what
an iteration with early stop shows.
-/
namespace Verif.Spec.Bank
open Verif Verif.Text Verif.Denom Verif.Tokens Verif.Bank

/-- Sending denom `d` is enabled: its own entry says so or, without entry, the default does. -/
def Enabled (s : State) (d : Str) : Prop := s.enabled d = some true ∨ (s.enabled d = none ∧ s.dflt = true)

/-- How the restriction list of a node may be configured. -/
inductive Op where
  | append (r : Restr)
  | prepend (r : Restr)
  | clear

/-- The restrictions in force after a sequence of configuration calls, first to run first. -/
def inForce : List Op → List Restr → List Restr
  | [], l => l
  | .append r :: rest, l => inForce rest (l ++ [r])
  | .prepend r :: rest, l => inForce rest (r :: l)
  | .clear :: rest, _ => inForce rest []

/-- What a list of restrictions decides: each sees the recipient chosen so far, any may refuse. -/
inductive Decides (s : State) (f : Bytes) (c : Coins) : List Restr → Bytes → Option Bytes → Prop where
  | done (r : Bytes) : Decides s f c [] r (some r)
  | refuse (g : Restr) (rest : List Restr) (r : Bytes) (h : g s f r c = none) : Decides s f c (g :: rest) r none
  | go (g : Restr) (rest : List Restr) (r r' : Bytes) (o : Option Bytes) (h : g s f r c = some r')
      (hr : Decides s f c rest r' o) : Decides s f c (g :: rest) r o

/-- The coins are a proper amount: not empty, every denom valid, every amount positive, no denom twice. -/
def ProperAmount (valid : Str → Bool) (coins : List (Str × Int)) : Prop :=
  coins ≠ [] ∧ (∀ x ∈ coins, valid x.1 = true ∧ 0 < x.2) ∧ (coins.map Prod.fst).Nodup

end Verif.Spec.Bank
