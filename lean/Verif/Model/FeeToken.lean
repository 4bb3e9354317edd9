import Verif.Model.Value
import Verif.Model.World
/-
What the state database does to the fee token's contract, next to the plain balances of Verif.Model.World.
-/
namespace Verif.FeeToken
open Verif Verif.Tokens
open Verif.World (StateOp)

/-- What an operation of the state database asks of the fee token (x/evm/state/statedb.go:122-156, 499-527):
`AddBalance` and `SubBalance` mint and burn, a self-destruct burns the whole balance, nothing else touches it.
`none`: panic. -/
def onToken (c : Chain) (fee : Addr) (W : World.World) (e : Nat) (op : StateOp) (w : Tokens.World) :
    Option Tokens.World :=
  match op with
  | .addBalance a n => Value.addBalance c fee w a n
  | .subBalance a n => Value.subBalance c fee w a n
  | .selfDestruct a =>
    if W.acct a = none then some w else Value.subBalance c fee w a (Value.getBalance w fee a)
  | .selfDestruct6780 a =>
    if W.acct a ≠ none ∧ W.created e a = true then Value.subBalance c fee w a (Value.getBalance w fee a) else some w
  | _ => some w

/-- One operation on both: the rest of the state database's stores and the fee token's contract
(x/evm/state/statedb.go:122-156, 499-527). -/
def stepBoth (keccak : Bytes → Hash) (c : Chain) (fee : Addr) (e : Nat) (op : StateOp) (p : World.World × Tokens.World) :
    Option (World.World × Tokens.World) :=
  match p.1.step keccak e op, onToken c fee p.1 e op p.2 with
  | some W', some w' => some (W', w')
  | _, _ => none

/-- A sequence of operations on both. -/
def runBoth (keccak : Bytes → Hash) (c : Chain) (fee : Addr) (p : World.World × Tokens.World) :
    List (Nat × StateOp) → Option (World.World × Tokens.World)
  | [] => some p
  | (e, op) :: ops => match stepBoth keccak c fee e op p with
    | none => none
    | some p' => runBoth keccak c fee p' ops

/-- x/evm/state/statedb.go:629-637 (`Commit`): the walk over the destructed addresses burns what each of them holds,
if anything. -/
def commitBurns (c : Chain) (fee : Addr) (w : Tokens.World) : List Addr → Option Tokens.World
  | [] => some w
  | a :: l => match Value.subBalance c fee w a (Value.getBalance w fee a) with
    | none => none
    | some w' => commitBurns c fee w' l

end Verif.FeeToken
