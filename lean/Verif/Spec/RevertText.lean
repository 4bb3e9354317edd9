import Verif.Model.Text
/-
Specification for C145: how a client gets the revert data back out of an error text it receives. It reads the text from
its end, where the node alone decides what stands: first the words with which the layers of the node close their
errors, then "Reverted", then the longest run of hex digits.
-/
namespace Verif.RevertText.Spec
open Verif Verif.Text

/-- `t` without the prefix `p`, if it has it. -/
def dropPrefix : Str → Str → Option Str
  | [], t => some t
  | _ :: _, [] => none
  | c :: p, d :: t => if c = d then dropPrefix p t else none

/-- Drop the closing words, of which each layer of the node adds one (text read backwards; `n` bounds the number). -/
def dropClosing : Nat → Str → Str
  | 0, t => t
  | n + 1, t =>
    match dropPrefix (": EVMCall failed".toList.reverse) t with
    | some u => dropClosing n u
    | none => match dropPrefix (": EVMCreate failed".toList.reverse) t with
      | some u => dropClosing n u
      | none => t

/-- The revert data in an error text, if it is the text of a revert. -/
def recover (text : Str) : Option Bytes :=
  match dropPrefix (": Reverted".toList.reverse) (dropClosing text.length text.reverse) with
  | none => none
  | some t =>
    let digits := t.takeWhile fun c => (hexVal c).isSome
    match dropPrefix ("revert: 0x".toList.reverse) (t.drop digits.length) with
    | none => none
    | some _ => hexDec digits.reverse

end Verif.RevertText.Spec
