import Verif.Model.CacheStack
/-
What the state database of the code does to a call tree, told without cache layers: a stack of whole copies of the state, each with a mark.
This is a description of actual behaviour, not of what is wanted (Verif.Spec.CacheStack says what is wanted). Entering a frame puts a marked copy
on top. A failing call throws away every copy above the innermost one that was marked when the call began — which is not always the one the
caller was using — and takes its mark away. What is published in the end is the innermost copy that is marked together with all copies below it.
-/
namespace Verif.CacheStack.Marks
open Verif.CacheStack (View Delta overlay Act)

variable {K V : Type}

/-- The store, and the copies above it, innermost first. -/
structure Stack (K V : Type) where
  base : View K V
  copies : List (View K V × Bool)

/-- A fresh state database: no copies. -/
def Stack.new (base : View K V) : Stack K V := ⟨base, []⟩

/-- What is read: the innermost copy, or the store itself. -/
def Stack.cur (s : Stack K V) : View K V :=
  match s.copies with
  | [] => s.base
  | (v, _) :: _ => v

/-- Writes go into the innermost copy, or into the store itself. -/
def Stack.write (s : Stack K V) (d : Delta K V) : Stack K V :=
  match s.copies with
  | [] => { s with base := overlay d s.base }
  | (v, m) :: r => { s with copies := (overlay d v, m) :: r }

/-- Entering a frame. -/
def Stack.push (s : Stack K V) : Stack K V := { s with copies := (s.cur, true) :: s.copies }

/-- How many of the copies are marked. -/
def marks (l : List (View K V × Bool)) : Nat := (l.filter (·.2)).length

/-- Throw away what is above the marked copy that has `i` marked copies below it, and take its mark away. -/
def backTo (i : Nat) : List (View K V × Bool) → Option (List (View K V × Bool))
  | [] => none
  | (v, m) :: r => if m = true ∧ marks r = i then some ((v, false) :: r) else backTo i r

/-- What a failing call does, if `n` copies were marked when it began: back to the innermost of them, or, if there were none, to the store.
`none`: that copy has lost its mark meanwhile, and the execution is aborted. -/
def Stack.fail (s : Stack K V) (n : Nat) : Option (Stack K V) :=
  match n with
  | 0 => some { s with copies := [] }
  | i + 1 => (backTo i s.copies).map fun r => { s with copies := r }

/-- What is published: the innermost copy that is marked together with all below it. -/
def publish (base : View K V) : List (View K V × Bool) → View K V
  | [] => base
  | (v, m) :: r => if m && r.all (·.2) then v else publish base r

def Stack.published (s : Stack K V) : View K V := publish s.base s.copies

mutual
/-- What an action does. -/
def go : Act K V → Stack K V → Option (Stack K V)
  | .exec f, s => some (s.write (f s.cur))
  | .call body ok, s =>
    match goAll body s.push with
    | none => none
    | some s' => if ok then some s' else s'.fail (marks s.copies)
/-- What a list of actions does. -/
def goAll : List (Act K V) → Stack K V → Option (Stack K V)
  | [], s => some s
  | a :: as, s => match go a s with
    | none => none
    | some s' => goAll as s'
end

end Verif.CacheStack.Marks
