import Verif.Spec.CacheMarks
import Verif.Model.PrecompileCtx
/-
What the code does to a call tree with precompile calls, told without cache layers (actual behaviour, not what is wanted: that is in
Verif.Spec.PrecompileCtx). As Verif.Spec.CacheMarks, but the copies hold what the contracts have changed so far and lie over the store, because the
store itself changes: a precompile reads and writes the store, and neither sees what is pending nor becomes part of it.
-/
namespace Verif.CacheStack.PMarks
open Verif.CacheStack (View Delta overlay PAct Delta.over Delta.empty)
open Verif.CacheStack.Marks (marks backTo)

variable {K V : Type}

/-- The store, and the pending changes of the frames, each with a mark, innermost first. -/
structure Stack (K V : Type) where
  store : View K V
  copies : List (Delta K V × Bool)

def Stack.new (base : View K V) : Stack K V := ⟨base, []⟩

/-- What is pending now. -/
def Stack.top (s : Stack K V) : Delta K V :=
  match s.copies with
  | [] => Delta.empty
  | (d, _) :: _ => d

/-- What contracts read: the pending changes over the store. -/
def Stack.cur (s : Stack K V) : View K V := overlay s.top s.store

/-- A contract's writes. -/
def Stack.write (s : Stack K V) (d : Delta K V) : Stack K V :=
  match s.copies with
  | [] => { s with store := overlay d s.store }
  | (e, m) :: r => { s with copies := (d.over e, m) :: r }

/-- A precompile: on the store, beside everything pending. -/
def Stack.pre (s : Stack K V) (f : View K V → Delta K V) : Stack K V := { s with store := overlay (f s.store) s.store }

/-- Entering a frame. -/
def Stack.push (s : Stack K V) : Stack K V := { s with copies := (s.top, true) :: s.copies }

/-- A failing call (see Verif.Spec.CacheMarks); the store stays as it is. -/
def Stack.fail (s : Stack K V) (n : Nat) : Option (Stack K V) :=
  match n with
  | 0 => some { s with copies := [] }
  | i + 1 => (backTo i s.copies).map fun r => { s with copies := r }

/-- The pending changes that are published: the innermost marked together with all below. -/
def publish : List (Delta K V × Bool) → Delta K V
  | [] => Delta.empty
  | (d, m) :: r => if m && r.all (·.2) then d else publish r

def Stack.published (s : Stack K V) : View K V := overlay (publish s.copies) s.store

mutual
def go : PAct K V → Stack K V → Option (Stack K V)
  | .exec f, s => some (s.write (f s.cur))
  | .precompile f, s => some (s.pre f)
  | .call body ok, s =>
    match goAll body s.push with
    | none => none
    | some s' => if ok then some s' else s'.fail (marks s.copies)
def goAll : List (PAct K V) → Stack K V → Option (Stack K V)
  | [], s => some s
  | a :: as, s => match go a s with
    | none => none
    | some s' => goAll as s'
end

mutual
/-- The same for executions without failing calls, when only the store and one set of pending changes matter. -/
def two : PAct K V → View K V × Delta K V → View K V × Delta K V
  | .exec f, (v, d) => (v, (f (overlay d v)).over d)
  | .precompile f, (v, d) => (overlay (f v) v, d)
  | .call body _, p => twoAll body p
def twoAll : List (PAct K V) → View K V × Delta K V → View K V × Delta K V
  | [], p => p
  | a :: as, p => twoAll as (two a p)
end

mutual
/-- What the precompiles alone do, one after the other, as if the contracts had written nothing and no call had failed. -/
def pres : PAct K V → View K V → View K V
  | .exec _, v => v
  | .precompile f, v => overlay (f v) v
  | .call body _, v => presAll body v
def presAll : List (PAct K V) → View K V → View K V
  | [], v => v
  | a :: as, v => presAll as (pres a v)
end

end Verif.CacheStack.PMarks
