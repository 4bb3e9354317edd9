import Verif.Model.Frames
import Verif.Spec.CacheMarks
/-
What the code does to call frames, told in terms of the operations alone (actual behaviour, not what is wanted; Verif.Spec.Frames says what is
wanted): a stack of lists of operations, each with a mark. Entering a frame puts a marked copy of the list in use on top; an operation is added
to the list in use; a failing call throws away the lists above the innermost one that was marked when the call began, and takes its mark away.
What takes effect in the end is the innermost list that is marked together with all lists below it.
-/
namespace Verif.World.Traces
open Verif Verif.World

/-- Operations, with the execution they belong to. -/
abbrev Ops := List (Nat × StateOp)

/-- The operations that reached the store itself, and the lists above, innermost first. -/
structure Stack where
  base : Ops
  copies : List (Ops × Bool)

/-- The list in use. -/
def Stack.cur (s : Stack) : Ops :=
  match s.copies with
  | [] => s.base
  | (v, _) :: _ => v

/-- An operation. -/
def Stack.add (s : Stack) (o : Nat × StateOp) : Stack :=
  match s.copies with
  | [] => { s with base := s.base ++ [o] }
  | (v, m) :: r => { s with copies := (v ++ [o], m) :: r }

/-- Entering a frame. -/
def Stack.push (s : Stack) : Stack := { s with copies := (s.cur, true) :: s.copies }

/-- How many of the lists are marked. -/
def marks (l : List (Ops × Bool)) : Nat := (l.filter (·.2)).length

/-- Throw away what is above the marked list that has `i` marked lists below it, and take its mark away. -/
def backTo (i : Nat) : List (Ops × Bool) → Option (List (Ops × Bool))
  | [] => none
  | (v, m) :: r => if m = true ∧ marks r = i then some ((v, false) :: r) else backTo i r

/-- What a failing call does, if `n` lists were marked when it began. `none`: aborted. -/
def Stack.fail (s : Stack) (n : Nat) : Option Stack :=
  match n with
  | 0 => some { s with copies := [] }
  | i + 1 => (backTo i s.copies).map fun r => { s with copies := r }

/-- What takes effect. -/
def publish (base : Ops) : List (Ops × Bool) → Ops
  | [] => base
  | (v, m) :: r => if m && r.all (·.2) then v else publish base r

mutual
def go (e : Nat) : Frame' → Stack → Option Stack
  | .op o, s => some (s.add (e, o))
  | .call body ok, s =>
    match goAll e body s.push with
    | none => none
    | some s' => if ok then some s' else s'.fail (marks s.copies)
def goAll (e : Nat) : List Frame' → Stack → Option Stack
  | [], s => some s
  | f :: fs, s => match go e f s with
    | none => none
    | some s' => goAll e fs s'
end

/-- The operations of a top-level call that take effect; `none`: the execution is aborted. -/
def effective (e : Nat) (body : List Frame') : Option Ops :=
  (goAll e body ⟨[], [([], true)]⟩).map fun s => publish s.base s.copies

end Verif.World.Traces

/-
The same with nothing but the number of marks: it depends only on which calls fail.
-/
namespace Verif.CacheStack.Marks
open Verif.CacheStack (Act)

variable {K V : Type}

mutual
/-- The number of marked copies after an action begun with `n`; `none`: aborted. A failing call needs that there are at least as many marked
copies when it ends as when it began, and leaves one less than when it began. -/
def count : Act K V → Nat → Option Nat
  | .exec _, n => some n
  | .call body ok, n =>
    match countAll body (n + 1) with
    | none => none
    | some n' => if ok then some n' else if n' < n then none else some (n - 1)
def countAll : List (Act K V) → Nat → Option Nat
  | [], n => some n
  | a :: as, n => match count a n with
    | none => none
    | some n' => countAll as n'
end

mutual
/-- Some failing call begins when no copy is marked. -/
def exposed : Act K V → Nat → Bool
  | .exec _, _ => false
  | .call body ok, n => exposedAll body (n + 1) || (!ok && n == 0)
def exposedAll : List (Act K V) → Nat → Bool
  | [], _ => false
  | a :: as, n => exposed a n || (match count a n with
    | none => false
    | some n' => exposedAll as n')
end

/-- 1 for a failing call. -/
def fails : Act K V → Nat
  | .call _ false => 1
  | _ => 0

/-- How many of the actions are failing calls. -/
def failsAll : List (Act K V) → Nat
  | [] => 0
  | a :: as => fails a + failsAll as

mutual
/-- No frame makes more than one failing call. -/
def steady : Act K V → Bool
  | .exec _ => true
  | .call body _ => steadyAll body && decide (failsAll body ≤ 1)
def steadyAll : List (Act K V) → Bool
  | [] => true
  | a :: as => steady a && steadyAll as
end

end Verif.CacheStack.Marks
