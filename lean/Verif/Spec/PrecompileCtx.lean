import Verif.Model.PrecompileCtx
/-
Specification: a precompile is part of the frame that calls it.
-/
namespace Verif.CacheStack.Spec
open Verif.CacheStack

variable {K V : Type}

mutual
/-- What a frame's action does: precompile computations act on the frame's own state; a reverted call does
nothing. -/
def pdenote : PAct K V → View K V → View K V
  | .exec f, v => overlay (f v) v
  | .precompile f, v => overlay (f v) v
  | .call body ok, v => if ok then pdenoteAll body v else v
def pdenoteAll : List (PAct K V) → View K V → View K V
  | [], v => v
  | a :: as, v => pdenoteAll as (pdenote a v)
end

mutual
/-- No precompile computation occurs. -/
def noPre : PAct K V → Bool
  | .exec _ => true
  | .precompile _ => false
  | .call body _ => noPreAll body
def noPreAll : List (PAct K V) → Bool
  | [] => true
  | a :: as => noPre a && noPreAll as
end

mutual
/-- The action without precompile computations as a plain call tree. -/
def strip : PAct K V → Act K V
  | .exec f => .exec f
  | .precompile f => .exec f
  | .call body ok => .call (stripAll body) ok
def stripAll : List (PAct K V) → List (Act K V)
  | [] => []
  | a :: as => strip a :: stripAll as
end

end Verif.CacheStack.Spec
