import Verif.Model.CacheStack
/-
Specification of snapshot / revert / commit, independent of cache layers: the current state is a plain
map, a snapshot saves a copy of it, a revert restores the copy, a commit publishes the current state.
-/
namespace Verif.CacheStack.Spec
open Verif.CacheStack (View Delta overlay Op Act)

/-- The abstract journalled state. -/
structure St (K V : Type) where
  /-- what readers see now -/
  cur : View K V
  /-- copies taken by the snapshots that are still live, oldest first -/
  saved : List (View K V)

/-- Abstract meaning of one step; reverting to a snapshot that is not live is not a legal history. -/
def St.step {K V : Type} (s : St K V) : Op K V → Option (St K V)
  | .exec f => some { s with cur := overlay (f s.cur) s.cur }
  | .snapshot => some { s with saved := s.saved ++ [s.cur] }
  | .revert j =>
    match s.saved[j]? with
    | none => none
    | some v => some { cur := v, saved := s.saved.take j }

/-- Abstract meaning of a history. -/
def St.run {K V : Type} (s : St K V) : List (Op K V) → Option (St K V)
  | [] => some s
  | op :: ops => match s.step op with
    | none => none
    | some s' => s'.run ops

/-- Abstract initial state over a base store. -/
def St.new {K V : Type} (base : View K V) : St K V := { cur := base, saved := [] }

mutual
/-- What a frame's action does to the state: a reverted inner call does nothing. -/
def denote {K V : Type} : Act K V → View K V → View K V
  | .exec f, v => overlay (f v) v
  | .call body ok, v => if ok then denoteAll body v else v
/-- What a list of actions does to the state. -/
def denoteAll {K V : Type} : List (Act K V) → View K V → View K V
  | [], v => v
  | a :: as, v => denoteAll as (denote a v)
end

mutual
/-- No inner call of this action reverts. -/
def noRevert {K V : Type} : Act K V → Bool
  | .exec _ => true
  | .call body ok => ok && noRevertAll body
/-- No call in this list of actions reverts. -/
def noRevertAll {K V : Type} : List (Act K V) → Bool
  | [] => true
  | a :: as => noRevert a && noRevertAll as
end

end Verif.CacheStack.Spec
