import Verif.Model.Frames
/-
Specification: the operations of surviving frames of a call tree, in order.
-/
namespace Verif.World.Spec
open Verif Verif.World

mutual
/-- Operations (tagged with the execution index) that are not inside a reverted frame, in order. -/
def surviving (e : Nat) : Frame' → List (Nat × StateOp)
  | .op o => [(e, o)]
  | .call body ok => if ok then survivingAll e body else []
def survivingAll (e : Nat) : List Frame' → List (Nat × StateOp)
  | [] => []
  | f :: fs => surviving e f ++ survivingAll e fs
end

mutual
/-- No inner call reverts. -/
def calm : Frame' → Bool
  | .op _ => true
  | .call body ok => ok && calmAll body
def calmAll : List Frame' → Bool
  | [] => true
  | f :: fs => calm f && calmAll fs
end

end Verif.World.Spec
