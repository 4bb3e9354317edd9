import Verif.Model.Exec
/-
Specification vocabulary for scheduled Cosmos messages.
-/
namespace Verif.Exec.Spec
open Verif Verif.Exec

mutual
/-- The (caller, message) pairs of `execute_cosmos` calls made outside static frames and not inside a
reverted frame, in order. -/
def requested {M : Type} : MFrame M → List (Addr × M)
  | .schedule c m => [(c, m)]
  | .call static body ok => if ok && !static then requestedAll body else []
def requestedAll {M : Type} : List (MFrame M) → List (Addr × M)
  | [] => []
  | f :: fs => requested f ++ requestedAll fs
end

mutual
/-- All `execute_cosmos` calls anywhere in the tree, with the flag "inside a static call". -/
def allCalls {M : Type} (static : Bool) : MFrame M → List (Addr × M × Bool)
  | .schedule c m => [(c, m, static)]
  | .call st body _ => allCallsL (static || st) body
def allCallsL {M : Type} (static : Bool) : List (MFrame M) → List (Addr × M × Bool)
  | [] => []
  | f :: fs => allCalls static f ++ allCallsL static fs
end

mutual
/-- No inner call reverts. -/
def calmM {M : Type} : MFrame M → Bool
  | .schedule _ _ => true
  | .call _ body ok => ok && calmML body
def calmML {M : Type} : List (MFrame M) → Bool
  | [] => true
  | f :: fs => calmM f && calmML fs
end

mutual
/-- The (caller, message) pairs of `execute_cosmos` calls made outside static frames, whatever becomes of
the frame, in order. -/
def attempted {M : Type} : MFrame M → List (Addr × M)
  | .schedule c m => [(c, m)]
  | .call static body _ => if static then [] else attemptedAll body
def attemptedAll {M : Type} : List (MFrame M) → List (Addr × M)
  | [] => []
  | f :: fs => attempted f ++ attemptedAll fs
end

mutual
/-- Those of them made inside a frame that reverts (`inside`: an enclosing frame reverts). -/
def undone {M : Type} (inside : Bool) : MFrame M → List (Addr × M)
  | .schedule c m => if inside then [(c, m)] else []
  | .call static body ok => if static then [] else undoneAll (inside || !ok) body
def undoneAll {M : Type} (inside : Bool) : List (MFrame M) → List (Addr × M)
  | [] => []
  | f :: fs => undone inside f ++ undoneAll inside fs
end

/-- The signers of `m` are all the Cosmos address of `c`. -/
def signedOnlyBy {M : Type} (signers : M → List Bytes) (origin : Addr → Bytes) (c : Addr) (m : M) : Prop :=
  ∀ s ∈ signers m, s = origin c

end Verif.Exec.Spec
