import Verif.Props.World2
import Verif.Props.CacheStack
import Verif.Spec.Frames
/-
Call frames over the typed state: C07 (logs of surviving frames), and the composition of C01 with the
typed operations.
-/
namespace Verif.Props.Frames
open Verif Verif.World Verif.World.Spec Verif.CacheStack Verif.CacheStack.Spec Verif.Props.World

variable (keccak : Bytes → Hash)

theorem run_bind_append (xs ys : List (Nat × StateOp)) (o : Option World) :
    o.bind (fun w => w.run keccak (xs ++ ys)) =
      (o.bind fun w => w.run keccak xs).bind fun w => w.run keccak ys := by
  cases o with
  | none => rfl
  | some w => simp only [Option.bind_some]; exact run_append keccak xs ys w

mutual
theorem denote_toAct (e : Nat) : ∀ (f : Frame') (v : View Unit World),
    denote (Frame'.toAct keccak e f) v () = (v ()).bind fun w => w.run keccak (surviving e f)
  | .op o, v => by
    simp only [Frame'.toAct, denote, overlay, opExec, surviving]
    congr 1; funext w
    simp only [World.run]
    cases w.step keccak e o <;> rfl
  | .call body ok, v => by
    simp only [Frame'.toAct, denote, surviving]
    cases ok with
    | true => simp only [if_true]; exact denoteAll_toActs e body v
    | false =>
      simp only [Bool.false_eq_true, if_false, World.run]
      cases v () <;> rfl
theorem denoteAll_toActs (e : Nat) : ∀ (fs : List Frame') (v : View Unit World),
    denoteAll (Frame'.toActs keccak e fs) v () = (v ()).bind fun w => w.run keccak (survivingAll e fs)
  | [], v => by
    simp only [Frame'.toActs, denoteAll, survivingAll, World.run]
    cases v () <;> rfl
  | f :: fs, v => by
    simp only [Frame'.toActs, denoteAll, survivingAll]
    rw [denoteAll_toActs e fs, denote_toAct e f v, run_bind_append]
end

mutual
theorem noRevert_toAct (e : Nat) : ∀ f : Frame', noRevert (Frame'.toAct keccak e f) = calm f
  | .op o => rfl
  | .call body ok => by
    simp only [Frame'.toAct, noRevert, calm, noRevertAll_toActs e body]
theorem noRevertAll_toActs (e : Nat) : ∀ fs : List Frame', noRevertAll (Frame'.toActs keccak e fs) = calmAll fs
  | [] => rfl
  | f :: fs => by simp only [Frame'.toActs, noRevertAll, calmAll, noRevert_toAct e f, noRevertAll_toActs e fs]
end

/-- C01 on the typed state (code, part that holds): a call without reverting inner calls commits exactly
the world its operations produce. Missing: reverting inner calls (`C01_violated`). -/
theorem C01_typed_partial (e : Nat) (w : World) (body : List Frame') (hc : calmAll body = true) :
    commitCall DB.revertToSnapshot keccak e w body = (w.newStateDB e).run keccak (survivingAll e body) := by
  obtain ⟨db, h1, h2⟩ := Verif.Props.CacheStack.C01_tree_partial (Frame'.toActs keccak e body)
    (by rw [noRevertAll_toActs, hc]) (fun _ => some (w.newStateDB e))
  simp only [commitCall, h1, h2, denote, if_true]
  rw [denoteAll_toActs]; rfl

/-- C01 on the typed state, repaired variant: any call tree commits exactly the world produced by the
operations of its surviving frames. -/
theorem C01_typed_repaired (e : Nat) (w : World) (body : List Frame') :
    commitCall DB.revertToSnapshotRepaired keccak e w body =
      (w.newStateDB e).run keccak (survivingAll e body) := by
  obtain ⟨db, h1, h2⟩ := Verif.Props.CacheStack.C01_repaired_tree (Frame'.toActs keccak e body)
    (fun _ => some (w.newStateDB e))
  simp only [commitCall, h1, h2, denote, if_true]
  rw [denoteAll_toActs]; rfl

/-- C07 (code, part that holds): for a call without reverting inner calls, the logs read after the commit
are exactly the emitted ones, in order. Missing: reverting inner calls (`C07_violated`). -/
theorem C07_partial (e : Nat) (w w' : World) (body : List Frame') (hc : calmAll body = true)
    (h : commitCall DB.revertToSnapshot keccak e w body = some w') :
    w'.getLogs e = some (emitted e (survivingAll e body)) := by
  rw [C01_typed_partial keccak e w body hc] at h
  exact C07_logs keccak _ w w' e h

/-- C07 (repaired variant): for every call tree, the logs read after the commit are exactly those emitted
by surviving frames, in order. -/
theorem C07_repaired (e : Nat) (w w' : World) (body : List Frame')
    (h : commitCall DB.revertToSnapshotRepaired keccak e w body = some w') :
    w'.getLogs e = some (emitted e (survivingAll e body)) := by
  rw [C01_typed_repaired keccak e w body] at h
  exact C07_logs keccak _ w w' e h

/-- C07 (violated by the code): a call that emits an event and then catches one reverting inner call
reports no logs at all, whatever the event and whatever the chain state. -/
theorem C07_violated (e : Nat) (w : World) (l : Log) :
    ∃ w', commitCall DB.revertToSnapshot keccak e w [.op (.addLog l), .call [] false] = some w' ∧
      w'.getLogs e = some [] ∧ emitted e (survivingAll e [.op (.addLog l), .call [] false]) = [l] := by
  refine ⟨w.newStateDB e, ?_, ?_, ?_⟩
  · simp [commitCall, Act.drive, Act.driveAll, Frame'.toActs, Frame'.toAct, DB.snapshot, DB.new, DB.put,
      DB.revertToSnapshot, DB.commit]
  · simp [World.getLogs, World.newStateDB, upd]
  · simp [survivingAll, surviving, emitted]

example : ∃ w', commitCall DB.revertToSnapshot toyKeccak 1 emptyWorld
    [.op (.addLog ⟨Addr.ofNat 1, [], [1]⟩), .call [.op (.addLog ⟨Addr.ofNat 2, [], [2]⟩)] true] = some w' := by
  rw [C01_typed_partial _ _ _ _ rfl]; exact ⟨_, rfl⟩
example : ∃ w', commitCall DB.revertToSnapshotRepaired toyKeccak 1 emptyWorld
    [.op (.addLog ⟨Addr.ofNat 1, [], [1]⟩), .call [.op (.addLog ⟨Addr.ofNat 2, [], [2]⟩)] false] = some w' ∧
    w'.getLogs 1 = some [⟨Addr.ofNat 1, [], [1]⟩] := by
  rw [C01_typed_repaired]; exact ⟨_, rfl, by decide⟩

end Verif.Props.Frames
