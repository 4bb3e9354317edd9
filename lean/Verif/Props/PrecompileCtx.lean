import Verif.Spec.PrecompileCtx
import Verif.Props.CacheStack
/-
C56: precompile effects belong to the calling frame (violated), and its consequence for C10.
-/
namespace Verif.Props.PrecompileCtx
open Verif.CacheStack Verif.CacheStack.Spec

variable {K V : Type}

/-- C56 (violated by the code): whatever a precompile writes inside a top-level call that fails stays in
the store, for every computation and every initial store. -/
theorem C56_violated_revert (f : View K V → Delta K V) (base : View K V) :
    ∃ db, PAct.drive (.call [.precompile f] false) (DB.new base) = some db ∧
      db.base = overlay (f base) base ∧ pdenote (.call [.precompile f] false) base = base := by
  refine ⟨_, by simp [PAct.drive, PAct.driveAll, DB.snapshot, DB.new, DB.putBase, DB.revertToSnapshot]; rfl, rfl, ?_⟩
  simp [pdenote]

/-- C56 (violated by the code): a precompile does not see what the calling frame wrote before: it computes
on the store as it was when the execution started, whatever `w` the frame wrote. -/
theorem C56_violated_stale (w f : View K V → Delta K V) (base : View K V) :
    ∃ db, PAct.drive (.call [.exec w, .precompile f] true) (DB.new base) = some db ∧
      db.commit.base = overlay (w base) (overlay (f base) base) ∧
      pdenote (.call [.exec w, .precompile f] true) base =
        overlay (f (overlay (w base) base)) (overlay (w base) base) := by
  refine ⟨_, by simp [PAct.drive, PAct.driveAll, DB.snapshot, DB.new, DB.putBase, DB.put]; rfl, ?_, ?_⟩
  · have hw : overlay Delta.empty base = base := rfl
    funext k
    simp [DB.commit, DB.commitSnap, overlay, Delta.over, Delta.empty, DB.view, readAt]
    rw [hw]
    cases h : w base k <;> simp
  · simp [pdenote, pdenoteAll]

/-- C10 (violated by the code through the precompile context): a transaction that creates a contract `a`
and then makes the token registry create an account for a new holder `b` ends with both accounts having
the same account number — for all distinct addresses and every counter value. -/
theorem C10_violated (a b n : Nat) (hab : a ≠ b) (base : View AuthKey Nat)
    (hn : base .counter = some n) :
    ∃ db, PAct.drive (.call [.exec (createAcc a), .precompile (createAcc b)] true) (DB.new base) = some db ∧
      db.commit.base (.acct a) = some n ∧ db.commit.base (.acct b) = some n := by
  obtain ⟨db, h1, h2, _⟩ := C56_violated_stale (createAcc a) (createAcc b) base
  refine ⟨db, h1, ?_, ?_⟩
  · rw [h2]; simp [overlay, createAcc, hn]
  · rw [h2]
    have : b ≠ a := fun h => hab h.symm
    simp [overlay, createAcc, hn, this]

/-- C10, the contrast: the same two creations by the EVM itself get different numbers and advance the
counter twice. -/
theorem C10_without_precompile (a b n : Nat) (hab : a ≠ b) (base : View AuthKey Nat)
    (hn : base .counter = some n) :
    ∃ db, PAct.drive (.call [.exec (createAcc a), .exec (createAcc b)] true) (DB.new base) = some db ∧
      db.commit.base (.acct a) = some n ∧ db.commit.base (.acct b) = some (n + 1) ∧
      db.commit.base .counter = some (n + 2) := by
  have hba : b ≠ a := fun h => hab h.symm
  refine ⟨_, by simp [PAct.drive, PAct.driveAll, DB.snapshot, DB.new, DB.put]; rfl, ?_, ?_, ?_⟩ <;>
  simp [DB.commit, DB.commitSnap, overlay, Delta.over, Delta.empty, DB.view, readAt, createAcc, hn, hab, hba]

example : (fun k => match k with | AuthKey.counter => some 7 | _ => none : View AuthKey Nat) .counter = some 7 := rfl

mutual
theorem drive_strip : ∀ (a : PAct K V) (db : DB K V), noPre a = true →
    PAct.drive a db = Act.drive DB.revertToSnapshot (strip a) db
  | .exec f, db, _ => rfl
  | .precompile f, db, h => by simp [noPre] at h
  | .call body ok, db, h => by
    simp only [noPre] at h
    simp only [PAct.drive, strip, Act.drive, driveAll_strip body _ h]
    cases Act.driveAll DB.revertToSnapshot (stripAll body) db.snapshot.1 <;> rfl
theorem driveAll_strip : ∀ (as : List (PAct K V)) (db : DB K V), noPreAll as = true →
    PAct.driveAll as db = Act.driveAll DB.revertToSnapshot (stripAll as) db
  | [], db, _ => rfl
  | a :: as, db, h => by
    simp only [noPreAll, Bool.and_eq_true] at h
    simp only [PAct.driveAll, stripAll, Act.driveAll, drive_strip a db h.1]
    cases Act.drive DB.revertToSnapshot (strip a) db with
    | none => rfl
    | some db' => exact driveAll_strip as db' h.2
end

mutual
theorem pdenote_strip : ∀ (a : PAct K V) (v : View K V), pdenote a v = denote (strip a) v
  | .exec f, v => rfl
  | .precompile f, v => rfl
  | .call body ok, v => by simp only [pdenote, strip, denote, pdenoteAll_strip body v]
theorem pdenoteAll_strip : ∀ (as : List (PAct K V)) (v : View K V), pdenoteAll as v = denoteAll (stripAll as) v
  | [], v => rfl
  | a :: as, v => by simp only [pdenoteAll, stripAll, denoteAll, pdenote_strip a v, pdenoteAll_strip as]
end

/-- C56 (code, part that holds): a call whose only precompile uses come first — before it writes anything —
and which has no reverting calls commits exactly what the specification says.
Missing: precompile calls after writes or inside reverted frames. -/
theorem C56_partial (fs : List (View K V → Delta K V)) (body : List (PAct K V)) (hp : noPreAll body = true)
    (hn : noRevertAll (stripAll body) = true) (base : View K V) :
    ∃ db, PAct.drive (.call (fs.map PAct.precompile ++ body) true) (DB.new base) = some db ∧
      db.commit.base = pdenote (.call (fs.map PAct.precompile ++ body) true) base := by
  have h1 : ∀ (fs : List (View K V → Delta K V)) (v : View K V),
      PAct.driveAll (fs.map PAct.precompile ++ body) (DB.new v).snapshot.1 =
        PAct.driveAll body (DB.new (fs.foldl (fun v f => overlay (f v) v) v)).snapshot.1 := by
    intro fs
    induction fs with
    | nil => intro v; rfl
    | cons f fs ih =>
      intro v
      simp only [List.map_cons, List.cons_append, PAct.driveAll, PAct.drive, List.foldl_cons]
      exact ih _
  have h2 : ∀ (fs : List (View K V → Delta K V)) (v : View K V),
      pdenoteAll (fs.map PAct.precompile ++ body) v = pdenoteAll body (fs.foldl (fun v f => overlay (f v) v) v) := by
    intro fs
    induction fs with
    | nil => intro v; rfl
    | cons f fs ih =>
      intro v
      simp only [List.map_cons, List.cons_append, pdenoteAll, pdenote, List.foldl_cons]
      exact ih _
  obtain ⟨db, e1, e2⟩ := Verif.Props.CacheStack.C01_tree_partial (stripAll body) hn
    (fs.foldl (fun v f => overlay (f v) v) base)
  refine ⟨db, ?_, ?_⟩
  · simp only [PAct.drive, h1, driveAll_strip body _ hp]
    simp only [Act.drive] at e1
    cases hd : Act.driveAll DB.revertToSnapshot (stripAll body)
        (DB.new (List.foldl (fun v f => overlay (f v) v) base fs)).snapshot.1 with
    | none => simp [hd] at e1
    | some d => simp only [hd] at e1 ⊢; simpa using e1
  · rw [e2]; simp only [denote, pdenote, if_true, h2, pdenoteAll_strip]

example : noPreAll [PAct.exec (Verif.Props.CacheStack.write 1 2), .call [.exec (Verif.Props.CacheStack.write 2 3)] true] = true ∧
    noRevertAll (stripAll [PAct.exec (Verif.Props.CacheStack.write 1 2), .call [.exec (Verif.Props.CacheStack.write 2 3)] true]) = true :=
  ⟨rfl, rfl⟩

end Verif.Props.PrecompileCtx
