import Verif.Lemmas.CacheStack2
/-
Property theorems C01, C02, C55: snapshots, reverts and commits of the EVM state database.
-/
namespace Verif.Props.CacheStack
open Verif.CacheStack Verif.CacheStack.Spec

variable {K V : Type}

/-- A single-key write, used in witnesses. -/
def write (k v : Nat) : View Nat Nat → Delta Nat Nat :=
  fun _ j => if j = k then some (some v) else none

/-! ### C01 -/

/-- C01 (violated by the code). A top-level call writes key 1, makes an inner call that reverts, and
then returns successfully; after the commit the write is gone although no surviving frame undid it.
(The slice `s.snaps[:i]` at statedb.go:589 drops the snapshot that is still in use.) -/
theorem C01_violated :
    ∃ (t : Act Nat Nat) (base : View Nat Nat) (db : DB Nat Nat),
      Act.drive DB.revertToSnapshot t (DB.new base) = some db ∧ db.commit.base ≠ denote t base := by
  refine ⟨.call [.exec (write 1 7), .call [] false] true, fun _ => none, _, rfl, ?_⟩
  intro h
  have := congrFun h 1
  revert this
  decide

/-- C01 (how bad it is): whatever a top-level call does before and after its first reverting inner call
— any computations at all, as long as it makes no further calls — the commit publishes none of it: the
committed store is the store before the transaction. -/
theorem C01_violated_loses_everything (pre inner post : List (View K V → Delta K V)) (base : View K V) :
    ∃ db, Act.drive DB.revertToSnapshot
        (.call (pre.map Act.exec ++ [.call (inner.map Act.exec) false] ++ post.map Act.exec) true)
        (DB.new base) = some db ∧ db.commit.base = base := by
  have hexec : ∀ (fs : List (View K V → Delta K V)) (db : DB K V), db.ctx ≠ [] →
      ∃ db', Act.driveAll DB.revertToSnapshot (fs.map Act.exec) db = some db' ∧
        db'.ctx = db.ctx ∧ db'.snaps = db.snaps ∧ db'.base = db.base := by
    intro fs
    induction fs with
    | nil => intro db _; exact ⟨db, by simp [Act.driveAll], rfl, rfl, rfl⟩
    | cons f fs ih =>
      intro db hc
      rcases hd : db.ctx with _ | ⟨l, c⟩
      · exact absurd hd hc
      · have hp1 : (db.put (f db.view)).ctx = db.ctx := by simp [DB.put, hd]
        have hp2 : (db.put (f db.view)).snaps = db.snaps := by simp [DB.put, hd]
        have hp3 : (db.put (f db.view)).base = db.base := by simp [DB.put, hd]
        obtain ⟨db', e, a, b, c'⟩ := ih (db.put (f db.view)) (by rw [hp1, hd]; simp)
        exact ⟨db', by simp [Act.driveAll, Act.drive, e], by rw [a, hp1, hd], by rw [b, hp2], by rw [c', hp3]⟩
  have happ : ∀ (as bs : List (Act K V)) (db db1 : DB K V),
      Act.driveAll DB.revertToSnapshot as db = some db1 →
      Act.driveAll DB.revertToSnapshot (as ++ bs) db = Act.driveAll DB.revertToSnapshot bs db1 := by
    intro as
    induction as with
    | nil => intro bs db db1 h; simp only [Act.driveAll, Option.some.injEq] at h; subst h; rfl
    | cons a as ih =>
      intro bs db db1 h
      simp only [List.cons_append, Act.driveAll] at h ⊢
      rcases ha : Act.drive DB.revertToSnapshot a db with _ | d
      · rw [ha] at h; simp at h
      · rw [ha] at h; exact ih bs d db1 h
  obtain ⟨d1, e1, c1, s1, b1⟩ := hexec pre (DB.new base).snapshot.1 (by simp [DB.snapshot])
  obtain ⟨d2, e2, c2, s2, b2⟩ := hexec inner d1.snapshot.1 (by simp [DB.snapshot])
  have hs1 : d1.snaps = [[0]] := by rw [s1]; rfl
  have hid : d1.snapshot.2 = 0 := by simp [DB.snapshot, hs1]
  have hs2 : d2.snaps = [[0], d1.next :: d1.ctx] := by rw [s2]; simp [DB.snapshot, hs1]
  have er : d2.revertToSnapshot 0 = some { d2 with ctx := [0], snaps := [] } := by
    simp [DB.revertToSnapshot, hs2]
  obtain ⟨d3, e3, c3, s3, b3⟩ := hexec post { d2 with ctx := [0], snaps := [] } (by simp)
  refine ⟨d3, ?_, ?_⟩
  · simp only [Act.drive]
    rw [List.append_assoc, happ _ _ _ _ e1]
    simp only [List.singleton_append, Act.driveAll, Act.drive, e2, hid, er]
    simp [e3]
  · have : d3.snaps = [] := s3
    simp only [DB.commit, this, List.reverse_nil, List.foldl_nil]
    rw [b3]; simp only; rw [b2]; simp only [DB.snapshot]; rw [b1]; rfl

/-- C01 (code, part that holds): for every history of arbitrary computations, snapshots and reverts in
which reverts go to the outermost live snapshot only, what is read at the end and what the commit
publishes are exactly what the specification says.
Missing: reverts to inner snapshots (see `C01_violated`). -/
theorem C01_history_partial (base : View K V) (ops : List (Op K V)) (s' : St K V)
    (hout : ∀ j, Op.revert j ∈ ops → j = 0) (hs : (St.new base).run ops = some s') :
    ∃ db, (DB.new base).run ops = some db ∧ db.view = s'.cur ∧ db.commit.base = s'.cur := by
  obtain ⟨db, e, r⟩ := run_rel ops hout (rel_new base) hs
  exact ⟨db, e, r.cur, (commit_base r.toInv).trans r.cur⟩

example : ∃ s', (St.new (fun _ : Nat => (none : Option Nat))).run
    [.snapshot, .exec (write 1 7), .snapshot, .exec (write 2 8), .revert 0, .exec (write 3 9)] = some s' ∧
    s'.cur 1 = none ∧ s'.cur 3 = some 9 := ⟨_, rfl, rfl, rfl⟩

/-- C01 (code, part that holds): the first revert to an inner snapshot does restore what is *read* to
the state at that snapshot, and further computations keep reading correctly until the next
snapshot/commit.  Missing: the commit afterwards. -/
theorem C01_reads_partial (base : View K V) (ops : List (Op K V)) (j : Nat) (fs : List (View K V → Delta K V))
    (s s' : St K V) (hout : ∀ j, Op.revert j ∈ ops → j = 0)
    (hs : (St.new base).run ops = some s) (hs' : s.run (.revert j :: fs.map Op.exec) = some s') :
    ∃ db, (DB.new base).run (ops ++ .revert j :: fs.map Op.exec) = some db ∧ db.view = s'.cur := by
  obtain ⟨db, e, r⟩ := run_rel ops hout (rel_new base) hs
  have happ : ∀ (as bs : List (Op K V)) (d d1 : DB K V), d.run as = some d1 → d.run (as ++ bs) = d1.run bs := by
    intro as
    induction as with
    | nil => intro bs d d1 h; simp only [DB.run, DB.runWith, Option.some.injEq] at h; subst h; rfl
    | cons a as ih =>
      intro bs d d1 h
      simp only [DB.run, List.cons_append, DB.runWith] at h ⊢
      rcases ha : d.stepWith DB.revertToSnapshot a with _ | d2
      · rw [ha] at h; simp at h
      · rw [ha] at h; exact ih bs d2 d1 h
  have hput : ∀ (fs : List (View K V → Delta K V)) (d : DB K V) (t t' : St K V),
      d.ctx.Nodup → d.view = t.cur → t.run (fs.map Op.exec) = some t' →
      ∃ d', d.run (fs.map Op.exec) = some d' ∧ d'.view = t'.cur := by
    intro fs
    induction fs with
    | nil => intro d t t' _ h1 h2; simp only [List.map_nil, St.run, Option.some.injEq] at h2; subst h2
             exact ⟨d, rfl, h1⟩
    | cons f fs ih =>
      intro d t t' hnd h1 h2
      simp only [List.map_cons, St.run, St.step] at h2
      have hc : (d.put (f d.view)).ctx = d.ctx := by
        rcases hd : d.ctx with _ | ⟨l, c⟩ <;> simp [DB.put, hd]
      have hv : (d.put (f d.view)).view = overlay (f t.cur) t.cur := by
        rw [← h1]
        rcases hd : d.ctx with _ | ⟨l, c⟩
        · simp only [DB.put, DB.view, hd, readAt]
        · have hnl : l ∉ c := by rw [hd] at hnd; exact (List.nodup_cons.mp hnd).1
          simp only [DB.put, DB.view, hd, readAt, if_true]
          rw [overlay_over]
          congr 2
          apply readAt_congr
          intro m hm
          have : m ≠ l := fun e => hnl (e ▸ hm)
          simp [this]
      obtain ⟨d', e1, e2⟩ := ih (d.put (f d.view)) _ t' (by rw [hc]; exact hnd) hv h2
      exact ⟨d', by simp only [List.map_cons, DB.run, DB.runWith, DB.stepWith]; exact e1, e2⟩
  simp only [St.run, St.step] at hs'
  rcases hv : s.saved[j]? with _ | v
  · rw [hv] at hs'; simp at hs'
  · rw [hv] at hs'
    have hj : j < db.ctx.length := by
      rw [← r.slen]; exact (List.getElem?_eq_some_iff.mp hv).1
    have hsv := r.saved j hj
    rw [hv] at hsv
    simp only [Option.some.injEq] at hsv
    have : ∃ d1, db.revertToSnapshot ((j : Int) - 1) = some d1 ∧ d1.ctx.Nodup ∧ d1.view = v := by
      rcases j with _ | i
      · refine ⟨_, by simp [DB.revertToSnapshot]; rfl, by simp, ?_⟩
        rw [hsv]; simp [DB.view, readAt]
      · have hsn := r.snap i (by omega)
        have e1 : ¬ (((i + 1 : Nat) : Int) - 1 = -1) := by omega
        have e2 : ¬ (((i + 1 : Nat) : Int) - 1 < 0) := by omega
        have e3 : (((i + 1 : Nat) : Int) - 1).toNat = i := by omega
        refine ⟨{ db with ctx := db.ctx.drop (db.ctx.length - (i + 1)), snaps := db.snaps.take i }, ?_, ?_, ?_⟩
        · simp only [DB.revertToSnapshot, e1, e2, e3, if_false, hsn]
        · exact r.nodup.sublist (List.drop_sublist _ _)
        · rw [hsv]; rfl
    obtain ⟨d1, h1, h2, h3⟩ := this
    obtain ⟨d2, h4, h5⟩ := hput fs d1 _ s' h2 h3 hs'
    refine ⟨d2, ?_, h5⟩
    rw [happ _ _ _ _ e]
    simp only [DB.run, DB.runWith, DB.stepWith, h1]
    exact h4

example : ∃ s s', (St.new (fun _ : Nat => (none : Option Nat))).run
      [.snapshot, .exec (write 1 7), .snapshot, .exec (write 1 8)] = some s ∧
    s.run (.revert 1 :: [write 2 9].map Op.exec) = some s' ∧ s'.cur 1 = some 7 ∧ s'.cur 2 = some 9 :=
  ⟨_, _, rfl, rfl, rfl, rfl⟩

/-- C01 (code, part that holds): a call tree none of whose calls reverts commits exactly the combined
effects of all its frames. Missing: trees with a reverting inner call. -/
theorem C01_tree_partial (body : List (Act K V)) (hn : noRevertAll body = true) (base : View K V) :
    ∃ db, Act.drive DB.revertToSnapshot (.call body true) (DB.new base) = some db ∧
      db.commit.base = denote (.call body true) base := by
  obtain ⟨db, s, e, r, c, _, _⟩ := drive_noRevert (.call body true) (by simp [noRevert, hn]) (DB.new base)
    (St.new base) (rel_new base)
  exact ⟨db, e, by rw [commit_base r.toInv, r.cur, c]; rfl⟩

example : noRevertAll [Act.exec (write 1 2), .call [.exec (write 3 4), .call [.exec (write 1 5)] true] true] = true :=
  rfl

/-- C01 (the specification is achievable): with the slice bound `s.snaps[:i+1]`, every legal history
reads and commits exactly what the specification says. This is about the repaired variant, not the code. -/
theorem C01_repaired_history (base : View K V) (ops : List (Op K V)) (s' : St K V)
    (hs : (St.new base).run ops = some s') :
    ∃ db, (DB.new base).runRepaired ops = some db ∧ db.view = s'.cur ∧ db.commit.base = s'.cur := by
  obtain ⟨db, e, r⟩ := runRepaired_rel ops (rel_new base) hs
  exact ⟨db, e, r.cur, (commit_base r.toInv).trans r.cur⟩

/-- C01 (repaired variant): every call tree, with reverting calls anywhere, commits exactly the effects
of its surviving frames. -/
theorem C01_repaired_tree (body : List (Act K V)) (base : View K V) :
    ∃ db, Act.drive DB.revertToSnapshotRepaired (.call body true) (DB.new base) = some db ∧
      db.commit.base = denote (.call body true) base := by
  obtain ⟨db, s, e, r, c, _, _⟩ := drive_repaired (.call body true) (DB.new base) (St.new base) (rel_new base)
  exact ⟨db, e, by rw [commit_base r.toInv, r.cur, c]; rfl⟩

example : denote (.call [.exec (write 1 7), .call [.exec (write 1 9)] false] true) (fun _ => none) 1 = some 7 := rfl

/-! ### C02 -/

/-- C02 (violated by the code at the level of the state database): a top-level call that catches two
reverting inner calls, then writes key 1 and finally reverts itself leaves the write in the store,
without any commit. (After the second revert the snapshot ids have shifted, `RevertToSnapshot(-1)`
switches to the initial context, and later writes go straight to the store.) -/
theorem C02_violated :
    ∃ (t : Act Nat Nat) (base : View Nat Nat) (db : DB Nat Nat),
      denote t base = base ∧
      Act.drive DB.revertToSnapshot t (DB.new base) = some db ∧ db.base ≠ base := by
  refine ⟨.call [.call [] false, .call [] false, .exec (write 1 7)] false, fun _ => none, _, rfl, rfl, ?_⟩
  intro h
  have := congrFun h 1
  revert this
  decide

/-- C02 (code, part that holds): starting an execution and performing any sequence of computations,
snapshots and reverts (to any ids other than -1, at any depth, well nested or not) never changes the
store; reverting the outermost frame (id -1) then shows exactly the initial store.
Missing: executions in which an inner frame is handed id -1 (see `C02_violated`). -/
theorem C02_partial (base : View K V) (ops : List (RawOp K V)) (db : DB K V)
    (hops : RawOp.revert (-1) ∉ ops) (h : (DB.new base).snapshot.1.rawRun ops = some db) :
    db.base = base ∧ (DB.new base).snapshot.2 = -1 ∧
      ∃ db', db.revertToSnapshot (-1) = some db' ∧ db'.view = base ∧ db'.base = base := by
  have hg : Guarded (DB.new base).snapshot.1 := by
    refine ⟨by simp [DB.snapshot], ?_⟩
    intro c hc; simp [DB.snapshot, DB.new] at hc; subst hc; simp
  have hb := (rawRun_guarded ops hg hops h).2
  have hb' : db.base = base := hb.trans rfl
  refine ⟨hb', rfl, _, by simp [DB.revertToSnapshot]; rfl, ?_, ?_⟩
  · simp [DB.view, readAt, hb']
  · exact hb'

example : ∃ db, (DB.new (fun _ : Nat => (none : Option Nat))).snapshot.1.rawRun
    [.exec (write 1 7), .snapshot, .exec (write 1 8), .revert 0, .snapshot, .exec (write 2 3)] = some db ∧
    db.view 1 = some 7 := ⟨_, rfl, rfl⟩

/-- C02 (code, part that holds), call-tree form: if no inner call reverts but the top-level call fails,
the store is unchanged and the view is the initial one. -/
theorem C02_tree_partial (body : List (Act K V)) (hn : noRevertAll body = true) (base : View K V) :
    ∃ db, Act.drive DB.revertToSnapshot (.call body false) (DB.new base) = some db ∧
      db.base = base ∧ db.view = base := by
  obtain ⟨db, s, e, r, c, p, b⟩ := driveAll_noRevert body hn (DB.new base).snapshot.1 _ (rel_snapshot (rel_new base))
  have hb : db.base = base := (b (by simp [DB.snapshot])).2
  refine ⟨{ db with ctx := [], snaps := [] }, ?_, hb, by simp [DB.view, readAt, hb]⟩
  simp only [Act.drive, e]
  simp [DB.snapshot, DB.new, DB.revertToSnapshot]

/-- C02 (repaired variant): with the slice bound `[:i+1]`, any failing top-level call — whatever inner
calls revert — leaves the store unchanged. -/
theorem C02_repaired (body : List (Act K V)) (base : View K V) :
    ∃ db, Act.drive DB.revertToSnapshotRepaired (.call body false) (DB.new base) = some db ∧
      db.base = base ∧ db.view = base := by
  obtain ⟨db, s, e, r, c, p, b⟩ := driveAll_repaired body (DB.new base).snapshot.1 _ (rel_snapshot (rel_new base))
  have hb : db.base = base := b (by simp [DB.snapshot])
  refine ⟨{ db with ctx := [], snaps := [] }, ?_, hb, by simp [DB.view, readAt, hb]⟩
  simp only [Act.drive, e]
  simp [DB.snapshot, DB.new, DB.revertToSnapshotRepaired]

/-! ### C55 -/

/-- statedb.go:423-431 (`GetCommittedState`): read a key through the initial context. -/
def committed (db : DB K V) : View K V := readAt db.base db.heap []

/-- C55 (code, part that holds): inside an execution, whatever sequence of computations, snapshots and
reverts to ids other than -1 has happened, the committed value of every key is its value at the start.
Missing: an inner frame handed id -1 (see `C55_violated`). -/
theorem C55_partial (base : View K V) (ops : List (RawOp K V)) (db : DB K V)
    (hops : RawOp.revert (-1) ∉ ops) (h : (DB.new base).snapshot.1.rawRun ops = some db) :
    committed db = base := by
  have := (C02_partial base ops db hops h).1
  simp [committed, readAt, this]

/-- C55 (violated by the code): after two caught reverting inner calls, a plain write becomes visible
as the "committed" value during the same execution. -/
theorem C55_violated :
    ∃ (ops : List (Act Nat Nat)) (base : View Nat Nat) (db : DB Nat Nat),
      Act.driveAll DB.revertToSnapshot ops (DB.new base).snapshot.1 = some db ∧ committed db ≠ base := by
  refine ⟨[.call [] false, .call [] false, .exec (write 1 7)], fun _ => none, _, rfl, ?_⟩
  intro h
  have := congrFun h 1
  revert this
  decide

/-- C55 (repaired variant): during any top-level call, the committed value of every key is its value
at the start of the execution, whatever inner calls reverted. -/
theorem C55_repaired (body : List (Act K V)) (base : View K V) :
    ∃ db, Act.driveAll DB.revertToSnapshotRepaired body (DB.new base).snapshot.1 = some db ∧
      committed db = base ∧ db.view = denoteAll body base := by
  obtain ⟨db, s, e, r, c, p, b⟩ := driveAll_repaired body (DB.new base).snapshot.1 _ (rel_snapshot (rel_new base))
  refine ⟨db, e, ?_, by rw [r.cur, c]; rfl⟩
  have hb : db.base = base := b (by simp [DB.snapshot])
  simp [committed, readAt, hb]

end Verif.Props.CacheStack
