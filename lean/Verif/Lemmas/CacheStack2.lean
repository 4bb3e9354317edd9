import Verif.Lemmas.CacheStack
/- Lemmas lifting one-step facts about the cache stack to histories and call trees. -/
namespace Verif.CacheStack
open Spec

variable {K V : Type}

/-- Both revert functions agree with the specification on the outermost snapshot. -/
theorem rel_revert_outermost {db : DB K V} {s : St K V} (h : Rel db s) {v : View K V}
    (hv : s.saved[0]? = some v) :
    ∃ db', db.revertToSnapshot (((0 : Nat) : Int) - 1) = some db' ∧
      Rel db' { cur := v, saved := s.saved.take 0 } :=
  ⟨{ db with ctx := [], snaps := [] }, by simp [DB.revertToSnapshot],
    by simpa using rel_revert_zero h hv⟩

/-- The code, histories that only revert to the outermost snapshot. -/
theorem run_rel {db : DB K V} {s s' : St K V} (ops : List (Op K V))
    (hout : ∀ j, Op.revert j ∈ ops → j = 0) (h : Rel db s) (hr : s.run ops = some s') :
    ∃ db', db.run ops = some db' ∧ Rel db' s' := by
  induction ops generalizing db s with
  | nil => simp only [St.run, Option.some.injEq] at hr; subst hr; exact ⟨db, rfl, h⟩
  | cons op ops ih =>
    have hout' : ∀ j, Op.revert j ∈ ops → j = 0 := fun j hj => hout j (by simp [hj])
    rcases op with f | _ | j
    · simp only [St.run, St.step] at hr
      obtain ⟨db', h1, h2⟩ := ih (db := db.put (f db.view)) hout' (by rw [h.cur]; exact rel_put h _) hr
      exact ⟨db', by simp only [DB.run, DB.runWith, DB.stepWith]; exact h1, h2⟩
    · simp only [St.run, St.step] at hr
      obtain ⟨db', h1, h2⟩ := ih hout' (rel_snapshot h) hr
      exact ⟨db', by simp only [DB.run, DB.runWith, DB.stepWith]; exact h1, h2⟩
    · have hj : j = 0 := hout j (by simp)
      subst hj
      simp only [St.run, St.step] at hr
      rcases hv : s.saved[0]? with _ | v
      · rw [hv] at hr; simp at hr
      · rw [hv] at hr
        obtain ⟨db1, e1, r1⟩ := rel_revert_outermost h hv
        obtain ⟨db', h1, h2⟩ := ih hout' r1 hr
        exact ⟨db', by simp only [DB.run, DB.runWith, DB.stepWith]; rw [e1]; exact h1, h2⟩

/-- The repaired variant, every legal history. -/
theorem runRepaired_rel {db : DB K V} {s s' : St K V} (ops : List (Op K V))
    (h : Rel db s) (hr : s.run ops = some s') :
    ∃ db', db.runRepaired ops = some db' ∧ Rel db' s' := by
  induction ops generalizing db s with
  | nil => simp only [St.run, Option.some.injEq] at hr; subst hr; exact ⟨db, rfl, h⟩
  | cons op ops ih =>
    rcases op with f | _ | j
    · simp only [St.run, St.step] at hr
      obtain ⟨db', h1, h2⟩ := ih (db := db.put (f db.view)) (by rw [h.cur]; exact rel_put h _) hr
      exact ⟨db', by simp only [DB.runRepaired, DB.runWith, DB.stepWith]; exact h1, h2⟩
    · simp only [St.run, St.step] at hr
      obtain ⟨db', h1, h2⟩ := ih (rel_snapshot h) hr
      exact ⟨db', by simp only [DB.runRepaired, DB.runWith, DB.stepWith]; exact h1, h2⟩
    · simp only [St.run, St.step] at hr
      rcases hv : s.saved[j]? with _ | v
      · rw [hv] at hr; simp at hr
      · rw [hv] at hr
        obtain ⟨db1, e1, _, r1⟩ := rel_revert_repaired h j hv
        obtain ⟨db', h1, h2⟩ := ih r1 hr
        exact ⟨db', by simp only [DB.runRepaired, DB.runWith, DB.stepWith]; rw [e1]; exact h1, h2⟩

theorem snapshot_id {db : DB K V} {s : St K V} (h : Rel db s) :
    db.snapshot.2 = (s.saved.length : Int) - 1 := by
  simp [DB.snapshot, h.len, h.slen]

mutual
/-- The repaired variant on one action of a call tree. -/
theorem drive_repaired (a : Act K V) (db : DB K V) (s : St K V) (h : Rel db s) :
    ∃ db' s', Act.drive DB.revertToSnapshotRepaired a db = some db' ∧ Rel db' s' ∧
      s'.cur = denote a s.cur ∧ s.saved <+: s'.saved ∧ (db.ctx ≠ [] → db'.base = db.base) := by
  match a with
  | .exec f =>
    refine ⟨db.put (f db.view), _, by simp [Act.drive], rel_put h _, ?_, ?_, fun hc => put_base _ hc⟩
    · simp [denote, h.cur]
    · exact List.prefix_rfl
  | .call body ok =>
    obtain ⟨db1, s1, e1, r1, c1, p1, b1⟩ := driveAll_repaired body db.snapshot.1 _ (rel_snapshot h)
    have hb : db1.base = db.base := by
      have := b1 (by simp [DB.snapshot]); rw [this]; rfl
    rcases ok with _ | _
    · have hv : s1.saved[s.saved.length]? = some s.cur := by
        obtain ⟨t, ht⟩ := p1; rw [← ht]; simp
      obtain ⟨db2, e2, b2, r2⟩ := rel_revert_repaired r1 s.saved.length hv
      refine ⟨db2, _, ?_, r2, by simp [denote], ?_, fun _ => b2.trans hb⟩
      · simp only [Act.drive, e1, snapshot_id h]; simpa using e2
      · obtain ⟨t, ht⟩ := p1
        simp only
        rw [← ht, List.append_assoc, List.take_left]
        exact List.prefix_rfl
    · refine ⟨db1, s1, by simp [Act.drive, e1], r1, ?_, ?_, fun _ => hb⟩
      · simp [denote, c1]
      · exact (List.prefix_append _ _).trans p1
theorem driveAll_repaired (as : List (Act K V)) (db : DB K V) (s : St K V) (h : Rel db s) :
    ∃ db' s', Act.driveAll DB.revertToSnapshotRepaired as db = some db' ∧ Rel db' s' ∧
      s'.cur = denoteAll as s.cur ∧ s.saved <+: s'.saved ∧ (db.ctx ≠ [] → db'.base = db.base) := by
  match as with
  | [] => exact ⟨db, s, by simp [Act.driveAll], h, by simp [denoteAll], List.prefix_rfl, fun _ => rfl⟩
  | a :: as =>
    obtain ⟨db1, s1, e1, r1, c1, p1, b1⟩ := drive_repaired a db s h
    obtain ⟨db2, s2, e2, r2, c2, p2, b2⟩ := driveAll_repaired as db1 s1 r1
    refine ⟨db2, s2, by simp [Act.driveAll, e1, e2], r2, by simp [denoteAll, c2, c1], p1.trans p2, ?_⟩
    intro hc
    have hc1 : db1.ctx ≠ [] := by
      intro hn
      have l1 : s1.saved.length = 0 := by rw [r1.slen, hn]; rfl
      have l2 := p1.length_le
      have l3 := h.slen
      apply hc; apply List.eq_nil_of_length_eq_zero; omega
    rw [b2 hc1, b1 hc]
end

mutual
/-- The code on one action of a call tree without reverting calls. -/
theorem drive_noRevert (a : Act K V) (hn : noRevert a = true) (db : DB K V) (s : St K V) (h : Rel db s) :
    ∃ db' s', Act.drive DB.revertToSnapshot a db = some db' ∧ Rel db' s' ∧
      s'.cur = denote a s.cur ∧ s.saved <+: s'.saved ∧ (db.ctx ≠ [] → db'.ctx ≠ [] ∧ db'.base = db.base) := by
  match a with
  | .exec f =>
    refine ⟨db.put (f db.view), _, by simp [Act.drive], rel_put h _, ?_, ?_, fun hc => ⟨?_, put_base _ hc⟩⟩
    · simp [denote, h.cur]
    · exact List.prefix_rfl
    · rcases hd : db.ctx with _ | ⟨l, c⟩
      · exact absurd hd hc
      · simp [DB.put, hd]
  | .call body ok =>
    simp only [noRevert, Bool.and_eq_true] at hn
    obtain ⟨hok, hb⟩ := hn
    subst hok
    obtain ⟨db1, s1, e1, r1, c1, p1, b1⟩ := driveAll_noRevert body hb db.snapshot.1 _ (rel_snapshot h)
    have := b1 (by simp [DB.snapshot])
    refine ⟨db1, s1, by simp [Act.drive, e1], r1, ?_, ?_, fun _ => ⟨this.1, this.2⟩⟩
    · simp [denote, c1]
    · exact (List.prefix_append _ _).trans p1
theorem driveAll_noRevert (as : List (Act K V)) (hn : noRevertAll as = true) (db : DB K V) (s : St K V)
    (h : Rel db s) :
    ∃ db' s', Act.driveAll DB.revertToSnapshot as db = some db' ∧ Rel db' s' ∧
      s'.cur = denoteAll as s.cur ∧ s.saved <+: s'.saved ∧ (db.ctx ≠ [] → db'.ctx ≠ [] ∧ db'.base = db.base) := by
  match as with
  | [] => exact ⟨db, s, by simp [Act.driveAll], h, by simp [denoteAll], List.prefix_rfl, fun h => ⟨h, rfl⟩⟩
  | a :: as =>
    simp only [noRevertAll, Bool.and_eq_true] at hn
    obtain ⟨db1, s1, e1, r1, c1, p1, b1⟩ := drive_noRevert a hn.1 db s h
    obtain ⟨db2, s2, e2, r2, c2, p2, b2⟩ := driveAll_noRevert as hn.2 db1 s1 r1
    refine ⟨db2, s2, by simp [Act.driveAll, e1, e2], r2, by simp [denoteAll, c2, c1], p1.trans p2, ?_⟩
    intro hc
    have h1 := b1 hc
    have h2 := b2 h1.1
    exact ⟨h2.1, h2.2.trans h1.2⟩
end

/-- All contexts mentioned by the database (current one and those of live snapshots) are cache
contexts, not the initial context. -/
def Guarded (db : DB K V) : Prop := db.ctx ≠ [] ∧ ∀ c ∈ db.snaps, c ≠ []

theorem rawStep_guarded {db db' : DB K V} {op : RawOp K V} (hg : Guarded db)
    (hop : op ≠ .revert (-1)) (h : db.rawStep op = some db') : Guarded db' ∧ db'.base = db.base := by
  rcases op with f | _ | i
  · simp only [DB.rawStep, Option.some.injEq] at h; subst h
    rcases hd : db.ctx with _ | ⟨l, c⟩
    · exact absurd hd hg.1
    · refine ⟨⟨?_, ?_⟩, put_base _ hg.1⟩
      · simp [DB.put, hd]
      · simpa [DB.put, hd] using hg.2
  · simp only [DB.rawStep, Option.some.injEq] at h; subst h
    refine ⟨⟨by simp [DB.snapshot], ?_⟩, rfl⟩
    intro c hc
    simp only [DB.snapshot, List.mem_append, List.mem_singleton] at hc
    rcases hc with hc | rfl
    · exact hg.2 c hc
    · simp
  · have hi : i ≠ -1 := fun e => hop (by rw [e])
    simp only [DB.rawStep, DB.revertToSnapshot, hi, if_false] at h
    split at h
    · simp at h
    · split at h
      · simp at h
      · rename_i c hc
        simp only [Option.some.injEq] at h; subst h
        refine ⟨⟨hg.2 c (List.mem_of_getElem? hc), ?_⟩, rfl⟩
        intro c' hc'
        exact hg.2 c' (List.mem_of_mem_take hc')

theorem rawRun_guarded {db db' : DB K V} (ops : List (RawOp K V)) (hg : Guarded db)
    (hop : RawOp.revert (-1) ∉ ops) (h : db.rawRun ops = some db') : Guarded db' ∧ db'.base = db.base := by
  induction ops generalizing db with
  | nil => simp only [DB.rawRun, Option.some.injEq] at h; subst h; exact ⟨hg, rfl⟩
  | cons op ops ih =>
    simp only [DB.rawRun] at h
    rcases hs : db.rawStep op with _ | db1
    · rw [hs] at h; simp at h
    · rw [hs] at h
      have h1 := rawStep_guarded hg (by intro e; apply hop; simp [e]) hs
      have h2 := ih h1.1 (by intro e; apply hop; simp [e]) h
      exact ⟨h2.1, h2.2.trans h1.2⟩

end Verif.CacheStack
