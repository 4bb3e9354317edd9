import Verif.Spec.CacheStack
/- Helper lemmas for the cache stack. -/
namespace Verif.CacheStack
open Spec

variable {K V : Type}

/-- Structural invariant of a stack none of whose layers has been dropped. -/
structure Inv (db : DB K V) : Prop where
  len : db.snaps.length = db.ctx.length
  snap : ∀ j, j < db.ctx.length → db.snaps[j]? = some (db.ctx.drop (db.ctx.length - (j + 1)))
  nodup : db.ctx.Nodup
  lt : ∀ l ∈ db.ctx, l < db.next

/-- The implementation state `db` represents the abstract state `s`. -/
structure Rel (db : DB K V) (s : St K V) : Prop extends Inv db where
  cur : db.view = s.cur
  slen : s.saved.length = db.ctx.length
  saved : ∀ j, j < db.ctx.length →
    s.saved[j]? = some (readAt db.base db.heap (db.ctx.drop (db.ctx.length - j)))

theorem overlay_over (d e : Delta K V) (v : View K V) :
    overlay (d.over e) v = overlay d (overlay e v) := by
  funext k; simp only [overlay, Delta.over]; cases d k <;> rfl

theorem overlay_empty (v : View K V) : overlay Delta.empty v = v := rfl

/-- Reading does not depend on layers outside the chain. -/
theorem readAt_congr (base : View K V) (h h' : Nat → Delta K V) (c : List Nat)
    (hc : ∀ l ∈ c, h l = h' l) : readAt base h c = readAt base h' c := by
  induction c with
  | nil => rfl
  | cons l c ih =>
    simp only [readAt]
    rw [hc l (by simp), ih (fun m hm => hc m (by simp [hm]))]

theorem mem_drop_lt {db : DB K V} (n : Nat) (l : Nat) (hl : l ∈ db.ctx.drop n) : l ∈ db.ctx :=
  List.mem_of_mem_drop hl

theorem rel_new (base : View K V) : Rel (DB.new base) (St.new base) := by
  refine { len := rfl, snap := ?_, nodup := List.nodup_nil, lt := ?_, cur := rfl, slen := rfl, saved := ?_ }
  all_goals simp [DB.new]

theorem rel_put {db : DB K V} {s : St K V} (h : Rel db s) (d : Delta K V) :
    Rel (db.put d) { s with cur := overlay d s.cur } := by
  rcases hctx : db.ctx with _ | ⟨l, c⟩
  · have hp : db.put d = { db with base := overlay d db.base } := by simp [DB.put, hctx]
    rw [hp]
    refine { len := h.len, snap := h.snap, nodup := h.nodup, lt := h.lt, cur := ?_, slen := h.slen, saved := ?_ }
    · have := h.cur; simp only [DB.view, hctx, readAt] at this ⊢; rw [this]
    · intro j hj; simp [hctx] at hj
  · have hp : db.put d = { db with heap := fun j => if j = l then d.over (db.heap l) else db.heap j } := by
      simp [DB.put, hctx]
    have hnd : l ∉ c := by have := h.nodup; rw [hctx] at this; exact (List.nodup_cons.mp this).1
    rw [hp]
    refine { len := h.len, snap := h.snap, nodup := h.nodup, lt := h.lt, cur := ?_, slen := h.slen, saved := ?_ }
    · have hc := h.cur
      simp only [DB.view, hctx, readAt] at hc ⊢
      rw [← hc]; simp only [if_true]; rw [overlay_over]
      congr 2
      apply readAt_congr
      intro m hm
      have : m ≠ l := fun e => hnd (e ▸ hm)
      simp [this]
    · intro j hj
      rw [h.saved j hj]
      simp only [Option.some.injEq]
      apply readAt_congr
      intro m hm
      have hlen : 0 < db.ctx.length - j := by simp only at hj; omega
      have hmc : m ∈ c := by
        rw [hctx] at hm
        rcases hn : (l :: c).length - j with _ | n
        · rw [hctx] at hlen; omega
        · rw [hn] at hm; simp only [List.drop_succ_cons] at hm; exact List.mem_of_mem_drop hm
      have : m ≠ l := fun e => hnd (e ▸ hmc)
      simp [this]

theorem rel_snapshot {db : DB K V} {s : St K V} (h : Rel db s) :
    Rel db.snapshot.1 { s with saved := s.saved ++ [s.cur] } := by
  have hfresh : ∀ l ∈ db.ctx, l ≠ db.next := fun l hl => Nat.ne_of_lt (h.lt l hl)
  have hread : ∀ c : List Nat, (∀ l ∈ c, l ∈ db.ctx) →
      readAt db.base (fun j => if j = db.next then Delta.empty else db.heap j) c
        = readAt db.base db.heap c := by
    intro c hc; apply readAt_congr; intro l hl; simp [hfresh l (hc l hl)]
  refine { len := ?_, snap := ?_, nodup := ?_, lt := ?_, cur := ?_, slen := ?_, saved := ?_ }
  · simp [DB.snapshot, h.len]
  · intro j hj
    simp only [DB.snapshot, List.length_cons] at hj ⊢
    by_cases hj' : j < db.ctx.length
    · rw [List.getElem?_append_left (by rw [h.len]; exact hj'), h.snap j hj']
      congr 1
      have : db.ctx.length + 1 - (j + 1) = (db.ctx.length - (j + 1)) + 1 := by omega
      rw [this, List.drop_succ_cons]
    · have : j = db.ctx.length := by omega
      subst this
      rw [List.getElem?_append_right (by rw [h.len]; exact Nat.le_refl _)]
      simp [h.len]
  · simp only [DB.snapshot, List.nodup_cons]
    exact ⟨fun hm => absurd rfl (hfresh _ hm), h.nodup⟩
  · intro l hl
    simp only [DB.snapshot, List.mem_cons] at hl ⊢
    rcases hl with rfl | hl
    · omega
    · have := h.lt l hl; omega
  · simp only [DB.view, DB.snapshot, readAt, if_true, overlay_empty]
    rw [hread _ (fun _ h => h)]; exact h.cur
  · simp [DB.snapshot, h.slen]
  · intro j hj
    simp only [DB.snapshot, List.length_cons] at hj ⊢
    by_cases hj' : j < db.ctx.length
    · rw [List.getElem?_append_left (by rw [h.slen]; exact hj'), h.saved j hj']
      have : db.ctx.length + 1 - j = (db.ctx.length - j) + 1 := by omega
      rw [this, List.drop_succ_cons, hread _ (fun _ h => List.mem_of_mem_drop h)]
    · have : j = db.ctx.length := by omega
      subst this
      rw [List.getElem?_append_right (by rw [h.slen]; exact Nat.le_refl _)]
      have e : db.ctx.length + 1 - db.ctx.length = 1 := by omega
      simp only [h.slen, Nat.sub_self, List.getElem?_cons_zero, Option.some.injEq, e,
        List.drop_succ_cons, List.drop_zero]
      rw [hread _ (fun _ h => h)]; exact h.cur.symm

/-- Reverting to the outermost snapshot: both variants. -/
theorem rel_revert_zero {db : DB K V} {s : St K V} (h : Rel db s) {v : View K V}
    (hv : s.saved[0]? = some v) :
    Rel { db with ctx := [], snaps := [] } { cur := v, saved := [] } := by
  have hpos : 0 < db.ctx.length := by
    rw [← h.slen]; exact (List.getElem?_eq_some_iff.mp hv).1
  have := h.saved 0 hpos
  rw [hv] at this
  simp only [Nat.sub_zero, List.drop_length, readAt, Option.some.injEq] at this
  refine { len := rfl, snap := ?_, nodup := List.nodup_nil, lt := ?_, cur := ?_, slen := rfl, saved := ?_ }
  · simp
  · simp
  · simp [DB.view, readAt, this]
  · simp

theorem saved_base {db : DB K V} {s : St K V} (h : Rel db s) (hs : s.saved ≠ []) :
    s.saved[0]? = some db.base := by
  have hpos : 0 < db.ctx.length := by
    rw [← h.slen]; exact List.length_pos_iff.mpr hs
  have := h.saved 0 hpos
  simpa [readAt] using this

theorem rel_revert_repaired {db : DB K V} {s : St K V} (h : Rel db s) (j : Nat) {v : View K V}
    (hv : s.saved[j]? = some v) :
    ∃ db', db.revertToSnapshotRepaired ((j : Int) - 1) = some db' ∧
      db'.base = db.base ∧ Rel db' { cur := v, saved := s.saved.take j } := by
  have hj : j < db.ctx.length := by
    rw [← h.slen]; exact (List.getElem?_eq_some_iff.mp hv).1
  rcases j with _ | i
  · refine ⟨{ db with ctx := [], snaps := [] }, by simp [DB.revertToSnapshotRepaired], rfl, ?_⟩
    exact rel_revert_zero h hv
  · have hi : i < db.ctx.length := by omega
    have hsn := h.snap i hi
    refine ⟨{ db with ctx := db.ctx.drop (db.ctx.length - (i + 1)), snaps := db.snaps.take (i + 1) }, ?_, rfl, ?_⟩
    · have e1 : ¬ (((i + 1 : Nat) : Int) - 1 = -1) := by omega
      have e2 : ¬ (((i + 1 : Nat) : Int) - 1 < 0) := by omega
      have e3 : (((i + 1 : Nat) : Int) - 1).toNat = i := by omega
      simp only [DB.revertToSnapshotRepaired, e1, e2, e3, if_false, hsn]
    · have hlen : (db.ctx.drop (db.ctx.length - (i + 1))).length = i + 1 := by
        rw [List.length_drop]; omega
      refine { len := ?_, snap := ?_, nodup := ?_, lt := ?_, cur := ?_, slen := ?_, saved := ?_ }
      · simp only [hlen, List.length_take, h.len]; omega
      · intro m hm
        simp only [hlen] at hm ⊢
        rw [List.getElem?_take_of_lt hm, h.snap m (by omega), List.drop_drop]
        congr 2; omega
      · exact h.nodup.sublist (List.drop_sublist _ _)
      · intro l hl; exact h.lt l (List.mem_of_mem_drop hl)
      · have := h.saved (i + 1) hj
        rw [hv] at this
        simp only [Option.some.injEq] at this
        simp only [DB.view]; exact this.symm
      · simp only [hlen, List.length_take, h.slen]; omega
      · intro m hm
        simp only [hlen] at hm ⊢
        rw [List.getElem?_take_of_lt hm, h.saved m (by omega), List.drop_drop]
        congr 3; omega

theorem readAt_commitSnap {db : DB K V} (l : Nat) (c : List Nat) (hn : (l :: c).Nodup) :
    readAt (db.commitSnap (l :: c)).base (db.commitSnap (l :: c)).heap c
      = readAt db.base db.heap (l :: c) := by
  rcases c with _ | ⟨p, c⟩
  · simp [DB.commitSnap, readAt]
  · have h1 := List.nodup_cons.mp hn
    have h2 := List.nodup_cons.mp h1.2
    have hlp : ¬ p = l := fun e => h1.1 (by simp [e])
    simp only [DB.commitSnap, readAt, hlp, if_false, if_true]
    rw [overlay_over]
    congr 2
    apply readAt_congr
    intro m hm
    have a : ¬ m = l := fun e => h1.1 (by subst e; simp [hm])
    have b : ¬ m = p := fun e => h2.1 (by subst e; exact hm)
    simp [a, b]

/-- Committing a full chain from the innermost layer outwards publishes the view. -/
theorem foldl_commitSnap (c : List Nat) (db : DB K V) (hn : c.Nodup) :
    (((List.range c.length).map (fun n => c.drop n)).foldl DB.commitSnap db).base
      = readAt db.base db.heap c := by
  induction c generalizing db with
  | nil => rfl
  | cons l c ih =>
    have h1 := List.nodup_cons.mp hn
    simp only [List.length_cons, List.range_succ_eq_map, List.map_cons, List.map_map,
      List.foldl_cons, List.drop_zero]
    have : (List.range c.length).map ((fun n => (l :: c).drop n) ∘ Nat.succ)
        = (List.range c.length).map (fun n => c.drop n) := by
      apply List.map_congr_left; intro n _; simp
    rw [this, ih _ h1.2, readAt_commitSnap l c hn]

theorem snaps_reverse {db : DB K V} (h : Inv db) :
    db.snaps.reverse = (List.range db.ctx.length).map (fun n => db.ctx.drop n) := by
  apply List.ext_getElem?
  intro n
  by_cases hn : n < db.ctx.length
  · rw [List.getElem?_reverse (by rw [h.len]; exact hn), h.len, h.snap _ (by omega)]
    simp only [List.getElem?_map, List.getElem?_range hn, Option.map_some]
    congr 2; omega
  · rw [List.getElem?_eq_none (by simp [h.len]; omega), List.getElem?_eq_none (by simp; omega)]

/-- Commit publishes exactly the current view. -/
theorem commit_base {db : DB K V} (h : Inv db) : db.commit.base = db.view := by
  simp only [DB.commit, snaps_reverse h, DB.view]
  exact foldl_commitSnap db.ctx db h.nodup

/-- In a state related to a spec state, reads/writes never touch the base once a snapshot was taken. -/
theorem put_base {db : DB K V} (d : Delta K V) (hc : db.ctx ≠ []) : (db.put d).base = db.base := by
  rcases h : db.ctx with _ | ⟨l, c⟩
  · exact absurd h hc
  · simp [DB.put, h]

end Verif.CacheStack
