import Verif.Model.IndexStore
/-
C37: the indexer's cached store reads like a map.
-/
namespace Verif.IndexStore
open Verif

/-- Specification: the contents after a history, as the answers report it: a write or delete that answered without error
changed its key, nothing else changes anything. -/
def contents (m : Bytes → Option Bytes) : List (Op × Ans) → (Bytes → Option Bytes)
  | [] => m
  | (.put k v _, .ok true) :: h => contents (fun x => if x = k then some v else m x) h
  | (.del k, .ok true) :: h => contents (fun x => if x = k then none else m x) h
  | _ :: h => contents m h

/-- The cache agrees with the store. -/
def Coherent (c : CS) : Prop := ∀ k v, c.cache k = some v → c.storeGet k = some v

theorem fresh_coherent (db : Bytes → Option Bytes) : Coherent (fresh db) := by intro k v h; cases h

theorem step_ok (c : CS) (o : Op) (hc : Coherent c) :
    Coherent (step c o).2 ∧ contents c.storeGet [(o, (step c o).1)] = (step c o).2.storeGet := by
  cases o with
  | read k f =>
    simp only [step, CS.read, contents]
    cases h : c.cache k with
    | some v => exact ⟨hc, rfl⟩
    | none =>
      cases h2 : c.storeGet k with
      | none => exact ⟨hc, rfl⟩
      | some v =>
        cases f with
        | false => exact ⟨hc, rfl⟩
        | true =>
          refine ⟨?_, rfl⟩
          intro x w hx
          change (if x = k then some v else c.cache x) = some w at hx
          by_cases hxk : x = k
          · subst hxk; rw [if_pos rfl] at hx; cases hx; exact h2
          · rw [if_neg hxk] at hx; exact hc x w hx
  | has k f =>
    simp only [step, CS.has, contents]
    cases h : c.cache k with
    | some v => exact ⟨hc, rfl⟩
    | none =>
      cases h2 : c.storeGet k with
      | none => exact ⟨hc, rfl⟩
      | some v =>
        cases f with
        | false => exact ⟨hc, rfl⟩
        | true =>
          refine ⟨?_, rfl⟩
          intro x w hx
          change (if x = k then some v else c.cache x) = some w at hx
          by_cases hxk : x = k
          · subst hxk; rw [if_pos rfl] at hx; cases hx; exact h2
          · rw [if_neg hxk] at hx; exact hc x w hx
  | put k v f =>
    cases f with
    | true =>
      simp only [step, CS.put, if_true, contents]
      constructor
      · intro x w hx
        simp only [upd] at hx
        simp only [CS.storeGet, upd]
        by_cases hxk : x = k
        · simp only [hxk, if_true] at hx ⊢; exact hx
        · simp only [hxk, if_false] at hx ⊢; exact hc x w hx
      · funext x
        simp only [CS.storeGet, upd]
        by_cases hxk : x = k <;> simp [hxk]
    | false =>
      simp only [step, CS.put, Bool.false_eq_true, if_false, contents]
      refine ⟨?_, rfl⟩
      intro x w hx
      simp only [upd] at hx
      by_cases hxk : x = k
      · simp only [hxk, if_true] at hx; cases hx
      · simp only [hxk, if_false] at hx; exact hc x w hx
  | del k =>
    simp only [step, CS.del]
    cases h : c.cache k with
    | none => exact ⟨hc, rfl⟩
    | some v =>
      simp only [contents]
      constructor
      · intro x w hx
        simp only [upd] at hx
        simp only [CS.storeGet, upd]
        by_cases hxk : x = k
        · simp only [hxk, if_true] at hx; cases hx
        · simp only [hxk, if_false] at hx ⊢; exact hc x w hx
      · funext x
        simp only [CS.storeGet, upd]
        by_cases hxk : x = k <;> simp [hxk]
  | flush =>
    simp only [step, CS.flush, contents]
    exact ⟨fun x w hx => hc x w hx, rfl⟩
  | evict g =>
    simp only [step, CS.evict, contents]
    refine ⟨?_, rfl⟩
    intro x w hx
    simp only at hx
    by_cases hg : g x = true
    · simp [hg] at hx
    · simp only [hg, if_false] at hx; exact hc x w hx

theorem contents_cons (m : Bytes → Option Bytes) (x : Op × Ans) (h : List (Op × Ans)) :
    contents m (x :: h) = contents (contents m [x]) h := by
  obtain ⟨o, a⟩ := x
  cases o <;> cases a <;> try rfl
  · next b => cases b <;> rfl
  · next b => cases b <;> rfl

theorem run_ok (c : CS) (ops : List Op) (hc : Coherent c) :
    Coherent (run c ops).2 ∧ contents c.storeGet (run c ops).1 = (run c ops).2.storeGet := by
  induction ops generalizing c with
  | nil => exact ⟨hc, rfl⟩
  | cons o os ih =>
    obtain ⟨h1, h2⟩ := step_ok c o hc
    obtain ⟨h3, h4⟩ := ih (step c o).2 h1
    refine ⟨h3, ?_⟩
    simp only [run]
    rw [contents_cons, h2]
    exact h4

theorem read_eq (c : CS) (k : Bytes) (f : Bool) (hc : Coherent c) : (c.read k f).1 = c.storeGet k := by
  unfold CS.read
  cases h : c.cache k with
  | some v => exact (hc k v h).symm
  | none => cases h2 : c.storeGet k <;> rfl

/-- **C37** (reads): after every history of reads, writes, deletes, flushes and evictions, in every interleaving with
evictions and refusals of the cache, a read returns what the last write of the key that answered without error stored (or
nothing if that was a delete), and the initial database content if there was none. -/
theorem C37_reads (db : Bytes → Option Bytes) (ops : List Op) (k : Bytes) (fit : Bool) :
    ((run (fresh db) ops).2.read k fit).1 = contents db (run (fresh db) ops).1 k := by
  obtain ⟨h1, h2⟩ := run_ok (fresh db) ops (fresh_coherent db)
  rw [read_eq _ _ _ h1, ← h2]
  rfl

/-- **C37** (existence checks agree with reads). -/
theorem C37_has (db : Bytes → Option Bytes) (ops : List Op) (k : Bytes) (fit : Bool) :
    ((run (fresh db) ops).2.has k fit).1 = (contents db (run (fresh db) ops).1 k).isSome := by
  obtain ⟨h1, h2⟩ := run_ok (fresh db) ops (fresh_coherent db)
  have h2' : contents db (run (fresh db) ops).1 = (run (fresh db) ops).2.storeGet := h2
  rw [h2']
  unfold CS.has
  cases h : (run (fresh db) ops).2.cache k with
  | some v => rw [h1 k v h]; rfl
  | none => cases h3 : (run (fresh db) ops).2.storeGet k <;> rfl

theorem run_append (c : CS) (a b : List Op) : (run c (a ++ b)).1 = (run c a).1 ++ (run (run c a).2 b).1 := by
  induction a generalizing c with
  | nil => rfl
  | cons o os ih => simp only [List.cons_append, run, ih]

/-- **C37** (what is answered): in every history, every read answered with the contents at that moment, and every existence
check answered whether there were any. -/
theorem C37_answers (db : Bytes → Option Bytes) (before after : List Op) (k : Bytes) (fit : Bool) :
    (∃ rest, (run (fresh db) (before ++ .read k fit :: after)).1 =
      (run (fresh db) before).1 ++ (.read k fit, .value (contents db (run (fresh db) before).1 k)) :: rest) ∧
    (∃ rest, (run (fresh db) (before ++ .has k fit :: after)).1 =
      (run (fresh db) before).1 ++ (.has k fit, .present (contents db (run (fresh db) before).1 k).isSome) :: rest) := by
  constructor
  · rw [run_append]
    simp only [run, step]
    rw [C37_reads]
    exact ⟨_, rfl⟩
  · rw [run_append]
    simp only [run, step]
    rw [C37_has]
    exact ⟨_, rfl⟩

/-- **C37** (durability): after a flush the database itself holds the contents, so a restart loses nothing. -/
theorem C37_flush (db : Bytes → Option Bytes) (ops : List Op) :
    (run (fresh db) (ops ++ [.flush])).2.db = contents db (run (fresh db) ops).1 := by
  have happ : ∀ (c : CS) (a : List Op), (run c (a ++ [.flush])).2 = (run c a).2.flush := by
    intro c a
    induction a generalizing c with
    | nil => rfl
    | cons o os ih => exact ih _
  obtain ⟨_, h2⟩ := run_ok (fresh db) ops (fresh_coherent db)
  rw [happ, show contents db (run (fresh db) ops).1 = (run (fresh db) ops).2.storeGet from h2]
  rfl

/-- **C37** (writes that fit succeed; deletes of a cached key succeed): the operations that must not fail. -/
theorem C37_delete_partial (c : CS) (k v : Bytes) (h : c.cache k = some v) :
    (c.del k).1 = true ∧ (c.del k).2.storeGet k = none ∧ (c.put k v true).1 = true := by
  refine ⟨by simp [CS.del, h], by simp [CS.del, h, CS.storeGet, upd], rfl⟩

/-- **C37 (deletes, exactly).** After every history: a delete answers without error exactly if the key is cached at that moment; then
there was something to delete. The key reads as missing afterwards exactly if it was cached or was missing before. -/
theorem C37_delete_iff (db : Bytes → Option Bytes) (ops : List Op) (k : Bytes) (fit : Bool) :
    let c := (run (fresh db) ops).2
    ((c.del k).1 = true ↔ (c.cache k).isSome = true) ∧
    ((c.del k).1 = true → (c.read k fit).1 ≠ none) ∧
    (((c.del k).2.read k fit).1 = none ↔ (c.cache k).isSome = true ∨ (c.read k fit).1 = none) ∧
    ∀ j, j ≠ k → ((c.del k).2.read j fit).1 = (c.read j fit).1 := by
  intro c
  have hc : Coherent c := (run_ok (fresh db) ops (fresh_coherent db)).1
  have hd : Coherent (c.del k).2 := (step_ok c (.del k) hc).1
  rw [read_eq _ _ _ hc, read_eq _ _ _ hd]
  have ho : ∀ j, j ≠ k → ((c.del k).2.read j fit).1 = (c.read j fit).1 := by
    intro j hj
    rw [read_eq _ _ _ hc, read_eq _ _ _ hd]
    unfold CS.del CS.storeGet
    cases c.cache k <;> simp [upd, hj]
  refine ⟨?_, ?_, ?_, ho⟩
  · unfold CS.del; cases c.cache k <;> simp
  · cases h : c.cache k with
    | none => simp [CS.del, h]
    | some v => intro _; rw [hc k v h]; simp
  · cases h : c.cache k with
    | none => simp [CS.del, h]
    | some v => simp [CS.del, h, CS.storeGet, upd]

/-- both cases: a cached key, and one dropped from the cache -/
example : ((run (fresh fun _ => none) [.put [1] [7] true]).2.del [1]).1 = true ∧
    ((run (fresh fun _ => none) [.put [1] [7] true, .evict (fun _ => true)]).2.del [1]).1 = false := ⟨rfl, rfl⟩

/-- **C37 does not hold** for deletes: a key that was written, and whose cache entry was dropped since, cannot be deleted; the
delete answers with an error and the key keeps its value. -/
theorem C37_delete_violated : ∃ ops : List Op, (run (fresh fun _ => none) (ops ++ [.del [1]])).1.getLast? =
      some (.del [1], .ok false) ∧ ((run (fresh fun _ => none) (ops ++ [.del [1]])).2.read [1] true).1 = some [7] :=
  ⟨[.put [1] [7] true, .evict (fun _ => true)], rfl, rfl⟩

/-- **C37 does not hold** for concurrent readers: a reader that missed the cache and is overtaken by a write leaves the old
value in the cache, and from then on reads return the old value. -/
theorem C37_race_violated : ∃ (c : CS) (k old new : Bytes), old ≠ new ∧ Coherent c ∧ c.readBegin k = some old ∧
    (((c.put k new true).2.readEnd k old).read k true).1 = some old :=
  ⟨(run (fresh fun _ => none) [.put [1] [7] true, .evict (fun _ => true)]).2, [1], [7], [8], by decide,
   (run_ok _ _ (fresh_coherent _)).1, rfl, rfl⟩

/-- Non-vacuity: a history with an overwrite, an eviction and a refused write. -/
example : ((run (fresh fun _ => none) [.put [1] [7] true, .put [1] [8] true, .evict (fun _ => true), .put [1] [9] false]).2.read [1] true).1
    = some [8] := rfl

end Verif.IndexStore
