import Verif.Spec.CacheMarks
import Verif.Lemmas.CacheStack2
/-
C01, C02: what the code does to any call tree, exactly.
-/
namespace Verif.Props.CacheMarks
open Verif.CacheStack Verif.CacheStack.Spec Verif.CacheStack.Marks

variable {K V : Type}

/-! ### The layers represent the stack of copies -/

/-- The contexts in `snaps`: those whose copies are marked, outermost first. -/
def kept : List Nat → List Bool → List (List Nat)
  | l :: c, m :: r => kept c r ++ (if m then [l :: c] else [])
  | _, _ => []

/-- What the contexts show, innermost first. -/
def shown (base : View K V) (heap : Nat → Delta K V) : List Nat → List (View K V)
  | [] => []
  | l :: c => readAt base heap (l :: c) :: shown base heap c

structure Sim (db : DB K V) (s : Stack K V) : Prop where
  store : db.base = s.base
  views : s.copies.map (·.1) = shown db.base db.heap db.ctx
  snaps : db.snaps = kept db.ctx (s.copies.map (·.2))
  nodup : db.ctx.Nodup
  lt : ∀ l ∈ db.ctx, l < db.next

theorem shown_length (base : View K V) (heap : Nat → Delta K V) (c : List Nat) : (shown base heap c).length = c.length := by
  induction c with
  | nil => rfl
  | cons l c ih => simp [shown, ih]

theorem shown_congr (base : View K V) (h h' : Nat → Delta K V) (c : List Nat) (hc : ∀ l ∈ c, h l = h' l) :
    shown base h c = shown base h' c := by
  induction c with
  | nil => rfl
  | cons l c ih =>
    simp only [shown]
    rw [readAt_congr base h h' (l :: c) hc, ih (fun m hm => hc m (by simp [hm]))]

theorem Sim.length {db : DB K V} {s : Stack K V} (h : Sim db s) : s.copies.length = db.ctx.length := by
  rw [← shown_length db.base db.heap db.ctx, ← h.views, List.length_map]

theorem Sim.cur {db : DB K V} {s : Stack K V} (h : Sim db s) : db.view = s.cur := by
  have hv := h.views
  unfold DB.view Stack.cur
  rcases hc : db.ctx with _ | ⟨l, c⟩
  · rw [hc] at hv
    have : s.copies = [] := by simpa [shown] using hv
    rw [this]
    exact h.store
  · rw [hc] at hv
    rcases hs : s.copies with _ | ⟨⟨v, m⟩, r⟩
    · rw [hs] at hv; simp [shown] at hv
    · rw [hs] at hv
      simp only [List.map_cons, shown, List.cons.injEq] at hv
      exact hv.1.symm

theorem sim_new (base : View K V) : Sim (DB.new base) (Stack.new base) :=
  ⟨rfl, rfl, rfl, List.nodup_nil, by simp [DB.new]⟩

theorem sim_write {db : DB K V} {s : Stack K V} (h : Sim db s) (d : Delta K V) : Sim (db.put d) (s.write d) := by
  have hv := h.views
  have hk := h.snaps
  rcases hc : db.ctx with _ | ⟨l, c⟩
  · rw [hc] at hv
    have hs : s.copies = [] := by simpa [shown] using hv
    have hp : db.put d = { db with base := overlay d db.base } := by simp [DB.put, hc]
    have hw : s.write d = { s with base := overlay d s.base } := by simp [Stack.write, hs]
    rw [hp, hw]
    exact ⟨by simp only [h.store], by simp [hc, hs, shown], by simp only [hk], h.nodup, h.lt⟩
  · have hp : db.put d = { db with heap := fun j => if j = l then d.over (db.heap l) else db.heap j } := by
      simp [DB.put, hc]
    have hnd : l ∉ c := by have := h.nodup; rw [hc] at this; exact (List.nodup_cons.mp this).1
    rcases hs : s.copies with _ | ⟨⟨v, m⟩, r⟩
    · have := h.length; rw [hs, hc] at this; simp at this
    · rw [hs, hc] at hv
      simp only [List.map_cons, shown, List.cons.injEq] at hv
      have hw : s.write d = { s with copies := (overlay d v, m) :: r } := by simp [Stack.write, hs]
      rw [hp, hw]
      refine ⟨h.store, ?_, ?_, h.nodup, h.lt⟩
      · simp only [hc, List.map_cons, shown]
        have e : ∀ j ∈ c, db.heap j = (fun j => if j = l then d.over (db.heap l) else db.heap j) j := by
          intro j hj
          have : ¬ j = l := fun e => hnd (e ▸ hj)
          simp [this]
        rw [hv.2, shown_congr db.base _ _ c e, hv.1]
        congr 1
        simp only [readAt, if_true]
        rw [overlay_over, readAt_congr db.base _ _ c e]
      · simp only [List.map_cons]
        rw [hk, hs]; rfl

theorem sim_push {db : DB K V} {s : Stack K V} (h : Sim db s) : Sim db.snapshot.1 s.push := by
  have hne : ∀ l ∈ db.ctx, ¬ l = db.next := fun l hl => by have := h.lt l hl; omega
  have e : ∀ j ∈ db.ctx, db.heap j = (fun j => if j = db.next then Delta.empty else db.heap j) j := by
    intro j hj; simp [hne j hj]
  refine ⟨h.store, ?_, ?_, ?_, ?_⟩
  · simp only [Stack.push, DB.snapshot, List.map_cons, shown]
    rw [h.views, ← h.cur, shown_congr db.base _ _ db.ctx e]
    congr 1
    simp only [readAt, if_true, overlay_empty, DB.view]
    exact readAt_congr db.base _ _ db.ctx e
  · simp only [Stack.push, DB.snapshot, List.map_cons, kept]
    rw [h.snaps]; simp
  · simp only [DB.snapshot, List.nodup_cons]
    exact ⟨fun hm => hne _ hm rfl, h.nodup⟩
  · intro l hl
    simp only [DB.snapshot, List.mem_cons] at hl ⊢
    rcases hl with rfl | hl
    · omega
    · have := h.lt l hl; omega

theorem kept_length (c : List Nat) (l : List (View K V × Bool)) (hl : l.length = c.length) :
    (kept c (l.map (·.2))).length = marks l := by
  induction c generalizing l with
  | nil =>
    have : l = [] := by simpa using hl
    subst this; rfl
  | cons x c ih =>
    rcases l with _ | ⟨⟨v, m⟩, r⟩
    · simp at hl
    · have hr : r.length = c.length := by simpa using hl
      simp only [List.map_cons, kept, List.length_append, ih r hr, marks]
      cases m <;> simp

theorem marks_cons (v : View K V) (m : Bool) (r : List (View K V × Bool)) :
    marks ((v, m) :: r) = marks r + (if m then 1 else 0) := by
  cases m <;> simp [marks]

/-- Going back: the context found in `snaps` is the one of the copy. -/
theorem kept_back (base : View K V) (heap : Nat → Delta K V) (i : Nat) (c : List Nat) (l : List (View K V × Bool))
    (hv : l.map (·.1) = shown base heap c) :
    match backTo i l with
    | none => (kept c (l.map (·.2)))[i]? = none
    | some r => ∃ c', (kept c (l.map (·.2)))[i]? = some c' ∧ c' <:+ c ∧ r.map (·.1) = shown base heap c' ∧
        (kept c (l.map (·.2))).take i = kept c' (r.map (·.2)) := by
  induction c generalizing l with
  | nil =>
    have : l = [] := by simpa [shown] using hv
    subst this
    simp [backTo, kept]
  | cons x c ih =>
    rcases l with _ | ⟨⟨v, m⟩, r⟩
    · simp [shown] at hv
    · simp only [List.map_cons, shown, List.cons.injEq] at hv
      have hlen : r.length = c.length := by rw [← shown_length base heap c, ← hv.2, List.length_map]
      have hk := kept_length c r hlen
      have hi := ih r hv.2
      by_cases hb : m = true ∧ marks r = i
      · simp only [backTo, if_pos hb]
        obtain ⟨rfl, rfl⟩ := hb
        refine ⟨x :: c, ?_, List.suffix_refl _, ?_, ?_⟩
        · simp only [List.map_cons, kept, if_true]
          rw [List.getElem?_append_right (by rw [hk]; exact Nat.le_refl _), hk]; simp
        · simp [shown, hv.1, hv.2]
        · simp only [List.map_cons, kept, if_true, Bool.false_eq_true, if_false, List.append_nil]
          rw [List.take_append_of_le_length (by rw [hk]; exact Nat.le_refl _), ← hk, List.take_length]
      · simp only [backTo, if_neg hb]
        revert hi
        cases hq : backTo i r with
        | none =>
          intro hi
          simp only [List.map_cons, kept]
          have hi' : (kept c (r.map (·.2)))[i]? = none := hi
          rw [List.getElem?_eq_none_iff, hk] at hi'
          rw [List.getElem?_eq_none_iff, List.length_append, hk]
          cases m with
          | false => simpa using hi'
          | true =>
            have : marks r ≠ i := fun e => hb ⟨rfl, e⟩
            simp only [if_true, List.length_singleton]; omega
        | some q =>
          intro hi
          obtain ⟨c', h1, h2, h3, h4⟩ := hi
          have hlt : i < (kept c (r.map (·.2))).length := by
            rcases Nat.lt_or_ge i (kept c (r.map (·.2))).length with h | h
            · exact h
            · rw [List.getElem?_eq_none h] at h1; cases h1
          refine ⟨c', ?_, h2.trans (List.suffix_cons _ _), h3, ?_⟩
          · simp only [List.map_cons, kept]
            rw [List.getElem?_append_left hlt, h1]
          · simp only [List.map_cons, kept]
            rw [List.take_append_of_le_length (Nat.le_of_lt hlt), h4]

/-- A failing call. -/
theorem sim_fail {db : DB K V} {s : Stack K V} (h : Sim db s) (n : Nat) :
    match s.fail n with
    | none => db.revertToSnapshot ((n : Int) - 1) = none
    | some s' => ∃ db', db.revertToSnapshot ((n : Int) - 1) = some db' ∧ Sim db' s' := by
  cases n with
  | zero =>
    simp only [Stack.fail]
    refine ⟨{ db with ctx := [], snaps := [] }, by simp [DB.revertToSnapshot], ?_⟩
    exact ⟨h.store, rfl, rfl, List.nodup_nil, by simp⟩
  | succ i =>
    have e : ((i + 1 : Nat) : Int) - 1 = (i : Int) := by omega
    have hk := kept_back db.base db.heap i db.ctx s.copies h.views
    rw [← h.snaps] at hk
    rw [e]
    simp only [Stack.fail]
    have hr : db.revertToSnapshot (i : Int) = match db.snaps[i]? with
        | none => none
        | some c => some { db with ctx := c, snaps := db.snaps.take i } := by
      unfold DB.revertToSnapshot
      rw [if_neg (by omega), if_neg (by omega)]
      simp only [Int.toNat_natCast]
      cases db.snaps[i]? <;> rfl
    rw [hr]
    revert hk
    cases backTo i s.copies with
    | none => intro hk; simp only [Option.map_none]; simp only at hk; rw [hk]
    | some r =>
      intro hk
      obtain ⟨c', h1, h2, h3, h4⟩ := hk
      simp only [Option.map_some, h1]
      refine ⟨_, rfl, h.store, h3, h4, h.nodup.sublist h2.sublist, ?_⟩
      intro l hl
      exact h.lt l (h2.subset hl)

theorem sim_id {db : DB K V} {s : Stack K V} (h : Sim db s) : db.snapshot.2 = (marks s.copies : Int) - 1 := by
  show (db.snaps.length : Int) - 1 = _
  rw [h.snaps, kept_length _ _ h.length]

mutual
theorem sim_go (a : Act K V) {db : DB K V} {s : Stack K V} (h : Sim db s) :
    (Act.drive DB.revertToSnapshot a db = none ∧ go a s = none) ∨
      ∃ db' s', Act.drive DB.revertToSnapshot a db = some db' ∧ go a s = some s' ∧ Sim db' s' := by
  match a with
  | .exec f =>
    right
    refine ⟨db.put (f db.view), s.write (f s.cur), by simp [Act.drive], by simp [go], ?_⟩
    rw [← h.cur]
    exact sim_write h _
  | .call body ok =>
    rcases sim_goAll body (sim_push h) with ⟨e1, e2⟩ | ⟨db1, s1, e1, e2, h1⟩
    · left; simp [Act.drive, go, e1, e2]
    · cases ok with
      | true => right; exact ⟨db1, s1, by simp [Act.drive, e1], by simp [go, e2], h1⟩
      | false =>
        have hf := sim_fail h1 (marks s.copies)
        simp only [Act.drive, go, e1, e2, Bool.false_eq_true, if_false]
        rw [sim_id h]
        revert hf
        cases s1.fail (marks s.copies) with
        | none => intro hf; left; exact ⟨hf, rfl⟩
        | some s2 => intro hf; obtain ⟨db2, g1, g2⟩ := hf; right; exact ⟨db2, s2, g1, rfl, g2⟩
theorem sim_goAll (as : List (Act K V)) {db : DB K V} {s : Stack K V} (h : Sim db s) :
    (Act.driveAll DB.revertToSnapshot as db = none ∧ goAll as s = none) ∨
      ∃ db' s', Act.driveAll DB.revertToSnapshot as db = some db' ∧ goAll as s = some s' ∧ Sim db' s' := by
  match as with
  | [] => right; exact ⟨db, s, by simp [Act.driveAll], by simp [goAll], h⟩
  | a :: as =>
    rcases sim_go a h with ⟨e1, e2⟩ | ⟨db1, s1, e1, e2, h1⟩
    · left; simp [Act.driveAll, goAll, e1, e2]
    · rcases sim_goAll as h1 with ⟨g1, g2⟩ | ⟨db2, s2, g1, g2, h2⟩
      · left; simp [Act.driveAll, goAll, e1, e2, g1, g2]
      · right; exact ⟨db2, s2, by simp [Act.driveAll, e1, g1], by simp [goAll, e2, g2], h2⟩
end

/-! ### Commit -/

/-- Lay `v` over the store or the innermost copy. -/
def sink (v : View K V) (base : View K V) (l : List (View K V × Bool)) : View K V × List (View K V × Bool) :=
  match l with
  | [] => (v, [])
  | (_, m) :: r => (base, (v, m) :: r)

theorem publish_sink (v base : View K V) (r : List (View K V × Bool)) :
    publish base ((v, true) :: r) = publish (sink v base r).1 (sink v base r).2 := by
  rcases r with _ | ⟨⟨w, m⟩, r⟩
  · simp [publish, sink]
  · simp only [publish, sink, Bool.true_and, List.all_cons]
    by_cases h : (m && r.all (·.2)) = true
    · rw [if_pos h, if_pos h]
    · rw [if_neg h, if_neg h]; rw [if_neg h]

theorem commit_go (c : List Nat) (hn : c.Nodup) : ∀ (db : DB K V) (l : List (View K V × Bool)),
    l.map (·.1) = shown db.base db.heap c →
    ((kept c (l.map (·.2))).reverse.foldl DB.commitSnap db).base = publish db.base l := by
  induction c with
  | nil =>
    intro db l hv
    have : l = [] := by simpa [shown] using hv
    subst this; rfl
  | cons x c ih =>
    intro db l hv
    have hnd := List.nodup_cons.mp hn
    rcases l with _ | ⟨⟨v, m⟩, r⟩
    · simp [shown] at hv
    · simp only [List.map_cons, shown, List.cons.injEq] at hv
      cases m with
      | false =>
        simp only [List.map_cons, kept, Bool.false_eq_true, if_false, List.append_nil, publish, Bool.false_and]
        exact ih hnd.2 db r hv.2
      | true =>
        rw [publish_sink]
        have hfl : (sink v db.base r).2.map (·.2) = r.map (·.2) := by
          rcases r with _ | ⟨⟨w, m⟩, r⟩ <;> rfl
        have hb : (db.commitSnap (x :: c)).base = (sink v db.base r).1 := by
          rcases c with _ | ⟨p, c⟩
          · have : r = [] := by simpa [shown] using hv.2
            subst this
            simp only [sink, DB.commitSnap]
            rw [hv.1]; rfl
          · rcases r with _ | ⟨⟨w, m⟩, r⟩
            · simp [shown] at hv
            · rfl
        have hs : (sink v db.base r).2.map (·.1) = shown (db.commitSnap (x :: c)).base (db.commitSnap (x :: c)).heap c := by
          rcases c with _ | ⟨p, c⟩
          · have : r = [] := by simpa [shown] using hv.2
            subst this; rfl
          · rcases r with _ | ⟨⟨w, m⟩, r⟩
            · simp [shown] at hv
            · have hr := readAt_commitSnap (db := db) x (p :: c) hn
              simp only [List.map_cons, shown, List.cons.injEq] at hv
              have h2 := List.nodup_cons.mp hnd.2
              simp only [sink, List.map_cons, shown]
              rw [hr, ← hv.1, hv.2.2]
              congr 1
              simp only [DB.commitSnap]
              apply shown_congr
              intro j hj
              have a : ¬ j = x := fun e => hnd.1 (by subst e; simp [hj])
              have b : ¬ j = p := fun e => h2.1 (by subst e; exact hj)
              simp [a, b]
        simp only [List.map_cons, kept, if_true, List.reverse_append, List.reverse_cons, List.reverse_nil, List.nil_append,
          List.singleton_append, List.foldl_cons]
        rw [← hfl, ih hnd.2 _ _ hs, hb]

theorem Sim.commit {db : DB K V} {s : Stack K V} (h : Sim db s) : db.commit.base = s.published := by
  unfold DB.commit Stack.published
  show (db.snaps.reverse.foldl DB.commitSnap db).base = _
  rw [h.snaps, commit_go db.ctx h.nodup db s.copies h.views, h.store]

/-! ### Theorems -/

/-- **C01, what the code does, exactly.** For every call tree, whatever it computes and however many of its calls fail: it is aborted (index out
of range) exactly when the stack of marked copies is, and otherwise what is read in the end and what is committed are what that stack
shows and publishes. -/
theorem C01_exact (acts : List (Act K V)) (base : View K V) :
    (Act.driveAll DB.revertToSnapshot acts (DB.new base)).map (fun db => (db.view, db.commit.base)) =
      (goAll acts (Stack.new base)).map fun s => (s.cur, s.published) := by
  rcases sim_goAll acts (sim_new base) with ⟨e1, e2⟩ | ⟨db, s, e1, e2, h⟩
  · rw [e1, e2]; rfl
  · rw [e1, e2]
    simp only [Option.map_some]
    rw [h.cur, h.commit]

/-! ### One failing call

Frames around a failing call, each with what it did before and what it does afterwards. -/

/-- Frames nested in each other, outermost first: `pre` before and `post` after what is inside. All return normally. -/
def around : List (List (Act K V) × List (Act K V)) → List (Act K V) → List (Act K V)
  | [], inner => inner
  | (pre, post) :: fs, inner => [.call (pre ++ around fs inner ++ post) true]

mutual
/-- The state when a frame was last entered, in an execution without failing calls: `e` before, `v` is the state. -/
def latest : Act K V → View K V → View K V → View K V
  | .exec _, e, _ => e
  | .call body _, _, v => latestAll body v v
def latestAll : List (Act K V) → View K V → View K V → View K V
  | [], e, _ => e
  | a :: as, e, v => latestAll as (latest a e v) (denote a v)
end

/-- The same on the way into nested frames. -/
def lastEntry : List (List (Act K V) × List (Act K V)) → View K V → View K V → View K V
  | [], e, _ => e
  | (pre, _) :: fs, _, v => lastEntry fs (latestAll pre v v) (denoteAll pre v)

theorem goAll_append (xs ys : List (Act K V)) (s : Stack K V) : goAll (xs ++ ys) s = (goAll xs s).bind (goAll ys) := by
  induction xs generalizing s with
  | nil => rfl
  | cons a xs ih =>
    simp only [List.cons_append, goAll]
    cases go a s with
    | none => rfl
    | some s' => exact ih s'

theorem denoteAll_append (xs ys : List (Act K V)) (v : View K V) : denoteAll (xs ++ ys) v = denoteAll ys (denoteAll xs v) := by
  induction xs generalizing v with
  | nil => simp only [List.nil_append, denoteAll]
  | cons a xs ih => simp only [List.cons_append, denoteAll]; exact ih _

theorem publish_all (base : View K V) (v : View K V) (r : List (View K V × Bool)) (h : r.all (·.2) = true) :
    publish base ((v, true) :: r) = v := by
  simp only [publish, Bool.true_and]
  rw [if_pos h]

mutual
theorem quiet_go (a : Act K V) (hq : noRevert a = true) {s : Stack K V} {v : View K V} {m : Bool} {r : List (View K V × Bool)}
    (hs : s.copies = (v, m) :: r) :
    ∃ s' up w, go a s = some s' ∧ s'.base = s.base ∧ s'.copies = up ++ (w, m) :: r ∧ s'.cur = denote a v ∧ up.all (·.2) = true := by
  match a with
  | .exec f =>
    refine ⟨s.write (f s.cur), [], overlay (f v) v, by simp [go], ?_, ?_, ?_, rfl⟩ <;>
      simp [Stack.write, hs, Stack.cur, denote]
  | .call body ok =>
    simp only [noRevert, Bool.and_eq_true] at hq
    obtain ⟨rfl, hb⟩ := hq
    have hp : s.push.copies = (v, true) :: (v, m) :: r := by simp [Stack.push, Stack.cur, hs]
    obtain ⟨s', up, w, e, hbase, hc, hcur, hu⟩ := quiet_goAll body hb hp
    refine ⟨s', up ++ [(w, true)], v, by simp [go, e], hbase, by simp [hc], ?_, by simp [hu]⟩
    simp only [denote, if_true]; exact hcur
theorem quiet_goAll (as : List (Act K V)) (hq : noRevertAll as = true) {s : Stack K V} {v : View K V} {m : Bool}
    {r : List (View K V × Bool)} (hs : s.copies = (v, m) :: r) :
    ∃ s' up w, goAll as s = some s' ∧ s'.base = s.base ∧ s'.copies = up ++ (w, m) :: r ∧ s'.cur = denoteAll as v ∧
      up.all (·.2) = true := by
  match as with
  | [] => exact ⟨s, [], v, by simp [goAll], rfl, hs, by simp [Stack.cur, hs, denoteAll], rfl⟩
  | a :: as =>
    simp only [noRevertAll, Bool.and_eq_true] at hq
    obtain ⟨s1, up, w, e1, b1, c1, v1, u1⟩ := quiet_go a hq.1 hs
    rcases up with _ | ⟨⟨x, n⟩, up⟩
    · have hx : w = denote a v := by rw [← v1]; simp [Stack.cur, c1]
      subst hx
      obtain ⟨s2, up2, w2, e2, b2, c2, v2, u2⟩ := quiet_goAll as hq.2 c1
      exact ⟨s2, up2, w2, by simp [goAll, e1, e2], b2.trans b1, c2, by simp only [denoteAll]; exact v2, u2⟩
    · have hx : x = denote a v := by rw [← v1]; simp [Stack.cur, c1]
      subst hx
      obtain ⟨s2, up2, w2, e2, b2, c2, v2, u2⟩ := quiet_goAll as hq.2 c1
      refine ⟨s2, up2 ++ (w2, n) :: up, w, by simp [goAll, e1, e2], b2.trans b1, by simp [c2], by simp only [denoteAll]; exact v2, ?_⟩
      simp only [List.all_cons, Bool.and_eq_true] at u1
      simp [u2, u1.1]
      simpa using u1.2
end

mutual
theorem marked_go (a : Act K V) (hq : noRevert a = true) {s : Stack K V} {v e : View K V} {r : List (View K V × Bool)}
    (hs : s.copies = (v, true) :: r) (hr : r.all (·.2) = true) (he : publish s.base r = e) :
    ∃ s' r', go a s = some s' ∧ s'.base = s.base ∧ s'.copies = (denote a v, true) :: r' ∧ r'.all (·.2) = true ∧
      publish s.base r' = latest a e v := by
  match a with
  | .exec f =>
    refine ⟨s.write (f s.cur), r, by simp [go], ?_, ?_, hr, ?_⟩
    · simp [Stack.write, hs]
    · simp [Stack.write, hs, Stack.cur, denote]
    · simp only [latest]; exact he
  | .call body ok =>
    simp only [noRevert, Bool.and_eq_true] at hq
    obtain ⟨rfl, hb⟩ := hq
    have hp : s.push.copies = (v, true) :: (v, true) :: r := by simp [Stack.push, Stack.cur, hs]
    obtain ⟨s', r', e1, b1, c1, m1, p1⟩ := marked_goAll body hb hp (by simpa using hr) (publish_all s.push.base v r hr)
    refine ⟨s', r', by simp [go, e1], b1, ?_, m1, ?_⟩
    · simp only [denote, if_true]; exact c1
    · simp only [latest]; exact p1
theorem marked_goAll (as : List (Act K V)) (hq : noRevertAll as = true) {s : Stack K V} {v e : View K V}
    {r : List (View K V × Bool)} (hs : s.copies = (v, true) :: r) (hr : r.all (·.2) = true) (he : publish s.base r = e) :
    ∃ s' r', goAll as s = some s' ∧ s'.base = s.base ∧ s'.copies = (denoteAll as v, true) :: r' ∧ r'.all (·.2) = true ∧
      publish s.base r' = latestAll as e v := by
  match as with
  | [] => exact ⟨s, r, by simp [goAll], rfl, by simp only [denoteAll]; exact hs, hr, by simp only [latestAll]; exact he⟩
  | a :: as =>
    simp only [noRevertAll, Bool.and_eq_true] at hq
    obtain ⟨s1, r1, e1, b1, c1, m1, p1⟩ := marked_go a hq.1 hs hr he
    have p1' : publish s1.base r1 = latest a e v := by rw [b1]; exact p1
    obtain ⟨s2, r2, e2, b2, c2, m2, p2⟩ := marked_goAll as hq.2 c1 m1 p1'
    refine ⟨s2, r2, by simp [goAll, e1, e2], b2.trans b1, by simp only [denoteAll]; exact c2, m2, ?_⟩
    simp only [latestAll]; rw [b1] at p2; exact p2
end

theorem marks_append (a b : List (View K V × Bool)) : marks (a ++ b) = marks a + marks b := by
  simp [marks]

theorem backTo_append (i : Nat) (up l : List (View K V × Bool)) (h : i < marks l) : backTo i (up ++ l) = backTo i l := by
  induction up with
  | nil => rfl
  | cons x up ih =>
    obtain ⟨v, m⟩ := x
    simp only [List.cons_append, backTo]
    rw [if_neg, ih]
    intro hc
    have := marks_append up l
    omega

theorem backTo_none (i : Nat) (l : List (View K V × Bool)) (h : marks l ≤ i) : backTo i l = none := by
  induction l with
  | nil => rfl
  | cons x l ih =>
    obtain ⟨v, m⟩ := x
    rw [marks_cons] at h
    simp only [backTo]
    rw [if_neg, ih (by omega)]
    rintro ⟨rfl, e⟩
    simp at h
    omega

/-- The first failing call in a frame: the caller goes on with the right state, but its copy has lost its mark. -/
theorem fail_first (body : List (Act K V)) (hb : noRevertAll body = true) {s : Stack K V} {v : View K V}
    {r : List (View K V × Bool)} (hs : s.copies = (v, true) :: r) :
    go (.call body false) s = some { s with copies := (v, false) :: r } := by
  have hp : s.push.copies = (v, true) :: (v, true) :: r := by simp [Stack.push, Stack.cur, hs]
  obtain ⟨s', up, w, e, hbase, hc, _, _⟩ := quiet_goAll body hb hp
  have hm : marks s.copies = marks r + 1 := by rw [hs, marks_cons]; rfl
  simp only [go, e, Bool.false_eq_true, if_false, hm, Stack.fail]
  have h1 : backTo (marks r) s'.copies = some ((v, false) :: r) := by
    have hl : marks r < marks ((w, true) :: (v, true) :: r) := by rw [marks_cons, marks_cons]; simp; omega
    rw [hc, backTo_append _ _ _ hl]
    simp only [backTo]
    rw [if_neg, if_pos (by simp)]
    rintro ⟨-, h⟩
    rw [marks_cons] at h
    simp at h
  rw [h1]
  simp only [Option.map_some]
  rw [hbase]; rfl

/-- Some copy has lost its mark, and what is below it is `e`. -/
def Broken (s : Stack K V) (e : View K V) : Prop :=
  ∃ up w low, s.copies = up ++ (w, false) :: low ∧ low.all (·.2) = true ∧ publish s.base low = e

theorem publish_broken {s : Stack K V} {e : View K V} (h : Broken s e) : s.published = e := by
  obtain ⟨up, w, low, hc, hl, he⟩ := h
  unfold Stack.published
  rw [hc]
  clear hc
  induction up with
  | nil => simp only [List.nil_append, publish, Bool.false_and]; exact he
  | cons x up ih =>
    obtain ⟨v, m⟩ := x
    simp only [List.cons_append, publish]
    rw [if_neg (by simp), ih]

theorem quiet_broken (as : List (Act K V)) (hq : noRevertAll as = true) {s : Stack K V} {e : View K V} (h : Broken s e) :
    ∃ s', goAll as s = some s' ∧ Broken s' e ∧ s'.cur = denoteAll as s.cur := by
  obtain ⟨up, w, low, hc, hl, he⟩ := h
  rcases up with _ | ⟨⟨x, n⟩, up⟩
  · obtain ⟨s', up', w', g1, g2, g3, g4, _⟩ := quiet_goAll as hq hc
    refine ⟨s', g1, ⟨up', w', low, g3, hl, by rw [g2]; exact he⟩, ?_⟩
    rw [g4]; simp [Stack.cur, hc]
  · obtain ⟨s', up', w', g1, g2, g3, g4, _⟩ := quiet_goAll as hq hc
    refine ⟨s', g1, ⟨up' ++ (w', n) :: up, w, low, by simp [g3], hl, by rw [g2]; exact he⟩, ?_⟩
    rw [g4]; simp [Stack.cur, hc]

/-- All frames return without further failing calls. -/
def Quiet (fs : List (List (Act K V) × List (Act K V))) : Prop :=
  ∀ f ∈ fs, noRevertAll f.1 = true ∧ noRevertAll f.2 = true

theorem around_one (fs : List (List (Act K V) × List (Act K V))) (hf : Quiet fs) (body : List (Act K V))
    (hb : noRevertAll body = true) : ∀ {s : Stack K V} {v e : View K V} {r : List (View K V × Bool)},
    s.copies = (v, true) :: r → r.all (·.2) = true → publish s.base r = e →
    ∃ s', goAll (around fs [.call body false]) s = some s' ∧ s'.cur = denoteAll (around fs [.call body false]) v ∧
      Broken s' (lastEntry fs e v) := by
  induction fs with
  | nil =>
    intro s v e r hs hr he
    refine ⟨{ s with copies := (v, false) :: r }, by simp only [around, goAll, fail_first body hb hs], ?_, ⟨[], v, r, rfl, hr, he⟩⟩
    simp [Stack.cur, around, denoteAll, denote]
  | cons f fs ih =>
    obtain ⟨pre, post⟩ := f
    intro s v e r hs hr he
    have hq := hf (pre, post) (by simp)
    have hp : s.push.copies = (v, true) :: (v, true) :: r := by simp [Stack.push, Stack.cur, hs]
    obtain ⟨s1, r1, e1, b1, c1, m1, p1⟩ :=
      marked_goAll pre hq.1 hp (by simpa using hr) (publish_all s.push.base v r hr)
    have p1' : publish s1.base r1 = latestAll pre v v := by rw [b1]; exact p1
    obtain ⟨s2, e2, v2, k2⟩ := ih (fun g hg => hf g (by simp [hg])) c1 m1 p1'
    obtain ⟨s3, e3, k3, v3⟩ := quiet_broken post hq.2 k2
    refine ⟨s3, ?_, ?_, k3⟩
    · simp only [around, goAll, go, goAll_append, e1, Option.bind_some, e2, e3, if_true]
    · rw [v3, v2]
      simp only [around, denoteAll, denote, if_true, denoteAll_append]

/-- **C01 (violated), for every execution with one failing call.** Frames `fs` are nested in each other and do whatever they like, with any
calls that succeed, before and after a call that fails and that the innermost of them makes. While the execution lasts everything looks right.
But what is committed is the state at the time the last frame was entered before the failing call: all that anybody did since then is lost,
to the end of the transaction — including what the outer frames did after the inner ones had returned. -/
theorem C01_one_violated (fs : List (List (Act K V) × List (Act K V))) (hne : fs ≠ []) (hf : Quiet fs) (body : List (Act K V))
    (hb : noRevertAll body = true) (base : View K V) :
    ∃ db, Act.driveAll DB.revertToSnapshot (around fs [.call body false]) (DB.new base) = some db ∧
      db.view = denoteAll (around fs [.call body false]) base ∧ db.commit.base = lastEntry fs base base := by
  have main : ∃ s, goAll (around fs [.call body false]) (Stack.new base) = some s ∧
      s.cur = denoteAll (around fs [.call body false]) base ∧ Broken s (lastEntry fs base base) := by
    rcases fs with _ | ⟨⟨pre, post⟩, fs⟩
    · exact absurd rfl hne
    · have hq := hf (pre, post) (by simp)
      obtain ⟨s1, r1, e1, b1, c1, m1, p1⟩ := marked_goAll pre hq.1 (s := (Stack.new base).push) rfl rfl rfl
      have p1' : publish s1.base r1 = latestAll pre base base := by rw [b1]; exact p1
      obtain ⟨s2, e2, v2, k2⟩ := around_one fs (fun g hg => hf g (by simp [hg])) body hb c1 m1 p1'
      obtain ⟨s3, e3, k3, v3⟩ := quiet_broken post hq.2 k2
      refine ⟨s3, ?_, ?_, k3⟩
      · simp only [around, goAll, go, goAll_append, e1, Option.bind_some, e2, e3, if_true]
      · rw [v3, v2]
        simp only [around, denoteAll, denote, if_true, denoteAll_append]
        rfl
  obtain ⟨s, e, hv, hk⟩ := main
  rcases sim_goAll (around fs [.call body false]) (sim_new base) with ⟨_, e2⟩ | ⟨db, s', e1, e2, h⟩
  · rw [e] at e2; cases e2
  · rw [e] at e2; cases e2
    exact ⟨db, e1, by rw [h.cur, hv], by rw [h.commit, publish_broken hk]⟩

/-! ### Aborts -/

theorem execs_go (fs : List (View K V → Delta K V)) : ∀ {s : Stack K V} {v : View K V} {m : Bool} {r : List (View K V × Bool)},
    s.copies = (v, m) :: r → ∃ w, goAll (fs.map Act.exec) s = some { s with copies := (w, m) :: r } := by
  induction fs with
  | nil => intro s v m r hs; exact ⟨v, by simp only [List.map_nil, goAll, ← hs]⟩
  | cons f fs ih =>
    intro s v m r hs
    have hw : s.write (f s.cur) = { s with copies := (overlay (f s.cur) v, m) :: r } := by simp [Stack.write, hs]
    obtain ⟨w, e⟩ := ih (s := { s with copies := (overlay (f s.cur) v, m) :: r }) rfl
    exact ⟨w, by simp only [List.map_cons, goAll, go, hw]; exact e⟩

/-- The second failing call in a frame: the frame's own copy is thrown away. -/
theorem fail_second (body : List (Act K V)) (hb : noRevertAll body = true) {s : Stack K V} {w v : View K V}
    {r : List (View K V × Bool)} (hs : s.copies = (w, false) :: (v, true) :: r) :
    go (.call body false) s = some { s with copies := (v, false) :: r } := by
  have hp : s.push.copies = (w, true) :: (w, false) :: (v, true) :: r := by simp [Stack.push, Stack.cur, hs]
  obtain ⟨s', up, x, e, hbase, hc, _, _⟩ := quiet_goAll body hb hp
  have hm : marks s.copies = marks r + 1 := by rw [hs, marks_cons, marks_cons]; simp
  simp only [go, e, Bool.false_eq_true, if_false, hm, Stack.fail]
  have h1 : backTo (marks r) s'.copies = some ((v, false) :: r) := by
    have hl : marks r < marks ((x, true) :: (w, false) :: (v, true) :: r) := by
      rw [marks_cons, marks_cons, marks_cons]; simp; omega
    rw [hc, backTo_append _ _ _ hl]
    simp only [backTo]
    rw [if_neg, if_neg (by simp), if_pos (by simp)]
    rintro ⟨-, h⟩
    rw [marks_cons, marks_cons] at h
    simp at h
  rw [h1]
  simp only [Option.map_some]
  rw [hbase]; rfl

/-- **C01 (violated, aborts).** A contract, in any frame, calls another and is prepared for its failure. The other makes two calls that fail, and
then fails itself. Then the transaction is not continued with the caller: the execution is aborted, by an index out of range, whatever the
frames around did and were going to do. -/
theorem C01_abort_violated (fs : List (List (Act K V) × List (Act K V))) (hne : fs ≠ []) (hf : ∀ f ∈ fs, noRevertAll f.1 = true)
    (p q r : List (View K V → Delta K V)) (x y : List (Act K V)) (hx : noRevertAll x = true) (hy : noRevertAll y = true)
    (base : View K V) :
    Act.driveAll DB.revertToSnapshot
      (around fs [.call (p.map .exec ++ [.call x false] ++ q.map .exec ++ [.call y false] ++ r.map .exec) false]) (DB.new base) = none := by
  have inner : ∀ {s : Stack K V} {v : View K V} {l : List (View K V × Bool)}, s.copies = (v, true) :: l →
      go (.call (p.map .exec ++ [.call x false] ++ q.map .exec ++ [.call y false] ++ r.map .exec) false) s = none := by
    intro s v l hs
    have hp : s.push.copies = (v, true) :: (v, true) :: l := by simp [Stack.push, Stack.cur, hs]
    obtain ⟨w1, e1⟩ := execs_go p hp
    have e2 := fail_first x hx (s := { s.push with copies := (w1, true) :: (v, true) :: l }) rfl
    obtain ⟨w3, e3⟩ := execs_go q (s := { s.push with copies := (w1, false) :: (v, true) :: l }) rfl
    have e4 := fail_second y hy (s := { s.push with copies := (w3, false) :: (v, true) :: l }) rfl
    obtain ⟨w5, e5⟩ := execs_go r (s := { s.push with copies := (v, false) :: l }) rfl
    have one : ∀ (a : Act K V) (t t' : Stack K V), go a t = some t' → goAll [a] t = some t' := by
      intro a t t' h; simp only [goAll, h]
    have hbody : goAll (p.map .exec ++ [.call x false] ++ q.map .exec ++ [.call y false] ++ r.map .exec) s.push =
        some { s.push with copies := (w5, false) :: l } := by
      simp only [goAll_append, e1, Option.bind_some, one _ _ _ e2, e3, one _ _ _ e4, e5]
    have hm : marks s.copies = marks l + 1 := by rw [hs, marks_cons]; rfl
    simp only [go, hbody, Bool.false_eq_true, if_false, hm, Stack.fail]
    rw [backTo_none _ _ (by rw [marks_cons]; simp)]
    rfl
  have main : ∀ (fs : List (List (Act K V) × List (Act K V))), (∀ f ∈ fs, noRevertAll f.1 = true) →
      ∀ {s : Stack K V} {v e : View K V} {l : List (View K V × Bool)}, s.copies = (v, true) :: l → l.all (·.2) = true →
      publish s.base l = e → goAll (around fs
        [.call (p.map .exec ++ [.call x false] ++ q.map .exec ++ [.call y false] ++ r.map .exec) false]) s = none := by
    intro fs
    induction fs with
    | nil => intro _ s v e l hs _ _; simp only [around, goAll, inner hs]
    | cons f fs ih =>
      obtain ⟨pre, post⟩ := f
      intro hf s v e l hs hl he
      have hp : s.push.copies = (v, true) :: (v, true) :: l := by simp [Stack.push, Stack.cur, hs]
      obtain ⟨s1, r1, e1, b1, c1, m1, p1⟩ :=
        marked_goAll pre (hf (pre, post) (by simp)) hp (by simpa using hl) (publish_all s.push.base v l hl)
      have := ih (fun g hg => hf g (by simp [hg])) c1 m1 rfl
      rw [around]
      simp only [goAll, go, goAll_append, e1, Option.bind_some]
      rw [this]
      rfl
  have hgo : goAll (around fs [.call (p.map .exec ++ [.call x false] ++ q.map .exec ++ [.call y false] ++ r.map .exec) false])
      (Stack.new base) = none := by
    rcases fs with _ | ⟨⟨pre, post⟩, fs⟩
    · exact absurd rfl hne
    · obtain ⟨s1, r1, e1, b1, c1, m1, p1⟩ := marked_goAll pre (hf (pre, post) (by simp)) (s := (Stack.new base).push) rfl rfl rfl
      have := main fs (fun g hg => hf g (by simp [hg])) c1 m1 rfl
      rw [around]
      simp only [goAll, go, goAll_append, e1, Option.bind_some]
      rw [this]
      rfl
  rcases sim_goAll _ (sim_new base) with ⟨e1, _⟩ | ⟨_, _, _, e2, _⟩
  · exact e1
  · rw [hgo] at e2; cases e2

/-! ### The hypotheses are met -/

/-- `k := x` -/
def put1 (k x : Nat) : View Nat Nat → Delta Nat Nat := fun _ j => if j = k then some (some x) else none

/-- An outer contract writes 1, calls a contract that writes 2, calls a third which returns, makes a call that fails, and writes 3; then the outer
contract writes 4. -/
def toyFrames : List (List (Act Nat Nat) × List (Act Nat Nat)) :=
  [([.exec (put1 1 7)], [.exec (put1 4 7)]),
   ([.exec (put1 2 7), .call [.exec (put1 5 7)] true], [.exec (put1 3 7)])]

/-- Wanted are 1 to 5; committed are 1 and 2 (the third contract was entered last). -/
example : Quiet toyFrames ∧
    [1, 2, 3, 4, 5].map (denoteAll (around toyFrames [.call [.exec (put1 6 7)] false]) (fun _ => none)) =
      [some 7, some 7, some 7, some 7, some 7] ∧
    [1, 2, 3, 4, 5].map (lastEntry toyFrames (fun _ => none) (fun _ => none)) = [some 7, some 7, none, none, none] := by
  refine ⟨?_, by decide +kernel, by decide +kernel⟩
  intro f hf
  simp only [toyFrames, List.mem_cons, List.not_mem_nil, or_false] at hf
  rcases hf with rfl | rfl <;> exact ⟨rfl, rfl⟩

/-- A failing call with one failing call inside is survived; with two it is not. -/
example : (goAll [.call [.call [.call [] false, .exec (put1 1 7)] false, .exec (put1 2 7)] true] (Stack.new fun _ : Nat => none)).isSome = true ∧
    (goAll [.call [.call [.call [] false, .exec (put1 1 7), .call [] false] false, .exec (put1 2 7)] true]
      (Stack.new fun _ : Nat => none)).isSome = false := by
  constructor <;> decide +kernel

end Verif.Props.CacheMarks
