import Verif.Spec.PrecompileMarks
import Verif.Spec.PrecompileCtx
import Verif.Props.CacheMarks
/-
C56: what the code does to any call tree with precompile calls, exactly.
-/
namespace Verif.Props.PrecompileMarks
open Verif.CacheStack Verif.CacheStack.Spec Verif.CacheStack.PMarks
open Verif.CacheStack.Marks (marks backTo)
open Verif.Props.CacheMarks (kept kept_length marks_cons)

variable {K V : Type}

/-! ### The layers represent the pending changes -/

/-- The pending changes of a context. -/
def pend (heap : Nat → Delta K V) : List Nat → Delta K V
  | [] => Delta.empty
  | l :: c => (heap l).over (pend heap c)

theorem read_pend (base : View K V) (heap : Nat → Delta K V) (c : List Nat) : readAt base heap c = overlay (pend heap c) base := by
  induction c with
  | nil => rfl
  | cons l c ih => simp only [readAt, pend]; rw [overlay_over, ih]

theorem pend_congr (h h' : Nat → Delta K V) (c : List Nat) (hc : ∀ l ∈ c, h l = h' l) : pend h c = pend h' c := by
  induction c with
  | nil => rfl
  | cons l c ih =>
    simp only [pend]
    rw [hc l (by simp), ih (fun m hm => hc m (by simp [hm]))]

theorem over_assoc (a b c : Delta K V) : (a.over b).over c = a.over (b.over c) := by
  funext k; simp only [Delta.over]; cases a k <;> rfl

/-- The pending changes of the contexts, innermost first. -/
def shown (heap : Nat → Delta K V) : List Nat → List (Delta K V)
  | [] => []
  | l :: c => pend heap (l :: c) :: shown heap c

theorem shown_length (heap : Nat → Delta K V) (c : List Nat) : (shown heap c).length = c.length := by
  induction c with
  | nil => rfl
  | cons l c ih => simp [shown, ih]

theorem shown_congr (h h' : Nat → Delta K V) (c : List Nat) (hc : ∀ l ∈ c, h l = h' l) : shown h c = shown h' c := by
  induction c with
  | nil => rfl
  | cons l c ih =>
    simp only [shown]
    rw [pend_congr h h' (l :: c) hc, ih (fun m hm => hc m (by simp [hm]))]

structure Sim (db : DB K V) (s : Stack K V) : Prop where
  store : db.base = s.store
  views : s.copies.map (·.1) = shown db.heap db.ctx
  snaps : db.snaps = kept db.ctx (s.copies.map (·.2))
  nodup : db.ctx.Nodup
  lt : ∀ l ∈ db.ctx, l < db.next

theorem Sim.length {db : DB K V} {s : Stack K V} (h : Sim db s) : s.copies.length = db.ctx.length := by
  rw [← shown_length db.heap db.ctx, ← h.views, List.length_map]

theorem Sim.top {db : DB K V} {s : Stack K V} (h : Sim db s) : pend db.heap db.ctx = s.top := by
  have hv := h.views
  unfold Stack.top
  rcases hc : db.ctx with _ | ⟨l, c⟩
  · rw [hc] at hv
    have : s.copies = [] := by simpa [shown] using hv
    rw [this]; rfl
  · rw [hc] at hv
    rcases hs : s.copies with _ | ⟨⟨v, m⟩, r⟩
    · rw [hs] at hv; simp [shown] at hv
    · rw [hs] at hv
      simp only [List.map_cons, shown, List.cons.injEq] at hv
      exact hv.1.symm

theorem Sim.cur {db : DB K V} {s : Stack K V} (h : Sim db s) : db.view = s.cur := by
  unfold DB.view Stack.cur
  rw [read_pend, h.top, h.store]

theorem sim_new (base : View K V) : Sim (DB.new base) (Stack.new base) :=
  ⟨rfl, rfl, rfl, List.nodup_nil, by simp [DB.new]⟩

theorem sim_pre {db : DB K V} {s : Stack K V} (h : Sim db s) (f : View K V → Delta K V) : Sim (db.putBase f) (s.pre f) :=
  ⟨by simp only [DB.putBase, Stack.pre, h.store], h.views, h.snaps, h.nodup, h.lt⟩

theorem sim_write {db : DB K V} {s : Stack K V} (h : Sim db s) (d : Delta K V) : Sim (db.put d) (s.write d) := by
  have hv := h.views
  have hk := h.snaps
  rcases hc : db.ctx with _ | ⟨l, c⟩
  · rw [hc] at hv
    have hs : s.copies = [] := by simpa [shown] using hv
    have hp : db.put d = { db with base := overlay d db.base } := by simp [DB.put, hc]
    have hw : s.write d = { s with store := overlay d s.store } := by simp [Stack.write, hs]
    rw [hp, hw]
    exact ⟨by simp only [h.store], by simp [hc, hs, shown], by simp only [hk], h.nodup, h.lt⟩
  · have hp : db.put d = { db with heap := fun j => if j = l then d.over (db.heap l) else db.heap j } := by
      simp [DB.put, hc]
    have hnd : l ∉ c := by have := h.nodup; rw [hc] at this; exact (List.nodup_cons.mp this).1
    rcases hs : s.copies with _ | ⟨⟨v, m⟩, r⟩
    · have := h.length; rw [hs, hc] at this; simp at this
    · rw [hs, hc] at hv
      simp only [List.map_cons, shown, List.cons.injEq] at hv
      have hw : s.write d = { s with copies := (d.over v, m) :: r } := by simp [Stack.write, hs]
      rw [hp, hw]
      refine ⟨h.store, ?_, ?_, h.nodup, h.lt⟩
      · simp only [hc, List.map_cons, shown]
        have e : ∀ j ∈ c, db.heap j = (fun j => if j = l then d.over (db.heap l) else db.heap j) j := by
          intro j hj
          have : ¬ j = l := fun e => hnd (e ▸ hj)
          simp [this]
        rw [hv.2, shown_congr _ _ c e, hv.1]
        congr 1
        simp only [pend, if_true]
        rw [over_assoc, pend_congr _ _ c e]
      · simp only [List.map_cons]
        rw [hk, hs]; rfl

theorem sim_push {db : DB K V} {s : Stack K V} (h : Sim db s) : Sim db.snapshot.1 s.push := by
  have hne : ∀ l ∈ db.ctx, ¬ l = db.next := fun l hl => by have := h.lt l hl; omega
  have e : ∀ j ∈ db.ctx, db.heap j = (fun j => if j = db.next then Delta.empty else db.heap j) j := by
    intro j hj; simp [hne j hj]
  refine ⟨h.store, ?_, ?_, ?_, ?_⟩
  · simp only [Stack.push, DB.snapshot, List.map_cons, shown]
    rw [h.views, ← h.top, shown_congr _ _ db.ctx e]
    congr 1
    simp only [pend, if_true]
    exact pend_congr _ _ db.ctx e
  · simp only [Stack.push, DB.snapshot, List.map_cons, kept]
    rw [h.snaps]; simp
  · simp only [DB.snapshot, List.nodup_cons]
    exact ⟨fun hm => hne _ hm rfl, h.nodup⟩
  · intro l hl
    simp only [DB.snapshot, List.mem_cons] at hl ⊢
    rcases hl with rfl | hl
    · omega
    · have := h.lt l hl; omega

/-- Going back: the context found in `snaps` is the one of the copy. -/
theorem kept_back (heap : Nat → Delta K V) (i : Nat) (c : List Nat) (l : List (Delta K V × Bool))
    (hv : l.map (·.1) = shown heap c) :
    match backTo i l with
    | none => (kept c (l.map (·.2)))[i]? = none
    | some r => ∃ c', (kept c (l.map (·.2)))[i]? = some c' ∧ c' <:+ c ∧ r.map (·.1) = shown heap c' ∧
        (kept c (l.map (·.2))).take i = kept c' (r.map (·.2)) := by
  induction c generalizing l with
  | nil =>
    have : l = [] := by simpa [shown] using hv
    subst this
    simp [backTo, kept]
  | cons x c ih =>
    rcases l with _ | ⟨⟨v, m⟩, r⟩
    · simp [shown] at hv
    · simp only [List.map_cons, shown, List.cons.injEq] at hv
      have hlen : r.length = c.length := by rw [← shown_length heap c, ← hv.2, List.length_map]
      have hk := kept_length c r hlen
      have hi := ih r hv.2
      by_cases hb : m = true ∧ marks r = i
      · simp only [backTo, if_pos hb]
        obtain ⟨rfl, rfl⟩ := hb
        refine ⟨x :: c, ?_, List.suffix_refl _, ?_, ?_⟩
        · simp only [List.map_cons, kept, if_true]
          rw [List.getElem?_append_right (by rw [hk]; exact Nat.le_refl _), hk]; simp
        · simp [shown, hv.1, hv.2]
        · simp only [List.map_cons, kept, if_true, Bool.false_eq_true, if_false, List.append_nil]
          rw [List.take_append_of_le_length (by rw [hk]; exact Nat.le_refl _), ← hk, List.take_length]
      · simp only [backTo, if_neg hb]
        revert hi
        cases hq : backTo i r with
        | none =>
          intro hi
          simp only [List.map_cons, kept]
          have hi' : (kept c (r.map (·.2)))[i]? = none := hi
          rw [List.getElem?_eq_none_iff, hk] at hi'
          rw [List.getElem?_eq_none_iff, List.length_append, hk]
          cases m with
          | false => simpa using hi'
          | true =>
            have : marks r ≠ i := fun e => hb ⟨rfl, e⟩
            simp only [if_true, List.length_singleton]; omega
        | some q =>
          intro hi
          obtain ⟨c', h1, h2, h3, h4⟩ := hi
          have hlt : i < (kept c (r.map (·.2))).length := by
            rcases Nat.lt_or_ge i (kept c (r.map (·.2))).length with h | h
            · exact h
            · rw [List.getElem?_eq_none h] at h1; cases h1
          refine ⟨c', ?_, h2.trans (List.suffix_cons _ _), h3, ?_⟩
          · simp only [List.map_cons, kept]
            rw [List.getElem?_append_left hlt, h1]
          · simp only [List.map_cons, kept]
            rw [List.take_append_of_le_length (Nat.le_of_lt hlt), h4]

/-- A failing call. -/
theorem sim_fail {db : DB K V} {s : Stack K V} (h : Sim db s) (n : Nat) :
    match s.fail n with
    | none => db.revertToSnapshot ((n : Int) - 1) = none
    | some s' => ∃ db', db.revertToSnapshot ((n : Int) - 1) = some db' ∧ Sim db' s' := by
  cases n with
  | zero =>
    simp only [Stack.fail]
    refine ⟨{ db with ctx := [], snaps := [] }, by simp [DB.revertToSnapshot], ?_⟩
    exact ⟨h.store, rfl, rfl, List.nodup_nil, by simp⟩
  | succ i =>
    have e : ((i + 1 : Nat) : Int) - 1 = (i : Int) := by omega
    have hk := kept_back db.heap i db.ctx s.copies h.views
    rw [← h.snaps] at hk
    rw [e]
    simp only [Stack.fail]
    have hr : db.revertToSnapshot (i : Int) = match db.snaps[i]? with
        | none => none
        | some c => some { db with ctx := c, snaps := db.snaps.take i } := by
      unfold DB.revertToSnapshot
      rw [if_neg (by omega), if_neg (by omega)]
      simp only [Int.toNat_natCast]
      cases db.snaps[i]? <;> rfl
    rw [hr]
    revert hk
    cases backTo i s.copies with
    | none => intro hk; simp only [Option.map_none]; simp only at hk; rw [hk]
    | some r =>
      intro hk
      obtain ⟨c', h1, h2, h3, h4⟩ := hk
      simp only [Option.map_some, h1]
      refine ⟨_, rfl, h.store, h3, h4, h.nodup.sublist h2.sublist, ?_⟩
      intro l hl
      exact h.lt l (h2.subset hl)

theorem sim_id {db : DB K V} {s : Stack K V} (h : Sim db s) : db.snapshot.2 = (marks s.copies : Int) - 1 := by
  show (db.snaps.length : Int) - 1 = _
  rw [h.snaps, kept_length _ _ h.length]

mutual
theorem sim_go (a : PAct K V) {db : DB K V} {s : Stack K V} (h : Sim db s) :
    (PAct.drive a db = none ∧ go a s = none) ∨ ∃ db' s', PAct.drive a db = some db' ∧ go a s = some s' ∧ Sim db' s' := by
  match a with
  | .exec f =>
    right
    refine ⟨db.put (f db.view), s.write (f s.cur), by simp [PAct.drive], by simp [go], ?_⟩
    rw [← h.cur]
    exact sim_write h _
  | .precompile f => right; exact ⟨db.putBase f, s.pre f, by simp [PAct.drive], by simp [go], sim_pre h f⟩
  | .call body ok =>
    rcases sim_goAll body (sim_push h) with ⟨e1, e2⟩ | ⟨db1, s1, e1, e2, h1⟩
    · left; simp [PAct.drive, go, e1, e2]
    · cases ok with
      | true => right; exact ⟨db1, s1, by simp [PAct.drive, e1], by simp [go, e2], h1⟩
      | false =>
        have hf := sim_fail h1 (marks s.copies)
        simp only [PAct.drive, go, e1, e2, Bool.false_eq_true, if_false]
        rw [sim_id h]
        revert hf
        cases s1.fail (marks s.copies) with
        | none => intro hf; left; exact ⟨hf, rfl⟩
        | some s2 => intro hf; obtain ⟨db2, g1, g2⟩ := hf; right; exact ⟨db2, s2, g1, rfl, g2⟩
theorem sim_goAll (as : List (PAct K V)) {db : DB K V} {s : Stack K V} (h : Sim db s) :
    (PAct.driveAll as db = none ∧ goAll as s = none) ∨
      ∃ db' s', PAct.driveAll as db = some db' ∧ goAll as s = some s' ∧ Sim db' s' := by
  match as with
  | [] => right; exact ⟨db, s, by simp [PAct.driveAll], by simp [goAll], h⟩
  | a :: as =>
    rcases sim_go a h with ⟨e1, e2⟩ | ⟨db1, s1, e1, e2, h1⟩
    · left; simp [PAct.driveAll, goAll, e1, e2]
    · rcases sim_goAll as h1 with ⟨g1, g2⟩ | ⟨db2, s2, g1, g2, h2⟩
      · left; simp [PAct.driveAll, goAll, e1, e2, g1, g2]
      · right; exact ⟨db2, s2, by simp [PAct.driveAll, e1, g1], by simp [goAll, e2, g2], h2⟩
end

/-! ### Commit -/

theorem publish_map (base : View K V) (l : List (Delta K V × Bool)) :
    Verif.CacheStack.Marks.publish base (l.map fun x => (overlay x.1 base, x.2)) = overlay (publish l) base := by
  induction l with
  | nil => rfl
  | cons x r ih =>
    obtain ⟨d, m⟩ := x
    simp only [List.map_cons, Verif.CacheStack.Marks.publish, publish, List.all_map]
    have : (r.all ((fun x => x.snd) ∘ fun x : Delta K V × Bool => (overlay x.fst base, x.snd))) = r.all (·.2) := rfl
    rw [this]
    split
    · rfl
    · exact ih

theorem shown_read (base : View K V) (heap : Nat → Delta K V) (c : List Nat) :
    (shown heap c).map (fun d => overlay d base) = Verif.Props.CacheMarks.shown base heap c := by
  induction c with
  | nil => rfl
  | cons l c ih => simp only [shown, List.map_cons, Verif.Props.CacheMarks.shown, read_pend, ih]

theorem Sim.commit {db : DB K V} {s : Stack K V} (h : Sim db s) : db.commit.base = s.published := by
  unfold DB.commit Stack.published
  show (db.snaps.reverse.foldl DB.commitSnap db).base = _
  have hv : (s.copies.map fun x => (overlay x.1 db.base, x.2)).map (·.1) = Verif.Props.CacheMarks.shown db.base db.heap db.ctx := by
    rw [← shown_read, ← h.views]; simp
  have hf : (s.copies.map fun x => (overlay x.1 db.base, x.2)).map (·.2) = s.copies.map (·.2) := by simp
  have := Verif.Props.CacheMarks.commit_go db.ctx h.nodup db _ hv
  rw [hf, ← h.snaps, publish_map] at this
  rw [this, h.store]

/-! ### Theorems -/

/-- **C56, what the code does, exactly.** For every call tree with precompile calls, whatever contracts and precompiles compute and however many
calls fail: it is aborted exactly when the stack of pending changes is, and otherwise what contracts read in the end, what the store
holds and what a commit makes of it are what that stack says. -/
theorem C56_exact (acts : List (PAct K V)) (base : View K V) :
    (PAct.driveAll acts (DB.new base)).map (fun db => (db.view, db.base, db.commit.base)) =
      (goAll acts (Stack.new base)).map fun s => (s.cur, s.store, s.published) := by
  rcases sim_goAll acts (sim_new base) with ⟨e1, e2⟩ | ⟨db, s, e1, e2, h⟩
  · rw [e1, e2]; rfl
  · rw [e1, e2]
    simp only [Option.map_some]
    rw [h.cur, h.commit, h.store]

mutual
theorem two_go (a : PAct K V) (hq : noRevert (strip a) = true) {s : Stack K V} {r : List (Delta K V × Bool)} {d : Delta K V}
    (hs : s.copies = (d, true) :: r) (hr : r.all (·.2) = true) :
    ∃ s' r', go a s = some s' ∧ s'.store = (two a (s.store, d)).1 ∧ s'.copies = ((two a (s.store, d)).2, true) :: r' ∧
      r'.all (·.2) = true := by
  match a with
  | .exec f =>
    refine ⟨s.write (f s.cur), r, by simp [go], ?_, ?_, hr⟩
    · simp [Stack.write, hs, two]
    · simp [Stack.write, hs, two, Stack.cur, Stack.top]
  | .precompile f => exact ⟨s.pre f, r, by simp [go], by simp [Stack.pre, two], by simp [Stack.pre, two, hs], hr⟩
  | .call body ok =>
    simp only [strip, noRevert, Bool.and_eq_true] at hq
    obtain ⟨rfl, hb⟩ := hq
    have hp : s.push.copies = (d, true) :: (d, true) :: r := by simp [Stack.push, Stack.top, hs]
    obtain ⟨s', r', e1, b1, c1, m1⟩ := two_goAll body hb hp (by simpa using hr)
    exact ⟨s', r', by simp [go, e1], by simp only [two]; exact b1, by simp only [two]; exact c1, m1⟩
theorem two_goAll (as : List (PAct K V)) (hq : noRevertAll (stripAll as) = true) {s : Stack K V} {r : List (Delta K V × Bool)}
    {d : Delta K V} (hs : s.copies = (d, true) :: r) (hr : r.all (·.2) = true) :
    ∃ s' r', goAll as s = some s' ∧ s'.store = (twoAll as (s.store, d)).1 ∧ s'.copies = ((twoAll as (s.store, d)).2, true) :: r' ∧
      r'.all (·.2) = true := by
  match as with
  | [] => exact ⟨s, r, by simp [goAll], by simp [twoAll], by simp only [twoAll]; exact hs, hr⟩
  | a :: as =>
    simp only [stripAll, noRevertAll, Bool.and_eq_true] at hq
    obtain ⟨s1, r1, e1, b1, c1, m1⟩ := two_go a hq.1 hs hr
    obtain ⟨s2, r2, e2, b2, c2, m2⟩ := two_goAll as hq.2 c1 m1
    refine ⟨s2, r2, by simp [goAll, e1, e2], ?_, ?_, m2⟩
    · simp only [twoAll]; rw [b2, b1]
    · simp only [twoAll]; rw [c2, b1]
end

mutual
theorem two_pres (a : PAct K V) (p : View K V × Delta K V) : (two a p).1 = pres a p.1 := by
  match a with
  | .exec f => simp [two, pres]
  | .precompile f => simp [two, pres]
  | .call body ok => simp only [two, pres]; exact twoAll_pres body p
theorem twoAll_pres (as : List (PAct K V)) (p : View K V × Delta K V) : (twoAll as p).1 = presAll as p.1 := by
  match as with
  | [] => simp [twoAll, presAll]
  | a :: as => simp only [twoAll, presAll]; rw [twoAll_pres as, two_pres a]
end

/-- **C56 (violated), for every transaction without failing calls.** Two things go on side by side: the precompiles work on the store, one after
the other, and see nothing of what the contracts have written; and what the contracts write is laid over the store at the end, over whatever
the precompiles have written there in the meantime — also earlier writes over later ones. -/
theorem C56_beside_violated (body : List (PAct K V)) (hq : noRevertAll (stripAll body) = true) (base : View K V) :
    ∃ db, PAct.drive (.call body true) (DB.new base) = some db ∧
      db.base = presAll body base ∧ db.commit.base = overlay (twoAll body (base, Delta.empty)).2 (presAll body base) := by
  obtain ⟨s1, r1, e1, b1, c1, m1⟩ := two_goAll body hq (s := (Stack.new base).push) (d := Delta.empty) (r := []) rfl rfl
  have hgo : go (.call body true) (Stack.new base) = some s1 := by simp [go, e1]
  rcases sim_go (.call body true) (sim_new base) with ⟨_, e⟩ | ⟨db, s', d1, d2, h⟩
  · rw [hgo] at e; cases e
  · rw [hgo] at d2; cases d2
    have hst : s1.store = presAll body base := by rw [b1, twoAll_pres]; rfl
    refine ⟨db, d1, by rw [h.store, hst], ?_⟩
    rw [h.commit]
    unfold Stack.published
    rw [hst, c1]
    simp only [publish, Bool.true_and]
    rw [if_pos m1]
    rfl

mutual
/-- How many calls fail, at all depths. -/
def failing : PAct K V → Nat
  | .exec _ => 0
  | .precompile _ => 0
  | .call body ok => failingAll body + (if ok then 0 else 1)
def failingAll : List (PAct K V) → Nat
  | [] => 0
  | a :: as => failing a + failingAll as
end

theorem marks_back (i : Nat) (l r : List (Delta K V × Bool)) (h : backTo i l = some r) : marks r = i ∧ r ≠ [] := by
  induction l with
  | nil => cases h
  | cons x l ih =>
    obtain ⟨v, m⟩ := x
    simp only [backTo] at h
    split at h
    · rename_i hc
      cases h
      refine ⟨?_, by simp⟩
      rw [marks_cons, hc.2]; simp
    · exact ih h

mutual
theorem store_go (a : PAct K V) {s s' : Stack K V} (hne : s.copies ≠ []) (hm : failing a ≤ marks s.copies) (h : go a s = some s') :
    s'.store = pres a s.store ∧ s'.copies ≠ [] ∧ marks s.copies ≤ marks s'.copies + failing a := by
  match a with
  | .exec f =>
    simp only [go, Option.some.injEq] at h
    subst h
    rcases hs : s.copies with _ | ⟨⟨v, m⟩, r⟩
    · exact absurd hs hne
    · refine ⟨by simp [Stack.write, hs, pres], by simp [Stack.write, hs], ?_⟩
      simp only [Stack.write, hs, failing]
      rw [marks_cons, marks_cons]; simp
  | .precompile f =>
    simp only [go, Option.some.injEq] at h
    subst h
    exact ⟨by simp [Stack.pre, pres], hne, by simp [Stack.pre]⟩
  | .call body ok =>
    simp only [go] at h
    cases hb : goAll body s.push with
    | none => rw [hb] at h; cases h
    | some s1 =>
      rw [hb] at h
      simp only [failing] at hm ⊢
      have hp : marks s.push.copies = marks s.copies + 1 := by simp only [Stack.push]; rw [marks_cons]; rfl
      obtain ⟨h1, h2, h3⟩ := store_goAll body (s := s.push) (by simp [Stack.push]) (by omega) hb
      cases ok with
      | true =>
        simp only [if_true, Option.some.injEq] at h
        subst h
        refine ⟨by simp only [pres]; exact h1, h2, ?_⟩
        simp only [if_true]; omega
      | false =>
        simp only [Bool.false_eq_true, if_false] at h hm ⊢
        cases hn : marks s.copies with
        | zero => omega
        | succ i =>
          rw [hn] at h
          simp only [Stack.fail] at h
          cases hbk : backTo i s1.copies with
          | none => rw [hbk] at h; cases h
          | some r =>
            rw [hbk] at h
            simp only [Option.map_some, Option.some.injEq] at h
            subst h
            obtain ⟨g1, g2⟩ := marks_back i _ _ hbk
            refine ⟨by simp only [pres]; exact h1, g2, ?_⟩
            simp only [g1]; omega
theorem store_goAll (as : List (PAct K V)) {s s' : Stack K V} (hne : s.copies ≠ []) (hm : failingAll as ≤ marks s.copies)
    (h : goAll as s = some s') :
    s'.store = presAll as s.store ∧ s'.copies ≠ [] ∧ marks s.copies ≤ marks s'.copies + failingAll as := by
  match as with
  | [] =>
    simp only [goAll, Option.some.injEq] at h
    subst h
    exact ⟨by simp [presAll], hne, by simp [failingAll]⟩
  | a :: as =>
    simp only [goAll] at h
    simp only [failingAll] at hm ⊢
    cases ha : go a s with
    | none => rw [ha] at h; cases h
    | some s1 =>
      rw [ha] at h
      obtain ⟨h1, h2, h3⟩ := store_go a hne (by omega) ha
      obtain ⟨g1, g2, g3⟩ := store_goAll as h2 (by omega) h
      refine ⟨by simp only [presAll]; rw [g1, h1], g2, by omega⟩
end

/-- **C56 (violated), reverts.** No precompile call is ever undone: in every transaction with at most one failing call, at any depth, the store
ends up with the effects of all precompile calls, those in the failing call included, with the contracts' writes over it; and if the
transaction as a whole fails, with the effects of all of them alone. -/
theorem C56_kept_violated (body : List (PAct K V)) (hf : failingAll body ≤ 1) (base : View K V) :
    (∀ db, PAct.drive (.call body true) (DB.new base) = some db →
      ∃ written, db.commit.base = overlay written (presAll body base)) ∧
    (∀ db, PAct.drive (.call body false) (DB.new base) = some db → db.base = presAll body base ∧ db.commit.base = presAll body base) := by
  constructor
  · intro db hd
    rcases sim_go (.call body true) (sim_new base) with ⟨e, _⟩ | ⟨db', s', d1, d2, h⟩
    · rw [hd] at e; cases e
    · rw [hd] at d1; cases d1
      simp only [go] at d2
      cases hb : goAll body (Stack.new base).push with
      | none => rw [hb] at d2; cases d2
      | some s1 =>
        rw [hb] at d2
        simp only [if_true, Option.some.injEq] at d2
        subst d2
        obtain ⟨h1, _, _⟩ := store_goAll body (s := (Stack.new base).push) (by simp [Stack.push]) hf hb
        refine ⟨publish s1.copies, ?_⟩
        rw [h.commit, Stack.published, h1]; rfl
  · intro db hd
    rcases sim_go (.call body false) (sim_new base) with ⟨e, _⟩ | ⟨db', s', d1, d2, h⟩
    · rw [hd] at e; cases e
    · rw [hd] at d1; cases d1
      simp only [go] at d2
      cases hb : goAll body (Stack.new base).push with
      | none => rw [hb] at d2; cases d2
      | some s1 =>
        rw [hb] at d2
        have hn : marks (Stack.new base).copies = 0 := rfl
        simp only [Bool.false_eq_true, if_false, hn, Stack.fail, Option.some.injEq] at d2
        subst d2
        obtain ⟨h1, _, _⟩ := store_goAll body (s := (Stack.new base).push) (by simp [Stack.push]) hf hb
        have hst : s1.store = presAll body base := h1
        refine ⟨by rw [h.store, ← hst], ?_⟩
        rw [h.commit, ← hst]; rfl

/-! ### The hypotheses are met -/

/-- `k := x` -/
def put1 (k x : Nat) : View Nat Nat → Delta Nat Nat := fun _ j => if j = k then some (some x) else none

/-- `k := k + 1` -/
def incr (k : Nat) : View Nat Nat → Delta Nat Nat := fun v j => if j = k then some (some ((v k).getD 0 + 1)) else none

/-- The contract counts to one, the precompile counts on, the contract counts again: two instead of three, since the precompile counted
beside it. -/
example : noRevertAll (stripAll [PAct.exec (incr 1), .precompile (incr 1), .exec (incr 1)]) = true ∧
    overlay (twoAll [PAct.exec (incr 1), .precompile (incr 1), .exec (incr 1)] (fun _ => none, Delta.empty)).2
      (presAll [PAct.exec (incr 1), .precompile (incr 1), .exec (incr 1)] (fun _ => none)) 1 = some 2 ∧
    pdenoteAll [PAct.exec (incr 1), .precompile (incr 1), .exec (incr 1)] (fun _ => none) 1 = some 3 := by
  refine ⟨rfl, by decide +kernel, by decide +kernel⟩

/-- A precompile call in a failing call: kept. -/
example : failingAll [PAct.exec (put1 1 7), .call [.precompile (put1 2 7)] false, .exec (put1 3 7)] ≤ 1 ∧
    (PAct.drive (.call [PAct.exec (put1 1 7), .call [.precompile (put1 2 7)] false, .exec (put1 3 7)] true)
      (DB.new fun _ => none)).isSome = true ∧
    presAll [PAct.exec (put1 1 7), .call [.precompile (put1 2 7)] false, .exec (put1 3 7)] (fun _ => none) 2 = some 7 ∧
    pdenoteAll [PAct.exec (put1 1 7), .call [.precompile (put1 2 7)] false, .exec (put1 3 7)] (fun _ => none) 2 = none := by
  refine ⟨by decide, by decide +kernel, by decide +kernel, by decide +kernel⟩

end Verif.Props.PrecompileMarks
