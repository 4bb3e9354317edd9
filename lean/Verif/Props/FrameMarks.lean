import Verif.Props.Frames
import Verif.Props.CacheMarks
import Verif.Spec.FrameMarks
/-
Exactly what the code does to call frames: when it aborts, when the store is touched before the commit (C02, C55), and which operations take
effect, so which logs are reported (C01, C07).
-/
namespace Verif.Props.CacheMarks
open Verif Verif.CacheStack Verif.CacheStack.Marks Verif.CacheStack.Spec Verif.Props.CacheStack

variable {K V : Type}

theorem backTo_some (i : Nat) (l : List (View K V × Bool)) (h : i < marks l) : ∃ r, backTo i l = some r ∧ marks r = i ∧ r ≠ [] := by
  induction l with
  | nil => simp [marks] at h
  | cons x l ih =>
    obtain ⟨v, m⟩ := x
    simp only [backTo]
    by_cases hc : m = true ∧ marks l = i
    · rw [if_pos hc]
      refine ⟨_, rfl, ?_, by simp⟩
      rw [marks_cons, hc.2]; simp
    · rw [if_neg hc]
      apply ih
      rw [marks_cons] at h
      cases m with
      | false => simpa using h
      | true => simp only [if_true] at h; have : marks l ≠ i := fun e => hc ⟨rfl, e⟩; omega

mutual
theorem count_go (a : Act K V) (s : Stack K V) :
    match go a s with
    | none => count a (marks s.copies) = none
    | some s' => count a (marks s.copies) = some (marks s'.copies) ∧
        (exposed a (marks s.copies) = false → s.copies ≠ [] → s'.base = s.base ∧ s'.copies ≠ []) := by
  match a with
  | .exec f =>
    simp only [go, count]
    rcases hs : s.copies with _ | ⟨⟨v, m⟩, r⟩
    · simp [Stack.write, hs]
    · refine ⟨?_, fun _ _ => ?_⟩
      · simp [Stack.write, hs, marks_cons]
      · simp [Stack.write, hs]
  | .call body ok =>
    have ih := count_goAll body s.push
    have hp : marks s.push.copies = marks s.copies + 1 := by simp only [Stack.push, marks_cons, if_true]
    rw [hp] at ih
    simp only [go, count]
    cases hb : goAll body s.push with
    | none => rw [hb] at ih; simp only at ih; simp only [ih]
    | some s' =>
      rw [hb] at ih
      simp only at ih
      obtain ⟨i1, i2⟩ := ih
      simp only [i1]
      cases ok with
      | true =>
        simp only [if_true]
        refine ⟨trivial, fun he hne => ?_⟩
        simp only [exposed, Bool.not_true, Bool.false_and, Bool.or_false] at he
        have := i2 he (by simp [Stack.push])
        exact ⟨this.1, this.2⟩
      | false =>
        simp only [Bool.false_eq_true, if_false]
        cases hn : marks s.copies with
        | zero =>
          simp only [Stack.fail, Nat.not_lt_zero, if_false]
          refine ⟨by simp [marks], fun he _ => ?_⟩
          simp [exposed] at he
        | succ n =>
          simp only [Stack.fail]
          by_cases hlt : n < marks s'.copies
          · obtain ⟨r, r1, r2, r3⟩ := backTo_some n s'.copies hlt
            rw [r1]
            simp only [Option.map_some]
            rw [if_neg (by omega)]
            refine ⟨by simp [r2], fun he _ => ?_⟩
            simp only [exposed, Bool.or_eq_false_iff] at he
            have := i2 (by rw [hn]; exact he.1) (by simp [Stack.push])
            exact ⟨this.1, r3⟩
          · rw [backTo_none n s'.copies (by omega)]
            simp only [Option.map_none]
            rw [if_pos (by omega)]
theorem count_goAll (as : List (Act K V)) (s : Stack K V) :
    match goAll as s with
    | none => countAll as (marks s.copies) = none
    | some s' => countAll as (marks s.copies) = some (marks s'.copies) ∧
        (exposedAll as (marks s.copies) = false → s.copies ≠ [] → s'.base = s.base ∧ s'.copies ≠ []) := by
  match as with
  | [] => simp only [goAll, countAll]; exact ⟨trivial, fun _ h => ⟨trivial, h⟩⟩
  | a :: as =>
    have h1 := count_go a s
    simp only [goAll, countAll, exposedAll]
    cases hg : go a s with
    | none => rw [hg] at h1; simp only at h1; simp only [h1]
    | some s1 =>
      rw [hg] at h1
      simp only at h1
      simp only [h1.1]
      have h2 := count_goAll as s1
      cases hg2 : goAll as s1 with
      | none => rw [hg2] at h2; simp only at h2; exact h2
      | some s2 =>
        rw [hg2] at h2
        simp only at h2 ⊢
        refine ⟨h2.1, fun he hne => ?_⟩
        simp only [Bool.or_eq_false_iff] at he
        obtain ⟨g1, g2⟩ := h1.2 he.1 hne
        obtain ⟨g3, g4⟩ := h2.2 he.2 g2
        exact ⟨g3.trans g1, g4⟩
end

/-- **C01, aborts, exactly.** Whether an execution is aborted depends on nothing but which of its calls fail, and it is when a failing call ends
with fewer marked copies than it began with. -/
theorem C01_abort_exact (acts : List (Act K V)) (base : View K V) :
    Act.driveAll DB.revertToSnapshot acts (DB.new base) = none ↔ countAll acts 0 = none := by
  have h := count_goAll acts (Stack.new base)
  have hm : marks (Stack.new base).copies = 0 := rfl
  rw [hm] at h
  rcases sim_goAll acts (sim_new base) with ⟨e1, e2⟩ | ⟨db, s, e1, e2, _⟩
  · rw [e2] at h; exact ⟨fun _ => h, fun _ => e1⟩
  · rw [e2] at h
    simp only at h
    rw [e1, h.1]
    simp

/-- **C02 (code, the part that holds), any number of failing calls.** If the top-level call fails and none of the calls in it fails that began
when no copy was marked, then the execution is over with the store as it was (or it is aborted, in which case the transaction fails). See `C02_steady_partial` for
a simple sufficient condition. -/
theorem C02_marks_partial (body : List (Act K V)) (he : exposedAll body 1 = false) (base : View K V) :
    (Act.drive DB.revertToSnapshot (.call body false) (DB.new base) = none ↔ countAll body 1 = none) ∧
    ∀ db, Act.drive DB.revertToSnapshot (.call body false) (DB.new base) = some db → db.base = base ∧ db.view = base := by
  have h := count_goAll body (Stack.new base).push
  have hm : marks (Stack.new base).push.copies = 1 := rfl
  rw [hm] at h
  rcases sim_goAll body (sim_push (sim_new base)) with ⟨e1, e2⟩ | ⟨db, s, e1, e2, hs⟩
  · rw [e2] at h
    have hd : Act.drive DB.revertToSnapshot (.call body false) (DB.new base) = none := by simp only [Act.drive, e1]
    exact ⟨⟨fun _ => h, fun _ => hd⟩, fun db hdb => by rw [hd] at hdb; cases hdb⟩
  · rw [e2] at h
    simp only at h
    have hb : db.base = base := by rw [hs.store, (h.2 he (by simp [Stack.push])).1]; rfl
    have hd : Act.drive DB.revertToSnapshot (.call body false) (DB.new base) = some { db with ctx := [], snaps := [] } := by
      simp only [Act.drive, e1]
      simp [DB.snapshot, DB.new, DB.revertToSnapshot]
    refine ⟨?_, fun db' hdb => ?_⟩
    · rw [hd, h.1]; simp
    · rw [hd] at hdb; cases hdb
      exact ⟨hb, by simp [DB.view, readAt, hb]⟩

/-- **C55 (code, the part that holds), any number of failing calls.** As long as no call fails that began when no copy was marked, the committed
value of every key is the one at the start. -/
theorem C55_marks_partial (body : List (Act K V)) (he : exposedAll body 1 = false) (base : View K V) (db : DB K V)
    (hdb : Act.driveAll DB.revertToSnapshot body (DB.new base).snapshot.1 = some db) : committed db = base := by
  have h := count_goAll body (Stack.new base).push
  have hm : marks (Stack.new base).push.copies = 1 := rfl
  rw [hm] at h
  rcases sim_goAll body (sim_push (sim_new base)) with ⟨e1, _⟩ | ⟨db', s, e1, e2, hs⟩
  · rw [e1] at hdb; cases hdb
  · rw [e1] at hdb; cases hdb
    rw [e2] at h
    simp only at h
    have hb : db.base = base := by rw [hs.store, (h.2 he (by simp [Stack.push])).1]; rfl
    simp [committed, readAt, hb]

mutual
theorem steady_count (a : Act K V) (hs : steady a = true) (n : Nat) (hn : fails a = 0 ∨ 1 ≤ n) :
    ∃ n', count a n = some n' ∧ n ≤ n' + fails a ∧ exposed a n = false := by
  match a with
  | .exec f => exact ⟨n, by simp only [count], by simp [fails], by simp only [exposed]⟩
  | .call body ok =>
    simp only [steady, Bool.and_eq_true, decide_eq_true_eq] at hs
    obtain ⟨m, h1, h2, h3⟩ := steady_countAll body hs.1 (n + 1) (by omega)
    cases ok with
    | true => exact ⟨m, by simp only [count, h1, if_true], by simp only [fails]; omega, by simp [exposed, h3]⟩
    | false =>
      have hn1 : 1 ≤ n := by rcases hn with h | h
                             · simp [fails] at h
                             · exact h
      refine ⟨n - 1, ?_, by simp only [fails]; omega, ?_⟩
      · simp only [count, h1, Bool.false_eq_true, if_false]
        rw [if_neg (by omega)]
      · have : (n == 0) = false := by simp; omega
        simp [exposed, h3, this]
theorem steady_countAll (as : List (Act K V)) (hs : steadyAll as = true) (n : Nat) (hn : failsAll as = 0 ∨ failsAll as ≤ n) :
    ∃ n', countAll as n = some n' ∧ n ≤ n' + failsAll as ∧ exposedAll as n = false := by
  match as with
  | [] => exact ⟨n, by simp only [countAll], by simp [failsAll], by simp only [exposedAll]⟩
  | a :: as =>
    simp only [steadyAll, Bool.and_eq_true] at hs
    simp only [failsAll] at hn
    have hf : fails a ≤ 1 := by cases a with
      | exec f => simp [fails]
      | call b ok => cases ok <;> simp [fails]
    obtain ⟨m, h1, h2, h3⟩ := steady_count a hs.1 n (by omega)
    obtain ⟨k, h4, h5, h6⟩ := steady_countAll as hs.2 m (by omega)
    refine ⟨k, by simp only [countAll, h1, h4], by simp only [failsAll]; omega, ?_⟩
    simp only [exposedAll, h1, h3, h6, Bool.or_self]
end

/-- **C02, C55 (code, the part that holds), in simple terms.** If no frame makes more than one failing call, however many frames there are, then
the execution is not aborted, during it the committed values are those at the start, and if the top-level call fails the store is as it was. -/
theorem C02_steady_partial (body : List (Act K V)) (hs : steady (.call body false) = true) (base : View K V) :
    (∃ db, Act.drive DB.revertToSnapshot (.call body false) (DB.new base) = some db ∧ db.base = base ∧ db.view = base) ∧
    ∃ db, Act.driveAll DB.revertToSnapshot body (DB.new base).snapshot.1 = some db ∧ committed db = base := by
  simp only [steady, Bool.and_eq_true, decide_eq_true_eq] at hs
  obtain ⟨n, h1, _, h3⟩ := steady_countAll body hs.1 1 (by omega)
  obtain ⟨g1, g2⟩ := C02_marks_partial body h3 base
  constructor
  · cases hd : Act.drive DB.revertToSnapshot (.call body false) (DB.new base) with
    | none => rw [g1.mp hd] at h1; cases h1
    | some db => exact ⟨db, rfl, g2 db hd⟩
  · rcases sim_goAll body (sim_push (sim_new base)) with ⟨_, e2⟩ | ⟨db, s, e1, _, _⟩
    · have h := count_goAll body (Stack.new base).push
      have hm : marks (Stack.new base).push.copies = 1 := rfl
      rw [hm, e2, h1] at h
      cases h
    · exact ⟨db, e1, C55_marks_partial body h3 base db e1⟩

/-- The first failing call in the only frame there is leaves no copy marked; the second leaves no copy. -/
theorem fail_out (body : List (Act K V)) (hb : noRevertAll body = true) {s : Stack K V} {w : View K V}
    (hs : s.copies = [(w, false)]) : go (.call body false) s = some { s with copies := [] } := by
  have hp : s.push.copies = (w, true) :: [(w, false)] := by simp [Stack.push, Stack.cur, hs]
  obtain ⟨s', up, x, e, hbase, hc, _, _⟩ := quiet_goAll body hb hp
  have hm : marks s.copies = 0 := by rw [hs]; rfl
  simp only [go, e, Bool.false_eq_true, if_false, hm, Stack.fail, hbase, Option.some.injEq]
  rfl

theorem execs_base (fs : List (View K V → Delta K V)) : ∀ {s : Stack K V}, s.copies = [] →
    ∃ s', goAll (fs.map Act.exec) s = some s' ∧ s'.copies = [] ∧ s'.base = denoteAll (fs.map Act.exec) s.base := by
  induction fs with
  | nil => intro s hs; exact ⟨s, by simp [goAll], hs, by simp [denoteAll]⟩
  | cons f fs ih =>
    intro s hs
    have hw : s.write (f s.cur) = { s with base := overlay (f s.base) s.base } := by simp [Stack.write, hs, Stack.cur]
    obtain ⟨s', e, h1, h2⟩ := ih (s := { s with base := overlay (f s.base) s.base }) hs
    refine ⟨s', by simp only [List.map_cons, goAll, go, hw]; exact e, h1, ?_⟩
    rw [h2]; simp only [List.map_cons, denoteAll, denote]

/-- **C02, C55 (violated), for every top-level call that makes two failing calls.** Whatever it computed before and in between is thrown away,
and all that it computes afterwards — until it enters another frame — goes directly into the store: it counts as committed at once, and stays
although the top-level call fails in the end. -/
theorem C02_two_violated (p q r : List (View K V → Delta K V)) (x y : List (Act K V)) (hx : noRevertAll x = true)
    (hy : noRevertAll y = true) (base : View K V) :
    ∃ db, Act.drive DB.revertToSnapshot
        (.call (p.map .exec ++ [.call x false] ++ q.map .exec ++ [.call y false] ++ r.map .exec) false) (DB.new base) = some db ∧
      db.base = denoteAll (r.map .exec) base := by
  have hp : (Stack.new base).push.copies = (base, true) :: [] := rfl
  obtain ⟨w1, e1⟩ := execs_go p hp
  have e2 := fail_first x hx (s := { (Stack.new base).push with copies := (w1, true) :: [] }) rfl
  obtain ⟨w3, e3⟩ := execs_go q (s := { (Stack.new base).push with copies := (w1, false) :: [] }) rfl
  have e4 := fail_out y hy (s := { (Stack.new base).push with copies := (w3, false) :: [] }) rfl
  obtain ⟨s5, e5, _, b5⟩ := execs_base r (s := { (Stack.new base).push with copies := [] }) rfl
  have one : ∀ (a : Act K V) (t t' : Stack K V), go a t = some t' → goAll [a] t = some t' := by
    intro a t t' h; simp only [goAll, h]
  have hbody : goAll (p.map .exec ++ [.call x false] ++ q.map .exec ++ [.call y false] ++ r.map .exec) (Stack.new base).push =
      some s5 := by
    simp only [goAll_append, e1, Option.bind_some, one _ _ _ e2, e3, one _ _ _ e4, e5]
  rcases sim_goAll _ (sim_push (sim_new base)) with ⟨_, g2⟩ | ⟨db, s, g1, g2, hs⟩
  · rw [hbody] at g2; cases g2
  · rw [hbody] at g2; cases g2
    refine ⟨{ db with ctx := [], snaps := [] }, ?_, ?_⟩
    · simp only [Act.drive, g1]
      simp [DB.snapshot, DB.new, DB.revertToSnapshot]
    · simp only [hs.store, b5]; rfl

/-- One failing call in each frame. -/
example : steady (.call [.call [.call [.call [] false] false, .exec (put1 1 7)] true, .call [] false, .exec (put1 2 7)] false) = true ∧
    steady (.call [.call [] false, .call [] false, .exec (put1 2 7)] false) = false := by decide +kernel

/-- One failing call in each of two frames: not exposed, not aborted. Two in the outermost: exposed. -/
example : exposedAll [.call [.call [] false, .exec (put1 1 7)] true, .call [] false, .exec (put1 2 7)] 1 = false ∧
    countAll [.call [.call [] false, .exec (put1 1 7)] true, .call [] false, .exec (put1 2 7)] 1 = some 0 ∧
    exposedAll [.call [] false, .call [] false, .exec (put1 2 7)] 1 = true := by
  refine ⟨?_, ?_, ?_⟩ <;> decide +kernel

end Verif.Props.CacheMarks

namespace Verif.Props.Frames
open Verif Verif.World Verif.World.Spec Verif.CacheStack Verif.CacheStack.Spec Verif.Props.World
open Verif.World.Traces (Ops)

variable (keccak : Bytes → Hash)

/-- The state some operations lead to. -/
def after (w : World) (o : Ops) : View Unit World := fun _ => w.run keccak o

structure TSim (w : World) (s : Marks.Stack Unit World) (t : Traces.Stack) : Prop where
  base : s.base = after keccak w t.base
  copies : s.copies = t.copies.map fun c => (after keccak w c.1, c.2)

theorem tmarks (w : World) (l : List (Ops × Bool)) :
    Marks.marks (l.map fun c => (after keccak w c.1, c.2)) = Traces.marks l := by
  induction l with
  | nil => rfl
  | cons x l ih =>
    obtain ⟨v, m⟩ := x
    cases m
    · simpa [Marks.marks, Traces.marks] using ih
    · simpa [Marks.marks, Traces.marks] using ih

theorem tback (w : World) (i : Nat) (l : List (Ops × Bool)) :
    Marks.backTo i (l.map fun c => (after keccak w c.1, c.2)) =
      (Traces.backTo i l).map fun r => r.map fun c => (after keccak w c.1, c.2) := by
  induction l with
  | nil => rfl
  | cons x l ih =>
    obtain ⟨v, m⟩ := x
    simp only [List.map_cons, Marks.backTo, Traces.backTo, tmarks]
    by_cases hc : m = true ∧ Traces.marks l = i
    · rw [if_pos hc, if_pos hc]; rfl
    · rw [if_neg hc, if_neg hc]; exact ih

theorem tpublish (w : World) (b : Ops) (l : List (Ops × Bool)) :
    Marks.publish (after keccak w b) (l.map fun c => (after keccak w c.1, c.2)) = after keccak w (Traces.publish b l) := by
  induction l with
  | nil => rfl
  | cons x l ih =>
    obtain ⟨v, m⟩ := x
    simp only [List.map_cons, Marks.publish, Traces.publish, List.all_map]
    have : (l.all ((fun c : View Unit World × Bool => c.2) ∘ fun c => (after keccak w c.1, c.2))) = l.all (·.2) := rfl
    rw [this]
    by_cases hc : (m && l.all (·.2)) = true
    · rw [if_pos hc, if_pos hc]
    · rw [if_neg hc, if_neg hc]; exact ih

theorem overlay_op (w : World) (e : Nat) (o : StateOp) (v : Ops) :
    overlay (opExec keccak e o (after keccak w v)) (after keccak w v) = after keccak w (v ++ [(e, o)]) := by
  funext u
  have h := denote_toAct keccak e (.op o) (after keccak w v)
  simp only [Frame'.toAct, denote, surviving] at h
  cases u
  rw [h, after, after, run_append]

theorem TSim.cur {w : World} {s : Marks.Stack Unit World} {t : Traces.Stack} (h : TSim keccak w s t) :
    s.cur = after keccak w t.cur := by
  unfold Marks.Stack.cur Traces.Stack.cur
  rw [h.copies]
  rcases t.copies with _ | ⟨⟨v, m⟩, r⟩
  · exact h.base
  · rfl

mutual
theorem tsim_go (w : World) (e : Nat) (f : Frame') {s : Marks.Stack Unit World} {t : Traces.Stack} (h : TSim keccak w s t) :
    (Marks.go (Frame'.toAct keccak e f) s = none ∧ Traces.go e f t = none) ∨
      ∃ s' t', Marks.go (Frame'.toAct keccak e f) s = some s' ∧ Traces.go e f t = some t' ∧ TSim keccak w s' t' := by
  match f with
  | .op o =>
    right
    refine ⟨s.write (opExec keccak e o s.cur), t.add (e, o), by simp only [Frame'.toAct, Marks.go], by simp only [Traces.go], ?_⟩
    rw [h.cur]
    unfold Marks.Stack.write Traces.Stack.add
    rw [h.copies]
    rcases ht : t.copies with _ | ⟨⟨v, m⟩, r⟩
    · have hc : t.cur = t.base := by simp [Traces.Stack.cur, ht]
      rw [hc]
      simp only [List.map_nil]
      refine ⟨?_, ?_⟩
      · simp only [h.base]; exact overlay_op keccak w e o t.base
      · rfl
    · have hc : t.cur = v := by simp [Traces.Stack.cur, ht]
      rw [hc]
      simp only [List.map_cons]
      refine ⟨h.base, ?_⟩
      simp only [List.map_cons, overlay_op keccak w e o v]
  | .call body ok =>
    have hp : TSim keccak w s.push t.push := by
      refine ⟨h.base, ?_⟩
      simp only [Marks.Stack.push, Traces.Stack.push, List.map_cons, h.cur, h.copies]
    rcases tsim_goAll w e body hp with ⟨e1, e2⟩ | ⟨s', t', e1, e2, h'⟩
    · left; simp only [Frame'.toAct, Marks.go, Traces.go, e1, e2]; exact ⟨trivial, trivial⟩
    · cases ok with
      | true => right; exact ⟨s', t', by simp only [Frame'.toAct, Marks.go, e1, if_true], by simp only [Traces.go, e2, if_true], h'⟩
      | false =>
        have hm : Marks.marks s.copies = Traces.marks t.copies := by rw [h.copies, tmarks]
        simp only [Frame'.toAct, Marks.go, Traces.go, e1, e2, Bool.false_eq_true, if_false, hm]
        cases Traces.marks t.copies with
        | zero =>
          right
          exact ⟨{ s' with copies := [] }, { t' with copies := [] }, by simp only [Marks.Stack.fail], by simp only [Traces.Stack.fail],
            h'.base, rfl⟩
        | succ i =>
          simp only [Marks.Stack.fail, Traces.Stack.fail]
          rw [h'.copies, tback]
          cases hb : Traces.backTo i t'.copies with
          | none => left; exact ⟨rfl, rfl⟩
          | some r => right; exact ⟨_, _, rfl, rfl, h'.base, rfl⟩
theorem tsim_goAll (w : World) (e : Nat) (fs : List Frame') {s : Marks.Stack Unit World} {t : Traces.Stack} (h : TSim keccak w s t) :
    (Marks.goAll (Frame'.toActs keccak e fs) s = none ∧ Traces.goAll e fs t = none) ∨
      ∃ s' t', Marks.goAll (Frame'.toActs keccak e fs) s = some s' ∧ Traces.goAll e fs t = some t' ∧ TSim keccak w s' t' := by
  match fs with
  | [] => right; exact ⟨s, t, by simp only [Frame'.toActs, Marks.goAll], by simp only [Traces.goAll], h⟩
  | f :: fs =>
    rcases tsim_go w e f h with ⟨e1, e2⟩ | ⟨s1, t1, e1, e2, h1⟩
    · left; simp only [Frame'.toActs, Marks.goAll, Traces.goAll, e1, e2]; exact ⟨trivial, trivial⟩
    · simp only [Frame'.toActs, Marks.goAll, Traces.goAll, e1, e2]
      exact tsim_goAll w e fs h1
end

/-- **C01 on the typed state, what the code does, exactly.** For every tree of call frames, however many of its calls fail, a top-level call
commits exactly the state its effective operations produce, and is aborted exactly when the stack of lists is. -/
theorem C01_typed_exact (e : Nat) (w : World) (body : List Frame') :
    commitCall DB.revertToSnapshot keccak e w body =
      (Traces.effective e body).bind fun ops => (w.newStateDB e).run keccak ops := by
  have h0 : TSim keccak (w.newStateDB e) ((Marks.Stack.new fun _ => some (w.newStateDB e)).push) ⟨[], [([], true)]⟩ := by
    refine ⟨?_, ?_⟩
    · funext u; rfl
    · simp only [Marks.Stack.push, Marks.Stack.new, Marks.Stack.cur, List.map_cons, List.map_nil]
      rfl
  have hx := Verif.Props.CacheMarks.C01_exact [.call (Frame'.toActs keccak e body) true] (fun _ : Unit => some (w.newStateDB e))
  simp only [Act.driveAll, Marks.goAll, Marks.go, if_true] at hx
  unfold commitCall Traces.effective
  rcases tsim_goAll keccak (w.newStateDB e) e body h0 with ⟨e1, e2⟩ | ⟨s, t, e1, e2, h⟩
  · rw [e1] at hx
    rw [e2]
    cases hd : Act.drive DB.revertToSnapshot (.call (Frame'.toActs keccak e body) true) (DB.new fun _ => some (w.newStateDB e)) with
    | none => rfl
    | some db => rw [hd] at hx; cases hx
  · rw [e1] at hx
    rw [e2]
    cases hd : Act.drive DB.revertToSnapshot (.call (Frame'.toActs keccak e body) true) (DB.new fun _ => some (w.newStateDB e)) with
    | none => rw [hd] at hx; cases hx
    | some db =>
      rw [hd] at hx
      simp only [Option.map_some, Option.some.injEq, Prod.mk.injEq] at hx
      simp only [Option.map_some, Option.bind_some, hx.2, Marks.Stack.published]
      rw [h.copies, h.base, tpublish]
      rfl

/-- **C07, what the code does, exactly.** For every tree of call frames: the logs reported are those of the effective operations, in order. -/
theorem C07_exact (e : Nat) (w w' : World) (body : List Frame')
    (h : commitCall DB.revertToSnapshot keccak e w body = some w') :
    ∃ ops, Traces.effective e body = some ops ∧ w'.getLogs e = some (emitted e ops) := by
  rw [C01_typed_exact] at h
  obtain ⟨ops, h1, h2⟩ := Option.bind_eq_some_iff.mp h
  exact ⟨ops, h1, C07_logs keccak ops w w' e h2⟩

/-- **C07: exactly when the reported logs are right.** -/
theorem C07_iff (e : Nat) (w w' : World) (body : List Frame')
    (h : commitCall DB.revertToSnapshot keccak e w body = some w') :
    w'.getLogs e = some (emitted e (survivingAll e body)) ↔
      (Traces.effective e body).map (emitted e) = some (emitted e (survivingAll e body)) := by
  obtain ⟨ops, h1, h2⟩ := C07_exact keccak e w w' body h
  rw [h1, h2]; rfl

/-- Emitted 1, then in an inner frame 2, then a call failed, then 3, and after the inner frame 4: reported is 1 alone. With the failing call in
a frame of its own that is entered last: 1, 2. -/
example : (Traces.effective 1 [.op (.addLog ⟨Addr.ofNat 1, [], [1]⟩),
      .call [.op (.addLog ⟨Addr.ofNat 1, [], [2]⟩), .call [] false, .op (.addLog ⟨Addr.ofNat 1, [], [3]⟩)] true,
      .op (.addLog ⟨Addr.ofNat 1, [], [4]⟩)]).map (fun o => (emitted 1 o).map (·.data)) = some [[1]] ∧
    (Traces.effective 1 [.op (.addLog ⟨Addr.ofNat 1, [], [1]⟩),
      .call [.op (.addLog ⟨Addr.ofNat 1, [], [2]⟩), .call [.call [] false] true, .op (.addLog ⟨Addr.ofNat 1, [], [3]⟩)] true,
      .op (.addLog ⟨Addr.ofNat 1, [], [4]⟩)]).map (fun o => (emitted 1 o).map (·.data)) = some [[1], [2]] := by
  decide +kernel

end Verif.Props.Frames
