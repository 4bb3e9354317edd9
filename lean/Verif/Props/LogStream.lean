import Verif.Spec.LogStream
import Verif.Props.LogFilter
/-
C99: a range query gives one answer, whatever the schedule.
-/
namespace Verif.Props.LogStream
open Verif Verif.LogStream Verif.LogStream.Spec

variable {D H L E : Type}

/-- What the collector has, seen from the walker's position. -/
def Good (be : Backend D H L E) (db0 : D) (b0 e : Nat) (s : Sys D H L E) : Prop :=
  let tot := answer be db0 (e + 1 - b0) b0
  match s.prod with
  | .look b => b0 ≤ b ∧ s.errClosed = false ∧ s.logClosed = false ∧ ∃ acc, s.cons = .loop (acc.map some) ∧
      acc ++ (answer be db0 (e + 1 - b) b).1 = tot.1 ∧ (answer be db0 (e + 1 - b) b).2 = tot.2
  | .scan b hd => b0 ≤ b ∧ b ≤ e ∧ be.header db0 b = .ok (some hd) ∧ s.errClosed = false ∧ s.logClosed = false ∧
      ∃ acc, s.cons = .loop (acc.map some) ∧
      acc ++ (answer be db0 (e + 1 - b) b).1 = tot.1 ∧ (answer be db0 (e + 1 - b) b).2 = tot.2
  | .send b left => b0 ≤ b ∧ b ≤ e ∧ s.errClosed = false ∧ s.logClosed = false ∧
      ∃ acc, s.cons = .loop (acc.map some) ∧
      acc ++ left ++ (answer be db0 (e - b) (b + 1)).1 = tot.1 ∧ (answer be db0 (e - b) (b + 1)).2 = tot.2
  | .report err => s.errClosed = false ∧ s.logClosed = false ∧ ∃ acc, s.cons = .loop (acc.map some) ∧
      ((acc = tot.1 ∧ err = tot.2) ∨ (s.cancelled = true ∧ err = some be.ctxErr ∧ acc <+: tot.1))
  | _ => ∃ acc err, s.cons = .ret (acc.map some) err ∧
      ((acc = tot.1 ∧ err = tot.2) ∨ (s.cancelled = true ∧ err = some be.ctxErr ∧ acc <+: tot.1))

theorem answer_succ (be : Backend D H L E) (db : D) {b e : Nat} (h : b ≤ e) :
    answer be db (e + 1 - b) b = match be.header db b with
    | .error e => ([], some e)
    | .ok none => ([], none)
    | .ok (some hd) => match be.logs db hd with
      | .error e => ([], some e)
      | .ok l => (l ++ (answer be db (e - b) (b + 1)).1, (answer be db (e - b) (b + 1)).2) := by
  have : e + 1 - b = (e - b) + 1 := by omega
  rw [this]
  rfl

theorem good_step {be : Backend D H L E} {db0 : D} {b0 e : Nat} {s t : Sys D H L E} (hs : Same be b0 e db0 s.db)
    (hg : Good be db0 b0 e s) (h : Step be e s t) : Good be db0 b0 e t ∧ t.db = s.db := by
  refine ⟨?_, by cases h <;> rfl⟩
  unfold Good at hg ⊢
  cases h with
  | @over b hp hb =>
    simp only [hp] at hg ⊢
    obtain ⟨h1, h2, h3, acc, h4, h5, h6⟩ := hg
    have z : e + 1 - b = 0 := by omega
    rw [z] at h5 h6
    simp only [answer, List.append_nil] at h5 h6
    exact ⟨h2, h3, acc, h4, .inl ⟨h5, h6⟩⟩
  | @headerErr b err hp hb h =>
    simp only [hp] at hg ⊢
    obtain ⟨h1, h2, h3, acc, h4, h5, h6⟩ := hg
    rw [hs.1 b h1 hb] at h
    rw [answer_succ be db0 hb, h] at h5 h6
    simp only [List.append_nil] at h5 h6
    exact ⟨h2, h3, acc, h4, .inl ⟨h5, h6⟩⟩
  | @headerNil b hp hb h =>
    simp only [hp] at hg ⊢
    obtain ⟨h1, h2, h3, acc, h4, h5, h6⟩ := hg
    rw [hs.1 b h1 hb] at h
    rw [answer_succ be db0 hb, h] at h5 h6
    simp only [List.append_nil] at h5 h6
    exact ⟨h2, h3, acc, h4, .inl ⟨h5, h6⟩⟩
  | @header b hd hp hb h =>
    simp only [hp] at hg ⊢
    obtain ⟨h1, h2, h3, acc, h4, h5, h6⟩ := hg
    rw [hs.1 b h1 hb] at h
    exact ⟨h1, hb, h, h2, h3, acc, h4, h5, h6⟩
  | @logsErr b hd err hp h =>
    simp only [hp] at hg ⊢
    obtain ⟨h1, hb, hh, h2, h3, acc, h4, h5, h6⟩ := hg
    rw [hs.2 b hd h1 hb hh] at h
    rw [answer_succ be db0 hb, hh] at h5 h6
    simp only [h, List.append_nil] at h5 h6
    exact ⟨h2, h3, acc, h4, .inl ⟨h5, h6⟩⟩
  | @logs b hd l hp h =>
    simp only [hp] at hg ⊢
    obtain ⟨h1, hb, hh, h2, h3, acc, h4, h5, h6⟩ := hg
    rw [hs.2 b hd h1 hb hh] at h
    rw [answer_succ be db0 hb, hh] at h5 h6
    simp only [h] at h5 h6
    exact ⟨h1, hb, h2, h3, acc, h4, by rw [List.append_assoc]; exact h5, h6⟩
  | @next b hp =>
    simp only [hp] at hg ⊢
    obtain ⟨h1, hb, h2, h3, acc, h4, h5, h6⟩ := hg
    have z : e + 1 - (b + 1) = e - b := by omega
    rw [z]
    exact ⟨by omega, h2, h3, acc, h4, by simpa using h5, h6⟩
  | @pass b x l acc' hp hc =>
    simp only [hp] at hg ⊢
    obtain ⟨h1, hb, h2, h3, acc, h4, h5, h6⟩ := hg
    rw [hc] at h4
    cases h4
    exact ⟨h1, hb, h2, h3, acc ++ [x], by simp, by simpa using h5, h6⟩
  | @abort b x l hp hx =>
    simp only [hp] at hg ⊢
    obtain ⟨h1, hb, h2, h3, acc, h4, h5, h6⟩ := hg
    exact ⟨h2, h3, acc, h4, .inr ⟨hx, trivial, by rw [← h5, List.append_assoc]; exact List.prefix_append _ _⟩⟩
  | @tell err acc' hp hc =>
    simp only [hp] at hg ⊢
    obtain ⟨h2, h3, acc, h4, h5⟩ := hg
    rw [hc] at h4
    cases h4
    exact ⟨acc, err, rfl, h5⟩
  | closeErr hp => simp only [hp] at hg ⊢; exact hg
  | closeLog hp => simp only [hp] at hg ⊢; exact hg
  | @nilLog acc' hc h =>
    exfalso
    cases hp : s.prod <;> simp only [hp, hc] at hg
    · obtain ⟨_, _, h3, _⟩ := hg; rw [h3] at h; cases h
    · obtain ⟨_, _, _, _, h3, _⟩ := hg; rw [h3] at h; cases h
    · obtain ⟨_, _, _, h3, _⟩ := hg; rw [h3] at h; cases h
    · obtain ⟨_, h3, _⟩ := hg; rw [h3] at h; cases h
    all_goals (obtain ⟨_, _, h3, _⟩ := hg; cases h3)
  | @nilErr acc' hc h =>
    exfalso
    cases hp : s.prod <;> simp only [hp, hc] at hg
    · obtain ⟨_, h3, _⟩ := hg; rw [h3] at h; cases h
    · obtain ⟨_, _, _, h3, _⟩ := hg; rw [h3] at h; cases h
    · obtain ⟨_, _, h3, _⟩ := hg; rw [h3] at h; cases h
    · obtain ⟨h3, _⟩ := hg; rw [h3] at h; cases h
    all_goals (obtain ⟨_, _, h3, _⟩ := hg; cases h3)

theorem same_trans {be : Backend D H L E} {b e : Nat} {x y z : D} (h1 : Same be b e x y) (h2 : Same be b e y z) :
    Same be b e x z := by
  refine ⟨fun n a c => (h2.1 n a c).trans (h1.1 n a c), fun n hd a c h => ?_⟩
  exact (h2.2 n hd a c (by rw [h1.1 n a c]; exact h)).trans (h1.2 n hd a c h)

theorem good_reach {be : Backend D H L E} {db0 : D} {b0 e : Nat} {s : Sys D H L E}
    (h : Reach be e (Same be b0 e) (start db0 b0) s) : Same be b0 e db0 s.db ∧ Good be db0 b0 e s := by
  induction h with
  | refl => exact ⟨⟨fun _ _ _ => rfl, fun _ _ _ _ _ => rfl⟩,
      Nat.le_refl _, rfl, rfl, [], rfl, by simp only [List.nil_append], rfl⟩
  | step _ st ih =>
    obtain ⟨h1, h2⟩ := good_step ih.1 ih.2 st
    exact ⟨by rw [h2]; exact ih.1, h1⟩
  | around _ st ih =>
    cases st with
    | index h => exact ⟨same_trans ih.1 h, ih.2⟩
    | cancel =>
      refine ⟨ih.1, ?_⟩
      have g := ih.2
      unfold Good at g ⊢
      rename_i t _
      cases hp : t.prod <;> simp only [hp] at g ⊢
      case look => exact g
      case scan => exact g
      case send => exact g
      case report =>
        obtain ⟨h2, h3, acc, h4, h5⟩ := g
        exact ⟨h2, h3, acc, h4, h5.imp id fun h => ⟨trivial, h.2⟩⟩
      all_goals
        obtain ⟨acc, err, h4, h5⟩ := g
        exact ⟨acc, err, h4, h5.imp id fun h => ⟨trivial, h.2⟩⟩

/-- **C99 (one answer).** Let the index change in any way that leaves the blocks of the range alone. Whatever the schedule,
a query whose client stays gets the logs and the error that a walk through the blocks, one after the other, gives — in that
order, none twice, no nil log. -/
theorem C99_answer (be : Backend D H L E) (db0 : D) (b e : Nat) (s : Sys D H L E)
    (h : Reach be e (Same be b e) (start db0 b) s) (out : List (Option L)) (err : Option E) (hr : s.cons = .ret out err)
    (hc : s.cancelled = false) :
    out = (answer be db0 (e + 1 - b) b).1.map some ∧ err = (answer be db0 (e + 1 - b) b).2 := by
  have g := (good_reach h).2
  unfold Good at g
  cases hp : s.prod <;> simp only [hp, hr, hc] at g
  · obtain ⟨_, _, _, _, h, _⟩ := g; cases h
  · obtain ⟨_, _, _, _, _, _, h, _⟩ := g; cases h
  · obtain ⟨_, _, _, _, _, h, _⟩ := g; cases h
  · obtain ⟨_, _, _, h, _⟩ := g; cases h
  all_goals
    obtain ⟨acc, err', h4, h5⟩ := g
    cases h4
    rcases h5 with ⟨rfl, rfl⟩ | ⟨h, _⟩
    · exact ⟨rfl, rfl⟩
    · cases h

/-- **C99 (a client that goes away).** With a cancellation at any time the answer is a beginning of that walk; if it comes
without an error it is all of it. -/
theorem C99_cancelled (be : Backend D H L E) (db0 : D) (b e : Nat) (s : Sys D H L E)
    (h : Reach be e (Same be b e) (start db0 b) s) (out : List (Option L)) (err : Option E) (hr : s.cons = .ret out err) :
    (∃ pre, out = pre.map some ∧ pre <+: (answer be db0 (e + 1 - b) b).1) ∧
    (err = none → out = (answer be db0 (e + 1 - b) b).1.map some ∧ (answer be db0 (e + 1 - b) b).2 = none) := by
  have g := (good_reach h).2
  unfold Good at g
  cases hp : s.prod <;> simp only [hp, hr] at g
  · obtain ⟨_, _, _, _, h, _⟩ := g; cases h
  · obtain ⟨_, _, _, _, _, _, h, _⟩ := g; cases h
  · obtain ⟨_, _, _, _, _, h, _⟩ := g; cases h
  · obtain ⟨_, _, _, h, _⟩ := g; cases h
  all_goals
    obtain ⟨acc, err', h4, h5⟩ := g
    cases h4
    rcases h5 with ⟨rfl, rfl⟩ | ⟨_, rfl, h⟩
    · exact ⟨⟨_, rfl, List.prefix_refl _⟩, fun h => ⟨rfl, h⟩⟩
    · exact ⟨⟨_, rfl, h⟩, fun h => by cases h⟩

/-! ### It ends -/

/-- Which goroutine is where, whatever the index does. -/
def Shape (e : Nat) (s : Sys D H L E) : Prop :=
  match s.prod with
  | .look _ => s.errClosed = false ∧ s.logClosed = false ∧ ∃ acc, s.cons = .loop acc
  | .scan b _ => b ≤ e ∧ s.errClosed = false ∧ s.logClosed = false ∧ ∃ acc, s.cons = .loop acc
  | .send b _ => b ≤ e ∧ s.errClosed = false ∧ s.logClosed = false ∧ ∃ acc, s.cons = .loop acc
  | .report _ => s.errClosed = false ∧ s.logClosed = false ∧ ∃ acc, s.cons = .loop acc
  | _ => ∃ acc err, s.cons = .ret acc err

theorem shape_step {be : Backend D H L E} {e : Nat} {s t : Sys D H L E} (hg : Shape e s) (h : Step be e s t) : Shape e t := by
  unfold Shape at hg ⊢
  cases h with
  | over hp hb => simp only [hp] at hg ⊢; exact hg
  | headerErr hp hb h => simp only [hp] at hg ⊢; exact hg
  | headerNil hp hb h => simp only [hp] at hg ⊢; exact hg
  | header hp hb h => simp only [hp] at hg ⊢; exact ⟨hb, hg⟩
  | logsErr hp h => simp only [hp] at hg ⊢; exact hg.2
  | logs hp h => simp only [hp] at hg ⊢; exact hg
  | next hp => simp only [hp] at hg ⊢; exact hg.2
  | pass hp hc => simp only [hp] at hg ⊢; exact ⟨hg.1, hg.2.1, hg.2.2.1, _, rfl⟩
  | abort hp hx => simp only [hp] at hg ⊢; exact hg.2
  | tell hp hc => exact ⟨_, _, rfl⟩
  | closeErr hp => simp only [hp] at hg ⊢; exact hg
  | closeLog hp => simp only [hp] at hg ⊢; exact hg
  | @nilLog acc' hc h =>
    exfalso
    cases hp : s.prod <;> simp only [hp, hc] at hg
    · obtain ⟨_, h3, _⟩ := hg; rw [h3] at h; cases h
    · obtain ⟨_, _, h3, _⟩ := hg; rw [h3] at h; cases h
    · obtain ⟨_, _, h3, _⟩ := hg; rw [h3] at h; cases h
    · obtain ⟨_, h3, _⟩ := hg; rw [h3] at h; cases h
    all_goals (obtain ⟨_, _, h3⟩ := hg; cases h3)
  | @nilErr acc' hc h =>
    exfalso
    cases hp : s.prod <;> simp only [hp, hc] at hg
    · obtain ⟨h3, _⟩ := hg; rw [h3] at h; cases h
    · obtain ⟨_, h3, _⟩ := hg; rw [h3] at h; cases h
    · obtain ⟨_, h3, _⟩ := hg; rw [h3] at h; cases h
    · obtain ⟨h3, _⟩ := hg; rw [h3] at h; cases h
    all_goals (obtain ⟨_, _, h3⟩ := hg; cases h3)

theorem shape_around {R : D → D → Prop} {e : Nat} {s t : Sys D H L E} (hg : Shape e s) (h : Around R s t) : Shape e t := by
  cases h with
  | index h => exact hg
  | cancel => exact hg

theorem shape_reach {be : Backend D H L E} {R : D → D → Prop} {db0 : D} {b0 e : Nat} {s : Sys D H L E}
    (h : Reach be e R (start db0 b0) s) : Shape e s := by
  induction h with
  | refl => exact ⟨rfl, rfl, [], rfl⟩
  | step _ st ih => exact shape_step ih st
  | around _ st ih => exact shape_around ih st

/-- **C99 (no deadlock, no leak).** However the index changes and whenever the client goes away: as long as the query has
not answered or the walking goroutine has not ended, one of the two can go on. -/
theorem C99_progress (be : Backend D H L E) (R : D → D → Prop) (db0 : D) (b e : Nat) (s : Sys D H L E)
    (h : Reach be e R (start db0 b) s) :
    (s.prod = .done ∧ ∃ out err, s.cons = .ret out err) ∨ ∃ t, Step be e s t := by
  have g := shape_reach h
  unfold Shape at g
  cases hp : s.prod <;> simp only [hp] at g
  case look n =>
    right
    by_cases hb : n ≤ e
    · cases hh : be.header s.db n with
      | error x => exact ⟨_, .headerErr hp hb hh⟩
      | ok o => cases o with
        | none => exact ⟨_, .headerNil hp hb hh⟩
        | some hd => exact ⟨_, .header hp hb hh⟩
    · exact ⟨_, .over hp (by omega)⟩
  case scan n hd =>
    right
    cases hh : be.logs s.db hd with
    | error x => exact ⟨_, .logsErr hp hh⟩
    | ok l => exact ⟨_, .logs hp hh⟩
  case send n left =>
    right
    obtain ⟨_, _, _, acc, hc⟩ := g
    cases left with
    | nil => exact ⟨_, .next hp⟩
    | cons x l => exact ⟨_, .pass hp hc⟩
  case report err =>
    right
    obtain ⟨_, _, acc, hc⟩ := g
    exact ⟨_, .tell hp hc⟩
  case closing => exact .inr ⟨_, .closeErr hp⟩
  case closing2 => exact .inr ⟨_, .closeLog hp⟩
  case done =>
    obtain ⟨out, err, hc⟩ := g
    exact .inl ⟨rfl, out, err, hc⟩

/-- How far the walker still has to go. -/
def rank (e : Nat) (s : Sys D H L E) : Nat × Nat :=
  match s.prod with
  | .look b => (3 * (e + 1 - b) + 4, 0)
  | .scan b _ => (3 * (e + 1 - b) + 3, 0)
  | .send b left => (3 * (e + 1 - b) + 2, left.length)
  | .report _ => (3, 0)
  | .closing => (2, 0)
  | .closing2 => (1, 0)
  | .done => (0, 0)

theorem rank_step {be : Backend D H L E} {e : Nat} {s t : Sys D H L E} (hg : Shape e s) (h : Step be e s t) :
    Prod.Lex (· < ·) (· < ·) (rank e t) (rank e s) := by
  unfold Shape at hg
  unfold rank
  cases h with
  | over hp hb => simp only [hp]; exact Prod.Lex.left _ _ (by omega)
  | headerErr hp hb h => simp only [hp]; exact Prod.Lex.left _ _ (by omega)
  | headerNil hp hb h => simp only [hp]; exact Prod.Lex.left _ _ (by omega)
  | header hp hb h => simp only [hp]; exact Prod.Lex.left _ _ (by omega)
  | logsErr hp h => simp only [hp] at hg ⊢; exact Prod.Lex.left _ _ (by omega)
  | logs hp h => simp only [hp] at hg ⊢; exact Prod.Lex.left _ _ (by omega)
  | next hp => simp only [hp] at hg ⊢; exact Prod.Lex.left _ _ (by omega)
  | pass hp hc => simp only [hp]; exact Prod.Lex.right _ (by simp)
  | abort hp hx => simp only [hp] at hg ⊢; exact Prod.Lex.left _ _ (by omega)
  | tell hp hc => simp only [hp]; exact Prod.Lex.left _ _ (by omega)
  | closeErr hp => simp only [hp]; exact Prod.Lex.left _ _ (by omega)
  | closeLog hp => simp only [hp]; exact Prod.Lex.left _ _ (by omega)
  | @nilLog acc' hc h =>
    exfalso
    cases hp : s.prod <;> simp only [hp, hc] at hg
    · obtain ⟨_, h3, _⟩ := hg; rw [h3] at h; cases h
    · obtain ⟨_, _, h3, _⟩ := hg; rw [h3] at h; cases h
    · obtain ⟨_, _, h3, _⟩ := hg; rw [h3] at h; cases h
    · obtain ⟨_, h3, _⟩ := hg; rw [h3] at h; cases h
    all_goals (obtain ⟨_, _, h3⟩ := hg; cases h3)
  | @nilErr acc' hc h =>
    exfalso
    cases hp : s.prod <;> simp only [hp, hc] at hg
    · obtain ⟨h3, _⟩ := hg; rw [h3] at h; cases h
    · obtain ⟨_, h3, _⟩ := hg; rw [h3] at h; cases h
    · obtain ⟨_, h3, _⟩ := hg; rw [h3] at h; cases h
    · obtain ⟨h3, _⟩ := hg; rw [h3] at h; cases h
    all_goals (obtain ⟨_, _, h3⟩ := hg; cases h3)

theorem rank_around {R : D → D → Prop} {e : Nat} {s t : Sys D H L E} (h : Around R s t) : rank e t = rank e s := by
  cases h <;> rfl

theorem run_reach {be : Backend D H L E} {R : D → D → Prop} {e : Nat} {f : Nat → Sys D H L E} (hf : Run be e R f) (n : Nat) :
    Reach be e R (f 0) (f n) := by
  induction n with
  | zero => exact .refl
  | succ n ih =>
    rcases hf n with h | h
    · exact .step ih h
    · exact .around ih h

/-- **C99 (every query ends).** In every endless run in which the program is not suspended for ever while it can go on, the
query has answered and the walking goroutine has ended after finitely many steps — however the index changes meanwhile. -/
theorem C99_ends (be : Backend D H L E) (R : D → D → Prop) (db0 : D) (b e : Nat) (f : Nat → Sys D H L E)
    (h0 : f 0 = start db0 b) (hf : Run be e R f)
    (fair : ∀ n, (∃ t, Step be e (f n) t) → ∃ m, n ≤ m ∧ Step be e (f m) (f (m + 1))) :
    ∃ n, (f n).prod = .done ∧ ∃ out err, (f n).cons = .ret out err := by
  have sh : ∀ n, Shape e (f n) := fun n => shape_reach (be := be) (R := R) (db0 := db0) (b0 := b) (by
    have := run_reach hf n; rw [h0] at this; exact this)
  have wf : WellFounded (Prod.Lex (α := Nat) (β := Nat) (· < ·) (· < ·)) :=
    (Prod.lex ⟨_, Nat.lt_wfRel.wf⟩ ⟨_, Nat.lt_wfRel.wf⟩).wf
  have mono : ∀ n k, rank e (f (n + k)) = rank e (f n) ∨ Prod.Lex (· < ·) (· < ·) (rank e (f (n + k))) (rank e (f n)) := by
    intro n k
    induction k with
    | zero => exact .inl rfl
    | succ k ih =>
      have st : rank e (f (n + k + 1)) = rank e (f (n + k)) ∨
          Prod.Lex (· < ·) (· < ·) (rank e (f (n + k + 1))) (rank e (f (n + k))) := by
        rcases hf (n + k) with h | h
        · exact .inr (rank_step (sh _) h)
        · exact .inl (rank_around h)
      have tr : ∀ {x y z : Nat × Nat}, Prod.Lex (· < ·) (· < ·) x y → Prod.Lex (· < ·) (· < ·) y z →
          Prod.Lex (· < ·) (· < ·) x z := by
        intro x y z h1 h2
        rw [Prod.lex_def] at *
        omega
      rcases st with st | st <;> rcases ih with ih | ih
      · exact .inl (st.trans ih)
      · right; rw [← Nat.add_assoc, st]; exact ih
      · right; rw [← ih]; exact st
      · right; exact tr st ih
  have key : ∀ r, ∀ n, rank e (f n) = r → ∃ n, (f n).prod = .done ∧ ∃ out err, (f n).cons = .ret out err := by
    intro r
    induction r using wf.induction with
    | _ r ih =>
      intro n hr
      have hre : Reach be e R (start db0 b) (f n) := by have := run_reach hf n; rw [h0] at this; exact this
      rcases C99_progress be R db0 b e (f n) hre with h | h
      · exact ⟨n, h⟩
      · obtain ⟨m, hm, hs⟩ := fair n h
        have lt := rank_step (sh m) hs
        obtain ⟨k, rfl⟩ : ∃ k, m = n + k := ⟨m - n, by omega⟩
        have tr : ∀ {x y z : Nat × Nat}, Prod.Lex (· < ·) (· < ·) x y → Prod.Lex (· < ·) (· < ·) y z →
            Prod.Lex (· < ·) (· < ·) x z := by
          intro x y z h1 h2
          rw [Prod.lex_def] at *
          omega
        have lt' : Prod.Lex (· < ·) (· < ·) (rank e (f (n + k + 1))) r := by
          rcases mono n k with h | h
          · rw [h, hr] at lt; exact lt
          · rw [hr] at h; exact tr lt h
        exact ih _ lt' _ rfl
  exact key _ 0 rfl

/-! ### The query of the API -/

section
open Verif.LogFilter Verif.Indexer Verif.BlockTag
variable {T X S : Type}

/-- The walk that `LogFilter.rangeLogs` (C40) does in one go is the one this query does. -/
theorem walk_answer (bits : Bytes → List Nat) (env : Env T X) (c : Crit) (n : Node X S) : ∀ k b,
    ((answer (nodeBackend bits env c) n k b).2 = none →
      walk bits env n c k b = some (answer (nodeBackend bits env c) n k b).1) ∧
    ((answer (nodeBackend bits env c) n k b).2 ≠ none → walk bits env n c k b = none) := by
  intro k
  induction k with
  | zero => intro b; exact ⟨fun _ => rfl, fun h => absurd rfl h⟩
  | succ k ih =>
    intro b
    obtain ⟨i1, i2⟩ := ih (b + 1)
    generalize ha : answer (nodeBackend bits env c) n k (b + 1) = a at i1 i2
    simp only [walk, answer, ha]
    cases hh : getHeaderByNumber n n b with
    | err => simp [nodeBackend, hh]
    | null => simp [nodeBackend, hh]
    | val hd =>
      cases hb : blockLogs bits env n.ix c hd with
      | none => simp [nodeBackend, hh, hb]
      | some l =>
        simp only [nodeBackend, hh, hb]
        refine ⟨fun h => ?_, fun h => ?_⟩
        · rw [i1 h]; rfl
        · rw [i2 h]; rfl

/-- **C99 (the API).** Whatever the schedule, and whatever is indexed meanwhile beyond the range, the answer of a query whose
client stays is the one of C40: those logs without an error, or an error. -/
theorem C99_getLogs (bits : Bytes → List Nat) (env : Env T X) (c : Crit) (n : Node X S) (b e : Nat)
    (s : Sys (Node X S) Header Log Unit)
    (h : Reach (nodeBackend bits env c) e (Same (nodeBackend bits env c) b e) (start n b) s)
    (out : List (Option Log)) (err : Option Unit) (hr : s.cons = .ret out err) (hc : s.cancelled = false) :
    (err = none → ∃ l, walk bits env n c (e + 1 - b) b = some l ∧ out = l.map some) ∧
    (err ≠ none → walk bits env n c (e + 1 - b) b = none) := by
  obtain ⟨h1, h2⟩ := C99_answer _ n b e s h out err hr hc
  obtain ⟨w1, w2⟩ := walk_answer bits env c n (e + 1 - b) b
  rw [h2]
  exact ⟨fun hn => ⟨_, w1 hn, h1⟩, w2⟩
end

/-! A concrete query over two blocks with three logs, in two schedules. -/

def toyBe : Backend (List (List Nat)) (List Nat) Nat String where
  header := fun db b => .ok db[b]?
  logs := fun _ h => .ok h
  ctxErr := "context canceled"

/-- While the query runs a third block is indexed; it ends with all three logs. -/
example : Reach toyBe 1 (Same toyBe 0 1) (start [[1, 2], [3]] 0)
    ⟨[[1, 2], [3], [4]], false, .closing, .ret [some 1, some 2, some 3] none, false, false⟩ ∧
    answer toyBe [[1, 2], [3]] 2 0 = ([1, 2, 3], none) := by
  refine ⟨?_, rfl⟩
  have h : Reach toyBe 1 (Same toyBe 0 1) (start [[1, 2], [3]] 0) (start [[1, 2], [3]] 0) := .refl
  have h := h.step (.header (b := 0) (hd := [1, 2]) rfl (by omega) rfl)
  have h := h.step (.logs (l := [1, 2]) rfl rfl)
  have h := h.step (.pass (acc := []) rfl rfl)
  have h := h.around (.index (R := Same toyBe 0 1) (db' := [[1, 2], [3], [4]]) (by
    constructor
    · intro n _ hn
      have : n = 0 ∨ n = 1 := by omega
      rcases this with rfl | rfl <;> rfl
    · intros; rfl))
  have h := h.step (.pass (acc := [some 1]) rfl rfl)
  have h := h.step (.next rfl)
  have h := h.step (.header (b := 1) (hd := [3]) rfl (by omega) rfl)
  have h := h.step (.logs (l := [3]) rfl rfl)
  have h := h.step (.pass (acc := [some 1, some 2]) rfl rfl)
  have h := h.step (.next rfl)
  have h := h.step (.over rfl (by omega))
  exact h.step (.tell (acc := [some 1, some 2, some 3]) rfl rfl)

/-- The client goes away after the first log. -/
example : Reach toyBe 1 (Same toyBe 0 1) (start [[1, 2], [3]] 0)
    ⟨[[1, 2], [3]], true, .done, .ret [some 1] (some "context canceled"), true, true⟩ := by
  have h : Reach toyBe 1 (Same toyBe 0 1) (start [[1, 2], [3]] 0) (start [[1, 2], [3]] 0) := .refl
  have h := h.step (.header (b := 0) (hd := [1, 2]) rfl (by omega) rfl)
  have h := h.step (.logs (l := [1, 2]) rfl rfl)
  have h := h.step (.pass (acc := []) rfl rfl)
  have h := h.around .cancel
  have h := h.step (.abort rfl rfl)
  have h := h.step (.tell (acc := [some 1]) rfl rfl)
  have h := h.step (.closeErr rfl)
  exact h.step (.closeLog rfl)

/-- The hypotheses of `C99_ends` are met: the first schedule, extended by nothing but the client going away. -/
theorem toy_run : ∃ f : Nat → Sys (List (List Nat)) (List Nat) Nat String, f 0 = start [] 0 ∧
    Run toyBe 0 (fun _ _ => False) f ∧
    ∀ n, (∃ t, Step toyBe 0 (f n) t) → ∃ m, n ≤ m ∧ Step toyBe 0 (f m) (f (m + 1)) := by
  let s0 : Sys (List (List Nat)) (List Nat) Nat String := ⟨[], true, .done, .ret [] none, true, true⟩
  let f : Nat → Sys (List (List Nat)) (List Nat) Nat String
    | 0 => start [] 0
    | 1 => ⟨[], false, .report none, .loop [], false, false⟩
    | 2 => ⟨[], false, .closing, .ret [] none, false, false⟩
    | 3 => ⟨[], false, .closing2, .ret [] none, true, false⟩
    | 4 => ⟨[], false, .done, .ret [] none, true, true⟩
    | _ => s0
  have st : ∀ n, n < 4 → Step toyBe 0 (f n) (f (n + 1)) := by
    intro n hn
    have : n = 0 ∨ n = 1 ∨ n = 2 ∨ n = 3 := by omega
    rcases this with rfl | rfl | rfl | rfl
    · exact .headerNil (s := start [] 0) (b := 0) rfl (by omega) rfl
    · exact .tell (s := ⟨[], false, .report none, .loop [], false, false⟩) (acc := []) rfl rfl
    · exact .closeErr (s := ⟨[], false, .closing, .ret [] none, false, false⟩) rfl
    · exact .closeLog (s := ⟨[], false, .closing2, .ret [] none, true, false⟩) rfl
  refine ⟨f, rfl, fun n => ?_, fun n ht => ?_⟩
  · by_cases hn : n < 4
    · exact .inl (st n hn)
    · right
      by_cases h4 : n = 4
      · subst h4; exact .cancel (s := ⟨[], false, .done, .ret [] none, true, true⟩)
      · obtain ⟨k, rfl⟩ : ∃ k, n = k + 5 := ⟨n - 5, by omega⟩
        exact .cancel (s := s0)
  · by_cases hn : n < 4
    · exact ⟨n, Nat.le_refl _, st n hn⟩
    · exfalso
      obtain ⟨t, ht⟩ := ht
      have hp : (f n).prod = .done ∧ (f n).cons = .ret [] none := by
        by_cases h4 : n = 4
        · subst h4; exact ⟨rfl, rfl⟩
        · obtain ⟨k, rfl⟩ : ∃ k, n = k + 5 := ⟨n - 5, by omega⟩
          exact ⟨rfl, rfl⟩
      generalize f n = s at ht hp
      obtain ⟨h1, h2⟩ := hp
      cases ht <;> simp_all

end Verif.Props.LogStream
