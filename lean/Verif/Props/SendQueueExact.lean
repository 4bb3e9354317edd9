import Verif.Props.SendQueue
/-
C63: what exactly the answer to a submission means.
-/
namespace Verif.SendQueue
open Verif Verif.LockTable

structure Inv6 (s : State) : Prop where
  one : (s.results.map (·.1)).Nodup
  ref : ∀ x, (x, Res.refused) ∈ s.results ↔ ∃ b ∈ s.sent, b.by_ = x ∧ b.ok = false
  low : ∀ x, (x, Res.nonceTooLow) ∈ s.results → (∀ b ∈ s.sent, b.by_ ≠ x ∧ b.tx ≠ x) ∧ (∀ q ∈ s.queue, q.2 ≠ x) ∧
    ∀ t y n e, flight (s.threads t) = some (y, n, e) → e ≠ x

theorem flight_put {f : Nat → Pc} {t u : Nat} {pc : Pc} {y e : Sub} {n : Nat} (hpc : flight pc = none)
    (h : flight (put f t pc u) = some (y, n, e)) : flight (f u) = some (y, n, e) := by
  by_cases hu : u = t
  · subst hu; rw [put_same, hpc] at h; cases h
  · rwa [put_other _ _ _ _ hu] at h

theorem inv6_act (s s' : State) (a : Act) (hi : Inv s) (h : Inv6 s) (hs : s.act a = some s') : Inv6 s' := by
  cases a with
  | chain b n => simp only [State.act] at hs; cases hs; exact ⟨h.one, h.ref, h.low⟩
  | submit t sender nonce =>
    simp only [State.act] at hs
    split at hs
    · cases hs
      exact ⟨h.one, h.ref, fun x hx => ⟨(h.low x hx).1, (h.low x hx).2.1, fun u y n e he => (h.low x hx).2.2 u y n e (flight_put (by rfl) he)⟩⟩
    · cases hs
  | step t ok =>
    simp only [State.act] at hs
    cases hp : s.threads t with
    | idle => rw [hp] at hs; cases hs
    | waiting x =>
      rw [hp] at hs
      simp only at hs
      split at hs
      · cases hs
        exact ⟨h.one, h.ref, fun x hx => ⟨(h.low x hx).1, (h.low x hx).2.1, fun u y n e he => (h.low x hx).2.2 u y n e (flight_put (by rfl) he)⟩⟩
      · cases hs
    | reading x =>
      rw [hp] at hs
      simp only at hs
      have hown : own (s.threads t) = some x := by rw [hp]; rfl
      have hpre : pre (s.threads t) = some x := by rw [hp]; rfl
      split at hs
      · cases hs
        obtain ⟨p1, p2, p3⟩ := hi.pre1 t x hpre
        refine ⟨?_, ?_, ?_⟩
        · simp only [State.finish, List.map_cons, List.nodup_cons]
          refine ⟨fun hm => ?_, h.one⟩
          obtain ⟨r, hr, e⟩ := List.mem_map.1 hm
          exact hi.ownR t x hown r hr e
        · intro y
          simp only [State.finish, List.mem_cons, Prod.mk.injEq, reduceCtorEq, and_false, false_or]
          exact h.ref y
        · intro y hy
          simp only [State.finish, List.mem_cons, Prod.mk.injEq, and_true] at hy
          rcases hy with rfl | hy
          · exact ⟨fun b hb => ⟨hi.preB t y hpre b hb, fun e => p2 (List.mem_map.2 ⟨b, hb, e⟩)⟩, p1,
              fun u z n e he => p3 u z n e (flight_put (by rfl) he)⟩
          · exact ⟨(h.low y hy).1, (h.low y hy).2.1, fun u z n e he => (h.low y hy).2.2 u z n e (flight_put (by rfl) he)⟩
      · cases hs
        exact ⟨h.one, h.ref, fun x hx => ⟨(h.low x hx).1, (h.low x hx).2.1, fun u y n e he => (h.low x hx).2.2 u y n e (flight_put (by rfl) he)⟩⟩
    | adding x acc =>
      rw [hp] at hs
      cases hs
      have hown : own (s.threads t) = some x := by rw [hp]; rfl
      refine ⟨h.one, h.ref, fun y hy => ⟨(h.low y hy).1, fun q hq => ?_, fun u z n e he => (h.low y hy).2.2 u z n e (flight_put (by rfl) he)⟩⟩
      have hq' := List.mem_of_mem_take hq
      rcases List.mem_cons.1 hq' with e | hq'
      · rw [e]; intro e'; exact hi.ownR t x hown _ hy e'.symm
      · exact (h.low y hy).2.1 q (List.mem_filter.1 hq').1
    | looping x base k =>
      rw [hp] at hs
      simp only at hs
      have hown : own (s.threads t) = some x := by rw [hp]; rfl
      cases hh : has s.queue (x.sender, at_ base k) with
      | some e =>
        rw [hh] at hs
        cases hs
        have hmem : ∃ q ∈ s.queue, q.2 = e := by
          unfold has at hh
          obtain ⟨q, hq, hqe⟩ := Option.map_eq_some_iff.1 hh
          exact ⟨q, List.mem_of_find?_eq_some hq, hqe⟩
        obtain ⟨q0, hq0, hqe⟩ := hmem
        refine ⟨h.one, h.ref, fun y hy => ⟨(h.low y hy).1, fun q hq => ?_, fun u z n e' he => ?_⟩⟩
        · simp only [touch, hh] at hq
          rcases List.mem_cons.1 hq with e1 | hq
          · rw [e1, ← hqe]; exact (h.low y hy).2.1 q0 hq0
          · exact (h.low y hy).2.1 q (List.mem_filter.1 hq).1
        · by_cases hu : u = t
          · subst hu
            simp only [put_same, flight, Option.some.injEq, Prod.mk.injEq] at he
            rw [← he.2.2, ← hqe]
            exact (h.low y hy).2.1 q0 hq0
          · simp only [put_other _ _ _ _ hu] at he
            exact (h.low y hy).2.2 u z n e' he
      | none =>
        rw [hh] at hs
        cases hs
        refine ⟨?_, ?_, ?_⟩
        · simp only [State.finish, List.map_cons, List.nodup_cons]
          refine ⟨fun hm => ?_, h.one⟩
          obtain ⟨r, hr, e⟩ := List.mem_map.1 hm
          exact hi.ownR t x hown r hr e
        · intro y
          simp only [State.finish, List.mem_cons, Prod.mk.injEq, reduceCtorEq, and_false, false_or]
          exact h.ref y
        · intro y hy
          simp only [State.finish, List.mem_cons, Prod.mk.injEq, reduceCtorEq, and_false, false_or] at hy
          exact ⟨(h.low y hy).1, (h.low y hy).2.1, fun u z n e he => (h.low y hy).2.2 u z n e (flight_put (by rfl) he)⟩
    | removing x base k e =>
      rw [hp] at hs
      cases hs
      refine ⟨h.one, h.ref, fun y hy => ⟨(h.low y hy).1, fun q hq => (h.low y hy).2.1 q (List.mem_filter.1 hq).1, fun u z n e' he => ?_⟩⟩
      by_cases hu : u = t
      · subst hu
        simp only [put_same, flight] at he
        exact (h.low y hy).2.2 u z n e' (by rw [hp]; exact he)
      · simp only [put_other _ _ _ _ hu] at he
        exact (h.low y hy).2.2 u z n e' he
    | sending x base k e =>
      rw [hp] at hs
      simp only at hs
      have hown : own (s.threads t) = some x := by rw [hp]; rfl
      have hfl : flight (s.threads t) = some (x, at_ base k, e) := by rw [hp]; rfl
      cases ok with
      | true =>
        simp only [if_true] at hs
        split at hs
        · cases hs
          refine ⟨h.one, fun y => ?_, fun y hy => ⟨fun b hb => ?_, (h.low y hy).2.1, fun u z n e he => (h.low y hy).2.2 u z n e (flight_put (by rfl) he)⟩⟩
          · rw [h.ref y]
            simp
          · rcases List.mem_cons.1 hb with e1 | hb
            · rw [e1]
              exact ⟨fun e2 => hi.ownR t x hown _ hy e2.symm, (h.low y hy).2.2 t x _ e hfl⟩
            · exact (h.low y hy).1 b hb
        · cases hs
      | false =>
        simp only [Bool.false_eq_true, if_false] at hs
        cases hs
        refine ⟨?_, fun y => ?_, fun y hy => ?_⟩
        · simp only [State.finish, List.map_cons, List.nodup_cons]
          refine ⟨fun hm => ?_, h.one⟩
          obtain ⟨r, hr, e⟩ := List.mem_map.1 hm
          exact hi.ownR t x hown r hr e
        · simp only [State.finish, List.mem_cons, Prod.mk.injEq, and_true]
          rw [h.ref y]
          constructor
          · rintro (rfl | ⟨b, hb, e1, e2⟩)
            · exact ⟨_, .inl rfl, rfl, rfl⟩
            · exact ⟨b, .inr hb, e1, e2⟩
          · rintro ⟨b, rfl | hb, e1, e2⟩
            · exact .inl e1.symm
            · exact .inr ⟨b, hb, e1, e2⟩
        · simp only [State.finish, List.mem_cons, Prod.mk.injEq, reduceCtorEq, and_false, false_or] at hy
          refine ⟨fun b hb => ?_, (h.low y hy).2.1, fun u z n e he => (h.low y hy).2.2 u z n e (flight_put (by rfl) he)⟩
          rcases List.mem_cons.1 hb with e1 | hb
          · rw [e1]
            exact ⟨fun e2 => hi.ownR t x hown _ hy e2.symm, (h.low y hy).2.2 t x _ e hfl⟩
          · exact (h.low y hy).1 b hb

theorem inv6_run : ∀ (l : List Act) (s s' : State), Inv s → Inv6 s → s.run l = some s' → Inv6 s'
  | [], s, s', _, h, hr => by cases hr; exact h
  | a :: l, s, s', hi, h, hr => by
    simp only [State.run] at hr
    cases ha : s.act a with
    | none => rw [ha] at hr; cases hr
    | some s1 => rw [ha] at hr; exact inv6_run l s1 s' (inv_act s s1 a hi ha) (inv6_act s s1 a hi h ha) hr

/-- **C63 (what an answer means, exactly).** Every submission is answered at most once. The answer is that a transaction was refused exactly
if the node refused one that was broadcast on behalf of the submission — its own or another of the sender that waited —; it is success only if
the node refused none; and after the answer that the nonce is too low the transaction is not broadcast, does not wait, and never will. -/
theorem C63_exact (cap : Nat) (seq : Nat → Nat) (l : List Act) (s : State) (hr : (State.init cap seq).run l = some s) :
    (∀ x r r', (x, r) ∈ s.results → (x, r') ∈ s.results → r = r') ∧
    (∀ x, (x, Res.refused) ∈ s.results ↔ ∃ b ∈ s.sent, b.by_ = x ∧ b.ok = false) ∧
    (∀ x, (x, Res.ok) ∈ s.results → ∀ b ∈ s.sent, b.by_ = x → b.ok = true) ∧
    (∀ x, (x, Res.nonceTooLow) ∈ s.results → (∀ b ∈ s.sent, b.by_ ≠ x ∧ b.tx ≠ x) ∧ ∀ q ∈ s.queue, q.2 ≠ x) := by
  have h : Inv6 s := inv6_run l _ s (inv_init cap seq) ⟨by simp [State.init], by simp [State.init], by simp [State.init]⟩ hr
  have huniq : ∀ x r r', (x, r) ∈ s.results → (x, r') ∈ s.results → r = r' := by
    intro x r r' h1 h2
    obtain ⟨i, hi, e1⟩ := List.getElem_of_mem h1
    obtain ⟨j, hj, e2⟩ := List.getElem_of_mem h2
    have hn := List.pairwise_iff_getElem.1 h.one
    rcases Nat.lt_trichotomy i j with c | c | c
    · have := hn i j (by simpa using hi) (by simpa using hj) c
      rw [List.getElem_map, List.getElem_map, e1, e2] at this
      exact absurd rfl this
    · subst c; rw [e1] at e2; cases e2; rfl
    · have := hn j i (by simpa using hj) (by simpa using hi) c
      rw [List.getElem_map, List.getElem_map, e1, e2] at this
      exact absurd rfl this
  refine ⟨huniq, h.ref, fun x hx b hb he => ?_, fun x hx => ⟨(h.low x hx).1, (h.low x hx).2.1⟩⟩
  cases hok : b.ok with
  | true => rfl
  | false => exact absurd (huniq x _ _ hx ((h.ref x).2 ⟨b, hb, he, hok⟩)) (by simp)

/-- The run of `C63_violated`: the transaction of submission 1 was accepted, and its answer is that one was refused. -/
example : ((State.init 4 (fun _ => 0)).run ([.submit 0 7 1] ++ go 0 4 ++ [.submit 1 7 0] ++ go 1 8 ++ [.step 1 false])).map
    (fun s => decide ((⟨1, 7, 0⟩, Res.refused) ∈ s.results ∧ (⟨⟨1, 7, 0⟩, ⟨1, 7, 0⟩, true, 0⟩ : Sent) ∈ s.sent)) = some true := by decide +kernel

end Verif.SendQueue
