import Verif.Model.Oracle
import Verif.Props.Query
/-
C146: the answer to a contract's oracle query is the answer to its own query.
-/
namespace Verif.Props.Oracle
open Verif Verif.Text Verif.Query Verif.Oracle Verif.Props.Query

variable {S Resp : Type}

/-! ### What a query should answer -/

/-- The queries documented for contracts: the three of the oracle module. -/
def Documented (p : Str) : Prop :=
  p = "/connect.oracle.v2.Query/GetPrices".toList ∨ p = "/connect.oracle.v2.Query/GetPrice".toList ∨
  p = "/connect.oracle.v2.Query/GetAllCurrencyPairs".toList

open Classical in
/-- The answer of the oracle to what the text says, on the state the execution runs on, as JSON; `none`: an error. It
depends on nothing else. -/
noncomputable def says (w : World S Resp) (p : Str) (txt : List (List Nat × List Nat)) (s : S) : Option Str :=
  if w.routed p = true ∧ Documented p then
    (means (w.known p) txt).bind fun q =>
      (w.route p s q).bind fun v => if (w.decode p v).2 then w.json (w.decode p v).1 else none
  else none

/-- How an execution of `query_cosmos` ended: with an error or with an answer. -/
inductive Ended : At Resp → Option Str → Prop
  | failed : Ended .failed none
  | done (s : Str) : Ended (.done s) (some s)

theorem documented_iff (p : Str) : p ∈ whitelist ↔ Documented p := by
  simp only [whitelist, Documented, List.mem_cons, List.not_mem_nil, or_false]

/-! ### One execution by itself -/

/-- `k` steps of one execution. -/
def steps (w : World S Resp) : Nat → Thread S Resp × Cell Resp → Thread S Resp × Cell Resp
  | 0, x => x
  | k + 1, x => steps w k (x.1.step w x.2)

theorem steps_failed (w : World S Resp) (t : Thread S Resp) (c : Cell Resp) (h : t.at_ = .failed) :
    ∀ k, steps w k (t, c) = (t, c)
  | 0 => rfl
  | k + 1 => by
    have e : t.step w c = (t, c) := by simp [Thread.step, h]
    simp only [steps, e]
    exact steps_failed w t c h k

theorem steps_done (w : World S Resp) (t : Thread S Resp) (c : Cell Resp) (s : Str) (h : t.at_ = .done s) :
    ∀ k, steps w k (t, c) = (t, c)
  | 0 => rfl
  | k + 1 => by
    have e : t.step w c = (t, c) := by simp [Thread.step, h]
    simp only [steps, e]
    exact steps_done w t c s h k

/-- The text can be read (or the query is refused before it is read). -/
def Readable (w : World S Resp) (t : Thread S Resp) : Prop :=
  w.routed t.path = true → Documented t.path → (means (w.known t.path) t.txt).isSome

theorem unmarshal_clean (known : List Nat → Bool) (txt : List (List Nat × List Nat)) :
    ((means known txt) = none → (unmarshalInto known noFields txt).2 = false) ∧
    (∀ q, means known txt = some q → (unmarshalInto known noFields txt) = (q, true)) := by
  have h := C69_request known noFields txt (fun _ _ => rfl)
  unfold convertReq at h
  simp only at h
  cases hm : means known txt with
  | none =>
    rw [hm] at h
    refine ⟨fun _ => ?_, fun q hq => by cases hq⟩
    cases h2 : (unmarshalInto known noFields txt).2 with
    | false => rfl
    | true => rw [h2] at h; simp at h
  | some q =>
    rw [hm] at h
    refine ⟨(fun hq => by cases hq), fun q' hq => ?_⟩
    cases hq
    cases h2 : (unmarshalInto known noFields txt).2 with
    | false => rw [h2] at h; simp at h
    | true =>
      rw [h2] at h
      simp only [if_true, Option.map_some, Option.some.injEq] at h
      have e : (fun f => (q f).or (noFields f)) = q := by funext f; simp [noFields]
      rw [e] at h
      exact Prod.ext h h2

/-- An execution that has the objects of its path for itself ends with the right answer, and leaves the request object
empty if its text could be read. -/
theorem solo (w : World S Resp) (t : Thread S Resp) (c : Cell Resp) (ht : t.at_ = .start) (hc : c.req = noFields) :
    ∃ a c', steps w 7 (t, c) = ({ t with at_ := a }, c') ∧ Ended a (says w t.path t.txt t.state) ∧
      (Readable w t → c'.req = noFields) := by
  obtain ⟨path, txt, state, at_⟩ := t
  obtain ⟨req, resp⟩ := c
  simp only at ht hc
  subst ht hc
  by_cases h1 : w.routed path = false
  · refine ⟨.failed, ⟨noFields, resp⟩, ?_, ?_, fun _ => rfl⟩
    · simp only [steps, Thread.step, h1, if_true]
    · have : says w path txt state = none := by simp [says, h1]
      rw [this]; exact .failed
  · have h1t : w.routed path = true := by simpa using h1
    by_cases h2 : path ∉ whitelist
    · refine ⟨.failed, ⟨noFields, resp⟩, ?_, ?_, fun _ => rfl⟩
      · have e : Thread.step w ⟨path, txt, state, .start⟩ ⟨noFields, resp⟩ = (⟨path, txt, state, .failed⟩, ⟨noFields, resp⟩) := by
          simp [Thread.step, h1, h2]
        show steps w 6 (Thread.step w ⟨path, txt, state, .start⟩ ⟨noFields, resp⟩) = _
        rw [e, steps_failed w _ _ rfl]
      · have : says w path txt state = none := by
          have : ¬ Documented path := fun h => h2 ((documented_iff path).mpr h)
          simp [says, this]
        rw [this]; exact .failed
    · have h2' : path ∈ whitelist := Decidable.not_not.mp h2
      have hd := (documented_iff path).mp h2'
      have hu := unmarshal_clean (w.known path) txt
      have hs : says w path txt state = (means (w.known path) txt).bind fun q =>
          (w.route path state q).bind fun v => if (w.decode path v).2 then w.json (w.decode path v).1 else none := by
        simp [says, h1t, hd]
      rw [hs]
      cases hm : means (w.known path) txt with
      | none =>
        have hf := hu.1 hm
        refine ⟨.failed, ⟨(unmarshalInto (w.known path) noFields txt).1, resp⟩, ?_, .failed, ?_⟩
        · have e : Thread.step w ⟨path, txt, state, .start⟩ ⟨noFields, resp⟩
              = (⟨path, txt, state, .failed⟩, ⟨(unmarshalInto (w.known path) noFields txt).1, resp⟩) := by
            simp [Thread.step, h1, h2', hf]
          show steps w 6 (Thread.step w ⟨path, txt, state, .start⟩ ⟨noFields, resp⟩) = _
          rw [e, steps_failed w _ _ rfl]
        · intro hr
          have := hr h1t hd
          simp only [hm] at this
          cases this
      | some q =>
        have hf := hu.2 q hm
        have e1 : Thread.step w ⟨path, txt, state, .start⟩ ⟨noFields, resp⟩ = (⟨path, txt, state, .decoded⟩, ⟨q, resp⟩) := by
          simp [Thread.step, h1, h2', hf]
        have e2 : Thread.step w ⟨path, txt, state, .decoded⟩ ⟨q, resp⟩ = (⟨path, txt, state, .encoded q⟩, ⟨q, resp⟩) := rfl
        have e3 : Thread.step w ⟨path, txt, state, .encoded q⟩ ⟨q, resp⟩ = (⟨path, txt, state, .asked q⟩, ⟨noFields, resp⟩) := rfl
        have e123 : steps w 7 (⟨path, txt, state, .start⟩, ⟨noFields, resp⟩)
            = steps w 4 (⟨path, txt, state, .asked q⟩, ⟨noFields, resp⟩) := by
          show steps w 6 (Thread.step w ⟨path, txt, state, .start⟩ ⟨noFields, resp⟩) = _
          rw [e1]
          show steps w 5 (Thread.step w ⟨path, txt, state, .decoded⟩ ⟨q, resp⟩) = _
          rw [e2]
          show steps w 4 (Thread.step w ⟨path, txt, state, .encoded q⟩ ⟨q, resp⟩) = _
          rw [e3]
        rw [e123]
        simp only [Option.bind_some]
        cases hr : w.route path state q with
        | none =>
          have e4 : Thread.step w ⟨path, txt, state, .asked q⟩ ⟨noFields, resp⟩ = (⟨path, txt, state, .failed⟩, ⟨noFields, resp⟩) := by
            simp [Thread.step, hr]
          refine ⟨.failed, ⟨noFields, resp⟩, ?_, .failed, fun _ => rfl⟩
          show steps w 3 (Thread.step w ⟨path, txt, state, .asked q⟩ ⟨noFields, resp⟩) = _
          rw [e4, steps_failed w _ _ rfl]
        | some v =>
          have e4 : Thread.step w ⟨path, txt, state, .asked q⟩ ⟨noFields, resp⟩ = (⟨path, txt, state, .answered v⟩, ⟨noFields, resp⟩) := by
            simp [Thread.step, hr]
          simp only [Option.bind_some]
          cases hdec : (w.decode path v).2 with
          | false =>
            have e5 : Thread.step w ⟨path, txt, state, .answered v⟩ ⟨noFields, resp⟩
                = (⟨path, txt, state, .failed⟩, ⟨noFields, (w.decode path v).1⟩) := by
              simp [Thread.step, hdec]
            refine ⟨.failed, ⟨noFields, (w.decode path v).1⟩, ?_, ?_, fun _ => rfl⟩
            · show steps w 3 (Thread.step w ⟨path, txt, state, .asked q⟩ ⟨noFields, resp⟩) = _
              rw [e4]
              show steps w 2 (Thread.step w ⟨path, txt, state, .answered v⟩ ⟨noFields, resp⟩) = _
              rw [e5, steps_failed w _ _ rfl]
            · simp only [Bool.false_eq_true, if_false]; exact .failed
          | true =>
            have e5 : Thread.step w ⟨path, txt, state, .answered v⟩ ⟨noFields, resp⟩
                = (⟨path, txt, state, .filled⟩, ⟨noFields, (w.decode path v).1⟩) := by
              simp [Thread.step, hdec]
            simp only [if_true]
            cases hj : w.json (w.decode path v).1 with
            | none =>
              have e6 : Thread.step w ⟨path, txt, state, .filled⟩ ⟨noFields, (w.decode path v).1⟩
                  = (⟨path, txt, state, .failed⟩, ⟨noFields, (w.decode path v).1⟩) := by
                simp [Thread.step, hj]
              refine ⟨.failed, ⟨noFields, (w.decode path v).1⟩, ?_, .failed, fun _ => rfl⟩
              show steps w 3 (Thread.step w ⟨path, txt, state, .asked q⟩ ⟨noFields, resp⟩) = _
              rw [e4]
              show steps w 2 (Thread.step w ⟨path, txt, state, .answered v⟩ ⟨noFields, resp⟩) = _
              rw [e5]
              show steps w 1 (Thread.step w ⟨path, txt, state, .filled⟩ ⟨noFields, (w.decode path v).1⟩) = _
              rw [e6, steps_failed w _ _ rfl]
            | some s =>
              have e6 : Thread.step w ⟨path, txt, state, .filled⟩ ⟨noFields, (w.decode path v).1⟩
                  = (⟨path, txt, state, .written s⟩, ⟨noFields, (w.decode path v).1⟩) := by
                simp [Thread.step, hj]
              refine ⟨.done s, ⟨noFields, w.noResp⟩, ?_, .done s, fun _ => rfl⟩
              show steps w 3 (Thread.step w ⟨path, txt, state, .asked q⟩ ⟨noFields, resp⟩) = _
              rw [e4]
              show steps w 2 (Thread.step w ⟨path, txt, state, .answered v⟩ ⟨noFields, resp⟩) = _
              rw [e5]
              show steps w 1 (Thread.step w ⟨path, txt, state, .filled⟩ ⟨noFields, (w.decode path v).1⟩) = _
              rw [e6]
              rfl

/-! ### Many executions -/

theorem step_path (w : World S Resp) (t : Thread S Resp) (c : Cell Resp) :
    (t.step w c).1.path = t.path ∧ (t.step w c).1.txt = t.txt ∧ (t.step w c).1.state = t.state := by
  unfold Thread.step
  split
  · split
    · exact ⟨rfl, rfl, rfl⟩
    · split <;> exact ⟨rfl, rfl, rfl⟩
  all_goals exact ⟨rfl, rfl, rfl⟩

theorem node_step_path (w : World S Resp) (n : Node S Resp) (i j : Nat) : ((n.step w i).threads j).path = (n.threads j).path := by
  unfold Node.step
  simp only
  split
  · rename_i h; rw [h]; exact (step_path w _ _).1
  · rfl

theorem run_path (w : World S Resp) (sched : List Nat) : ∀ (n : Node S Resp) (j : Nat),
    ((n.run w sched).threads j).path = (n.threads j).path := by
  induction sched with
  | nil => intro n j; rfl
  | cons i is ih =>
    intro n j
    show (((n.step w i).run w is).threads j).path = _
    rw [ih, node_step_path]

/-- Two nodes look alike on path `p`. -/
structure Alike (p : Str) (n m : Node S Resp) : Prop where
  cell : n.cells p = m.cells p
  paths : ∀ i, (n.threads i).path = (m.threads i).path
  threads : ∀ i, (n.threads i).path = p → n.threads i = m.threads i

theorem Alike.refl (p : Str) (n : Node S Resp) : Alike p n n := ⟨rfl, fun _ => rfl, fun _ _ => rfl⟩

theorem alike_both (w : World S Resp) (p : Str) (n m : Node S Resp) (h : Alike p n m) (i : Nat) (hi : (n.threads i).path = p) :
    Alike p (n.step w i) (m.step w i) := by
  have ht := h.threads i hi
  have hi' : (m.threads i).path = p := by rw [← h.paths]; exact hi
  refine ⟨?_, ?_, ?_⟩
  · simp only [Node.step, hi', if_true, h.cell, ht]
  · intro j; rw [node_step_path, node_step_path]; exact h.paths j
  · intro j hj
    rw [node_step_path] at hj
    simp only [Node.step, hi', h.cell, ht]
    split
    · rfl
    · exact h.threads j hj

theorem alike_left (w : World S Resp) (p : Str) (n m : Node S Resp) (h : Alike p n m) (i : Nat) (hi : (n.threads i).path ≠ p) :
    Alike p (n.step w i) m := by
  refine ⟨?_, ?_, ?_⟩
  · simp only [Node.step]
    rw [if_neg (fun e => hi e.symm)]
    exact h.cell
  · intro j; rw [node_step_path]; exact h.paths j
  · intro j hj
    rw [node_step_path] at hj
    simp only [Node.step]
    split
    · rename_i e; rw [e] at hj; exact absurd hj hi
    · exact h.threads j hj

theorem run_alike (w : World S Resp) (p : Str) (path : Nat → Str) (sched : List Nat) : ∀ (n m : Node S Resp),
    (∀ i, (n.threads i).path = path i) → Alike p n m →
    Alike p (n.run w sched) (m.run w (sched.filter fun i => decide (path i = p))) := by
  induction sched with
  | nil => intro n m _ h; exact h
  | cons i is ih =>
    intro n m hp h
    have hp' : ∀ j, ((n.step w i).threads j).path = path j := fun j => by rw [node_step_path]; exact hp j
    by_cases e : path i = p
    · rw [List.filter_cons_of_pos (by simpa using e)]
      exact ih (n.step w i) (m.step w i) hp' (alike_both w p n m h i (by rw [hp]; exact e))
    · rw [List.filter_cons_of_neg (by simpa using e)]
      exact ih (n.step w i) m hp' (alike_left w p n m h i (by rw [hp]; exact e))

/-- **C146** (paths are independent): whatever is going on at the same time on other paths, in whatever order, every
execution on path `p` goes exactly as it would without it. -/
theorem C146_paths (w : World S Resp) (n : Node S Resp) (sched : List Nat) (i : Nat) :
    (n.run w sched).threads i
      = (n.run w (sched.filter fun j => decide ((n.threads j).path = (n.threads i).path))).threads i := by
  have h := run_alike w (n.threads i).path (fun j => (n.threads j).path) sched n n (fun _ => rfl) (Alike.refl _ n)
  exact h.threads i (run_path w sched n i)

/-- `k` steps of execution `i` on the node are `k` steps of it by itself. -/
theorem run_replicate (w : World S Resp) : ∀ (k : Nat) (n : Node S Resp) (i : Nat),
    (n.run w (List.replicate k i)).threads i = (steps w k (n.threads i, n.cells (n.threads i).path)).1 ∧
    (n.run w (List.replicate k i)).cells (n.threads i).path = (steps w k (n.threads i, n.cells (n.threads i).path)).2 ∧
    (∀ j, j ≠ i → (n.run w (List.replicate k i)).threads j = n.threads j)
  | 0, n, i => ⟨rfl, rfl, fun _ _ => rfl⟩
  | k + 1, n, i => by
    have ih := run_replicate w k (n.step w i) i
    have e1 : (n.step w i).threads i = ((n.threads i).step w (n.cells (n.threads i).path)).1 := by
      simp [Node.step]
    have e2 : (n.step w i).cells (n.threads i).path = ((n.threads i).step w (n.cells (n.threads i).path)).2 := by
      simp [Node.step]
    have e3 : ((n.step w i).threads i).path = (n.threads i).path := node_step_path w n i i
    have hr : n.run w (List.replicate (k + 1) i) = (n.step w i).run w (List.replicate k i) := by
      simp [Node.run, List.replicate_succ]
    rw [hr]
    rw [e3, e1, e2] at ih
    refine ⟨ih.1, ih.2.1, ?_⟩
    intro j hj
    rw [ih.2.2 j hj]
    simp [Node.step, hj]

theorem run_append (w : World S Resp) (n : Node S Resp) (a b : List Nat) : n.run w (a ++ b) = (n.run w a).run w b := by
  simp [Node.run]

/-- **C146** (one after the other). If the executions on a path use it one after the other - `is`, each from beginning to
end, with anything going on on other paths in between - and every request before the last could be read, then each of
them ends with the answer to its own text on its own state. -/
theorem C146_serial_partial (w : World S Resp) (n : Node S Resp) (p : Str) (sched : List Nat) (is : List Nat)
    (hsched : sched.filter (fun j => decide ((n.threads j).path = p)) = is.flatMap fun i => List.replicate 7 i)
    (hnd : is.Nodup) (hpath : ∀ i ∈ is, (n.threads i).path = p) (hstart : ∀ i ∈ is, (n.threads i).at_ = .start)
    (hread : ∀ i ∈ is.dropLast, Readable w (n.threads i)) (hclean : (n.cells p).req = noFields) :
    ∀ i ∈ is, Ended ((n.run w sched).threads i).at_ (says w p (n.threads i).txt (n.threads i).state) := by
  have h := run_alike w p (fun j => (n.threads j).path) sched n n (fun _ => rfl) (Alike.refl _ n)
  rw [hsched] at h
  have key : ∀ (is : List Nat) (m : Node S Resp), is.Nodup → (∀ i ∈ is, (m.threads i).path = p) →
      (∀ i ∈ is, (m.threads i).at_ = .start) → (∀ i ∈ is.dropLast, Readable w (m.threads i)) →
      (m.cells p).req = noFields →
      (∀ i ∈ is, Ended ((m.run w (is.flatMap fun i => List.replicate 7 i)).threads i).at_
        (says w p (m.threads i).txt (m.threads i).state)) ∧
      (∀ j, j ∉ is → (m.run w (is.flatMap fun i => List.replicate 7 i)).threads j = m.threads j) := by
    intro is
    induction is with
    | nil => intro m _ _ _ _ _; exact ⟨by simp, fun _ _ => rfl⟩
    | cons i is ih =>
      intro m hnd hpath hstart hread hclean
      have hip := hpath i (by simp)
      have hr := run_replicate w 7 m i
      rw [hip] at hr
      obtain ⟨a, c', e, he, hcl⟩ := solo w (m.threads i) (m.cells p) (hstart i (by simp)) hclean
      rw [hip] at he
      have hni : i ∉ is := (List.nodup_cons.mp hnd).1
      rw [List.flatMap_cons, run_append]
      cases his : is with
      | nil =>
        simp only [List.flatMap_nil]
        refine ⟨?_, ?_⟩
        · intro j hj
          simp only [List.mem_singleton] at hj
          subst hj
          show Ended (((m.run w (List.replicate 7 j)).run w []).threads j).at_ _
          show Ended ((m.run w (List.replicate 7 j)).threads j).at_ _
          rw [hr.1, e]; exact he
        · intro j hj
          simp only [List.mem_singleton] at hj
          exact hr.2.2 j hj
      | cons i2 is2 =>
        rw [his] at ih hni hnd hpath hstart hread
        have hreadi : Readable w (m.threads i) := hread i (by simp)
        have hne : ∀ j ∈ i2 :: is2, j ≠ i := fun j hj e => hni (e ▸ hj)
        have hm : ∀ j ∈ i2 :: is2, (m.run w (List.replicate 7 i)).threads j = m.threads j := fun j hj => hr.2.2 j (hne j hj)
        have ih' := ih (m.run w (List.replicate 7 i)) (List.nodup_cons.mp hnd).2
          (fun j hj => by rw [hm j hj]; exact hpath j (List.mem_cons_of_mem _ hj))
          (fun j hj => by rw [hm j hj]; exact hstart j (List.mem_cons_of_mem _ hj))
          (fun j hj => by
            rw [hm j (List.dropLast_subset _ hj)]
            exact hread j (by rw [List.dropLast_cons_of_ne_nil (by simp)]; exact List.mem_cons_of_mem _ hj))
          (by rw [hr.2.1, e]; exact hcl hreadi)
        refine ⟨?_, ?_⟩
        · intro j hj
          rcases List.mem_cons.mp hj with rfl | hj
          · rw [ih'.2 j hni, hr.1, e]; exact he
          · have := ih'.1 j hj
            rw [hm j hj] at this
            exact this
        · intro j hj
          have hj1 : j ≠ i := fun e => hj (by simp [e])
          have hj2 : j ∉ i2 :: is2 := fun e => hj (List.mem_cons_of_mem _ e)
          rw [ih'.2 j hj2, hr.2.2 j hj1]
  have k := key is n hnd hpath hstart hread hclean
  intro i hi
  have e : ((n.run w sched).threads i) = ((n.run w (is.flatMap fun i => List.replicate 7 i)).threads i) :=
    h.threads i (by rw [run_path]; exact hpath i hi)
  rw [e]
  exact k.1 i hi

/-- **C146** (what a repair would give): an execution that has the objects of its path for itself - as it would have if they
were made for each query - ends with the answer to its own text on its own state, whatever the schedule. -/
theorem C146_own_objects (w : World S Resp) (n : Node S Resp) (sched : List Nat) (i : Nat)
    (hown : ∀ j ∈ sched, j ≠ i → (n.threads j).path ≠ (n.threads i).path) (hmoves : sched.count i = 7)
    (hstart : (n.threads i).at_ = .start) (hclean : (n.cells (n.threads i).path).req = noFields) :
    Ended ((n.run w sched).threads i).at_ (says w (n.threads i).path (n.threads i).txt (n.threads i).state) := by
  have hf : sched.filter (fun j => decide ((n.threads j).path = (n.threads i).path)) = List.replicate 7 i := by
    have h1 : sched.filter (fun j => decide ((n.threads j).path = (n.threads i).path)) = sched.filter (· == i) := by
      apply List.filter_congr
      intro j hj
      by_cases e : j = i
      · subst e; simp
      · simp [e, hown j hj e]
    rw [h1, List.filter_beq, hmoves]
  have := C146_serial_partial w n (n.threads i).path sched [i] (by rw [hf]; simp) (by simp) (by simp)
    (by simpa using hstart) (by simp) hclean
  exact this i (by simp)

/-- **C146** (nothing but the oracle): whatever else the node's router serves and however executions interleave, only the
three documented queries are ever answered. -/
theorem C146_whitelist (w : World S Resp) (n : Node S Resp) (sched : List Nat) (i : Nat) (out : Str)
    (hstart : (n.threads i).at_ = .start) (hdone : ((n.run w sched).threads i).at_ = .done out) :
    Documented (n.threads i).path ∧ w.routed (n.threads i).path = true := by
  have key : ∀ (sched : List Nat) (m : Node S Resp), ((m.threads i).at_ = .start ∨ (m.threads i).at_ = .failed) →
      ¬ (w.routed (m.threads i).path = true ∧ (m.threads i).path ∈ whitelist) →
      (((m.run w sched).threads i).at_ = .start ∨ ((m.run w sched).threads i).at_ = .failed) := by
    intro sched
    induction sched with
    | nil => intro m h _; exact h
    | cons j js ih =>
      intro m h hno
      show ((((m.step w j).run w js).threads i).at_ = .start ∨ (((m.step w j).run w js).threads i).at_ = .failed)
      refine ih (m.step w j) ?_ (by rw [node_step_path]; exact hno)
      by_cases e : i = j
      · subst e
        right
        have e1 : (m.step w i).threads i = ((m.threads i).step w (m.cells (m.threads i).path)).1 := by simp [Node.step]
        rw [e1]
        rcases h with h | h
        · simp only [Thread.step, h]
          by_cases hr : w.routed (m.threads i).path = false
          · rw [if_pos hr]
          · rw [if_neg hr]
            have : (m.threads i).path ∉ whitelist := fun hw => hno ⟨by simpa using hr, hw⟩
            rw [if_pos this]
        · simp [Thread.step, h]
      · have e1 : (m.step w j).threads i = m.threads i := by simp [Node.step, e]
        rw [e1]; exact h
  by_cases hno : w.routed (n.threads i).path = true ∧ (n.threads i).path ∈ whitelist
  · exact ⟨(documented_iff _).mp hno.2, hno.1⟩
  · rcases key sched n (.inl hstart) hno with h | h <;> rw [h] at hdone <;> cases hdone

/-! ### What goes wrong, and concrete cases -/

/-- A small oracle: one pair of currencies per number in field `[1]`; its price is the number of the pair times the
height; a request without a pair is an error. -/
def toyWorld : World Nat Nat :=
  { routed := fun _ => true
    route := fun _ height q => (q [1]).map fun pair => [UInt8.ofNat (pair.sum * height)]
    known := fun _ f => f == [1]
    decode := fun _ b => (b.length + (b.map UInt8.toNat).sum, b.length == 1)
    noResp := 0
    json := fun r => some (natStr (r - 1)) }

def getPrice : Str := "/connect.oracle.v2.Query/GetPrice".toList

/-- Executions 0 and 1 ask for a price; `heights` are those of the states they run on. -/
def toyNode (pair0 pair1 h0 h1 : Nat) : Node Nat Nat :=
  { cells := fun _ => ⟨noFields, 0⟩
    threads := fun i => if i = 0 then ⟨getPrice, [([1], [pair0])], h0, .start⟩ else ⟨getPrice, [([1], [pair1])], h1, .start⟩ }

def shown : At Nat → Option Str
  | .done s => some s
  | .failed => some "error".toList
  | _ => none

/-- One after the other they get their own answers: the price of pair 3 at height 5 and of pair 4 at height 6. -/
example : shown (((toyNode 3 4 5 6).run toyWorld [0,0,0,0,0,0,0, 1,1,1,1,1,1,1]).threads 0).at_ = some ['1', '5'] ∧
    shown (((toyNode 3 4 5 6).run toyWorld [0,0,0,0,0,0,0, 1,1,1,1,1,1,1]).threads 1).at_ = some ['2', '4'] := by
  decide +kernel

/-- The hypotheses of `C146_serial_partial` are met by that run. -/
example : ∀ i ∈ [0, 1], Ended (((toyNode 3 4 5 6).run toyWorld [0,0,0,0,0,0,0, 1,1,1,1,1,1,1]).threads i).at_
    (says toyWorld getPrice ((toyNode 3 4 5 6).threads i).txt ((toyNode 3 4 5 6).threads i).state) :=
  C146_serial_partial toyWorld (toyNode 3 4 5 6) getPrice _ [0, 1] (by decide +kernel) (by decide)
    (by intro i hi; simp only [List.mem_cons, List.not_mem_nil, or_false] at hi; rcases hi with rfl | rfl <;> rfl)
    (by intro i hi; simp only [List.mem_cons, List.not_mem_nil, or_false] at hi; rcases hi with rfl | rfl <;> rfl)
    (by
      intro i hi
      have : i = 0 := by simpa using hi
      subst this
      intro _ _
      decide +kernel)
    rfl

/-- The hypotheses of `C146_own_objects` are met by an interleaving with a query on another path. -/
example :
    let n : Node Nat Nat := { toyNode 3 4 5 6 with
      threads := fun i => if i = 0 then ⟨getPrice, [([1], [3])], 5, .start⟩
        else ⟨"/connect.oracle.v2.Query/GetPrices".toList, [([1], [4])], 6, .start⟩ }
    Ended ((n.run toyWorld [0,1,0,1,1,0,0,0,1,0,1,0,1,1]).threads 0).at_ (says toyWorld getPrice [([1], [3])] 5) := by
  intro n
  exact C146_own_objects toyWorld n _ 0 (by
    intro j hj hne
    have h1 : (n.threads j).path = "/connect.oracle.v2.Query/GetPrices".toList := by simp [n, hne]
    rw [h1]
    have h0 : (n.threads 0).path = getPrice := rfl
    rw [h0]
    decide) (by decide) rfl rfl

/-- **C146 is violated** (answers are mixed up): block execution at height 6 and an `eth_call` at height 5 ask for the same
price at the same time; with this schedule the block execution is told the price of height 5. Both have asked the oracle
correctly; it is the response object that is shared. Another node, that served no such call, is told the price of height
6: they no longer agree on the block. -/
theorem C146_answer_violated : ∃ (sched : List Nat),
    shown (((toyNode 3 3 6 5).run toyWorld sched).threads 0).at_ = some ['1', '5'] ∧
    shown (((toyNode 3 3 6 5).run toyWorld (sched.filter (· == 0))).threads 0).at_ = some ['1', '8'] ∧
    shown (((toyNode 3 3 6 5).run toyWorld sched).threads 1).at_ = some ['1', '5'] :=
  ⟨[0,0,0, 1,1,1, 0, 1, 0, 1, 0, 1, 0, 1], by decide +kernel⟩

/-- **C146 is violated** (even by twins): two executions that ask the same on the same state get in each other's way: here
the first resets the request after the second has written it, so the second asks for nothing and fails. -/
theorem C146_twin_violated : ∃ (sched : List Nat),
    shown (((toyNode 3 3 5 5).run toyWorld sched).threads 0).at_ = some ['1', '5'] ∧
    shown (((toyNode 3 3 5 5).run toyWorld sched).threads 1).at_ = some ['e', 'r', 'r', 'o', 'r'] ∧
    shown (((toyNode 3 3 5 5).run toyWorld (sched.filter (· == 1))).threads 1).at_ = some ['1', '5'] :=
  ⟨[0,0, 1, 0, 1,1, 0,0,0,0, 1,1,1,1], by decide +kernel⟩

end Verif.Props.Oracle
