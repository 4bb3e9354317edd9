import Verif.Props.SigAnte
/-
C20: by how much a transaction moves a sequence, exactly.
-/
namespace Verif.Props.SigAnte
open Verif Verif.TxUtils Verif.SigAnte

variable {A : Type} [DecidableEq A]

/-- In how many ways the EVM messages write the account `a` as their sender. -/
def writings (dec : Str → Option A) (a : A) (msgs : List (SMsg A)) : Nat :=
  (msgs.filterMap SMsg.evmSender).eraseDups.countP fun c => dec c = some a

/-- How many EVM messages move the sequence of `a`: calls by it, and creations by accounts whose EVM identity it is. -/
def moves (dec : Str → Option A) (evmId : A → A) (a : A) (msgs : List (SMsg A)) : Nat :=
  msgs.countP fun m => match m with
    | .call c => dec c = some a
    | .create c => (dec c).map evmId = some a
    | .other _ => false

theorem names_seen (dec : Str → Option A) (a : A) : ∀ (msgs : List (SMsg A)) (seen : List Str),
    names dec a msgs seen = ((msgs.filterMap SMsg.evmSender).filter (fun c => decide (c ∉ seen))).eraseDups.countP (fun c => dec c = some a)
  | [], _ => by simp [names]
  | m :: ms, seen => by
    rw [names]
    cases hm : m.evmSender with
    | none => simp only [List.filterMap_cons, hm]; exact names_seen dec a ms seen
    | some c =>
      simp only [List.filterMap_cons, hm, List.filter_cons]
      by_cases hc : c ∈ seen
      · rw [if_pos hc]
        simp only [hc, not_true_eq_false, decide_false, Bool.false_eq_true, if_false]
        exact names_seen dec a ms seen
      · rw [if_neg hc, names_seen dec a ms (c :: seen)]
        simp only [hc, not_false_eq_true, decide_true, if_true]
        rw [List.eraseDups_cons, List.countP_cons, List.filter_filter]
        have e : (fun x => (!x == c) && decide (x ∉ seen)) = fun x => decide (x ∉ c :: seen) := by
          funext x
          by_cases h1 : x = c
          · simp [h1]
          · simp [h1]
        rw [e]
        by_cases hd : dec c = some a <;> simp [hd, Nat.add_comm]

theorem names_nil (dec : Str → Option A) (a : A) (msgs : List (SMsg A)) : names dec a msgs [] = writings dec a msgs := by
  rw [names_seen, writings]
  congr 2
  exact List.filter_eq_self.2 (fun c _ => by simp)

theorem runMsgs_moves (dec : Str → Option A) (evmId : A → A) (a : A) : ∀ (msgs : List (SMsg A)) (s s' : A → Int),
    runMsgs dec evmId msgs s = some s' → s' a = s a + moves dec evmId a msgs + nested a msgs
  | [], s, s', h => by simp [runMsgs] at h; simp [h, moves, nested]
  | m :: ms, s, s', h => by
    simp only [runMsgs] at h
    cases hr : runMsg dec evmId m s with
    | none => rw [hr] at h; cases h
    | some s1 =>
      rw [hr] at h
      rw [runMsgs_moves dec evmId a ms s1 s' h]
      cases m with
      | call c =>
        simp only [runMsg] at hr
        cases hd : dec c with
        | none => rw [hd] at hr; cases hr
        | some b =>
          rw [hd] at hr
          simp only [Option.map_some, Option.some.injEq] at hr
          subst hr
          simp only [moves, nested, List.countP_cons, hd, Option.some.injEq]
          by_cases hab : b = a
          · subst hab; simp [bump]; omega
          · simp [bump, hab, Ne.symm hab]
      | create c =>
        simp only [runMsg] at hr
        cases hd : dec c with
        | none => rw [hd] at hr; cases hr
        | some b =>
          rw [hd] at hr
          simp only [Option.map_some, Option.some.injEq] at hr
          subst hr
          simp only [moves, nested, List.countP_cons, hd, Option.map_some, Option.some.injEq]
          by_cases hab : evmId b = a
          · subst hab; simp [bump]; omega
          · simp [bump, hab, Ne.symm hab]
      | other bs =>
        simp only [runMsg, Option.some.injEq] at hr
        subst hr
        simp only [moves, nested, List.countP_cons, Bool.false_eq_true, if_false]
        rw [foldl_bump_count]
        omega

/-- What the ante handler does to a sequence. -/
theorem ante_moves (dec : Str → Option A) (signers : List A) (msgs : List (SMsg A)) (s s1 : A → Int) (a : A)
    (h : incrementSequences dec true signers msgs s = some s1) : s1 a = s a + signers.count a - writings dec a msgs := by
  unfold incrementSequences at h
  rw [if_pos rfl] at h
  rw [perSender_eq dec (-1) msgs _ _ _ h a, foldl_bump_count, names_nil]
  omega

/-- **C20 (exact).** By how much a transaction that the ante handler lets through moves the sequence of any account: up by one if it is a
signer, down by one for each way in which the EVM messages write it as their sender; and, if all messages succeed, up by one for each call
it sends, each creation in the name of its EVM identity and each nested call. If they fail, the second term is taken back only if BaseApp
keeps what the post handler writes; the hook of a deposit has none. -/
theorem C20_exact (dec : Str → Option A) (evmId : A → A) (signers : List A) (msgs : List (SMsg A)) (s s' : A → Int) (a : A) :
    (∀ keepPost s1, incrementSequences dec true signers msgs s = some s1 → (runMsgs dec evmId msgs s1).isSome →
      deliver dec evmId keepPost false signers msgs s = some s' →
      s' a = s a + signers.count a - writings dec a msgs + moves dec evmId a msgs + nested a msgs) ∧
    (deliver dec evmId false true signers msgs s = some s' → s' a = s a + signers.count a - writings dec a msgs) ∧
    (deliver dec evmId true true signers msgs s = some s' → s' a = s a + signers.count a) ∧
    (deliverHook dec evmId true signers msgs s = some s' → s' a = s a + signers.count a - writings dec a msgs) := by
  have failed : ∀ s1, incrementSequences dec true signers msgs s = some s1 →
      deliver dec evmId false true signers msgs s = some s1 ∧ deliverHook dec evmId true signers msgs s = some s1 ∧
      deliver dec evmId true true signers msgs s = perSender dec 1 msgs [] s1 := fun s1 h => by
    simp [deliver, deliverHook, h]
  refine ⟨fun keepPost s1 ha hok h => ?_, fun h => ?_, fun h => ?_, fun h => ?_⟩
  · obtain ⟨s2, h2⟩ := Option.isSome_iff_exists.1 hok
    simp only [deliver, ha, Bool.false_eq_true, if_false, h2, Option.some.injEq] at h
    subst h
    rw [runMsgs_moves dec evmId a msgs s1 s2 h2, ante_moves dec signers msgs s s1 a ha]
  · cases ha : incrementSequences dec true signers msgs s with
    | none => simp [deliver, ha] at h
    | some s1 =>
      rw [(failed s1 ha).1] at h
      cases h
      exact ante_moves dec signers msgs s s' a ha
  · cases ha : incrementSequences dec true signers msgs s with
    | none => simp [deliver, ha] at h
    | some s1 =>
      rw [(failed s1 ha).2.2] at h
      rw [perSender_eq dec 1 msgs _ _ _ h a, ante_moves dec signers msgs s s1 a ha, names_nil]
      omega
  · cases ha : incrementSequences dec true signers msgs s with
    | none => simp [deliverHook, ha] at h
    | some s1 =>
      rw [(failed s1 ha).2.1] at h
      cases h
      exact ante_moves dec signers msgs s s' a ha

/-- **C20 (replays, exactly when).** A failed transaction of distinct signers can be replayed by its signer `a` — the sequence is not ahead of
what it was — exactly if some EVM message has `a` as its sender (BaseApp dropping post-handler writes, as cosmos-sdk does; or in the hook of a
deposit). -/
theorem C20_replay_iff (dec : Str → Option A) (evmId : A → A) (signers : List A) (hn : signers.Nodup) (msgs : List (SMsg A)) (s s' : A → Int)
    (a : A) (ha : a ∈ signers) (h : deliver dec evmId false true signers msgs s = some s') :
    s' a ≤ s a ↔ ∃ m ∈ msgs, ∃ c, m.evmSender = some c ∧ dec c = some a := by
  have h1 := (C20_exact dec evmId signers msgs s s' a).2.1 h
  have hc : signers.count a = 1 := by rw [hn.count, if_pos ha]
  have hw : writings dec a msgs = 0 ↔ ¬ ∃ m ∈ msgs, ∃ c, m.evmSender = some c ∧ dec c = some a := by
    rw [writings, List.countP_eq_zero]
    constructor
    · rintro h ⟨m, hm, c, e1, e2⟩
      exact h c (List.mem_eraseDups.2 (List.mem_filterMap.2 ⟨m, hm, e1⟩)) (by simpa using e2)
    · intro h c hc e
      obtain ⟨m, hm, e1⟩ := List.mem_filterMap.1 (List.mem_eraseDups.1 hc)
      exact h ⟨m, hm, c, e1, by simpa using e⟩
  rw [hc] at h1
  constructor
  · intro hle
    apply Classical.byContradiction
    intro hne
    have := hw.2 hne
    omega
  · intro hex
    have : writings dec a msgs ≠ 0 := fun e => hw.1 e hex
    omega

/-- Two writings of one account, one creation by an account with another EVM identity. -/
example : let dec : Str → Option Nat := fun c => if c = ['a'] ∨ c = ['A'] then some 1 else if c = ['l'] then some 2 else none
    writings dec 1 [.call ['a'], .call ['A'], .call ['a'], .create ['l'], .other [1]] = 2 ∧
    moves dec (fun x => if x = 2 then 9 else x) 1 [.call ['a'], .call ['A'], .call ['a'], .create ['l'], .other [1]] = 3 ∧
    moves dec (fun x => if x = 2 then 9 else x) 9 [.call ['a'], .create ['l']] = 1 ∧
    (deliver dec id false true [1, 2] [.call ['a'], .call ['A'], .create ['l']] (fun _ => 7)).map (fun f => (f 1, f 2)) = some (6, 7) := by
  decide +kernel

end Verif.Props.SigAnte
