import Verif.Props.Filters
/-!
C42: exactly when a filter disappears.
-/
namespace Verif.Filters
open Verif Verif.LockTable Verif.Indexer

/-- A filter for blocks or pending transactions that was never polled has no time of last use. -/
theorem unpolled_unused (info : Nat → Sub) (timeout : Nat) (s : State) (h : Reach info timeout s) :
    ∀ id f, s.filt id = some f → (info id).ty ≠ .logs → s.polled id = false → f.lastUsed = none := by
  induction h with
  | init => intro id f h; simp [State.init] at h
  | @next s s' l _ hs ih =>
    intro id f hf hty hp
    cases l with
    | uninstall x =>
      simp only [step] at hs
      split at hs
      · cases hs
        by_cases hx : id = x
        · subst hx; simp [put_same] at hf
        · simp only [put_other _ _ _ _ hx] at hf; exact ih id f hf hty hp
      · cases hs
    | tick =>
      simp only [step, Option.some.injEq] at hs
      subst hs
      simp only [sweepFilt] at hf
      split at hf
      · split at hf
        · cases hf
        · next g hg _ => cases hf; exact ih id _ hg hty hp
      · cases hf
    | process x =>
      simp only [step] at hs
      split at hs
      · split at hs
        · cases hs; exact ih id f hf hty hp
        · split at hs
          · next g hg =>
            cases hs
            by_cases hx : id = x
            · subst hx
              simp only [put_same, Option.some.injEq] at hf
              subst hf
              exact ih id g hg hty hp
            · simp only [put_other _ _ _ _ hx] at hf; exact ih id f hf hty hp
          · cases hs; exact ih id f hf hty hp
      · cases hs
    | add x =>
      simp only [step] at hs
      split at hs
      · cases hs
        by_cases hx : id = x
        · subst hx
          simp only [put_same, Option.some.injEq] at hf
          subst hf
          simp [hty]
        · simp only [put_other _ _ _ _ hx] at hf; exact ih id f hf hty hp
      · cases hs
    | poll x =>
      simp only [step] at hs
      split at hs
      · cases hs
        by_cases hx : id = x
        · subst hx; simp [put_same] at hp
        · simp only [put_other _ _ _ _ hx] at hf hp; exact ih id f hf hty hp
      · cases hs
    | emit => simp only [step, Option.some.injEq] at hs; subst hs; exact ih id f hf hty hp
    | wait => simp only [step, Option.some.injEq] at hs; subst hs; exact ih id f hf hty hp
    | recv =>
      simp only [step] at hs
      split at hs
      · cases hs; exact ih id f hf hty hp
      · cases hs
    | send =>
      simp only [step] at hs
      split at hs
      · split at hs
        · cases hs; exact ih id f hf hty hp
        · cases hs
      · cases hs
    | drain =>
      simp only [step] at hs
      split at hs
      · split at hs
        · cases hs; exact ih id f hf hty hp
        · cases hs
      · cases hs
    | loopDone =>
      simp only [step] at hs
      split at hs
      · cases hs; exact ih id f hf hty hp
      · cases hs
    | install =>
      simp only [step] at hs
      split at hs
      · cases hs; exact ih id f hf hty hp
      · cases hs
    | spawn x =>
      simp only [step] at hs
      by_cases hc : s.api x = (if (info x).ws then .installed else .added)
      · rw [if_pos hc] at hs; cases hs; exact ih id f hf hty hp
      · rw [if_neg hc] at hs; cases hs
    | close =>
      simp only [step] at hs
      split at hs
      · cases hs; exact ih id f hf hty hp
      · cases hs
    | unsub =>
      simp only [step] at hs
      split at hs
      · cases hs; exact ih id f hf hty hp
      · cases hs
    | exit =>
      simp only [step] at hs
      split at hs
      · cases hs; exact ih id f hf hty hp
      · cases hs

/-- Only uninstalling it and the ticks remove a filter. -/
theorem removed_by (info : Nat → Sub) (timeout : Nat) (s s' : State) (l : Label) (id : Nat)
    (hs : step info timeout s l = some s') (hf : (s.filt id).isSome) (hg : s'.filt id = none) :
    l = .uninstall id ∨ l = .tick := by
  obtain ⟨f, hf⟩ := Option.isSome_iff_exists.1 hf
  have hcontra : ∀ {g : Filter}, s.filt id = none → s.filt id = some g → False := fun a b => by rw [a] at b; cases b
  cases l with
  | uninstall x =>
    simp only [step] at hs
    split at hs
    · cases hs
      by_cases hx : id = x
      · subst hx; exact Or.inl rfl
      · simp only [put_other _ _ _ _ hx] at hg; rw [hg] at hf; cases hf
    · cases hs
  | tick => exact .inr rfl
  | process x =>
    simp only [step] at hs
    split at hs
    · split at hs
      · cases hs; exact (hcontra hg hf).elim
      · split at hs
        · cases hs
          by_cases hx : id = x
          · subst hx; simp [put_same] at hg
          · simp only [put_other _ _ _ _ hx] at hg; exact (hcontra hg hf).elim
        · cases hs; exact (hcontra hg hf).elim
    · cases hs
  | add x =>
    simp only [step] at hs
    split at hs
    · cases hs
      by_cases hx : id = x
      · subst hx; simp [put_same] at hg
      · simp only [put_other _ _ _ _ hx] at hg; exact (hcontra hg hf).elim
    · cases hs
  | poll x =>
    simp only [step] at hs
    split at hs
    · cases hs
      by_cases hx : id = x
      · subst hx; simp [put_same] at hg
      · simp only [put_other _ _ _ _ hx] at hg; exact (hcontra hg hf).elim
    · cases hs
  | emit => simp only [step, Option.some.injEq] at hs; subst hs; exact (hcontra hg hf).elim
  | wait => simp only [step, Option.some.injEq] at hs; subst hs; exact (hcontra hg hf).elim
  | recv =>
    simp only [step] at hs
    split at hs
    · cases hs; exact (hcontra hg hf).elim
    · cases hs
  | send =>
    simp only [step] at hs
    split at hs
    · split at hs
      · cases hs; exact (hcontra hg hf).elim
      · cases hs
    · cases hs
  | drain =>
    simp only [step] at hs
    split at hs
    · split at hs
      · cases hs; exact (hcontra hg hf).elim
      · cases hs
    · cases hs
  | loopDone =>
    simp only [step] at hs
    split at hs
    · cases hs; exact (hcontra hg hf).elim
    · cases hs
  | install =>
    simp only [step] at hs
    split at hs
    · cases hs; exact (hcontra hg hf).elim
    · cases hs
  | spawn x =>
    simp only [step] at hs
    by_cases hc : s.api x = (if (info x).ws then .installed else .added)
    · rw [if_pos hc] at hs; cases hs; exact (hcontra hg hf).elim
    · rw [if_neg hc] at hs; cases hs
  | close =>
    simp only [step] at hs
    split at hs
    · cases hs; exact (hcontra hg hf).elim
    · cases hs
  | unsub =>
    simp only [step] at hs
    split at hs
    · cases hs; exact (hcontra hg hf).elim
    · cases hs
  | exit =>
    simp only [step] at hs
    split at hs
    · cases hs; exact (hcontra hg hf).elim
    · cases hs

/-- **C42 (exact).** In every reachable state, and whatever happens next, an installed filter is gone afterwards exactly
if it was uninstalled, or a tick came and either more than the timeout has passed since its creation or last poll, or
it is a filter for blocks or pending transactions that was never polled. -/
theorem C42_kept_iff (info : Nat → Sub) (timeout : Nat) (s s' : State) (h : Reach info timeout s) (l : Label) (id : Nat)
    (hs : step info timeout s l = some s') (hf : (s.filt id).isSome) :
    s'.filt id = none ↔ l = .uninstall id ∨
      (l = .tick ∧ (s.touched id + timeout < s.now ∨ ((info id).ty ≠ .logs ∧ s.polled id = false))) := by
  constructor
  · intro hg
    rcases removed_by info timeout s s' l id hs hf hg with e | e
    · exact .inl e
    · by_cases hk : (info id).ty = .logs ∨ s.polled id = true
      · rcases C42_kept_partial info timeout s s' h l id hs hf hg hk with a | ⟨a, b⟩
        · exact .inl a
        · exact .inr ⟨a, .inl b⟩
      · refine .inr ⟨e, .inr ⟨fun c => hk (.inl c), ?_⟩⟩
        cases hp : s.polled id with
        | false => rfl
        | true => exact absurd (.inr hp) hk
  · obtain ⟨f, hf⟩ := Option.isSome_iff_exists.1 hf
    rintro (e | ⟨e, c⟩)
    · subst e
      simp only [step, hf, Option.some.injEq] at hs
      subst hs
      exact put_same _ _ _
    · subst e
      simp only [step, Option.some.injEq] at hs
      subst hs
      have : expired timeout s.now f = true := by
        have hu := ((inv info timeout s h).ok id).used f hf
        cases hl : f.lastUsed with
        | none => simp [expired, hl]
        | some t =>
          have ht : t = s.touched id := hu.1 t hl
          rcases c with c | ⟨c1, c2⟩
          · simp only [expired, hl, decide_eq_true_eq]; omega
          · rw [unpolled_unused info timeout s h id f hf c1 c2] at hl; cases hl
      simp only [sweepFilt, hf, this, if_true]

/-- A block filter that is polled survives ticks until the timeout has passed, and not longer. -/
example : (runL info0 300 State.init [.install 0, .add 0, .spawn 0, .poll 0, .wait 300, .tick]).map
      (fun s => (s.filt 0).isSome) = some true ∧
    (runL info0 300 State.init [.install 0, .add 0, .spawn 0, .poll 0, .wait 301, .tick]).map
      (fun s => (s.filt 0).isSome) = some false := by decide +kernel

end Verif.Filters
