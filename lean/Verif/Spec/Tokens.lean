import Verif.Model.Bytes
/-
Specification vocabulary for tokens: the sum of all balances.
-/
namespace Verif.Spec.Tokens
open Verif

/-- `n` is the sum of all values of `bal`: there is a duplicate-free list of holders, everyone else has zero, and
the holders' values add up to `n`. -/
def SumsTo {A : Type} (bal : A → Nat) (n : Nat) : Prop :=
  ∃ holders : List A, holders.Nodup ∧ (∀ a, a ∉ holders → bal a = 0) ∧ (holders.map bal).sum = n

theorem sum_filter_zero {A : Type} (bal : A → Nat) (l : List A) :
    ((l.filter fun a => bal a ≠ 0).map bal).sum = (l.map bal).sum := by
  induction l with
  | nil => rfl
  | cons x xs ih =>
    by_cases h : bal x = 0
    · simp [h] at ih ⊢; exact ih
    · simp [h] at ih ⊢; exact ih

/-- The sum of all balances is unique: the specification determines the number. -/
theorem SumsTo.unique {A : Type} {bal : A → Nat} {n m : Nat} (h1 : SumsTo bal n) (h2 : SumsTo bal m) :
    n = m := by
  obtain ⟨l1, d1, z1, s1⟩ := h1
  obtain ⟨l2, d2, z2, s2⟩ := h2
  rw [← s1, ← s2, ← sum_filter_zero bal l1, ← sum_filter_zero bal l2]
  have hp : (l1.filter fun a => bal a ≠ 0).Perm (l2.filter fun a => bal a ≠ 0) := by
    have e1 : (l1.filter fun a => bal a ≠ 0).Nodup := d1.sublist List.filter_sublist
    have e2 : (l2.filter fun a => bal a ≠ 0).Nodup := d2.sublist List.filter_sublist
    refine (List.perm_ext_iff_of_nodup e1 e2).mpr ?_
    intro a
    simp only [List.mem_filter, decide_eq_true_eq]
    constructor
    · intro h
      refine ⟨?_, h.2⟩
      by_cases g : a ∈ l2
      · exact g
      · exact absurd (z2 a g) h.2
    · intro h
      refine ⟨?_, h.2⟩
      by_cases g : a ∈ l1
      · exact g
      · exact absurd (z1 a g) h.2
  exact (hp.map bal).sum_nat
end Verif.Spec.Tokens
