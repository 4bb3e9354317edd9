import Verif.Props.Value
/-
C74: exactly when contracts and wallets see the same amounts.
-/
namespace Verif.Props.Value
open Verif Verif.Tokens Verif.Value Verif.Fees

theorem div_lt_of_pos (n q : Nat) (h : n ≠ 0) (hq : 2 ≤ q) : n / q < n := Nat.div_lt_self (by omega) hq

theorem pow_two_le (k : Nat) (h : 0 < k) : 2 ≤ 10 ^ k := by
  have : (10 : Nat) ^ 1 ≤ 10 ^ k := Nat.pow_le_pow_right (by decide) h
  omega

/-- **C74 (exactly when).** An account has the same balance for contracts and for wallets exactly if the fee token has 18 decimals or the
account has nothing; likewise for the value a transaction carries. -/
theorem C74_iff (d : Nat) (w : World) (fee a : Addr) (V : Nat) :
    (getBalance w fee a = toEthers d (balanceOf w fee a) ↔ d = 18 ∨ getBalance w fee a = 0) ∧ (fromEthers d V = V ↔ d = 18 ∨ V = 0) := by
  constructor
  · unfold getBalance
    generalize balanceOf w fee a = n
    constructor
    · intro h
      by_cases h18 : d = 18
      · exact .inl h18
      · right
        unfold toEthers at h
        rw [if_neg h18] at h
        by_cases hn : n = 0
        · exact hn
        · exfalso
          by_cases hgt : d > 18
          · rw [if_pos hgt] at h
            have := div_lt_of_pos n _ hn (pow_two_le (d - 18) (by omega)); omega
          · rw [if_neg hgt] at h
            have : n * 2 ≤ n * 10 ^ (18 - d) := Nat.mul_le_mul_left _ (pow_two_le (18 - d) (by omega))
            omega
    · rintro (h | h)
      · subst h; simp [toEthers]
      · subst h; unfold toEthers; split
        · rfl
        · split <;> simp
  · constructor
    · intro h
      by_cases h18 : d = 18
      · exact .inl h18
      · by_cases hV : V = 0
        · exact .inr hV
        · exact absurd h ((C74_violated d h18).2 V hV)
    · rintro (h | h)
      · subst h; simp [fromEthers]
      · subst h; unfold fromEthers; split
        · rfl
        · split <;> simp

/-- With 6 decimals, a balance of 5 is shown to wallets as 5·10^12 and to contracts as 5. -/
example : toEthers 6 5 = 5000000000000 ∧ toEthers 6 0 = 0 ∧ toEthers 18 5 = 5 := by decide +kernel

end Verif.Props.Value
