import Verif.Model.Fees
/-
C14 (units), C15 (fee covers the cap), C16 (refunds), C45 (ante gas), C53 (chain id), C57 (gas price).
A token amount `t` of a token with `d` decimals is worth `t / 10^d` tokens; a wei amount `w` is worth
`w / 10^18`. Comparisons below are cross-multiplied: `w * 10^d` against `t * 10^18`.
-/
namespace Verif.Props.Fees
open Verif Verif.Fees

theorem pow_split (a b : Nat) (h : a ≤ b) : 10 ^ b = 10 ^ a * 10 ^ (b - a) := by
  rw [← Nat.pow_add]; congr 1; omega

theorem ten_pos (n : Nat) : 0 < 10 ^ n := Nat.pos_of_ne_zero (by simp)

/-- Wei to tokens rounds down by less than one token unit, for every number of decimals. -/
theorem fromEthers_floor (d w : Nat) :
    fromEthers d w * 10 ^ 18 ≤ w * 10 ^ d ∧ w * 10 ^ d < (fromEthers d w + 1) * 10 ^ 18 := by
  unfold fromEthers
  split
  · rename_i h; subst h
    exact ⟨Nat.le_refl _, Nat.mul_lt_mul_of_pos_right (Nat.lt_succ_self _) (ten_pos 18)⟩
  · split
    · have : w * 10 ^ (d - 18) * 10 ^ 18 = w * 10 ^ d := by
        rw [pow_split 18 d (by omega), Nat.mul_assoc]; congr 1; rw [Nat.mul_comm]
      constructor
      · exact Nat.le_of_eq this
      · rw [← this]; exact Nat.mul_lt_mul_of_pos_right (Nat.lt_succ_self _) (ten_pos 18)
    · have h1 : d ≤ 18 := by omega
      have hp := ten_pos (18 - d)
      rw [pow_split d 18 h1]
      have e1 := Nat.div_mul_le_self w (10 ^ (18 - d))
      have e2 : w < (w / 10 ^ (18 - d) + 1) * 10 ^ (18 - d) := by
        have := Nat.lt_div_mul_add (a := w) hp
        rw [Nat.add_mul, Nat.one_mul]; exact this
      constructor
      · rw [Nat.mul_comm (10 ^ d), ← Nat.mul_assoc]; exact Nat.mul_le_mul_right _ e1
      · rw [Nat.mul_comm (10 ^ d), ← Nat.mul_assoc]; exact Nat.mul_lt_mul_of_pos_right e2 (ten_pos d)

/-- Tokens to wei rounds down by less than one wei, for every number of decimals. -/
theorem toEthers_floor (d t : Nat) :
    toEthers d t * 10 ^ d ≤ t * 10 ^ 18 ∧ t * 10 ^ 18 < (toEthers d t + 1) * 10 ^ d := by
  unfold toEthers
  split
  · rename_i h; subst h
    exact ⟨Nat.le_refl _, Nat.mul_lt_mul_of_pos_right (Nat.lt_succ_self _) (ten_pos 18)⟩
  · split
    · have h1 : 18 ≤ d := by omega
      have hp := ten_pos (d - 18)
      rw [pow_split 18 d h1]
      have e1 := Nat.div_mul_le_self t (10 ^ (d - 18))
      have e2 : t < (t / 10 ^ (d - 18) + 1) * 10 ^ (d - 18) := by
        have := Nat.lt_div_mul_add (a := t) hp
        rw [Nat.add_mul, Nat.one_mul]; exact this
      constructor
      · rw [Nat.mul_comm (10 ^ 18), ← Nat.mul_assoc]; exact Nat.mul_le_mul_right _ e1
      · rw [Nat.mul_comm (10 ^ 18), ← Nat.mul_assoc]; exact Nat.mul_lt_mul_of_pos_right e2 (ten_pos 18)
    · have : t * 10 ^ (18 - d) * 10 ^ d = t * 10 ^ 18 := by
        rw [pow_split d 18 (by omega), Nat.mul_assoc]; congr 1; rw [Nat.mul_comm]
      constructor
      · exact Nat.le_of_eq this
      · rw [← this]; exact Nat.mul_lt_mul_of_pos_right (Nat.lt_succ_self _) (ten_pos d)

/-! ### C14 -/

/-- C14: for at most 18 decimals, tokens → wei is exact in value and wei → tokens undoes it; wei → tokens
rounds down by less than one token unit; both directions are monotone. -/
theorem C14_low (d : Nat) (hd : d ≤ 18) :
    (∀ t, toEthers d t * 10 ^ d = t * 10 ^ 18) ∧
    (∀ t, fromEthers d (toEthers d t) = t) ∧
    (∀ w, fromEthers d w * 10 ^ 18 ≤ w * 10 ^ d ∧ w * 10 ^ d < (fromEthers d w + 1) * 10 ^ 18) ∧
    (∀ t t', t ≤ t' → toEthers d t ≤ toEthers d t') ∧ (∀ w w', w ≤ w' → fromEthers d w ≤ fromEthers d w') := by
  refine ⟨?_, ?_, fromEthers_floor d, ?_, ?_⟩
  · intro t
    unfold toEthers
    split
    · rename_i h; rw [h]
    · rw [if_neg (by omega), pow_split d 18 hd, Nat.mul_assoc, Nat.mul_comm (10 ^ (18 - d))]
  · intro t
    unfold toEthers fromEthers
    split
    · rfl
    · rw [if_neg (by omega), if_neg (by omega)]; exact Nat.mul_div_cancel _ (ten_pos _)
  · intro t t' h
    unfold toEthers
    split
    · exact h
    · rw [if_neg (by omega), if_neg (by omega)]; exact Nat.mul_le_mul_right _ h
  · intro w w' h
    unfold fromEthers
    split
    · exact h
    · rw [if_neg (by omega), if_neg (by omega)]; exact Nat.div_le_div_right h

/-- C14: for 18 decimals or more the roles swap: wei → tokens is exact and tokens → wei undoes it, tokens →
wei rounds down by less than one wei; both directions are monotone. -/
theorem C14_high (d : Nat) (hd : 18 ≤ d) :
    (∀ w, fromEthers d w * 10 ^ 18 = w * 10 ^ d) ∧
    (∀ w, toEthers d (fromEthers d w) = w) ∧
    (∀ t, toEthers d t * 10 ^ d ≤ t * 10 ^ 18 ∧ t * 10 ^ 18 < (toEthers d t + 1) * 10 ^ d) ∧
    (∀ t t', t ≤ t' → toEthers d t ≤ toEthers d t') ∧ (∀ w w', w ≤ w' → fromEthers d w ≤ fromEthers d w') := by
  refine ⟨?_, ?_, toEthers_floor d, ?_, ?_⟩
  · intro w
    unfold fromEthers
    split
    · rename_i h; rw [h]
    · rw [if_pos (by omega), pow_split 18 d hd, Nat.mul_assoc, Nat.mul_comm (10 ^ (d - 18))]
  · intro w
    unfold toEthers fromEthers
    split
    · rfl
    · rw [if_pos (by omega), if_pos (by omega)]; exact Nat.mul_div_cancel _ (ten_pos _)
  · intro t t' h
    unfold toEthers
    split
    · exact h
    · rw [if_pos (by omega), if_pos (by omega)]; exact Nat.div_le_div_right h
  · intro w w' h
    unfold fromEthers
    split
    · exact h
    · rw [if_pos (by omega), if_pos (by omega)]; exact Nat.mul_le_mul_right _ h

example : toEthers 6 1500000 = 1500000000000000000 ∧ fromEthers 6 1999999999999 = 1 ∧
    fromEthers 20 7 = 700 ∧ toEthers 20 799 = 7 := by decide +kernel

/-- C14 for gwei: converting tokens to gwei and back is the identity up to 9 decimals, and gwei to tokens
and back is the identity from 9 decimals. -/
theorem C14_gwei (d : Nat) :
    (d ≤ 9 → ∀ t, fromGwei d (toGwei d t) = t) ∧ (9 ≤ d → ∀ g, toGwei d (fromGwei d g) = g) := by
  constructor
  · intro hd t
    unfold toGwei fromGwei
    split
    · rfl
    · rw [if_neg (by omega), if_neg (by omega)]; exact Nat.mul_div_cancel _ (ten_pos _)
  · intro hd t
    unfold toGwei fromGwei
    split
    · rfl
    · rw [if_pos (by omega), if_pos (by omega)]; exact Nat.mul_div_cancel _ (ten_pos _)

example : toGwei 6 5 = 5000 ∧ fromGwei 6 5999 = 5 := by decide +kernel

/-! ### C15 -/

/-- C15: the Cosmos fee of an Ethereum transaction is worth at least `gasFeeCap * gas` wei and exceeds it
by at most one token unit; a zero cap costs nothing. -/
theorem C15_fee (cap gas d : Nat) :
    cap * gas * 10 ^ d ≤ computeGasFeeAmount cap gas d * 10 ^ 18 ∧
    computeGasFeeAmount cap gas d * 10 ^ 18 ≤ cap * gas * 10 ^ d + 10 ^ 18 ∧
    (cap = 0 → computeGasFeeAmount cap gas d = 0) := by
  unfold computeGasFeeAmount
  split
  · rename_i h; subst h; simp
  · rename_i h
    obtain ⟨h1, h2⟩ := fromEthers_floor d (cap * gas)
    refine ⟨Nat.le_of_lt h2, ?_, fun h0 => absurd h0 h⟩
    rw [Nat.add_mul, Nat.one_mul]
    exact Nat.add_le_add_right h1 _

example : computeGasFeeAmount 1000000000 21000 6 = 22 := by decide +kernel

/-- **C15 (exactly).** The fee of a transaction with a fee cap is the least number of token units worth strictly more than
`gasFeeCap * gas` wei — so one unit even for no gas, and one more than its worth when that is a whole number of units. -/
theorem C15_least (cap gas d n : Nat) (hc : cap ≠ 0) :
    computeGasFeeAmount cap gas d ≤ n ↔ cap * gas * 10 ^ d < n * 10 ^ 18 := by
  obtain ⟨h1, h2⟩ := fromEthers_floor d (cap * gas)
  unfold computeGasFeeAmount
  rw [if_neg hc]
  constructor
  · intro h; exact Nat.lt_of_lt_of_le h2 (Nat.mul_le_mul_right _ h)
  · intro h
    have : fromEthers d (cap * gas) * 10 ^ 18 < n * 10 ^ 18 := Nat.lt_of_le_of_lt h1 h
    exact Nat.lt_of_mul_lt_mul_right this

/-- **C15 (never less for more).** A higher cap or more gas never makes a transaction cheaper. -/
theorem C15_mono (cap cap' gas gas' d : Nat) (h1 : cap ≤ cap') (h2 : gas ≤ gas') :
    computeGasFeeAmount cap gas d ≤ computeGasFeeAmount cap' gas' d := by
  by_cases h0 : cap = 0
  · unfold computeGasFeeAmount; rw [if_pos h0]; exact Nat.zero_le _
  · have hc' : cap' ≠ 0 := by omega
    rw [C15_least _ _ _ _ h0]
    have := (C15_least cap' gas' d _ hc').mp (Nat.le_refl _)
    exact Nat.lt_of_le_of_lt (Nat.mul_le_mul_right _ (Nat.mul_le_mul h1 h2)) this

example : computeGasFeeAmount 1 0 6 = 1 ∧ computeGasFeeAmount (10 ^ 12) 5 6 = 6 := by decide +kernel

/-! ### C16 -/

/-- C16: for each fee coin `fee` paid for `gas` gas units, the refund is at most ratio × unused gas × price
(`fee/gas`), and at most the fee paid, as long as the ratio is at most 1 and the meter's limit is the gas
paid for. -/
theorem C16_bound (denom fee gas price r : Nat) (i : RefundInput) (hprice : txGasPrice fee gas = some price)
    (hp : i.prices = some [(denom, price)]) (hr : i.ratio ≤ decOne) (hlim : i.meter.limit ≤ gas)
    (hm : (denom, r) ∈ refundCoins i) :
    r ≤ fee ∧
    r * gas * decOne ≤ i.ratio * (i.meter.limit - i.meter.consumedToLimit) * fee := by
  have hg : gas ≠ 0 := by
    intro h; simp [txGasPrice, h] at hprice
  simp only [txGasPrice, hg, if_false, Option.some.injEq] at hprice
  simp only [refundCoins, hp] at hm
  split at hm
  · simp only [List.map_cons, List.map_nil, List.mem_filter, List.mem_singleton, Prod.mk.injEq, true_and] at hm
    obtain ⟨hr2, _⟩ := hm
    generalize hgl : i.meter.limit - i.meter.consumedToLimit = left at hr2 ⊢
    have hleft : left ≤ gas := by omega
    have hone : 0 < decOne := ten_pos 18
    -- gas refunded
    have h1 : i.ratio * left / decOne * decOne ≤ i.ratio * left := Nat.div_mul_le_self _ _
    have h2 : i.ratio * left / decOne ≤ left := by
      apply Nat.div_le_of_le_mul
      exact Nat.mul_le_mul_right _ hr
    generalize i.ratio * left / decOne = gr at hr2 h1 h2
    have h3 : price * gas ≤ fee * decOne := by rw [← hprice]; exact Nat.div_mul_le_self _ _
    have h4 : r * decOne ≤ price * gr := by rw [hr2]; exact Nat.div_mul_le_self _ _
    -- r * decOne * gas ≤ price * gas * gr ≤ fee * decOne * gr
    have h5 : r * gas * decOne ≤ fee * decOne * gr := by
      calc r * gas * decOne = r * decOne * gas := by rw [Nat.mul_assoc, Nat.mul_comm gas, ← Nat.mul_assoc]
        _ ≤ price * gr * gas := Nat.mul_le_mul_right _ h4
        _ = price * gas * gr := by rw [Nat.mul_assoc, Nat.mul_comm gr, ← Nat.mul_assoc]
        _ ≤ fee * decOne * gr := Nat.mul_le_mul_right _ h3
    constructor
    · have h6 : r * (gas * decOne) ≤ fee * (gas * decOne) := by
        calc r * (gas * decOne) = r * gas * decOne := by rw [Nat.mul_assoc]
          _ ≤ fee * decOne * gr := h5
          _ ≤ fee * decOne * gas := Nat.mul_le_mul_left _ (Nat.le_trans h2 hleft)
          _ = fee * (gas * decOne) := by rw [Nat.mul_assoc, Nat.mul_comm decOne]
      exact Nat.le_of_mul_le_mul_right h6 (Nat.mul_pos (Nat.pos_of_ne_zero hg) hone)
    · calc r * gas * decOne ≤ fee * decOne * gr := h5
        _ = gr * decOne * fee := by rw [Nat.mul_comm, Nat.mul_comm fee, ← Nat.mul_assoc]
        _ ≤ i.ratio * left * fee := Nat.mul_le_mul_right _ h1
  · simp at hm

example : txGasPrice 1000 200000 = some (5 * 10 ^ 15) ∧
    refundCoins ⟨true, true, true, some [(7, 5 * 10 ^ 15)], 5 * 10 ^ 17, ⟨200000, 100000⟩⟩ = [(7, 250)] := by
  decide +kernel

/-- **C16 (no less).** A successful Ethereum transaction executed in a block, with one fee coin, is refunded ratio × unused gas × price
(`fee/gas`) but for less than two base units and the price of one gas unit: nothing more is kept. -/
theorem C16_least (denom fee gas price : Nat) (i : RefundInput) (hprice : txGasPrice fee gas = some price)
    (hp : i.prices = some [(denom, price)]) (hr : i.ratio ≤ decOne) (hlim : i.meter.limit ≤ gas) (hg : gas ≤ decOne)
    (h1 : i.success = true) (h2 : i.finalize = true) (h3 : i.isEthereumTx = true) :
    ∃ r, refundCoins i = (if r = 0 then [] else [(denom, r)]) ∧
      i.ratio * (i.meter.limit - i.meter.consumedToLimit) * fee < (r + 2) * gas * decOne + fee * decOne := by
  have hg0 : gas ≠ 0 := by
    intro h; simp [txGasPrice, h] at hprice
  simp only [txGasPrice, hg0, if_false, Option.some.injEq] at hprice
  have hgp : 0 < gas := Nat.pos_of_ne_zero hg0
  have hone : 0 < decOne := ten_pos 18
  refine ⟨price * (i.ratio * (i.meter.limit - i.meter.consumedToLimit) / decOne) / decOne, ?_, ?_⟩
  · simp only [refundCoins, hp, h1, h2, h3, Bool.and_self, if_true, List.map_cons, List.map_nil]
    by_cases h0 : price * (i.ratio * (i.meter.limit - i.meter.consumedToLimit) / decOne) / decOne = 0
    · rw [if_pos h0, h0]; rfl
    · rw [if_neg h0, List.filter_cons_of_pos (by simpa using h0)]; rfl
  · have hL : i.meter.limit - i.meter.consumedToLimit ≤ gas := by omega
    generalize i.meter.limit - i.meter.consumedToLimit = L at hL ⊢
    generalize hD : decOne = D at *
    have hq : i.ratio * L < (i.ratio * L / D + 1) * D := Nat.lt_mul_of_div_lt (Nat.lt_succ_self _) hone
    have hqD : i.ratio * L / D ≤ D := by
      have : i.ratio * L / D ≤ D * L / D := Nat.div_le_div_right (Nat.mul_le_mul_right _ hr)
      rw [Nat.mul_div_cancel_left _ hone] at this
      omega
    generalize i.ratio * L / D = q at hq hqD ⊢
    have hpp : fee * D < (price + 1) * gas := by
      rw [← hprice]; exact Nat.lt_mul_of_div_lt (Nat.lt_succ_self _) hgp
    have hrr : price * q < (price * q / D + 1) * D := Nat.lt_mul_of_div_lt (Nat.lt_succ_self _) hone
    generalize price * q / D = r at hrr ⊢
    have a1 : i.ratio * L * fee ≤ (q + 1) * D * fee := Nat.mul_le_mul_right _ (Nat.le_of_lt hq)
    have a2 : (q + 1) * D * fee = q * (fee * D) + fee * D := by
      rw [Nat.mul_assoc, Nat.mul_comm D fee, Nat.add_mul, Nat.one_mul]
    have a3 : q * (fee * D) ≤ q * ((price + 1) * gas) := Nat.mul_le_mul_left _ (Nat.le_of_lt hpp)
    have a4 : q * ((price + 1) * gas) = price * q * gas + q * gas := by
      rw [← Nat.mul_assoc, Nat.mul_add, Nat.mul_one, Nat.add_mul, Nat.mul_comm q price]
    have a5 : price * q * gas < (r + 1) * D * gas := Nat.mul_lt_mul_of_pos_right hrr hgp
    have a6 : q * gas ≤ D * gas := Nat.mul_le_mul_right _ hqD
    have a7 : (r + 2) * gas * D = (r + 1) * D * gas + D * gas := by
      rw [Nat.mul_right_comm, ← Nat.add_mul, ← Nat.succ_mul]
    omega

example : (refundCoins ⟨true, true, true, some [(7, 10 ^ 18)], 5 * 10 ^ 17, ⟨100000, 40000⟩⟩) = [(7, 30000)] := by decide +kernel

/-- C16: nothing is refunded for failed transactions, outside block execution, or for transactions that are
not Ethereum transactions. -/
theorem C16_none (i : RefundInput) (h : i.success = false ∨ i.finalize = false ∨ i.isEthereumTx = false) :
    refundCoins i = [] := by
  unfold refundCoins
  rcases h with h | h | h <;> simp [h]

/-- C16: the refund goes to the granter if there is one, else to the payer. -/
theorem C16_recipient {A : Type} (payer g : A) : refundTo payer (some g) = g ∧ refundTo payer none = payer :=
  ⟨rfl, rfl⟩

/-! ### C57 -/

/-- C57 (code, part that holds): with at most 246 decimals, the gas price given to contracts is the
configured price (in 10^-9 token units per gas) converted to wei, rounded down by less than one wei.
Missing: more decimals (see `C57_violated`). -/
theorem C57_partial (d price : Nat) (hd : d ≤ 246) :
    weiGasPrice d price * 10 ^ (d + 9) ≤ price * 10 ^ 9 / decOne * 10 ^ 18 ∧
    price * 10 ^ 9 / decOne * 10 ^ 18 < (weiGasPrice d price + 1) * 10 ^ (d + 9) := by
  have : (d + 9) % 256 = d + 9 := by omega
  unfold weiGasPrice
  rw [this]
  exact toEthers_floor (d + 9) _

example : weiGasPrice 6 (15 * 10 ^ 16) = 150000000000 ∧ weiGasPrice 18 decOne = 1 := by decide +kernel

theorem two_le_pow (k : Nat) : 2 ≤ 10 ^ (k + 1) := by
  have := ten_pos k
  rw [Nat.pow_succ]; omega

theorem zero_of_mul_le {x q b : Nat} (hq : 0 < q) (hb : 2 ≤ b) (h : x * q * b ≤ x * q) : x = 0 := by
  have h2 : x * q * 2 ≤ x * q := Nat.le_trans (Nat.mul_le_mul_left _ hb) h
  have h3 : x * q = 0 := by omega
  rcases Nat.mul_eq_zero.mp h3 with h | h
  · exact h
  · omega

/-- C57: exactly when the gas price given to contracts is right: the fee token has at most 246 decimals or the
price is below 10^-9 token units per gas. -/
theorem C57_iff (d price : Nat) (hd : d ≤ 255) :
    (weiGasPrice d price * 10 ^ (d + 9) ≤ price * 10 ^ 9 / decOne * 10 ^ 18 ∧
      price * 10 ^ 9 / decOne * 10 ^ 18 < (weiGasPrice d price + 1) * 10 ^ (d + 9)) ↔
    d ≤ 246 ∨ price * 10 ^ 9 / decOne = 0 := by
  constructor
  · rintro ⟨h1, _⟩
    by_cases hd2 : d ≤ 246
    · exact Or.inl hd2
    · refine Or.inr ?_
      unfold weiGasPrice at h1
      generalize price * 10 ^ 9 / decOne = x at h1 ⊢
      have hm : (d + 9) % 256 = d - 247 := by omega
      rw [hm] at h1
      have hv : toEthers (d - 247) x * 10 ^ (d - 247) = x * 10 ^ 18 := by
        unfold toEthers
        have e0 : 18 - (d - 247) + (d - 247) = 18 := by omega
        rw [if_neg (by omega), if_neg (by omega), Nat.mul_assoc, ← Nat.pow_add, e0]
      have e1 : d + 9 = (d - 247) + 256 := by omega
      rw [e1, Nat.pow_add, ← Nat.mul_assoc, hv] at h1
      exact zero_of_mul_le (ten_pos 18) (two_le_pow 255) h1
  · rintro (h | h)
    · exact C57_partial d price h
    · unfold weiGasPrice
      rw [h]
      have : toEthers ((d + 9) % 256) 0 = 0 := by unfold toEthers; split <;> (try split) <;> simp
      rw [this]
      have := ten_pos (d + 9)
      omega

/-- C57 (violated by the code): with 247 decimals or more the 8-bit addition wraps: a token with 250
decimals and a price of one unit per gas is reported as 10^24 wei instead of 0. -/
theorem C57_violated : ∃ d price, d ≤ 255 ∧ 0 < price ∧
    ¬ (weiGasPrice d price * 10 ^ (d + 9) ≤ price * 10 ^ 9 / decOne * 10 ^ 18) :=
  ⟨250, decOne, by decide +kernel⟩

/-! ### C53 -/

/-- C53: the EVM chain id of any Cosmos chain id, for any hash function, is below 4503599627370476, and the
legacy signature value built from it stays below 2^53 and determines chain id and parity. -/
theorem C53_range (keccak : Bytes → Hash) (chainId : Bytes) :
    ethChainId keccak chainId < 4503599627370476 ∧
    (∀ v, v ≤ 1 → legacyV (ethChainId keccak chainId) v < 2 ^ 53 ∧
      (legacyV (ethChainId keccak chainId) v - 35) / 2 = ethChainId keccak chainId ∧
      (legacyV (ethChainId keccak chainId) v - 35) % 2 = v) := by
  have h : ethChainId keccak chainId < 4503599627370476 := Nat.mod_lt _ (by decide)
  refine ⟨h, ?_⟩
  intro v hv
  generalize ethChainId keccak chainId = c at h
  unfold legacyV
  omega

example : ethChainId (fun _ => ⟨List.replicate 32 255, rfl⟩) [1] = 18446744073709551615 % 4503599627370476 := by decide +kernel

/-- C53: the id is the number written, most significant byte first, by the first eight bytes of the hash of the chain
name, reduced modulo 4503599627370476; nothing else enters. -/
theorem C53_value (keccak : Bytes → Hash) (chainId : Bytes) (b0 b1 b2 b3 b4 b5 b6 b7 : UInt8) (rest : Bytes)
    (h : (keccak chainId).bytes = b0 :: b1 :: b2 :: b3 :: b4 :: b5 :: b6 :: b7 :: rest) :
    ethChainId keccak chainId =
      (b0.toNat * 2 ^ 56 + b1.toNat * 2 ^ 48 + b2.toNat * 2 ^ 40 + b3.toNat * 2 ^ 32 + b4.toNat * 2 ^ 24 +
        b5.toNat * 2 ^ 16 + b6.toNat * 2 ^ 8 + b7.toNat) % 4503599627370476 := by
  have e : fromBE ((keccak chainId).bytes.take 8) = b0.toNat * 2 ^ 56 + b1.toNat * 2 ^ 48 + b2.toNat * 2 ^ 40 +
      b3.toNat * 2 ^ 32 + b4.toNat * 2 ^ 24 + b5.toNat * 2 ^ 16 + b6.toNat * 2 ^ 8 + b7.toNat := by
    rw [h]
    simp only [List.take, fromBE, List.foldl]
    omega
  unfold ethChainId
  rw [e]

/-- Every hash has the form required. -/
example (keccak : Bytes → Hash) (chainId : Bytes) : ∃ b0 b1 b2 b3 b4 b5 b6 b7 rest,
    (keccak chainId).bytes = b0 :: b1 :: b2 :: b3 :: b4 :: b5 :: b6 :: b7 :: rest := by
  have h := (keccak chainId).2
  match hb : (keccak chainId).bytes, h with
  | b0 :: b1 :: b2 :: b3 :: b4 :: b5 :: b6 :: b7 :: rest, _ =>
    exact ⟨b0, b1, b2, b3, b4, b5, b6, b7, rest, rfl⟩
  | [], h => simp at h
  | [_], h => simp at h
  | [_, _], h => simp at h
  | [_, _, _], h => simp at h
  | [_, _, _, _], h => simp at h
  | [_, _, _, _, _], h => simp at h
  | [_, _, _, _, _, _], h => simp at h
  | [_, _, _, _, _, _, _], h => simp at h

/-! ### C45 -/

/-- Sum of charges. -/
def total : List Nat → Nat
  | [] => 0
  | c :: cs => c + total cs

theorem total_append (a b : List Nat) : total (a ++ b) = total a + total b := by
  induction a with
  | nil => simp [total]
  | cons c cs ih => simp [total, ih, Nat.add_assoc]

theorem chargeAll_spec (cs : List Nat) (m : Exec.Meter) (hl : m.limit < 2 ^ 64) (hm : m.consumed ≤ m.limit) :
    chargeAll cs m = if m.consumed + total cs ≤ m.limit then some ⟨m.limit, m.consumed + total cs⟩ else none := by
  induction cs generalizing m with
  | nil => rw [chargeAll, if_pos (by simp only [total]; omega)]; rfl
  | cons c cs ih =>
    simp only [chargeAll, Exec.Meter.consume]
    rw [show total (c :: cs) = c + total cs from rfl]
    by_cases h : m.consumed + c ≤ m.limit
    · rw [if_pos ⟨Nat.lt_of_le_of_lt h hl, h⟩]
      simp only
      rw [ih ⟨m.limit, m.consumed + c⟩ hl h]
      simp only [Nat.add_assoc]
    · rw [if_neg (fun hx => h hx.2)]
      simp only
      rw [if_neg (by omega)]

/-- C45 (code, part that holds): for a transaction whose fee is not exactly one coin of the fee denom, the
ante handler charges every step, and a simulation without a fee the 250000 that stand for the deduction of the fee;
the transaction is rejected iff the total exceeds what is left.
Missing: transactions paying in the fee denom (see `C45_violated`). -/
theorem C45_partial (simulate zeroFee : Bool) (inner rest : List Nat) (m : Exec.Meter) (hl : m.limit < 2 ^ 64)
    (hm : m.consumed ≤ m.limit) :
    gasFreeFee false simulate zeroFee inner rest m =
      (let all := m.consumed + (if simulate = true ∧ zeroFee = true then 250000 else 0) + total inner + total rest
       if all ≤ m.limit then some ⟨m.limit, all⟩ else none) := by
  simp only [gasFreeFee, Bool.false_eq_true, if_false]
  rw [chargeAll_spec _ _ hl hm]
  by_cases h : simulate = true ∧ zeroFee = true
  · simp [h.1, h.2, total, total_append, Nat.add_assoc]
  · have : (simulate && zeroFee) = false := by
      cases simulate <;> cases zeroFee <;> simp_all
    simp [this, h, total_append, Nat.add_assoc]

example : gasFreeFee false false false [1000] [3000, 21000] ⟨100000, 500⟩ = some ⟨100000, 25500⟩ ∧
    gasFreeFee false false false [1000] [3000, 21000] ⟨25000, 500⟩ = none := by decide +kernel

/-- C45 (violated by the code): a transaction paying its fee in the fee denom passes whatever its remaining
ante steps (signature checks included) cost, and is charged nothing for them. -/
theorem C45_violated (simulate zeroFee : Bool) (inner rest : List Nat) (m : Exec.Meter) :
    gasFreeFee true simulate zeroFee inner rest m = some m := rfl

/-- **C45 (exactly when).** A transaction is charged all that its ante steps cost, and rejected if that is more than is left,
exactly if its fee is not one coin of the fee denom, or the steps cost nothing. -/
theorem C45_iff (feeDenom simulate zeroFee : Bool) (inner rest : List Nat) (m : Exec.Meter) (hl : m.limit < 2 ^ 64)
    (hm : m.consumed ≤ m.limit) :
    gasFreeFee feeDenom simulate zeroFee inner rest m =
      (let all := m.consumed + (if simulate = true ∧ zeroFee = true then 250000 else 0) + total inner + total rest
       if all ≤ m.limit then some ⟨m.limit, all⟩ else none) ↔
    feeDenom = false ∨ ((simulate = true → zeroFee = false) ∧ total inner = 0 ∧ total rest = 0) := by
  cases feeDenom with
  | false => simp only [true_or, iff_true]; exact C45_partial simulate zeroFee inner rest m hl hm
  | true =>
    rw [C45_violated]
    simp only [Bool.true_eq_false, false_or]
    obtain ⟨lim, con⟩ := m
    simp only at hl hm ⊢
    by_cases h : simulate = true ∧ zeroFee = true
    · rw [if_pos h]
      constructor
      · intro e
        split at e
        · injection e with e; injection e with _ e; omega
        · cases e
      · intro g; rw [g.1 h.1] at h; cases h.2
    · rw [if_neg h]
      constructor
      · intro e
        refine ⟨fun hs => by cases zeroFee <;> simp_all, ?_⟩
        split at e
        · injection e with e; injection e with _ e; omega
        · cases e
      · rintro ⟨_, h1, h2⟩
        rw [h1, h2, if_pos (by omega)]
        simp

example : gasFreeFee true false false [1000] [3000] ⟨100000, 500⟩ = some ⟨100000, 500⟩ ∧
    gasFreeFee true true false [0] [] ⟨100000, 500⟩ = some ⟨100000, 500⟩ ∧
    gasFreeFee false true true [1000] [3000] ⟨300000, 500⟩ = some ⟨300000, 254500⟩ := by decide +kernel

end Verif.Props.Fees
