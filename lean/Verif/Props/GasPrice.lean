import Verif.Model.GasPrice
import Verif.Props.Fees
/-
C76: the quoted gas price is enough; C77: contracts never see a gas price below the base fee.
-/
namespace Verif.GasPrice
open Verif Verif.Fees Verif.Props.Fees

variable {D : Type} [DecidableEq D]

theorem decOne_pos : 0 < decOne := by decide +kernel

theorem amountOf_map (l : List (D × Nat)) (f : Nat → Nat) (h0 : f 0 = 0) (d : D) :
    amountOf (l.map fun p => (p.1, f p.2)) d = f (amountOf l d) := by
  induction l with
  | nil => simp [amountOf, h0]
  | cons p ps ih =>
    by_cases hp : p.1 = d
    · simp [amountOf, hp]
    · simp only [amountOf, List.map_cons, List.find?_cons, decide_eq_false hp] at ih ⊢
      exact ih

/-- What is asked for in one denom: the price times the gas, rounded up. -/
theorem required_amount (prices : List (D × Nat)) (gas : Nat) (d : D) :
    amountOf (required prices gas) d = (amountOf prices d * gas + (decOne - 1)) / decOne := by
  unfold required
  rw [amountOf_map prices (fun x => (x * gas + (decOne - 1)) / decOne)]
  have := decOne_pos
  rw [Nat.zero_mul, Nat.zero_add]
  exact Nat.div_eq_of_lt (by omega)

/-- Rounded up: the least number of units worth at least the price times the gas. -/
theorem ceil_le (x n : Nat) : (x + (decOne - 1)) / decOne ≤ n ↔ x ≤ n * decOne := by
  have hp := decOne_pos
  rw [Nat.div_le_iff_le_mul_add_pred hp]
  constructor
  · intro h
    rw [Nat.mul_comm decOne] at h
    omega
  · intro h
    rw [Nat.mul_comm decOne]
    omega

theorem amountOf_zero_of_all (l : List (D × Nat)) (h : (l.all fun c => decide (c.2 = 0)) = true) (d : D) : amountOf l d = 0 := by
  unfold amountOf
  cases hf : l.find? fun x => x.1 = d with
  | none => rfl
  | some c =>
    have := List.all_eq_true.1 h c (List.mem_of_find?_eq_some hf)
    simpa using this

/-- What makes the mempool take the fee of an Ethereum transaction. -/
theorem feeOk_eth (prices : List (D × Nat)) (feeDenom : D) (d cap gas : Nat) (hpos : 0 < amountOf prices feeDenom) (hg : 0 < gas) :
    feeOk false prices (ethFee feeDenom d cap gas) gas = true ↔
      amountOf prices feeDenom * gas ≤ computeGasFeeAmount cap gas d * decOne := by
  have hreq := required_amount prices gas feeDenom
  have hne : amountOf (required prices gas) feeDenom ≠ 0 := by
    rw [hreq]
    intro hz
    have := (ceil_le (amountOf prices feeDenom * gas) 0).1 (by omega)
    have h1 := Nat.mul_pos hpos hg
    omega
  have hall : ((required prices gas).all fun c => decide (c.2 = 0)) = false := by
    cases h : (required prices gas).all fun c => decide (c.2 = 0) with
    | false => rfl
    | true => exact absurd (amountOf_zero_of_all _ h feeDenom) hne
  have hfee : feeOk false prices (ethFee feeDenom d cap gas) gas = anyGTE (ethFee feeDenom d cap gas) (required prices gas) := by
    unfold feeOk
    rw [hall]; simp
  rw [hfee, ← ceil_le, ← hreq]
  unfold ethFee anyGTE
  dsimp only
  split
  · next h0 =>
    rw [h0]
    simp only [List.any_nil, Bool.false_eq_true, false_iff]
    omega
  · simp [hne]

theorem feeOk_none (free : Bool) (fee : List (D × Nat)) (gas : Nat) : feeOk free ([] : List (D × Nat)) fee gas = true := by
  unfold feeOk; cases free <;> simp [required]

theorem feeOk_nogas (free : Bool) (prices : List (D × Nat)) (fee : List (D × Nat)) : feeOk free prices fee 0 = true := by
  have : ((required prices 0).all fun c => decide (c.2 = 0)) = true := by
    rw [List.all_eq_true]
    intro c hc
    simp only [required, List.mem_map] at hc
    obtain ⟨p, _, rfl⟩ := hc
    have := decOne_pos
    simp only [decide_eq_true_eq, Nat.mul_zero, Nat.zero_add]
    exact Nat.div_eq_of_lt (by omega)
  unfold feeOk; cases free <;> simp [this]

/-- C76: the fee of an Ethereum transaction is enough for the mempool whenever its fee cap, in wei per gas, is worth at least the
configured price (`price / 10^18` units of a token with `d` decimals), for every price, number of decimals and amount of gas;
provided there is a price in the fee denom (or none at all). -/
theorem C76_enough (free : Bool) (prices : List (D × Nat)) (feeDenom : D) (d cap gas : Nat)
    (hp : prices = [] ∨ 0 < amountOf prices feeDenom) (hcap : amountOf prices feeDenom ≤ cap * 10 ^ d) :
    feeOk free prices (ethFee feeDenom d cap gas) gas = true := by
  rcases hp with rfl | hpos
  · exact feeOk_none free _ gas
  · cases free with
    | true => rfl
    | false =>
      rcases Nat.eq_zero_or_pos gas with rfl | hg
      · exact feeOk_nogas false prices _
      · rw [feeOk_eth prices feeDenom d cap gas hpos hg]
        obtain ⟨hc, _, _⟩ := C15_fee cap gas d
        refine Nat.le_trans ?_ hc
        rw [Nat.mul_right_comm]
        exact Nat.mul_le_mul_right _ hcap

/-- C76: what the quoted price is worth: never more than the configured price, and less than one wei less, when the price has at most
nine decimals; for a token with at most 246 decimals. -/
theorem quote_worth (prices : List (D × Nat)) (feeDenom : D) (d k : Nat) (hd : d ≤ 246) (hk : amountOf prices feeDenom = k * 10 ^ 9) :
    quote d prices feeDenom * 10 ^ d ≤ amountOf prices feeDenom ∧ amountOf prices feeDenom < (quote d prices feeDenom + 1) * 10 ^ d := by
  have hq : quote d prices feeDenom = weiGasPrice d (amountOf prices feeDenom) := rfl
  have h := C57_partial d (amountOf prices feeDenom) hd
  rw [← hq, hk] at h
  have hk' : k * 10 ^ 9 * 10 ^ 9 / decOne = k := by
    rw [Nat.mul_assoc, show (10 : Nat) ^ 9 * 10 ^ 9 = decOne from by decide +kernel]
    exact Nat.mul_div_cancel _ decOne_pos
  rw [hk', Nat.pow_add, ← Nat.mul_assoc, ← Nat.mul_assoc, show (10 : Nat) ^ 18 = 10 ^ 9 * 10 ^ 9 from by decide +kernel, ← Nat.mul_assoc] at h
  rw [hk]
  exact ⟨Nat.le_of_mul_le_mul_right h.1 (ten_pos 9), Nat.lt_of_mul_lt_mul_right h.2⟩

/-- C76 (part): a transaction that offers the price eth_gasPrice quotes, or more, is not refused for its fee, whatever its gas limit, when
the configured price has no fraction of a wei: at most nine decimals, and (for tokens with more than nine decimals) a multiple of
10^-(18-d) units. -/
theorem C76_quote_partial (free : Bool) (prices : List (D × Nat)) (feeDenom : D) (d cap gas k m : Nat) (hd : d ≤ 246)
    (hp : prices = [] ∨ 0 < amountOf prices feeDenom) (hk : amountOf prices feeDenom = k * 10 ^ 9)
    (hm : d ≤ 9 ∨ amountOf prices feeDenom = m * 10 ^ d) (hcap : quote d prices feeDenom ≤ cap) :
    feeOk free prices (ethFee feeDenom d cap gas) gas = true := by
  apply C76_enough free prices feeDenom d cap gas hp
  refine Nat.le_trans ?_ (Nat.mul_le_mul_right _ hcap)
  obtain ⟨h1, h2⟩ := quote_worth prices feeDenom d k hd hk
  have hm' : ∃ m, amountOf prices feeDenom = m * 10 ^ d := by
    rcases hm with h9 | hm
    · refine ⟨k * 10 ^ (9 - d), ?_⟩
      rw [hk, Nat.mul_assoc, ← Nat.pow_add]
      congr 2; omega
    · exact ⟨m, hm⟩
  obtain ⟨m', hm'⟩ := hm'
  rw [hm'] at h2 ⊢
  have := Nat.lt_of_mul_lt_mul_right h2
  exact Nat.mul_le_mul_right _ (by omega)

/-- The price 0.015 of a token with 6 decimals: 15 gwei; a transfer at this price. -/
example : quote 6 [(7, 15 * 10 ^ 15)] 7 = 15000000000 ∧ feeOk false [(7, 15 * 10 ^ 15)] (ethFee 7 6 15000000000 21000) 21000 = true ∧
    feeOk false [(7, 15 * 10 ^ 15)] (ethFee 7 6 14900000000 21000) 21000 = false ∧ amountOf [(7, 15 * 10 ^ 15)] 7 = 15000000 * 10 ^ 9 := by decide +kernel

/-- C76: exactly when the quoted price is enough for every gas limit: when it is worth the configured price. -/
theorem C76_exact (prices : List (D × Nat)) (feeDenom : D) (d : Nat) (hpos : 0 < amountOf prices feeDenom) :
    (∀ gas, gas < 18446744073709551616 → feeOk false prices (ethFee feeDenom d (quote d prices feeDenom) gas) gas = true) ↔
      amountOf prices feeDenom ≤ quote d prices feeDenom * 10 ^ d := by
  constructor
  · intro h
    have h2 := h (2 * decOne) (by decide +kernel)
    rw [feeOk_eth _ _ _ _ _ hpos (by decide +kernel)] at h2
    obtain ⟨_, hc, _⟩ := C15_fee (quote d prices feeDenom) (2 * decOne) d
    have e : (10 : Nat) ^ 18 = decOne := rfl
    rw [e] at hc
    have h3 := Nat.le_trans h2 hc
    have h4 : quote d prices feeDenom * (2 * decOne) * 10 ^ d + decOne = (2 * (quote d prices feeDenom * 10 ^ d) + 1) * decOne := by
      rw [Nat.add_mul, Nat.one_mul]; congr 1
      ac_rfl
    rw [h4, ← Nat.mul_assoc] at h3
    have := Nat.le_of_mul_le_mul_right h3 decOne_pos
    omega
  · intro h gas _
    exact C76_enough false prices feeDenom d _ gas (Or.inr hpos) h

/-- C76 fails for prices below one wei (a token with 18 decimals and a price of half a unit): the quoted price is 0, and every
transaction that offers it is refused. -/
theorem C76_fraction_violated (gas : Nat) (hg : 0 < gas) : quote 18 [(7, decOne / 2)] 7 = 0 ∧
    feeOk false [(7, decOne / 2)] (ethFee 7 18 (quote 18 [(7, decOne / 2)] 7) gas) gas = false := by
  have h0 : quote 18 [(7, decOne / 2)] 7 = 0 := by decide +kernel
  refine ⟨h0, ?_⟩
  rw [h0]
  cases h : feeOk false [(7, decOne / 2)] (ethFee 7 18 0 gas) gas with
  | false => rfl
  | true =>
    rw [feeOk_eth _ _ _ _ _ (by decide +kernel) hg] at h
    simp only [computeGasFeeAmount, if_true, Nat.zero_mul, Nat.le_zero, Nat.mul_eq_zero] at h
    rcases h with h | h
    · exact absurd h (by decide +kernel)
    · omega

/-- C76 fails when prices are configured in other denoms only: the quoted price is 0, and an Ethereum transaction is refused whatever it
offers. -/
theorem C76_other_denom_violated (d cap gas : Nat) (hg : 0 < gas) : quote d [(8, decOne)] 7 = 0 ∧
    feeOk false [(8, decOne)] (ethFee 7 d cap gas) gas = false := by
  refine ⟨by simp [quote, amountOf, toEthers], ?_⟩
  have h8 : required [(8, decOne)] gas = [(8, gas)] := by
    simp only [required, List.map_cons, List.map_nil]
    have hp := decOne_pos
    rw [Nat.mul_add_div hp, Nat.div_eq_of_lt (by omega : decOne - 1 < decOne), Nat.add_zero]
  unfold feeOk
  rw [h8]
  have : gas ≠ 0 := by omega
  simp only [Bool.false_eq_true, if_false, List.all_cons, List.all_nil, Bool.and_true, decide_eq_true_eq, this, if_false]
  unfold ethFee anyGTE
  dsimp only
  split
  · rfl
  · simp [amountOf]

/-! ### C77 -/

theorem toEthers_mono (d a b : Nat) (h : a ≤ b) : toEthers d a ≤ toEthers d b := by
  unfold toEthers
  split
  · exact h
  · split
    · exact Nat.div_le_div_right h
    · exact Nat.mul_le_mul_right _ h

theorem weiGasPrice_mono (d a b : Nat) (h : a ≤ b) : weiGasPrice d a ≤ weiGasPrice d b :=
  toEthers_mono _ _ _ (Nat.div_le_div_right (Nat.mul_le_mul_right _ h))

/-- C77 (part): in a transaction that the mempool took (not in the free lane) and that pays in the fee denom alone, as Ethereum transactions do,
contracts see a gas price that is at least the base fee they see. `chain`: the chain's prices (none
before they are set), `prices`: those the node asked for, which
are at least as high. -/
theorem C77_partial (chain : Option (List (D × Nat))) (prices fee : List (D × Nat)) (feeDenom : D) (d gas seen : Nat)
    (hle : ∀ l, chain = some l → amountOf l feeDenom ≤ amountOf prices feeDenom)
    (hfee : fee = [] ∨ ∃ n, fee = [(feeDenom, n)]) (hok : feeOk false prices fee gas = true)
    (hseen : seenPrice true d feeDenom fee gas = some seen) : seenBase d chain feeDenom ≤ seen := by
  by_cases hg : gas = 0
  · simp [seenPrice, txGasPrice, hg] at hseen
  · simp only [seenPrice, txGasPrice, if_neg hg, Option.map_some, if_true, Option.some.injEq] at hseen
    subst hseen
    apply weiGasPrice_mono
    have hle' : minPrice chain feeDenom ≤ amountOf prices feeDenom := by
      cases chain with
      | none => exact Nat.zero_le _
      | some l => exact hle l rfl
    refine Nat.le_trans hle' ?_
    rw [Nat.le_div_iff_mul_le (by omega)]
    rw [← ceil_le, ← required_amount]
    unfold feeOk at hok
    simp only [Bool.false_eq_true, if_false] at hok
    split at hok
    · next h =>
      rw [amountOf_zero_of_all _ h feeDenom]; exact Nat.zero_le _
    · unfold anyGTE at hok
      rcases hfee with rfl | ⟨n, rfl⟩
      · cases hok
      · simp only [List.any_cons, List.any_nil, Bool.or_false, Bool.and_eq_true, decide_eq_true_eq] at hok
        simpa [amountOf] using hok.2

example : feeOk false [(7, 15 * 10 ^ 15)] [(7, 400)] 21000 = true ∧ seenPrice true 6 7 [(7, 400)] 21000 = some 19047619000 ∧
    seenBase 6 (some [(7, 15 * 10 ^ 15)]) 7 = 15000000000 := by decide +kernel

/-- C77 fails for a transaction that pays in another accepted denom: it is taken, and contracts see a gas price of 0 under a base fee of
15 gwei. -/
theorem C77_other_denom_violated : feeOk false [(7, 15 * 10 ^ 15), (8, decOne)] [(8, 21000)] 21000 = true ∧
    seenPrice true 6 7 [(8, 21000)] 21000 = some 0 ∧ seenBase 6 (some [(7, 15 * 10 ^ 15), (8, decOne)]) 7 = 15000000000 := by decide +kernel

/-- C77 fails without a fee contract: the gas price is 0 while the base fee is computed as if the token had no decimals. -/
theorem C77_no_contract_violated (d : Nat) (feeDenom : D) (fee : List (D × Nat)) (gas seen : Nat) (h : seenPrice false d feeDenom fee gas = some seen) :
    seen = 0 ∧ seenBase 0 (some [(feeDenom, decOne)]) feeDenom = 1000000000000000000 := by
  constructor
  · unfold seenPrice at h
    cases ht : txGasPrice (amountOf fee feeDenom) gas with
    | none => rw [ht] at h; cases h
    | some p => rw [ht] at h; simpa using h.symm
  · simp [seenBase, minPrice, amountOf, weiGasPrice, toEthers, decOne]

end Verif.GasPrice
