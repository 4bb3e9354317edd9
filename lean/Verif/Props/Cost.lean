import Verif.Model.Cost
import Verif.Props.Pipeline
/-
C93: the receipt says what the transaction cost, and gas adds up over a block.

Amounts of the fee token with `d` decimals and amounts in wei are compared exactly: `t` base units are worth `w` wei when
`t * 10 ^ 18 = w * 10 ^ d`.
-/
namespace Verif.Cost
open Verif Verif.Pipeline Verif.Fees
open Verif.Props.Fees (C15_fee)

variable {A W : Type} [DecidableEq A]

/-! ### Arithmetic -/

/-- What is left of a fee `f` for `g` gas after the refund for `r` gas is the share of the rest, rounded up by less than two
units. -/
theorem left_share (f g r : Nat) (hr : r ≤ g) (hg1 : 0 < g) (hg : g ≤ decOne) :
    f * (g - r) ≤ (f - f * decOne / g * r / decOne) * g ∧
      (f - f * decOne / g * r / decOne) * g < f * (g - r) + 2 * g := by
  have hD : 0 < decOne := Nat.pos_of_ne_zero (by decide)
  have h0 := refund_one f g r r hg1 (Nat.le_refl _)
  have h1 : f * decOne < f * decOne / g * g + g := Nat.lt_div_mul_add hg1
  have h2 : f * decOne / g * r < f * decOne / g * r / decOne * decOne + decOne := Nat.lt_div_mul_add hD
  generalize f * decOne / g * r / decOne = q at *
  generalize f * decOne / g = p at *
  generalize decOne = D at *
  have hfr : f * r ≤ f * g := Nat.mul_le_mul_left _ hr
  constructor
  · rw [Nat.mul_sub, Nat.sub_mul]
    omega
  · rw [Nat.mul_sub, Nat.sub_mul]
    have key : f * r < q * g + 2 * g := by
      apply Nat.lt_of_mul_lt_mul_right (a := D)
      have a1 : f * r * D ≤ (p * g + g) * r := by
        rw [Nat.mul_right_comm]
        exact Nat.mul_le_mul_right _ (Nat.le_of_lt h1)
      have a2 : (p * g + g) * r = p * r * g + g * r := by
        rw [Nat.add_mul, Nat.mul_right_comm]
      have a3 : p * r * g < (q * D + D) * g := Nat.mul_lt_mul_of_pos_right h2 hg1
      have a4 : (q * D + D) * g = q * g * D + g * D := by
        rw [Nat.add_mul, Nat.mul_right_comm, Nat.mul_comm D g]
      have a5 : g * r ≤ g * D := Nat.mul_le_mul_left _ (Nat.le_trans hr hg)
      rw [Nat.add_mul, Nat.mul_assoc 2 g D]
      omega
    omega

/-- The same in wei, for a fee computed from a fee cap. -/
theorem left_wei (cap g d r : Nat) (hr : r ≤ g) (hg1 : 0 < g) (hg : g ≤ decOne) (paid : Nat)
    (hp : paid = computeGasFeeAmount cap g d - computeGasFeeAmount cap g d * decOne / g * r / decOne) :
    cap * (g - r) * 10 ^ d ≤ paid * 10 ^ 18 ∧ paid * 10 ^ 18 < cap * (g - r) * 10 ^ d + 3 * 10 ^ 18 := by
  obtain ⟨l1, l2⟩ := left_share (computeGasFeeAmount cap g d) g r hr hg1 hg
  obtain ⟨f1, f2, _⟩ := C15_fee cap g d
  rw [← hp] at l1 l2
  generalize computeGasFeeAmount cap g d = f at *
  have hk : g - r ≤ g := Nat.sub_le _ _
  generalize g - r = k at *
  generalize (10 : Nat) ^ d = T at *
  generalize hE : (10 : Nat) ^ 18 = E at *
  have hE0 : 0 < E := by rw [← hE]; decide
  have e1 : cap * g * T * k = cap * k * T * g := by
    rw [Nat.mul_right_comm cap g T, Nat.mul_right_comm cap k T, Nat.mul_right_comm (cap * T) g k]
  constructor
  · apply Nat.le_of_mul_le_mul_right _ hg1
    calc cap * k * T * g = cap * g * T * k := e1.symm
      _ ≤ f * E * k := Nat.mul_le_mul_right _ f1
      _ = f * k * E := Nat.mul_right_comm _ _ _
      _ ≤ paid * g * E := Nat.mul_le_mul_right _ l1
      _ = paid * E * g := Nat.mul_right_comm _ _ _
  · apply Nat.lt_of_mul_lt_mul_right (a := g)
    calc paid * E * g = paid * g * E := Nat.mul_right_comm _ _ _
      _ < (f * k + 2 * g) * E := Nat.mul_lt_mul_of_pos_right l2 hE0
      _ = f * E * k + 2 * g * E := by rw [Nat.add_mul, Nat.mul_right_comm]
      _ ≤ (cap * g * T + E) * k + 2 * g * E := Nat.add_le_add_right (Nat.mul_le_mul_right _ f2) _
      _ = cap * k * T * g + E * k + 2 * g * E := by rw [Nat.add_mul, e1]
      _ ≤ cap * k * T * g + E * g + 2 * g * E := by
        have := Nat.mul_le_mul_left E hk
        omega
      _ = (cap * k * T + 3 * E) * g := by
        rw [Nat.add_mul, Nat.mul_comm E g, Nat.mul_right_comm 2 g E, Nat.mul_right_comm 3 E g]
        rw [Nat.mul_right_comm 2 E g, Nat.mul_assoc 2, Nat.mul_assoc 3]
        omega

/-! ### What is paid -/

/-- The payer's payment in a transaction that leaves with `o`: the drop of its balance of the fee denom. -/
def Paid (c : Chain A W) (t : Tx A) (fd : Nat) (s : St A W) (paid : Nat) : Prop :=
  s.bal t.feeFrom fd = (runTx c t s).2.bal t.feeFrom fd + paid

/-- Apart from fees, the transaction does not touch the payer's balance of the fee denom. -/
def Leaves (c : Chain A W) (t : Tx A) (fd : Nat) : Prop :=
  ∀ b w b' w' u, c.exec t b w = some (b', w', u) → b' t.feeFrom fd = b t.feeFrom fd

theorem amt_one (fd f D g R : Nat) :
    amt (([(fd, f)].map fun p => (p.1, p.2 * D / g)).map fun p => (p.1, p.2 * R / D)) fd = f * D / g * R / D := by
  simp [amt]

theorem refund_single (c : Chain A W) (t : Tx A) (fd f used X : Nat) (he : t.isEth = true) (hf : t.fee = [(fd, f)])
    (hu : used ≤ t.gas) (hX : X = f * decOne / t.gas * (c.ratio * (t.gas - used) / decOne) / decOne) :
    amt (refund c t used) fd = X := by
  have hleft : (⟨t.gas, used⟩ : Exec.Meter).limit - (⟨t.gas, used⟩ : Exec.Meter).consumedToLimit = t.gas - used := by
    simp only [Exec.Meter.consumedToLimit]; omega
  rw [hX, ← amt_one fd]
  unfold refund refundCoins
  rw [he, hf]
  simp only [Bool.and_self, if_true]
  rw [amt_filter, hleft]

theorem refund_eth (c : Chain A W) (t : Tx A) (fd d cap gas used : Nat) (hu : used ≤ gas) :
    amt (refund c (ethTx t fd d cap gas) used) fd =
      computeGasFeeAmount cap gas d * decOne / gas * (c.ratio * (gas - used) / decOne) / decOne := by
  have h := refund_single c (ethTx t fd d cap gas) fd (computeGasFeeAmount cap gas d) used _ rfl rfl hu rfl
  have hg : (ethTx t fd d cap gas).gas = gas := rfl
  rw [hg] at h
  exact h

/-- C93: what a successful Ethereum transaction pays in the end, in wei: its fee cap for its gas limit less the refunded part of
the unused gas, and less than three base units of the fee token more. -/
theorem C93_paid (c : Chain A W) (t : Tx A) (fd d cap gas used : Nat) (s : St A W)
    (hc : t.feeFrom ≠ c.collector) (hr : c.ratio ≤ decOne) (hg : gas ≤ decOne)
    (hl : Leaves c (ethTx t fd d cap gas) fd)
    (h : (runTx c (ethTx t fd d cap gas) s).1 = .ok used) :
    ∃ paid, Paid c (ethTx t fd d cap gas) fd s paid ∧
      cap * (gas - c.ratio * (gas - used) / decOne) * 10 ^ d ≤ paid * 10 ^ 18 ∧
      paid * 10 ^ 18 < cap * (gas - c.ratio * (gas - used) / decOne) * 10 ^ d + 3 * 10 ^ 18 := by
  have hff : (ethTx t fd d cap gas).feeFrom = t.feeFrom := rfl
  have hgg : (ethTx t fd d cap gas).gas = gas := rfl
  have hpos := (C81_included c (ethTx t fd d cap gas) s (by rw [hff]; exact hc) (by rw [h]; simp)).1
  rw [hgg] at hpos
  obtain ⟨b1, b2, w1, m1, _, he, hu, m2⟩ := C81_succeeded c (ethTx t fd d cap gas) s used (by rw [hff]; exact hc) h
  rw [hgg] at hu
  have h1 := m1 fd
  have h2 := m2 fd
  have h3 := hl _ _ _ _ _ he
  have hle := (C81_pays c (ethTx t fd d cap gas) s used fd (by rw [hff]; exact hc) hr h).1
  have hfee : amt (ethTx t fd d cap gas).fee fd = computeGasFeeAmount cap gas d := by simp [ethTx, amt]
  have hrf := refund_eth c t fd d cap gas used hu
  have hR : c.ratio * (gas - used) / decOne ≤ gas :=
    Nat.le_trans (Nat.div_le_of_le_mul (Nat.mul_le_mul_right _ hr)) (Nat.sub_le _ _)
  rw [hfee] at h1 hle
  rw [hrf] at h2 hle
  refine ⟨_, ?_, left_wei cap gas d _ hR hpos hg _ rfl⟩
  unfold Paid
  omega

/-- C93 (proved part): a successful transaction pays at least what its receipt says; and if all unused gas is refunded, or there
is none, less than three base units more. -/
theorem C93_receipt_partial (c : Chain A W) (t : Tx A) (fd d cap gas used cum : Nat) (s : St A W)
    (hc : t.feeFrom ≠ c.collector) (hr : c.ratio ≤ decOne) (hg : gas ≤ decOne)
    (hl : Leaves c (ethTx t fd d cap gas) fd)
    (h : (runTx c (ethTx t fd d cap gas) s).1 = .ok used) :
    ∃ paid, Paid c (ethTx t fd d cap gas) fd s paid ∧
      (Rcpt.cost ⟨used, cap, cum⟩) * 10 ^ d ≤ paid * 10 ^ 18 ∧
      (c.ratio = decOne ∨ used = gas → paid * 10 ^ 18 < (Rcpt.cost ⟨used, cap, cum⟩) * 10 ^ d + 3 * 10 ^ 18) := by
  obtain ⟨_, _, _, _, _, _, hu, _⟩ := C81_succeeded c (ethTx t fd d cap gas) s used hc h
  have hgg : (ethTx t fd d cap gas).gas = gas := rfl
  rw [hgg] at hu
  obtain ⟨paid, hp, h1, h2⟩ := C93_paid c t fd d cap gas used s hc hr hg hl h
  refine ⟨paid, hp, ?_, ?_⟩
  · refine Nat.le_trans (Nat.mul_le_mul_right _ ?_) h1
    simp only [Rcpt.cost]
    rw [Nat.mul_comm]
    apply Nat.mul_le_mul_left
    have := Nat.div_le_of_le_mul (Nat.mul_le_mul_right (gas - used) hr)
    omega
  · intro hcase
    have he : gas - c.ratio * (gas - used) / decOne = used := by
      rcases hcase with hcase | hcase
      · rw [hcase, Nat.mul_div_cancel_left _ (Nat.pos_of_ne_zero (by decide))]
        omega
      · subst hcase; simp
    rw [he] at h2
    simp only [Rcpt.cost]
    rw [Nat.mul_comm used cap]
    exact h2

/-- **C93 (how much beyond the receipt).** A successful transaction pays what its receipt says and the price of the unused gas that is
not refunded, and less than three base units more. -/
theorem C93_beyond (c : Chain A W) (t : Tx A) (fd d cap gas used cum : Nat) (s : St A W)
    (hc : t.feeFrom ≠ c.collector) (hr : c.ratio ≤ decOne) (hg : gas ≤ decOne)
    (hl : Leaves c (ethTx t fd d cap gas) fd)
    (h : (runTx c (ethTx t fd d cap gas) s).1 = .ok used) :
    ∃ paid, Paid c (ethTx t fd d cap gas) fd s paid ∧
      (Rcpt.cost ⟨used, cap, cum⟩ + cap * ((gas - used) - c.ratio * (gas - used) / decOne)) * 10 ^ d ≤ paid * 10 ^ 18 ∧
      paid * 10 ^ 18 <
        (Rcpt.cost ⟨used, cap, cum⟩ + cap * ((gas - used) - c.ratio * (gas - used) / decOne)) * 10 ^ d + 3 * 10 ^ 18 := by
  obtain ⟨_, _, _, _, _, _, hu, _⟩ := C81_succeeded c (ethTx t fd d cap gas) s used hc h
  have hgg : (ethTx t fd d cap gas).gas = gas := rfl
  rw [hgg] at hu
  obtain ⟨paid, hp, h1, h2⟩ := C93_paid c t fd d cap gas used s hc hr hg hl h
  have hR : c.ratio * (gas - used) / decOne ≤ gas - used := by
    have hd : 0 < decOne := by decide
    have : c.ratio * (gas - used) / decOne ≤ decOne * (gas - used) / decOne :=
      Nat.div_le_div_right (Nat.mul_le_mul_right _ hr)
    rwa [Nat.mul_div_cancel_left _ hd] at this
  have e : cap * (gas - c.ratio * (gas - used) / decOne) =
      Rcpt.cost ⟨used, cap, cum⟩ + cap * ((gas - used) - c.ratio * (gas - used) / decOne) := by
    have : Rcpt.cost ⟨used, cap, cum⟩ = cap * used := by unfold Rcpt.cost; exact Nat.mul_comm _ _
    rw [this, ← Nat.mul_add]
    congr 1
    omega
  rw [e] at h1 h2
  exact ⟨paid, hp, h1, h2⟩

/-- C93 does not hold: with the default refund ratio (one half) or a smaller one a successful transaction pays, beyond what its
receipt says, at least half the price of the gas it did not use. -/
theorem C93_unused_violated (c : Chain A W) (t : Tx A) (fd d cap gas used cum : Nat) (s : St A W)
    (hc : t.feeFrom ≠ c.collector) (hr : 2 * c.ratio ≤ decOne) (hg : gas ≤ decOne)
    (hl : Leaves c (ethTx t fd d cap gas) fd)
    (h : (runTx c (ethTx t fd d cap gas) s).1 = .ok used) :
    ∃ paid, Paid c (ethTx t fd d cap gas) fd s paid ∧
      (2 * Rcpt.cost ⟨used, cap, cum⟩ + cap * (gas - used)) * 10 ^ d ≤ 2 * (paid * 10 ^ 18) := by
  obtain ⟨_, _, _, _, _, _, hu, _⟩ := C81_succeeded c (ethTx t fd d cap gas) s used hc h
  have hgg : (ethTx t fd d cap gas).gas = gas := rfl
  rw [hgg] at hu
  obtain ⟨paid, hp, h1, _⟩ := C93_paid c t fd d cap gas used s hc (by omega) hg hl h
  refine ⟨paid, hp, ?_⟩
  have hR : 2 * (c.ratio * (gas - used) / decOne) ≤ gas - used := by
    have hD : 0 < decOne := Nat.pos_of_ne_zero (by decide)
    have a1 := Nat.div_mul_le_self (c.ratio * (gas - used)) decOne
    apply Nat.le_of_mul_le_mul_right _ hD
    have a2 := Nat.mul_le_mul_right (gas - used) hr
    rw [Nat.mul_assoc] at a2
    rw [Nat.mul_assoc, Nat.mul_comm (gas - used)]
    omega
  generalize c.ratio * (gas - used) / decOne = R at *
  refine Nat.le_trans ?_ (Nat.mul_le_mul_left 2 h1)
  rw [← Nat.mul_assoc]
  apply Nat.mul_le_mul_right
  simp only [Rcpt.cost]
  calc 2 * (used * cap) + cap * (gas - used) = cap * (2 * used + (gas - used)) := by
        rw [Nat.mul_add, Nat.mul_comm used cap, ← Nat.mul_assoc, ← Nat.mul_assoc, Nat.mul_comm 2 cap]
    _ ≤ cap * (2 * (gas - R)) := Nat.mul_le_mul_left _ (by omega)
    _ = 2 * (cap * (gas - R)) := by rw [← Nat.mul_assoc, ← Nat.mul_assoc, Nat.mul_comm 2 cap]

/-- C93 does not hold: a transaction that fails pays for its whole gas limit, whatever gas its receipt reports. -/
theorem C93_failed_violated (c : Chain A W) (t : Tx A) (fd d cap gas : Nat) (s : St A W)
    (hc : t.feeFrom ≠ c.collector) (h : (runTx c (ethTx t fd d cap gas) s).1 = .failed) :
    ∃ paid, Paid c (ethTx t fd d cap gas) fd s paid ∧
      ∀ used cum, used ≤ gas →
        (Rcpt.cost ⟨used, cap, cum⟩ + cap * (gas - used)) * 10 ^ d ≤ paid * 10 ^ 18 := by
  have hm := (C81_failed c (ethTx t fd d cap gas) s hc h).1 fd
  have hfee : amt (ethTx t fd d cap gas).fee fd = computeGasFeeAmount cap gas d := by simp [ethTx, amt]
  rw [hfee] at hm
  refine ⟨computeGasFeeAmount cap gas d, ?_, ?_⟩
  · unfold Paid; omega
  · intro used cum hu
    refine Nat.le_trans (Nat.le_of_eq ?_) (C15_fee cap gas d).1
    congr 1
    simp only [Rcpt.cost]
    rw [Nat.mul_comm used, ← Nat.mul_add]
    congr 1
    omega

/-- C93 does not hold: a transaction of a block that the ante handler rejects there (its sender spent the money in an earlier
transaction of the block, say) pays nothing, but has a receipt with the gas that was counted until then. -/
theorem C93_rejected_violated (c : Chain A W) (t : Tx A) (fd d cap gas : Nat) (s : St A W) (charges : List Nat) (x : Nat)
    (h : (runTx c (ethTx t fd d cap gas) s).1 = .rejected) (hx : 0 < x) (hcap : 0 < cap) :
    Paid c (ethTx t fd d cap gas) fd s 0 ∧
      ∃ r ∈ receipts [⟨gas, counted gas (x :: charges) 0, some cap⟩] 0, 0 < r.cost := by
  constructor
  · unfold Paid
    rw [C81_rejected c _ s h]
    rfl
  · refine ⟨_, List.mem_singleton.2 rfl, ?_⟩
    apply Nat.mul_pos _ hcap
    have hmono : ∀ (cs : List Nat) (u : Nat), u ≤ counted gas cs u := by
      intro cs
      induction cs with
      | nil => intro u; exact Nat.le_refl _
      | cons a l ih =>
        intro u
        simp only [counted]
        split
        · omega
        · exact Nat.le_trans (Nat.le_add_right _ _) (ih _)
    simp only [counted]
    split
    · omega
    · exact Nat.lt_of_lt_of_le (by omega) (hmono charges _)

/-! ### Counting -/

/-- The meter counts the charges, all of them if they fit. -/
theorem counted_fits (limit : Nat) : ∀ (cs : List Nat) (u : Nat), u + cs.sum ≤ limit → counted limit cs u = u + cs.sum := by
  intro cs
  induction cs with
  | nil => intro u _; rfl
  | cons c cs ih =>
    intro u h
    simp only [List.sum_cons] at h
    simp only [counted, List.sum_cons]
    rw [if_neg (by omega), ih _ (by omega)]
    omega

/-- C93 does not hold: a transaction that runs out of gas outside the machine is reported to have used more gas than its
limit. -/
theorem C93_overrun_violated (limit : Nat) (cap : Option Nat) (hcap : cap ≠ none) : ∀ (cs : List Nat) (u : Nat), limit < u + cs.sum → u ≤ limit →
    ∃ r ∈ receipts [⟨limit, counted limit cs u, cap⟩] 0, limit < r.gasUsed := by
  intro cs u h hu
  obtain ⟨p, hp⟩ := Option.ne_none_iff_exists'.1 hcap
  rw [hp]
  refine ⟨_, List.mem_singleton.2 rfl, ?_⟩
  show limit < counted limit cs u
  induction cs generalizing u with
  | nil => simp at h; omega
  | cons c cs ih =>
    simp only [List.sum_cons] at h
    simp only [counted]
    split
    · assumption
    · exact ih _ (by omega) (by omega)

/-- The Ethereum transactions among those of a block. -/
def eths (l : List Ran) : List Ran := l.filter (·.cap.isSome)

theorem receipts_get (l : List Ran) : ∀ (cum i : Nat), (receipts l cum)[i]? =
    ((eths l)[i]?).map fun r => ⟨r.counted, r.cap.getD 0, cum + (((eths l).take (i + 1)).map (·.counted)).sum⟩ := by
  induction l with
  | nil => intro cum i; simp [receipts, eths]
  | cons r l ih =>
    intro cum i
    cases hr : r.cap with
    | none =>
      have e : eths (r :: l) = eths l := by simp [eths, hr]
      rw [e]
      simp only [receipts, hr]
      exact ih cum i
    | some p =>
      have e : eths (r :: l) = r :: eths l := by simp [eths, hr]
      rw [e]
      simp only [receipts, hr]
      cases i with
      | zero => simp [hr]
      | succ i =>
        rw [List.getElem?_cons_succ, List.getElem?_cons_succ, ih]
        simp only [List.take_succ_cons, List.map_cons, List.sum_cons]
        congr 1
        funext x
        simp only [Nat.add_assoc]

/-- C93: every receipt reports the gas counted for its transaction, the price the transaction named, and the sum of the gas
reported up to it. -/
theorem C93_cumulative (l : List Ran) (i : Nat) (rc : Rcpt) (h : (receipts l 0)[i]? = some rc) :
    ∃ r, (eths l)[i]? = some r ∧ rc.gasUsed = r.counted ∧ some rc.effectiveGasPrice = r.cap ∧
      rc.cumulative = (((receipts l 0).take (i + 1)).map (·.gasUsed)).sum := by
  have hmap : ∀ (l : List Ran) cum, (receipts l cum).map (·.gasUsed) = (eths l).map (·.counted) := by
    intro l
    induction l with
    | nil => intro cum; rfl
    | cons r l ih =>
      intro cum
      cases hr : r.cap with
      | none => simp only [receipts, hr]; rw [ih]; simp [eths, hr]
      | some p => simp only [receipts, hr, List.map_cons]; rw [ih]; simp [eths, hr]
  rw [receipts_get] at h
  rw [Option.map_eq_some_iff] at h
  obtain ⟨r, hr, he⟩ := h
  have hm : r.cap.isSome = true := by
    have := List.mem_of_getElem? hr
    unfold eths at this
    exact (List.mem_filter.1 this).2
  obtain ⟨p, hp⟩ := Option.isSome_iff_exists.1 hm
  refine ⟨r, hr, ?_, ?_, ?_⟩
  · rw [← he]
  · rw [← he, hp]; rfl
  · rw [← he, List.map_take (f := fun x : Rcpt => x.gasUsed), hmap, ← List.map_take]
    exact Nat.zero_add _

/-- The gas the receipts of a block report. -/
def reported (l : List Ran) : Nat := ((receipts l 0).map (·.gasUsed)).sum

/-- C93: what the header says beyond the receipts: if nothing overran its limit or the block's, it says exactly the gas of the
other transactions more. -/
theorem C93_header (blockLimit : Nat) (l : List Ran) (hin : ∀ r ∈ l, r.counted ≤ r.limit)
    (hb : (l.map (·.counted)).sum ≤ blockLimit) :
    headerGasUsed blockLimit l = reported l + ((l.filter (·.cap.isNone)).map (·.counted)).sum := by
  have h1 : (l.map fun r => min r.counted r.limit) = l.map (·.counted) :=
    List.map_congr_left fun r hr => Nat.min_eq_left (hin r hr)
  unfold headerGasUsed reported
  rw [h1, Nat.min_eq_left hb]
  clear h1 hb hin
  have hgen : ∀ (l : List Ran) (cum : Nat), (l.map (·.counted)).sum =
      ((receipts l cum).map (·.gasUsed)).sum + ((l.filter (·.cap.isNone)).map (·.counted)).sum := by
    intro l
    induction l with
    | nil => intro cum; rfl
    | cons r l ih =>
      intro cum
      cases hr : r.cap with
      | none =>
        simp only [receipts, hr, List.map_cons, List.sum_cons, List.filter_cons, Option.isNone_none, if_true]
        rw [ih cum]
        omega
      | some p =>
        simp only [receipts, hr, List.map_cons, List.sum_cons, List.filter_cons, Option.isNone_some]
        rw [ih (cum + r.counted)]
        simp
        omega
  exact hgen l 0

/-- C93 (proved part): in a block of Ethereum transactions that keep to their limits, the header's gas used is the sum of the
receipts'. -/
theorem C93_header_partial (blockLimit : Nat) (l : List Ran) (hin : ∀ r ∈ l, r.counted ≤ r.limit)
    (hb : (l.map (·.counted)).sum ≤ blockLimit) (he : ∀ r ∈ l, r.cap ≠ none) :
    headerGasUsed blockLimit l = reported l := by
  rw [C93_header blockLimit l hin hb]
  have : l.filter (·.cap.isNone) = [] := by
    rw [List.filter_eq_nil_iff]
    intro r hr
    simp [he r hr]
  rw [this]
  rfl

/-- C93 does not hold: one Cosmos transaction that used gas makes the header's gas used exceed the receipts'. -/
theorem C93_header_violated (blockLimit : Nat) (l : List Ran) (hin : ∀ r ∈ l, r.counted ≤ r.limit)
    (hb : (l.map (·.counted)).sum ≤ blockLimit) (r : Ran) (hr : r ∈ l) (hc : r.cap = none) (hu : 0 < r.counted) :
    reported l < headerGasUsed blockLimit l := by
  rw [C93_header blockLimit l hin hb]
  have hm : r ∈ l.filter (·.cap.isNone) := List.mem_filter.2 ⟨hr, by simp [hc]⟩
  obtain ⟨a, b, hab⟩ := List.append_of_mem hm
  rw [hab]
  simp
  omega

/-! ### Examples -/

/-- A chain with the default ratio whose messages use 50000 gas. -/
def toyC (ok : Bool) : Chain Nat Unit where
  dec := fun _ => none
  evmId := id
  keepPost := false
  collector := 99
  ratio := 5 * 10 ^ 17
  feeOk := fun _ => true
  checks := fun _ _ => true
  useGrant := fun _ _ _ _ => none
  exec := fun _ b w => if ok then some (b, w, 50000) else none

def toyT : Tx Nat := ⟨[], [], [], 0, 1, none, false, false⟩
def toyS : St Nat Unit := ⟨fun _ => 0, fun _ _ => 1000000, ()⟩

-- 1 gwei per gas with 6 decimals, gas limit 150 million: pays 75026 units of micro-token, the receipt says 50
example : (runTx (toyC true) (ethTx toyT 7 6 1000000000 150000000) toyS).1 = .ok 50000 := by decide +kernel
example : (runTx (toyC true) (ethTx toyT 7 6 1000000000 150000000) toyS).2.bal 1 7 = 924974 := by decide +kernel
example : Rcpt.cost ⟨50000, 1000000000, 50000⟩ = 50000000000000 := by decide +kernel
example : (runTx (toyC false) (ethTx toyT 7 6 1000000000 150000000) toyS).1 = .failed := by decide +kernel
example : (runTx (toyC false) (ethTx toyT 7 6 1000000000 150000000) toyS).2.bal 1 7 = 849999 := by decide +kernel
example : (runTx (toyC true) (ethTx toyT 7 6 1000000000 2000000000) toyS).1 = .rejected := by decide +kernel

example (ok : Bool) : Leaves (toyC ok) (ethTx toyT 7 6 1000000000 150000000) 7 := by
  intro b w b' w' u h
  unfold toyC at h
  cases ok <;> simp_all

example : receipts [⟨100, 60, some 5⟩, ⟨100, 70, none⟩, ⟨50, counted 50 [30, 40, 9] 0, some 6⟩] 0 = [⟨60, 5, 60⟩, ⟨70, 6, 130⟩] ∧
    headerGasUsed 1000 [⟨100, 60, some 5⟩, ⟨100, 70, none⟩, ⟨50, 70, some 6⟩] = 180 := by decide +kernel

end Verif.Cost
