import Verif.Model.AnteSigs
import Verif.Props.SigGas
import Verif.Props.Fees
/-
C84, C45: signature checks as the whole chain charges them. What `C84_limit` says of the meter the signature decorators are given
holds for the transaction's own meter iff the fee is not exactly one coin of the fee denom.
-/
namespace Verif.Props.AnteSigs
open Verif Verif.SigGas Verif.Fees Verif.AnteSigs Verif.Props.SigGas Verif.Props.Fees

theorem total_sum : ∀ l : List Nat, total l = l.sum
  | [] => rfl
  | x :: l => by
    rw [show total (x :: l) = x + total l from rfl, total_sum l, List.sum_cons]

/-- **C84** (the whole chain, for fees in other coins): a transaction whose fee is not exactly one coin of the fee denom is checked
with what fee deduction left of its gas: none of its signatures is checked if that does not cover all of them, and if it passes its
meter has been charged for exactly its signatures. -/
theorem C84_chain (p : Prices) (inner : List Nat) (m : Exec.Meter) (hl : m.limit < 2 ^ 64) (hm : m.consumed ≤ m.limit)
    (valid : Key → Nat → Bool) (ethOk : Bool) (sigs : List (Key × Data)) (hi : m.consumed + inner.sum ≤ m.limit) :
    (anteTx p false inner m valid ethOk sigs).1 = anteSigs p true (m.limit - (m.consumed + inner.sum)) valid ethOk sigs ∧
    ((anteTx p false inner m valid ethOk sigs).1.ok = true →
      (anteTx p false inner m valid ethOk sigs).2 = ⟨m.limit, m.consumed + inner.sum + (billAll true sigs).gas p⟩) := by
  unfold anteTx anteSigs
  simp only
  by_cases hb : (billAll true sigs).ok = false
  · rw [if_pos hb, if_pos (.inl hb)]
    exact ⟨rfl, fun h => by cases h⟩
  · rw [if_neg hb, C45_partial false false _ _ _ hl hm]
    simp only [Bool.false_eq_true, and_false, if_false, total_sum, Nat.add_zero]
    have hg : (billAll true sigs).gas p = ((billAll true sigs).charged.map p.of).sum := rfl
    rw [← hg]
    by_cases hc : m.consumed + inner.sum + (billAll true sigs).gas p ≤ m.limit
    · rw [if_pos hc]
      have : ¬ ((billAll true sigs).ok = false ∨ m.limit - (m.consumed + inner.sum) < (billAll true sigs).gas p) := by
        rintro (h | h)
        · exact hb h
        · omega
      rw [if_neg this]
      exact ⟨rfl, fun _ => rfl⟩
    · rw [if_neg hc, if_pos (.inr (by omega))]
      exact ⟨rfl, fun h => by cases h⟩

/-- **C84** (the whole chain, the cheapest attack): with such a fee the checks made, at the price of the cheapest, are covered by the
gas limit. -/
theorem C84_covered (p : Prices) (inner : List Nat) (m : Exec.Meter) (hl : m.limit < 2 ^ 64) (hm : m.consumed ≤ m.limit)
    (valid : Key → Nat → Bool) (ethOk : Bool) (sigs : List (Key × Data)) (hi : m.consumed + inner.sum ≤ m.limit)
    (c : Nat) (h1 : c ≤ p.secp256k1) (h2 : c ≤ p.secp256r1) :
    m.consumed + inner.sum + (anteTx p false inner m valid ethOk sigs).1.checks * c ≤ m.limit := by
  rw [(C84_chain p inner m hl hm valid ethOk sigs hi).1]
  have := (C84_limit p true (m.limit - (m.consumed + inner.sum)) valid ethOk sigs c h1 h2).1
  omega

/-- **C84 (violated: checks for nothing).** A transaction that pays its fee in the fee denom has all its signatures checked (those of
supported keys) whatever they cost and whatever gas it has left, even none, and its meter is charged nothing for them. -/
theorem C84_free_violated (p : Prices) (inner : List Nat) (m : Exec.Meter) (valid : Key → Nat → Bool) (ethOk : Bool)
    (sigs : List (Key × Data)) (hb : (billAll true sigs).ok = true) :
    anteTx p true inner m valid ethOk sigs = (checkAll valid ethOk sigs, m) := by
  simp [anteTx, hb, C45_violated]

/-- With 100 gas left, prices of 1000 and two good signatures: refused without a check when the fee is in another coin, two checks
for nothing when it is in the fee denom; with 5000 gas both pass and 2000 are charged. -/
example :
    let show' (x : Checked × Exec.Meter) := (x.1.checks, x.1.ok, x.2.consumed)
    let sigs := [(Key.secp256k1, Data.single 1 false), (Key.ethsecp256k1, Data.single 2 false)]
    show' (anteTx ⟨590, 1000, 1000⟩ false [] ⟨100, 0⟩ (fun _ _ => true) true sigs) = (0, false, 0) ∧
    show' (anteTx ⟨590, 1000, 1000⟩ true [] ⟨100, 0⟩ (fun _ _ => true) true sigs) = (2, true, 0) ∧
    show' (anteTx ⟨590, 1000, 1000⟩ false [300] ⟨5000, 10⟩ (fun _ _ => true) true sigs) = (2, true, 2310) := by decide +kernel

end Verif.Props.AnteSigs
