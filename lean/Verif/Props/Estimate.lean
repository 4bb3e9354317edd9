import Verif.Model.Estimate
import Verif.Props.Fees
import Verif.Props.Exec
/-
C91: a gas estimate is enough.
-/
namespace Verif.Estimate
open Verif Verif.Exec Verif.Fees
open Verif.Props.Fees (total total_append chargeAll_spec C45_partial)

/-- A program that does the same whatever gas it is given, as long as it gets `need`: it burns `burn`, earns the refund
`refund`, and ends well. With less than `need` it runs out of gas. -/
def Plain (vm : Nat → VmResult) (need burn refund : Nat) : Prop :=
  burn ≤ need ∧ ∀ g, vm g = if need ≤ g then ⟨g - burn, refund, none⟩ else ⟨0, 0, some .outOfGas⟩

/-- EIP-3529: at most a fifth of the gas burned comes back. -/
def given (burn refund : Nat) : Nat := min refund (burn / 5)

theorem consume_eq (m : Meter) (a : Nat) (h : m.limit < 2 ^ 64) :
    m.consume a = if m.consumed + a ≤ m.limit then some ⟨m.limit, m.consumed + a⟩ else none := by
  unfold Meter.consume
  by_cases hc : m.consumed + a ≤ m.limit
  · rw [if_pos ⟨Nat.lt_of_le_of_lt hc h, hc⟩, if_pos hc]
  · rw [if_neg (fun x => hc x.2), if_neg hc]

theorem used_num (g burn refund : Nat) (hb : burn ≤ g) (hg : g < 2 ^ 64) :
    calGasUsed g (g - burn) refund = burn - given burn refund := by
  unfold calGasUsed given
  have e : (g + 2 ^ 64 - (g - burn)) % 2 ^ 64 = burn := by
    have : g + 2 ^ 64 - (g - burn) = burn + 2 ^ 64 := by omega
    rw [this, Nat.add_mod_right, Nat.mod_eq_of_lt (by omega)]
  simp only [e]
  have key : ∀ r, r ≤ burn → (burn + 2 ^ 64 - r) % 2 ^ 64 = burn - r := by
    intro r hr
    have : burn + 2 ^ 64 - r = (burn - r) + 2 ^ 64 := by omega
    rw [this, Nat.add_mod_right, Nat.mod_eq_of_lt (by omega)]
  have h5 : burn / 5 ≤ burn := Nat.div_le_self _ _
  generalize burn / 5 = q at *
  by_cases h : q > refund
  · rw [if_pos h, key _ (by omega), Nat.min_eq_left (by omega)]
  · rw [if_neg h, key _ h5, Nat.min_eq_right (by omega)]

theorem given_le (burn refund : Nat) : given burn refund ≤ burn := by
  unfold given; omega

/-- The machine on a meter, with `g` gas for it. -/
theorem evmGas_plain {vm : Nat → VmResult} {need burn refund : Nat} (hp : Plain vm need burn refund) (sim : Option Nat)
    (m : Meter) (g : Nat) (hg : computeGasLimit sim m = g) (hg64 : g < 2 ^ 64) (hl : m.limit < 2 ^ 64) :
    ((need ≤ g → m.consumed + (burn - given burn refund) ≤ m.limit →
        evmGas sim vm m = some (⟨m.limit, m.consumed + (burn - given burn refund)⟩, true)) ∧
     (need ≤ g → ¬ m.consumed + (burn - given burn refund) ≤ m.limit → evmGas sim vm m = none) ∧
     (¬ need ≤ g → ∀ r, evmGas sim vm m = some r → r.2 = false)) := by
  have hv := hp.2 g
  refine ⟨?_, ?_, ?_⟩
  · intro hn hc
    rw [if_pos hn] at hv
    unfold evmGas
    simp only [hg, hv, Option.isSome_none, Bool.false_eq_true, false_and, and_false, if_false]
    rw [used_num g burn refund (Nat.le_trans hp.1 hn) hg64, consume_eq _ _ hl, if_pos hc]
    rfl
  · intro hn hc
    rw [if_pos hn] at hv
    unfold evmGas
    simp only [hg, hv, Option.isSome_none, Bool.false_eq_true, false_and, and_false, if_false]
    rw [used_num g burn refund (Nat.le_trans hp.1 hn) hg64, consume_eq _ _ hl, if_neg hc]
    rfl
  · intro hn r hr
    rw [if_neg hn] at hv
    unfold evmGas at hr
    simp only [hg, hv, ne_eq, not_true_eq_false, and_false, if_false] at hr
    cases hco : m.consume (calGasUsed g 0 0) with
    | none => rw [hco] at hr; cases hr
    | some m' => rw [hco] at hr; cases hr; rfl

/-- What the steps before the machine cost: bytes, the fee's deduction with the rest of the ante handlers, the message's
own accesses. A fee in the fee denom makes the deduction and all later ante handlers free; a simulation without a fee pays
250000 on top. -/
def before (sim feeDenomOnly : Bool) (c : Steps) : Nat :=
  c.size + (if feeDenomOnly then 0 else (if sim then 250000 else 0) + total c.inner + total c.rest) + total c.pre

theorem gasFree_eq (feeDenomOnly simulate zeroFee : Bool) (inner rest : List Nat) (m : Meter) (hl : m.limit < 2 ^ 64)
    (hm : m.consumed ≤ m.limit) :
    gasFreeFee feeDenomOnly simulate zeroFee inner rest m =
      (let a := m.consumed + (if feeDenomOnly then 0 else (if simulate = true ∧ zeroFee = true then 250000 else 0)
          + total inner + total rest)
       if a ≤ m.limit then some ⟨m.limit, a⟩ else none) := by
  cases feeDenomOnly with
  | true => simp [gasFreeFee, hm]
  | false =>
    rw [C45_partial simulate zeroFee inner rest m hl hm]
    simp only [Bool.false_eq_true, if_false, Nat.add_assoc]

theorem runTx_plain {vm : Nat → VmResult} {need burn refund : Nat} (hp : Plain vm need burn refund) (sim : Option Nat)
    (feeDenomOnly zeroFee : Bool) (c : Steps) (limit : Nat) (hl : limit < 2 ^ 64) (hsim : ∀ l, sim = some l → l < 2 ^ 64)
    (hz : sim.isSome = true → zeroFee = true) (m' : Meter) :
    runTx sim feeDenomOnly zeroFee c vm ⟨limit, 0⟩ = some m' ↔
      before sim.isSome feeDenomOnly c ≤ limit ∧
      need ≤ sim.getD (limit - before sim.isSome feeDenomOnly c) ∧
      before sim.isSome feeDenomOnly c + (burn - given burn refund) + total c.post ≤ limit ∧
      m' = ⟨limit, before sim.isSome feeDenomOnly c + (burn - given burn refund) + total c.post⟩ := by
  have e0 : (if feeDenomOnly = true then 0 else (if sim.isSome = true ∧ zeroFee = true then 250000 else 0)
          + total c.inner + total c.rest)
      = (if feeDenomOnly = true then 0 else (if sim.isSome = true then 250000 else 0) + total c.inner + total c.rest) := by
    cases hs : sim.isSome with
    | false => simp
    | true => simp [hz hs]
  unfold runTx before
  generalize hF : (if feeDenomOnly = true then 0 else (if sim.isSome = true then 250000 else 0) + total c.inner
    + total c.rest) = F at *
  by_cases h1 : c.size ≤ limit
  · rw [consume_eq _ _ hl, if_pos (by simpa using h1), Option.bind_some, gasFree_eq _ _ _ _ _ _ hl (by simpa using h1)]
    simp only [e0, Nat.zero_add]
    by_cases h2 : c.size + F ≤ limit
    · rw [if_pos h2, Option.bind_some, chargeAll_spec _ _ hl h2]
      dsimp only
      by_cases h3 : c.size + F + total c.pre ≤ limit
      · rw [if_pos h3, Option.bind_some]
        have hcg : computeGasLimit sim ⟨limit, c.size + F + total c.pre⟩ =
            sim.getD (limit - (c.size + F + total c.pre)) := by
          cases sim with
          | some l => rfl
          | none =>
            show (limit + 2 ^ 64 - min (c.size + F + total c.pre) limit) % 2 ^ 64 = _
            rw [Nat.min_eq_left h3]
            have : limit + 2 ^ 64 - (c.size + F + total c.pre) = (limit - (c.size + F + total c.pre)) + 2 ^ 64 := by omega
            rw [this, Nat.add_mod_right, Nat.mod_eq_of_lt (by omega)]
            rfl
        generalize hG : sim.getD (limit - (c.size + F + total c.pre)) = G at *
        have hG64 : G < 2 ^ 64 := by
          cases hsm : sim with
          | some l => rw [hsm] at hG; simp only [Option.getD_some] at hG; rw [← hG]; exact hsim l hsm
          | none => rw [hsm] at hG; simp only [Option.getD_none] at hG; omega
        obtain ⟨a, b, d⟩ := evmGas_plain hp sim ⟨limit, c.size + F + total c.pre⟩ G hcg hG64 hl
        dsimp only at a b d
        by_cases h4 : need ≤ G
        · by_cases h5 : c.size + F + total c.pre + (burn - given burn refund) ≤ limit
          · rw [a h4 h5, Option.bind_some, if_pos rfl, chargeAll_spec _ _ hl h5]
            dsimp only
            by_cases h6 : c.size + F + total c.pre + (burn - given burn refund) + total c.post ≤ limit
            · rw [if_pos h6]
              constructor
              · intro h; cases h; exact ⟨h3, h4, h6, rfl⟩
              · rintro ⟨_, _, _, rfl⟩; rfl
            · rw [if_neg h6]
              constructor
              · intro h; cases h
              · rintro ⟨_, _, h, _⟩; exact absurd h h6
          · rw [b h4 h5]
            constructor
            · intro h; cases h
            · rintro ⟨_, _, h, _⟩; exfalso; omega
        · constructor
          · intro h
            obtain ⟨r, hr, h⟩ := Option.bind_eq_some_iff.mp h
            rw [d h4 r hr] at h
            cases h
          · rintro ⟨_, h, _⟩; exact absurd h h4
      · rw [if_neg h3]
        constructor
        · intro h; cases h
        · rintro ⟨h, _⟩; exact absurd h h3
    · rw [if_neg h2]
      constructor
      · intro h; cases h
      · rintro ⟨h, _⟩; exfalso; omega
  · rw [consume_eq _ _ hl, if_neg (by simpa using h1)]
    constructor
    · intro h; cases h
    · rintro ⟨h, _⟩; exfalso; omega

/-- C91, what an estimate is: a program is estimated iff the simulation limit gives it what it needs, and the answer is the
gas of a simulated transaction: 250000 for the fee included, the refund already taken off. -/
theorem C91_estimate {vm : Nat → VmResult} {need burn refund : Nat} (hp : Plain vm need burn refund) (simLimit : Nat)
    (hs : simLimit < 2 ^ 64) (c : Steps) (e : Nat) :
    estimate simLimit c vm = some e ↔
      need ≤ simLimit ∧ e = before true false c + (burn - given burn refund) + total c.post ∧ e < 2 ^ 64 := by
  unfold estimate
  constructor
  · intro h
    obtain ⟨m, hm, rfl⟩ := Option.map_eq_some_iff.mp h
    have := (runTx_plain hp (some simLimit) false true c (2 ^ 64 - 1) (by decide) (fun l h => by cases h; exact hs)
      (fun _ => rfl) m).mp hm
    obtain ⟨_, h2, h3, rfl⟩ := this
    exact ⟨h2, rfl, by simp only [Option.isSome_some] at *; omega⟩
  · rintro ⟨h1, rfl, h3⟩
    refine Option.map_eq_some_iff.mpr ⟨⟨2 ^ 64 - 1, _⟩, (runTx_plain hp (some simLimit) false true c (2 ^ 64 - 1)
      (by decide) (fun l h => by cases h; exact hs) (fun _ => rfl) _).mpr ⟨?_, h1, ?_, rfl⟩, rfl⟩
    · simp only [Option.isSome_some]; omega
    · simp only [Option.isSome_some]; omega

/-- C91, exactly: a transaction succeeds with a gas limit iff the limit covers what runs before the machine together with
what the program needs, and the whole of what is charged. -/
theorem C91_succeeds {vm : Nat → VmResult} {need burn refund : Nat} (hp : Plain vm need burn refund)
    (feeDenomOnly : Bool) (c : Steps) (gas : Nat) (hg : gas < 2 ^ 64) :
    (execute feeDenomOnly c vm gas).isSome = true ↔
      before false feeDenomOnly c + need ≤ gas ∧
      before false feeDenomOnly c + (burn - given burn refund) + total c.post ≤ gas := by
  unfold execute
  have h := runTx_plain hp none feeDenomOnly (!feeDenomOnly) c gas hg (fun l h => by cases h) (fun h => by cases h)
  simp only [Option.isSome_none, Option.getD_none] at h
  constructor
  · intro hh
    obtain ⟨m, hm⟩ := Option.isSome_iff_exists.mp hh
    obtain ⟨h1, h2, h3, _⟩ := (h m).mp hm
    exact ⟨by omega, h3⟩
  · rintro ⟨h1, h2⟩
    exact Option.isSome_iff_exists.mpr ⟨_, (h _).mpr ⟨by omega, by omega, h2, rfl⟩⟩

/-- C91 (part that holds): a transaction sent with the estimate as its gas limit succeeds if everything it costs beside the
machine is no more than the simulated transaction's 250000 and steps, by at least what the refund gives back and what the
program has to keep in hand. For a transaction that pays in the fee denom (whose ante handlers after the size are free)
250000 are to spare: enough for a memo, a fee and a signature (some hundred bytes, ten each) and the reads of the refund,
and refunds up to that.
Missing: larger refunds, programs that must be left with much more gas than they burn, access lists (see the violations). -/
theorem C91_enough_partial {vm : Nat → VmResult} {need burn refund : Nat} (hp : Plain vm need burn refund)
    (simLimit : Nat) (hs : simLimit < 2 ^ 64) (feeDenomOnly : Bool) (sc c : Steps) (e : Nat)
    (he : estimate simLimit sc vm = some e)
    (hcost : before false feeDenomOnly c + total c.post ≤ before true false sc + total sc.post)
    (hhand : before false feeDenomOnly c + given burn refund + (need - burn) ≤ before true false sc + total sc.post) :
    (execute feeDenomOnly c vm e).isSome = true := by
  obtain ⟨_, rfl, h3⟩ := (C91_estimate hp simLimit hs sc e).mp he
  have := given_le burn refund
  have := hp.1
  exact (C91_succeeds hp feeDenomOnly c _ h3).mpr ⟨by omega, by omega⟩

/-- **C91 (exactly when).** The estimate of a program is enough for the transaction exactly if what the transaction costs beside the
machine is no more than what the simulated one cost, and still is not with what the refund gives back and what the program has to
keep in hand. -/
theorem C91_iff {vm : Nat → VmResult} {need burn refund : Nat} (hp : Plain vm need burn refund)
    (simLimit : Nat) (hs : simLimit < 2 ^ 64) (feeDenomOnly : Bool) (sc c : Steps) (e : Nat)
    (he : estimate simLimit sc vm = some e) :
    (execute feeDenomOnly c vm e).isSome = true ↔
      before false feeDenomOnly c + total c.post ≤ before true false sc + total sc.post ∧
      before false feeDenomOnly c + given burn refund + (need - burn) ≤ before true false sc + total sc.post := by
  obtain ⟨_, rfl, h3⟩ := (C91_estimate hp simLimit hs sc e).mp he
  have := given_le burn refund
  have := hp.1
  rw [C91_succeeds hp feeDenomOnly c _ h3]
  constructor
  · rintro ⟨h1, h2⟩; exact ⟨by omega, by omega⟩
  · rintro ⟨h1, h2⟩; exact ⟨by omega, by omega⟩

/-- A program that clears `n` storage slots, each burning 5000 and earning 4800 back (EIP-2929, EIP-3529). -/
def clearer (n : Nat) (g : Nat) : VmResult :=
  if 5000 * n ≤ g then ⟨g - 5000 * n, 4800 * n, none⟩ else ⟨0, 0, some .outOfGas⟩

theorem clearer_plain (n : Nat) : Plain (clearer n) (5000 * n) (5000 * n) (4800 * n) := ⟨Nat.le_refl _, fun _ => rfl⟩

/-- **C91 does not hold** for a program that earns a large refund: whatever the simulated transaction and the real one cost
beside the machine, clearing enough storage slots makes the estimate too small, if the simulation limit lets the program be
estimated at all. The refund is taken off the answer, but the transaction needs that gas while it runs. -/
theorem C91_refund_violated (feeDenomOnly : Bool) (sc c : Steps) (n : Nat)
    (hn : before true false sc + total sc.post < before false feeDenomOnly c + 1000 * n)
    (simLimit : Nat) (hs : simLimit < 2 ^ 64) (hlim : 5000 * n ≤ simLimit)
    (h64 : before true false sc + 4000 * n + total sc.post < 2 ^ 64) :
    ∃ e, estimate simLimit sc (clearer n) = some e ∧ execute feeDenomOnly c (clearer n) e = none ∧
      (∀ gas, before false feeDenomOnly c + 5000 * n + total c.post ≤ gas → gas < 2 ^ 64 →
        (execute feeDenomOnly c (clearer n) gas).isSome = true) := by
  have hgv : given (5000 * n) (4800 * n) = 1000 * n := by
    unfold given
    have : 5000 * n / 5 = 1000 * n := by omega
    rw [this]; omega
  have hes : estimate simLimit sc (clearer n) = some (before true false sc + 4000 * n + total sc.post) := by
    refine (C91_estimate (clearer_plain n) simLimit hs sc _).mpr ⟨hlim, ?_, h64⟩
    rw [hgv]; omega
  refine ⟨_, hes, ?_, ?_⟩
  · cases h : execute feeDenomOnly c (clearer n) (before true false sc + 4000 * n + total sc.post) with
    | none => rfl
    | some m =>
      have := (C91_succeeds (clearer_plain n) feeDenomOnly c _ h64).mp (by rw [h]; rfl)
      rw [hgv] at this
      omega
  · intro gas hg h
    refine (C91_succeeds (clearer_plain n) feeDenomOnly c gas h).mpr ⟨by omega, ?_⟩
    rw [hgv]; omega

/-- **C91 does not hold** for a transaction with a long access list: `eth_estimateGas` does not look at the list, whose bytes
the transaction pays for (at least 46 for every address and 68 for every storage key). Whatever program was estimated, a list long enough makes the estimate too small. -/
theorem C91_list_violated {vm : Nat → VmResult} {need burn refund : Nat} (hp : Plain vm need burn refund)
    (simLimit : Nat) (hs : simLimit < 2 ^ 64) (feeDenomOnly : Bool) (sc c : Steps) (e : Nat)
    (he : estimate simLimit sc vm = some e) (perByte : Nat) (l : List Nat)
    (hl : before true false sc + total sc.post <
      before false feeDenomOnly c + total c.post + perByte * (46 * l.length + 68 * l.sum)) :
    execute feeDenomOnly (c.withList perByte l) vm e = none := by
  have hlb : ∀ l : List Nat, listBytes l = 46 * l.length + 68 * l.sum := by
    intro l
    induction l with
    | nil => rfl
    | cons k l ih => simp only [listBytes, tupleBytes, List.length_cons, List.sum_cons, ih]; omega
  rw [← hlb] at hl
  obtain ⟨_, rfl, h3⟩ := (C91_estimate hp simLimit hs sc e).mp he
  cases h : execute feeDenomOnly (c.withList perByte l) vm
      (before true false sc + (burn - given burn refund) + total sc.post) with
  | none => rfl
  | some m =>
    have := ((C91_succeeds hp feeDenomOnly _ _ h3).mp (by rw [h]; rfl)).2
    have e1 : before false feeDenomOnly (c.withList perByte l) = before false feeDenomOnly c + perByte * listBytes l := by
      unfold before Steps.withList
      dsimp only
      generalize (if feeDenomOnly = true then 0 else (if false = true then 250000 else 0) + total c.inner
        + total c.rest) = F
      omega
    rw [e1] at this
    have e2 : (c.withList perByte l).post = c.post := rfl
    rw [e2] at this
    omega

/-- **C91 does not hold** for a program that needs more than the simulation gas limit: it has no estimate, although it runs
with a large enough gas limit. -/
theorem C91_large_violated {vm : Nat → VmResult} {need burn refund : Nat} (hp : Plain vm need burn refund)
    (simLimit : Nat) (hs : simLimit < need) (hs64 : simLimit < 2 ^ 64) (feeDenomOnly : Bool) (sc c : Steps)
    (gas : Nat) (hg : gas < 2 ^ 64) (hb : before false feeDenomOnly c + need + total c.post ≤ gas) :
    estimate simLimit sc vm = none ∧ (execute feeDenomOnly c vm gas).isSome = true := by
  have := given_le burn refund
  have h1 := hp.1
  refine ⟨?_, (C91_succeeds hp feeDenomOnly c gas hg).mpr ⟨by omega, by omega⟩⟩
  cases h : estimate simLimit sc vm with
  | none => rfl
  | some e =>
    have := ((C91_estimate hp simLimit hs64 sc e).mp h).1
    omega

/-! ### Concrete cases -/

/-- A simulated transaction of 250 bytes (and 100 for the signature) and the real one of 520 bytes, ten gas a byte. -/
def toySim : Steps := { size := 3500, inner := [1000], rest := [2000, 1000], pre := [4000], post := [] }
def toyReal : Steps := { size := 5200, inner := [40000], rest := [2000, 1000], pre := [4000], post := [3000] }

/-- Non-vacuity of C91_enough_partial: a transfer that burns 30000 with a small refund. -/
example : (∃ e, estimate 3000000 toySim (clearer 6) = some e ∧ (execute true toyReal (clearer 6) e).isSome = true) ∧
    estimate 3000000 toySim (clearer 6) = some 285500 := by
  refine ⟨⟨285500, ?_, ?_⟩, ?_⟩ <;> decide +kernel

/-- Non-vacuity of C91_refund_violated: clearing 300 slots with the default simulation limit is estimated at 1461500, with
which it fails; with 1500000 + 12200 it succeeds. -/
example : estimate 3000000 toySim (clearer 300) = some 1461500 ∧
    execute true toyReal (clearer 300) 1461500 = none ∧
    (execute true toyReal (clearer 300) 1512200).isSome = true ∧
    before true false toySim + total toySim.post < before false true toyReal + 1000 * 300 := by
  refine ⟨?_, ?_, ?_, ?_⟩ <;> decide +kernel

/-- Non-vacuity of C91_list_violated: an access list of 550 addresses. -/
example : before true false toySim + total toySim.post
      < before false true toyReal + total toyReal.post + 10 * listBytes (List.replicate 550 0) ∧
    execute true (toyReal.withList 10 (List.replicate 550 0)) (clearer 6) 285500 = none := by
  refine ⟨?_, ?_⟩ <;> decide +kernel

/-- Non-vacuity of C91_large_violated. -/
example : estimate 3000000 toySim (clearer 601) = none ∧ (execute true toyReal (clearer 601) 4000000).isSome = true := by
  refine ⟨?_, ?_⟩ <;> decide +kernel

end Verif.Estimate
