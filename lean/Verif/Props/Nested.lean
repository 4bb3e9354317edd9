import Verif.Model.Nested
import Verif.Props.Exec
/-
C87: every execution ends within its gas.
-/
namespace Verif.Nested
open Verif Verif.Exec

variable {S C M : Type}

/-- Gas left on a meter. -/
def left (m : Meter) : Nat := m.limit - m.consumed

/-- A meter of the chain: not beyond its limit. -/
def Fine (m : Meter) : Prop := m.consumed ≤ m.limit ∧ m.limit < 2 ^ 64

theorem consume_spec {m m' : Meter} {a : Nat} (h : m.consume a = some m') :
    m'.limit = m.limit ∧ m'.consumed = m.consumed + a ∧ m.consumed + a ≤ m.limit := by
  unfold Meter.consume at h
  split at h
  · next hc => cases h; exact ⟨rfl, rfl, hc.2⟩
  · cases h

/-- Results of a computation that had at most the gas of `m`: not stuck, and the meter only went forward. -/
def Good (m : Meter) : Res S → Prop
  | .stuck => False
  | .panic => True
  | .ret m' _ => m'.limit = m.limit ∧ m.consumed ≤ m'.consumed ∧ m'.consumed ≤ m'.limit

theorem good_trans {m m' : Meter} {r : Res S} (h1 : m'.limit = m.limit) (h2 : m.consumed ≤ m'.consumed)
    (h : Good m' r) : Good m r := by
  cases r with
  | stuck => exact h
  | panic => trivial
  | ret m'' r => exact ⟨h.1.trans h1, by have := h.2.1; omega, h.2.2⟩

theorem runHandler_good (rec : C → S → Meter → Res S) (L B : Nat)
    (hr : ∀ c s m, m.limit = L → m.consumed ≤ m.limit → B ≤ m.consumed → Good m (rec c s m)) :
    ∀ (h : Handler S C) (m : Meter), m.limit = L → m.consumed ≤ m.limit → B ≤ m.consumed → Good m (runHandler rec h m) := by
  intro h
  induction h with
  | done r => intro m hL hm hB; exact ⟨rfl, Nat.le_refl _, hm⟩
  | use g k ih =>
    intro m hL hm hB
    unfold runHandler
    split
    · trivial
    · next m' hc =>
      obtain ⟨a, b, c⟩ := consume_spec hc
      exact good_trans a (by omega) (ih m' (a.trans hL) (by omega) (by omega))
  | call c s k ih =>
    intro m hL hm hB
    unfold runHandler
    have := hr c s m hL hm hB
    split
    · next e => rw [e] at this; exact this
    · trivial
    · next m' r e =>
      rw [e] at this
      exact good_trans this.1 this.2.1 (ih r m' (this.1.trans hL) this.2.2 (by have := this.2.1; omega))

theorem dispatch_good (sys : Sys S C M) (rec : C → S → Meter → Res S) (L B : Nat)
    (hr : ∀ c s m, m.limit = L → m.consumed ≤ m.limit → B ≤ m.consumed → Good m (rec c s m)) :
    ∀ (xs : List M) (s : S) (m : Meter), m.limit = L → m.consumed ≤ m.limit → B ≤ m.consumed →
      Good m (dispatch sys rec xs s m)
  | [], s, m, _, hm, _ => ⟨rfl, Nat.le_refl _, hm⟩
  | x :: xs, s, m, hL, hm, hB => by
    unfold dispatch
    have := runHandler_good rec L B hr (sys.handler x s) m hL hm hB
    split
    · next e => rw [e] at this; exact this
    · trivial
    · next m' e => rw [e] at this; exact this
    · next m' s' e =>
      rw [e] at this
      exact good_trans this.1 this.2.1
        (dispatch_good sys rec L B hr xs s' m' (this.1.trans hL) this.2.2 (by have := this.2.1; omega))

/-- Scheduling a message costs at least 160 gas after refunds. -/
theorem charged (balance remaining refund : Nat) (h : remaining + 200 ≤ balance) (hb : balance < 2 ^ 64) :
    160 ≤ calGasUsed balance remaining refund := by
  have e : (balance + 2 ^ 64 - remaining) % 2 ^ 64 = balance - remaining := by
    rw [show balance + 2 ^ 64 - remaining = (balance - remaining) + 2 ^ 64 by omega, Nat.add_mod_right]
    exact Nat.mod_eq_of_lt (by omega)
  unfold calGasUsed
  simp only [e]
  split
  · rw [show balance - remaining + 2 ^ 64 - refund = (balance - remaining - refund) + 2 ^ 64 by omega, Nat.add_mod_right,
      Nat.mod_eq_of_lt (by omega)]
    omega
  · rw [show balance - remaining + 2 ^ 64 - (balance - remaining) / 5 =
      (balance - remaining - (balance - remaining) / 5) + 2 ^ 64 by omega, Nat.add_mod_right, Nat.mod_eq_of_lt (by omega)]
    omega

theorem limit_left (m : Meter) (hf : Fine m) : computeGasLimit none m = left m := by
  unfold computeGasLimit left Meter.consumedToLimit
  obtain ⟨h1, h2⟩ := hf
  simp only
  rw [Nat.min_eq_left h1, show m.limit + 2 ^ 64 - m.consumed = (m.limit - m.consumed) + 2 ^ 64 by omega, Nat.add_mod_right]
  exact Nat.mod_eq_of_lt (by omega)

theorem evmCall_good (sys : Sys S C M) (hs : sys.Metered) : ∀ (n : Nat) (c : C) (s : S) (m : Meter),
    Fine m → left m < 160 * n → Good m (evmCall sys none n c s m)
  | 0, _, _, _, _, h => by omega
  | n + 1, c, s, m, hf, h => by
    show Good m (if sys.crash c s (computeGasLimit none m) then .panic
      else afterVm sys (evmCall sys none n) (computeGasLimit none m) (sys.vm c s (computeGasLimit none m)) m)
    rw [limit_left m hf]
    split
    · trivial
    unfold afterVm
    split
    · exact ⟨rfl, Nat.le_refl _, hf.1⟩
    · split
      · trivial
      · next m' hc =>
        obtain ⟨a, b, d⟩ := consume_spec hc
        split
        · exact ⟨a, by omega, by omega⟩
        · by_cases hm : (sys.vm c s (left m)).msgs = []
          · rw [hm]; exact ⟨a, by omega, by omega⟩
          · have h1 := charged (left m) _ (sys.vm c s (left m)).refund (hs.cost c s _ hm)
              (by unfold left; have := hf.2; omega)
            refine good_trans a (by omega) ?_
            refine dispatch_good sys _ m.limit m'.consumed ?_ _ _ m' a (by omega) (Nat.le_refl _)
            intro c' s' m2 e1 e2 e3
            refine evmCall_good sys hs n c' s' m2 ⟨e2, by rw [e1]; exact hf.2⟩ ?_
            unfold left at h ⊢
            rw [e1]
            omega

/-- **C87** (partial: not in simulations). With a gas limit, every transaction, message and query ends, whatever the
contracts schedule and whatever the handlers of the messages do: at most one execution more is nested than the gas left
pays for at 160 gas each; and the meter never passes its limit. The full statement would include simulations (with their
configured limit), see C87_simulation_violated. -/
theorem C87_ends_partial (sys : Sys S C M) (hs : sys.Metered) (h : Handler S C) (m : Meter) (hf : Fine m) :
    (∃ m' r, runTop sys none (left m / 160 + 1) h m = .ret m' r ∧ m'.limit = m.limit ∧ m.consumed ≤ m'.consumed ∧
      m'.consumed ≤ m'.limit) ∨ runTop sys none (left m / 160 + 1) h m = .panic := by
  have : Good m (runTop sys none (left m / 160 + 1) h m) := by
    refine runHandler_good _ m.limit m.consumed ?_ h m rfl hf.1 (Nat.le_refl _)
    intro c s m2 e1 e2 e3
    refine evmCall_good sys hs _ c s m2 ⟨e2, by rw [e1]; exact hf.2⟩ ?_
    unfold left at *
    rw [e1]
    omega
  generalize runTop sys none (left m / 160 + 1) h m = x at this
  cases x with
  | stuck => exact this.elim
  | panic => exact .inr rfl
  | ret m' r => exact .inl ⟨m', r, rfl, this⟩

/-- **C87 (crashes).** An execution that panics the machine ends the whole transaction, at whatever depth, whatever gas is left. -/
theorem C87_crash (sys : Sys S C M) (sim : Option Nat) (n : Nat) (c : C) (s : S) (m : Meter)
    (hcr : sys.crash c s (computeGasLimit sim m) = true) (next : Option S → Handler S C) :
    runTop sys sim (n + 1) (.call c s next) m = .panic := by
  simp only [runTop, runHandler, evmCall, if_pos hcr]

/-- **C11 (nested executions).** At every depth, an execution is charged as `C11_exact` says: one that used up its gas without
running out of it (a failure other than out-of-gas) is not charged at all and ends with an error; every other is charged what the
EVM used, and ends with an error exactly if the EVM failed; one that succeeds goes on to the messages it scheduled. (An execution
that panics the machine ends the transaction: `C87_crash`.) -/
theorem C11_nested (sys : Sys S C M) (sim : Option Nat) (n : Nat) (c : C) (s : S) (m : Meter)
    (hcr : sys.crash c s (computeGasLimit sim m) = false) :
    let r := sys.vm c s (computeGasLimit sim m)
    let g := evmGas sim (fun b => ⟨(sys.vm c s b).remaining, (sys.vm c s b).refund, (sys.vm c s b).err⟩) m
    (r.remaining = 0 → r.err = some .other ∨ r.err = some .reverted → evmCall sys sim (n + 1) c s m = .ret m none) ∧
    (g = none → evmCall sys sim (n + 1) c s m = .panic) ∧
    (∀ m', g = some (m', false) → evmCall sys sim (n + 1) c s m = .ret m' none) ∧
    (∀ m', g = some (m', true) → evmCall sys sim (n + 1) c s m = dispatch sys (evmCall sys sim n) r.msgs r.state m') ∧
    (∀ m', g = some (m', true) → r.msgs = [] → evmCall sys sim (n + 1) c s m = .ret m' (some r.state)) := by
  intro r g
  have e : evmCall sys sim (n + 1) c s m = afterVm sys (evmCall sys sim n) (computeGasLimit sim m) r m := by
    rw [evmCall, if_neg (by rw [hcr]; decide)]
  have key : ∀ m', g = some (m', true) → evmCall sys sim (n + 1) c s m = dispatch sys (evmCall sys sim n) r.msgs r.state m' := by
    intro m' hg
    rw [e]
    simp only [g, evmGas] at hg
    unfold afterVm
    by_cases hc : r.remaining = 0 ∧ r.err.isSome ∧ r.err ≠ some .outOfGas
    · rw [if_pos hc] at hg; simp at hg
    · rw [if_neg hc] at hg ⊢
      cases hm : m.consume (calGasUsed (computeGasLimit sim m) r.remaining r.refund) with
      | none => rw [hm] at hg; simp at hg
      | some m2 =>
        rw [hm] at hg
        simp only [Option.map_some, Option.some.injEq, Prod.mk.injEq] at hg
        obtain ⟨rfl, h2⟩ := hg
        have : r.err = none := by simpa using h2
        simp [this]
  refine ⟨?_, ?_, ?_, key, fun m' hg hn => by rw [key m' hg, hn]; rfl⟩
  · intro h1 h2
    rw [e]; unfold afterVm
    rw [if_pos ⟨h1, by rcases h2 with h | h <;> simp [h], by rcases h2 with h | h <;> simp [h]⟩]
  · intro hg
    rw [e]
    simp only [g, evmGas] at hg
    unfold afterVm
    by_cases hc : r.remaining = 0 ∧ r.err.isSome ∧ r.err ≠ some .outOfGas
    · rw [if_pos hc] at hg; simp at hg
    · rw [if_neg hc] at hg ⊢
      cases hm : m.consume (calGasUsed (computeGasLimit sim m) r.remaining r.refund) with
      | none => rfl
      | some m2 => rw [hm] at hg; simp at hg
  · intro m' hg
    rw [e]
    simp only [g, evmGas] at hg
    unfold afterVm
    by_cases hc : r.remaining = 0 ∧ r.err.isSome ∧ r.err ≠ some .outOfGas
    · rw [if_pos hc] at hg ⊢
      simp at hg; rw [hg]
    · rw [if_neg hc] at hg ⊢
      cases hm : m.consume (calGasUsed (computeGasLimit sim m) r.remaining r.refund) with
      | none => rw [hm] at hg; simp at hg
      | some m2 =>
        rw [hm] at hg
        simp only [Option.map_some, Option.some.injEq, Prod.mk.injEq] at hg
        obtain ⟨rfl, h2⟩ := hg
        have : r.err.isSome = true := by cases hr : r.err with
          | none => exact absurd h2 (by show ¬(r.err.isNone = false); simp [hr])
          | some _ => rfl
        simp [this]

/-! ### More fuel changes nothing -/

/-- One computation agrees with another wherever it is not stuck. -/
def Refines (f g : C → S → Meter → Res S) : Prop := ∀ c s m, f c s m ≠ .stuck → g c s m = f c s m

theorem runHandler_refines {f g : C → S → Meter → Res S} (h : Refines f g) :
    ∀ (k : Handler S C) (m : Meter), runHandler f k m ≠ .stuck → runHandler g k m = runHandler f k m := by
  intro k
  induction k with
  | done r => intro m _; rfl
  | use x k ih =>
    intro m hs
    unfold runHandler at hs ⊢
    split
    · rfl
    · next m' hc => simp only [hc] at hs; exact ih m' hs
  | call c s k ih =>
    intro m hs
    unfold runHandler at hs ⊢
    have hne : f c s m ≠ .stuck := by intro e; rw [e] at hs; exact hs rfl
    rw [h c s m hne]
    split
    · rfl
    · rfl
    · next m' r e => simp only [e] at hs; exact ih r m' hs

theorem dispatch_refines (sys : Sys S C M) {f g : C → S → Meter → Res S} (h : Refines f g) :
    ∀ (xs : List M) (s : S) (m : Meter), dispatch sys f xs s m ≠ .stuck → dispatch sys g xs s m = dispatch sys f xs s m
  | [], _, _, _ => rfl
  | x :: xs, s, m, hs => by
    unfold dispatch at hs ⊢
    have hne : runHandler f (sys.handler x s) m ≠ .stuck := by intro e; rw [e] at hs; exact hs rfl
    rw [runHandler_refines h _ m hne]
    split
    · rfl
    · rfl
    · rfl
    · next m' s' e => simp only [e] at hs; exact dispatch_refines sys h xs s' m' hs

theorem evmCall_succ (sys : Sys S C M) (sim : Option Nat) : ∀ n, Refines (evmCall sys sim n) (evmCall sys sim (n + 1))
  | 0 => by intro c s m h; exact absurd rfl h
  | n + 1 => by
    intro c s m h
    by_cases hcr : sys.crash c s (computeGasLimit sim m) = true
    · rw [evmCall, evmCall, if_pos hcr, if_pos hcr]
    have e1 : evmCall sys sim (n + 1) c s m = afterVm sys (evmCall sys sim n) (computeGasLimit sim m)
      (sys.vm c s (computeGasLimit sim m)) m := by rw [evmCall, if_neg hcr]
    have e2 : evmCall sys sim (n + 1 + 1) c s m = afterVm sys (evmCall sys sim (n + 1)) (computeGasLimit sim m)
      (sys.vm c s (computeGasLimit sim m)) m := by rw [evmCall, if_neg hcr]
    rw [e1] at h ⊢
    rw [e2]
    unfold afterVm at h ⊢
    split
    · rfl
    · next h1 =>
      rw [if_neg h1] at h
      split
      · rfl
      · next m' hc =>
        simp only [hc] at h
        split
        · rfl
        · next h2 =>
          rw [if_neg h2] at h
          exact dispatch_refines sys (evmCall_succ sys sim n) _ _ _ h

/-- The result does not depend on how much recursion is allowed for, once it is enough: C87_ends_partial is about the
result of the code, which allows for any. -/
theorem C87_result (sys : Sys S C M) (sim : Option Nat) (n k : Nat) (h : Handler S C) (m : Meter)
    (hn : runTop sys sim n h m ≠ .stuck) : runTop sys sim (n + k) h m = runTop sys sim n h m := by
  have : ∀ k, Refines (evmCall sys sim n) (evmCall sys sim (n + k)) := by
    intro k
    induction k with
    | zero => intro c s m _; rfl
    | succ k ih =>
      intro c s m hc
      have e := ih c s m hc
      rw [← e]
      exact evmCall_succ sys sim (n + k) c s m (by rw [e]; exact hc)
  exact runHandler_refines (this k) h m hn

/-! ### Simulations -/

/-- A contract that schedules a call of itself: a call costs 30000 gas, the message is a call of the same contract. -/
def selfCaller : Sys Unit Unit Unit where
  vm := fun _ _ g => if 30000 ≤ g then ⟨g - 30000, 0, none, (), [()]⟩ else ⟨0, 0, some .outOfGas, (), []⟩
  handler := fun _ s => .call () s .done

theorem selfCaller_metered : selfCaller.Metered := by
  constructor
  · intro c s g; simp only [selfCaller]; split <;> simp
  · intro c s g h; simp only [selfCaller] at h ⊢
    split at h
    · next hg => rw [if_pos hg]; simp only [Method.gas]; omega
    · exact absurd rfl h

theorem self_used (L : Nat) (h1 : 30000 ≤ L) (h2 : L < 2 ^ 64) : calGasUsed L (L - 30000) 0 = 30000 := by
  unfold calGasUsed
  have e : (L + 2 ^ 64 - (L - 30000)) % 2 ^ 64 = 30000 := by
    rw [show L + 2 ^ 64 - (L - 30000) = 30000 + 2 ^ 64 by omega]
  simp only [e]
  rfl

theorem self_dispatch (rec : Unit → Unit → Meter → Res Unit) (m : Meter) (h : rec () () m = .stuck) :
    dispatch selfCaller rec [()] () m = .stuck := by
  have : runHandler rec (selfCaller.handler () ()) m = .stuck := by
    show runHandler rec (.call () () .done) m = .stuck
    unfold runHandler
    rw [h]
  unfold dispatch
  rw [this]

theorem self_num (x k : Nat) (h : x + (k + 30000) < 2 ^ 64) :
    (x + 30000 < 2 ^ 64 ∧ x + 30000 ≤ 2 ^ 64 - 1) ∧ x + 30000 + k < 2 ^ 64 := by omega

theorem self_stuck (L : Nat) (h1 : 30000 ≤ L) (h2 : L < 2 ^ 64) : ∀ (n : Nat) (m : Meter), m.limit = 2 ^ 64 - 1 →
    m.consumed + 30000 * n < 2 ^ 64 → evmCall selfCaller (some L) n () () m = .stuck
  | 0, _, _, _ => rfl
  | n + 1, m, hl, hc => by
    rw [Nat.mul_succ] at hc
    generalize hk : 30000 * n = k at hc
    have ec : ∀ g, selfCaller.crash () () g = false := fun _ => rfl
    have el : computeGasLimit (some L) m = L := rfl
    rw [evmCall, el, ec]
    simp only [Bool.false_eq_true, if_false]
    have e : selfCaller.vm () () L = ⟨L - 30000, 0, none, (), [()]⟩ := by simp only [selfCaller, if_pos h1]
    rw [e]
    have hco : m.consume 30000 = some { m with consumed := m.consumed + 30000 } := by
      unfold Meter.consume
      rw [if_pos (hl ▸ (self_num _ _ hc).1)]
    unfold afterVm
    simp only [Option.isSome_none, Bool.false_eq_true, false_and, and_false, if_false, self_used L h1 h2, hco]
    have := self_stuck L h1 h2 n { m with consumed := m.consumed + 30000 } hl (hk ▸ (self_num _ _ hc).2)
    exact self_dispatch _ _ this

/-- **C87 does not hold** in simulations (`eth_estimateGas`, the simulation endpoint): each nested execution is given the
whole simulation gas limit again and the gas meter is the infinite one (cosmos-sdk), so a contract that schedules a call of
itself is still running at every depth up to 2^64 / 30000, six hundred million million, whatever the limit. (A Go program
that nests so deeply is ended by the runtime: anybody who may call the endpoint can stop the node.) With a gas limit the
same contract ends. -/
theorem C87_simulation_violated (L : Nat) (h1 : 30000 ≤ L) (h2 : L < 2 ^ 64) :
    (∀ n, n ≤ 600000000000000 → runTop selfCaller (some L) n (.call () () .done) ⟨2 ^ 64 - 1, 0⟩ = .stuck) ∧
    selfCaller.Metered ∧ ∃ n, runTop selfCaller none n (.call () () .done) ⟨L, 0⟩ ≠ .stuck := by
  refine ⟨?_, selfCaller_metered, left ⟨L, 0⟩ / 160 + 1, ?_⟩
  · intro n hn
    unfold runTop runHandler
    rw [self_stuck L h1 h2 n _ rfl (by show 0 + 30000 * n < _; omega)]
  · rcases C87_ends_partial selfCaller selfCaller_metered (.call () () .done) ⟨L, 0⟩ ⟨Nat.zero_le _, h2⟩ with h | h
    · obtain ⟨m', r, e, _⟩ := h
      rw [e]; intro h; cases h
    · rw [h]; intro h; cases h

/-- Non-vacuity of C87_ends_partial: the default simulation limit, and a query with the default gas limit. -/
example : Fine ⟨3000000, 0⟩ ∧ (30000 ≤ 3000000 ∧ 3000000 < 2 ^ 64) := ⟨⟨by decide, by decide⟩, by decide, by decide⟩

end Verif.Nested
