import Verif.Spec.Exec
import Verif.Props.World2
/-
C08 (charge), C11 (gas is paid), C12 (precompiles), C13 (Cosmos messages), C47 (access lists).
-/
namespace Verif.Props.Exec
open Verif Verif.World Verif.World.Spec Verif.Exec Verif.Exec.Spec

/-! ### C08 -/

/-- C08: the gas charged is the gas used minus `min(used/5, refund)`; it is at least 4/5 of the gas used
and never above it. -/
theorem C08_charge (balance remaining refund : Nat) (hr : remaining ≤ balance) (hb : balance < 2 ^ 64) :
    calGasUsed balance remaining refund =
      (balance - remaining) - min ((balance - remaining) / 5) refund ∧
    4 * (balance - remaining) ≤ 5 * calGasUsed balance remaining refund ∧
    calGasUsed balance remaining refund ≤ balance - remaining := by
  have h1 : (balance + 2 ^ 64 - remaining) % 2 ^ 64 = balance - remaining := by omega
  have h2 : calGasUsed balance remaining refund =
      (balance - remaining) - min ((balance - remaining) / 5) refund := by
    simp only [calGasUsed, h1]
    split <;> omega
  refine ⟨h2, ?_, ?_⟩ <;> rw [h2] <;> omega

example : calGasUsed 100000 40000 30000 = 48000 ∧ calGasUsed 100000 40000 500 = 59500 := by decide +kernel

/-! ### C11 -/

theorem consume_fits (m : Meter) (q : Nat) (h : m.consumed + q ≤ m.limit) (hl : m.limit < 2 ^ 64) :
    m.consume q = some ⟨m.limit, m.consumed + q⟩ := by
  have : m.consumed + q < 2 ^ 64 ∧ m.consumed + q ≤ m.limit := ⟨Nat.lt_of_le_of_lt h hl, h⟩
  simp only [Meter.consume, this, and_self, if_true]

/-- C11 (code, part that holds): when the execution succeeds, runs out of gas, or fails leaving some gas,
the meter is charged with the used gas minus the capped refund, the meter never panics and never exceeds
its limit. Missing: failures that consume all gas with another error (see `C11_violated`). -/
theorem C11_partial (vm : Nat → VmResult) (m : Meter) (hm : m.consumed ≤ m.limit) (hl : m.limit < 2 ^ 64)
    (hvm : ∀ g, (vm g).remaining ≤ g)
    (hcase : (vm (m.limit - m.consumed)).err = none ∨ (vm (m.limit - m.consumed)).err = some .outOfGas ∨
      0 < (vm (m.limit - m.consumed)).remaining) :
    ∃ m', evmGas none vm m = some (m', (vm (m.limit - m.consumed)).err.isNone) ∧ m'.limit = m.limit ∧
      m'.consumed = m.consumed + ((m.limit - m.consumed - (vm (m.limit - m.consumed)).remaining) -
        min ((m.limit - m.consumed - (vm (m.limit - m.consumed)).remaining) / 5)
          (vm (m.limit - m.consumed)).refund) ∧
      m'.consumed ≤ m'.limit := by
  have hbal : computeGasLimit none m = m.limit - m.consumed := by
    simp only [computeGasLimit, Meter.consumedToLimit]; omega
  have hr := hvm (m.limit - m.consumed)
  have hc := C08_charge (m.limit - m.consumed) (vm (m.limit - m.consumed)).remaining
    (vm (m.limit - m.consumed)).refund hr (by omega)
  generalize hq : calGasUsed (m.limit - m.consumed) (vm (m.limit - m.consumed)).remaining
    (vm (m.limit - m.consumed)).refund = q at hc
  simp only [evmGas, hbal, hq]
  rw [if_neg]
  · rw [consume_fits m q (by omega) hl]
    exact ⟨⟨m.limit, m.consumed + q⟩, rfl, rfl, by rw [← hc.1], by simp only; omega⟩
  · rintro ⟨h1, h2, h3⟩
    rcases hcase with h | h | h
    · rw [h] at h2; simp at h2
    · exact h3 h
    · omega

example : evmGas none (fun g => ⟨g / 2, 10, some .reverted⟩) ⟨100000, 20000⟩ = some (⟨100000, 59990⟩, false) := by
  decide +kernel

/-- C11: exactly when the charge is right. On every meter and for every outcome of the execution the meter
ends within its limit and is either charged as the property says or not at all, and the first holds exactly
if the execution succeeded, ran out of gas or left some gas — or had been given none. -/
theorem C11_exact (vm : Nat → VmResult) (m : Meter) (hm : m.consumed ≤ m.limit) (hl : m.limit < 2 ^ 64)
    (hvm : ∀ g, (vm g).remaining ≤ g) :
    ∃ m' ok, evmGas none vm m = some (m', ok) ∧ m'.limit = m.limit ∧ m'.consumed ≤ m'.limit ∧
      (m'.consumed = m.consumed + ((m.limit - m.consumed - (vm (m.limit - m.consumed)).remaining) -
          min ((m.limit - m.consumed - (vm (m.limit - m.consumed)).remaining) / 5)
            (vm (m.limit - m.consumed)).refund) ↔
        (vm (m.limit - m.consumed)).err = none ∨ (vm (m.limit - m.consumed)).err = some .outOfGas ∨
          0 < (vm (m.limit - m.consumed)).remaining ∨ m.consumed = m.limit) ∧
      (¬ ((vm (m.limit - m.consumed)).err = none ∨ (vm (m.limit - m.consumed)).err = some .outOfGas ∨
          0 < (vm (m.limit - m.consumed)).remaining) → m'.consumed = m.consumed ∧ ok = false) := by
  by_cases hcase : (vm (m.limit - m.consumed)).err = none ∨ (vm (m.limit - m.consumed)).err = some .outOfGas ∨
      0 < (vm (m.limit - m.consumed)).remaining
  · obtain ⟨m', h1, h2, h3, h4⟩ := C11_partial vm m hm hl hvm hcase
    refine ⟨m', _, h1, h2, h4, ⟨fun _ => ?_, fun _ => h3⟩, fun h => absurd hcase h⟩
    rcases hcase with h | h | h
    · exact Or.inl h
    · exact Or.inr (Or.inl h)
    · exact Or.inr (Or.inr (Or.inl h))
  · have hbal : computeGasLimit none m = m.limit - m.consumed := by
      simp only [computeGasLimit, Meter.consumedToLimit]; omega
    have h1 : (vm (m.limit - m.consumed)).err ≠ none := fun h => hcase (Or.inl h)
    have h2 : (vm (m.limit - m.consumed)).err ≠ some .outOfGas := fun h => hcase (Or.inr (Or.inl h))
    have h3 : (vm (m.limit - m.consumed)).remaining = 0 := by
      have : ¬ 0 < (vm (m.limit - m.consumed)).remaining := fun h => hcase (Or.inr (Or.inr h))
      omega
    have hrun : evmGas none vm m = some (m, false) := by
      unfold evmGas
      rw [hbal]
      exact if_pos ⟨h3, Option.isSome_iff_ne_none.mpr h1, h2⟩
    refine ⟨m, false, hrun, rfl, hm, ⟨fun h => ?_, fun h => ?_⟩, fun _ => ⟨rfl, rfl⟩⟩
    · rw [h3] at h
      refine Or.inr (Or.inr (Or.inr ?_))
      omega
    · rcases h with h | h | h | h
      · exact absurd h h1
      · exact absurd h h2
      · omega
      · rw [h3]; omega

example : (evmGas none (fun _ => ⟨0, 10, some .reverted⟩) ⟨100000, 20000⟩).map (·.1.consumed) = some 20000 ∧
    (evmGas none (fun _ => ⟨0, 10, some .reverted⟩) ⟨100000, 100000⟩).map (·.1.consumed) = some 100000 := by
  decide +kernel

/-- C11 (violated by the code): an execution that burns everything it was given and ends with an error
other than out of gas (invalid opcode, stack underflow, ...) costs nothing at all, on every meter. -/
theorem C11_violated (refund : Nat) (simulate : Option Nat) (m : Meter) :
    evmGas simulate (fun _ => ⟨0, refund, some .other⟩) m = some (m, false) := by
  unfold evmGas
  exact if_pos ⟨rfl, rfl, fun h => by cases h⟩

/-- C11 for static calls holds without exception. -/
theorem C11_static (vm : Nat → VmResult) (m : Meter) (hm : m.consumed ≤ m.limit) (hl : m.limit < 2 ^ 64)
    (hvm : ∀ g, (vm g).remaining ≤ g) :
    ∃ m', evmStaticGas none vm m = some (m', (vm (m.limit - m.consumed)).err.isNone) ∧ m'.limit = m.limit ∧
      m'.consumed = m.consumed + ((m.limit - m.consumed - (vm (m.limit - m.consumed)).remaining) -
        min ((m.limit - m.consumed - (vm (m.limit - m.consumed)).remaining) / 5)
          (vm (m.limit - m.consumed)).refund) ∧
      m'.consumed ≤ m'.limit := by
  have hbal : computeGasLimit none m = m.limit - m.consumed := by
    simp only [computeGasLimit, Meter.consumedToLimit]; omega
  have hr := hvm (m.limit - m.consumed)
  have hc := C08_charge (m.limit - m.consumed) (vm (m.limit - m.consumed)).remaining
    (vm (m.limit - m.consumed)).refund hr (by omega)
  generalize hq : calGasUsed (m.limit - m.consumed) (vm (m.limit - m.consumed)).remaining
    (vm (m.limit - m.consumed)).refund = q at hc
  have hq2 : m.consumed + q ≤ m.limit := by omega
  have hrun : evmStaticGas none vm m =
      some (⟨m.limit, m.consumed + q⟩, (vm (m.limit - m.consumed)).err.isNone) := by
    unfold evmStaticGas
    rw [hbal]
    simp only [hq]
    rw [consume_fits m q hq2 hl]
    rfl
  exact ⟨⟨m.limit, m.consumed + q⟩, hrun, rfl, by rw [← hc.1], hq2⟩

example : evmStaticGas none (fun _ => ⟨0, 0, some .other⟩) ⟨100000, 20000⟩ = some (⟨100000, 100000⟩, false) := by
  decide +kernel

/-! ### C12 -/

theorem runSteps_le {S : Type} (supplied : Nat) (steps : List (Nat × (S → S))) (g g' : Nat) (s s' : S)
    (hg : g ≤ supplied) (h : runSteps supplied steps g s = (some g', s')) : g ≤ g' ∧ g' ≤ supplied := by
  induction steps generalizing g s with
  | nil => simp only [runSteps, Prod.mk.injEq, Option.some.injEq] at h; omega
  | cons x xs ih =>
    obtain ⟨c, f⟩ := x
    simp only [runSteps] at h
    split at h
    · have := ih (g + c) (f s) (by omega) h; omega
    · simp at h

/-- C12: the gas a precompile reports is either at most the gas supplied, or exactly one more than
supplied (which the EVM turns into out of gas, and then it did not succeed). When it succeeds, the charge
covers one unit per input byte plus the method's base cost. -/
theorem C12_gas {S : Type} (supplied inputLen : Nat) (readOnly : Bool) (method : Option Method)
    (steps : List (Nat × (S → S))) (fails : Bool) (s : S) :
    let r := extendedRun supplied inputLen readOnly method steps fails s
    (r.used ≤ supplied ∨ (r.used = supplied + 1 ∧ r.ok = false)) ∧
    (r.ok = true → r.used ≤ supplied ∧ ∃ m, method = some m ∧ inputLen + m.gas ≤ r.used) := by
  intro r
  simp only [r, extendedRun]
  cases method with
  | none => simp
  | some m =>
    simp only
    split
    · simp
    · split
      · simp
      · split
        · refine ⟨Or.inl (by simp only; omega), by simp⟩
        · cases hs : runSteps supplied steps (inputLen + m.gas) s with
          | mk o s' =>
            cases o with
            | none => simp
            | some g =>
              have := runSteps_le supplied steps _ _ _ _ (by omega) hs
              simp only
              refine ⟨Or.inl this.2, fun _ => ⟨this.2, m, rfl, this.1⟩⟩

/-- Which methods can change chain state, according to their documentation: scheduling a message and
registering tokens or stores. -/
def changesState : Method → Prop
  | .executeCosmos | .register | .registerFromFactory | .registerStore => True
  | .isBlockedAddress | .isModuleAddress | .toCosmosAddress | .toEvmAddress | .queryCosmos | .toDenom
  | .toErc20 | .isStoreRegistered => False

/-- What the store accesses of a method cost together. -/
def stepCost {S : Type} : List (Nat × (S → S)) → Nat
  | [] => 0
  | (c, _) :: rest => c + stepCost rest

theorem runSteps_eq {S : Type} (supplied : Nat) : ∀ (steps : List (Nat × (S → S))) (g : Nat) (s : S), g ≤ supplied →
    (g + stepCost steps ≤ supplied →
      runSteps supplied steps g s = (some (g + stepCost steps), steps.foldl (fun s x => x.2 s) s)) ∧
    (supplied < g + stepCost steps → (runSteps supplied steps g s).1 = none)
  | [], g, s, h => by
    simp only [stepCost, runSteps, Nat.add_zero, List.foldl_nil]
    exact ⟨fun _ => trivial, fun h' => by omega⟩
  | (c, f) :: rest, g, s, h => by
    simp only [stepCost, runSteps, List.foldl_cons]
    by_cases hc : g + c ≤ supplied
    · have ih := runSteps_eq supplied rest (g + c) (f s) hc
      rw [if_pos hc, ← Nat.add_assoc]
      exact ih
    · rw [if_neg hc]
      exact ⟨fun h' => by omega, fun _ => rfl⟩

/-- C12, the exact charge. A method needs one unit per input byte, its base cost and what its store accesses cost
(nothing of the latter if it is refused in a read-only context). If that is supplied, exactly that is charged, all the
accesses are made, and it succeeds unless refused or failing; otherwise one unit more than supplied is reported - which
the EVM turns into out of gas, taking everything supplied - and it does not succeed. An input that is no method call
is refused for free. -/
theorem C12_charge {S : Type} (supplied inputLen : Nat) (readOnly : Bool) (m : Method)
    (steps : List (Nat × (S → S))) (fails : Bool) (s : S) :
    let refused : Prop := readOnly = true ∧ changesState m
    let need (n : Nat) := inputLen + m.gas + n
    let r := extendedRun supplied inputLen readOnly (some m) steps fails s
    (refused → need 0 ≤ supplied → r.used = need 0 ∧ r.ok = false ∧ r.state = s) ∧
    (refused → supplied < need 0 → r.used = supplied + 1 ∧ r.ok = false ∧ r.state = s) ∧
    (¬ refused → need (stepCost steps) ≤ supplied →
      r.used = need (stepCost steps) ∧ r.ok = !fails ∧ r.state = steps.foldl (fun s x => x.2 s) s) ∧
    (¬ refused → supplied < need (stepCost steps) → r.used = supplied + 1 ∧ r.ok = false) ∧
    extendedRun supplied inputLen readOnly none steps fails s = { used := 0, ok := false, state := s } := by
  intro refused need r
  have hc : m.checksReadOnly = true ↔ changesState m := by cases m <;> simp [changesState, Method.checksReadOnly]
  have href : (m.checksReadOnly && readOnly) = true ↔ refused := by
    simp only [Bool.and_eq_true, hc, refused]; exact And.comm
  have hs := runSteps_eq supplied steps (inputLen + m.gas) s
  refine ⟨?_, ?_, ?_, ?_, rfl⟩
  · intro h h1
    simp only [need, Nat.add_zero] at h1
    simp only [r, need, extendedRun, href.mpr h, if_true]
    rw [if_neg (by omega), if_neg (by omega)]
    exact ⟨rfl, rfl, rfl⟩
  · intro h h1
    simp only [need, Nat.add_zero] at h1
    simp only [r, extendedRun, href.mpr h, if_true]
    by_cases h2 : supplied < inputLen
    · rw [if_pos h2]; exact ⟨rfl, rfl, rfl⟩
    · rw [if_neg h2, if_pos h1]; exact ⟨rfl, rfl, rfl⟩
  · intro h h1
    have hf : (m.checksReadOnly && readOnly) = false := by
      cases hh : (m.checksReadOnly && readOnly)
      · rfl
      · exact absurd (href.mp hh) h
    simp only [need] at h1
    have e := (hs (by omega)).1 h1
    simp only [r, need, extendedRun, hf, e]
    rw [if_neg (by omega), if_neg (by omega)]
    exact ⟨rfl, rfl, rfl⟩
  · intro h h1
    have hf : (m.checksReadOnly && readOnly) = false := by
      cases hh : (m.checksReadOnly && readOnly)
      · rfl
      · exact absurd (href.mp hh) h
    simp only [need] at h1
    simp only [r, extendedRun, hf]
    by_cases h2 : supplied < inputLen
    · rw [if_pos h2]; exact ⟨rfl, rfl⟩
    · rw [if_neg h2]
      by_cases h3 : supplied < inputLen + m.gas
      · rw [if_pos h3]; exact ⟨rfl, rfl⟩
      · rw [if_neg h3]
        have e := (hs (by omega)).2 h1
        cases hr : runSteps supplied steps (inputLen + m.gas) s with
        | mk o s' =>
          rw [hr] at e
          simp only at e
          subst e
          exact ⟨rfl, rfl⟩

example : (extendedRun 1000 36 false (some .toDenom) [(500, id)] false ()).used = 636 ∧
    (extendedRun 600 36 false (some .toDenom) [(500, id)] false ()).used = 601 := by decide +kernel

/-- C12: in a read-only context no state-changing method succeeds, and no state changes, whatever the
method body would do. -/
theorem C12_readonly {S : Type} (supplied inputLen : Nat) (m : Method) (hm : changesState m)
    (steps : List (Nat × (S → S))) (fails : Bool) (s : S) :
    (extendedRun supplied inputLen true (some m) steps fails s).ok = false ∧
    (extendedRun supplied inputLen true (some m) steps fails s).state = s := by
  have hc : m.checksReadOnly = true := by cases m <;> simp_all [changesState, Method.checksReadOnly]
  simp only [extendedRun, hc, Bool.true_and, if_true]
  split
  · exact ⟨rfl, rfl⟩
  · split <;> exact ⟨rfl, rfl⟩

example : (extendedRun 1000 36 false (some .registerStore) [(500, fun n => n + 1)] false 0).state = 1 ∧
    (extendedRun 1000 36 true (some .registerStore) [(500, fun n => n + 1)] false 0).state = 0 := by decide +kernel

/-! ### C13 -/

section
variable {M S : Type} (signers : M → List Bytes) (origin : Addr → Bytes)

theorem accepts_iff (ro : Bool) (c : Addr) (m : M) :
    accepts signers origin ro c m = true ↔ ro = false ∧ signedOnlyBy signers origin c m := by
  simp only [accepts, Bool.and_eq_true, Bool.not_eq_true', List.all_eq_true, decide_eq_true_eq, signedOnlyBy]
  constructor
  · rintro ⟨h1, h2⟩; exact ⟨h1, fun s hs => (h2 s hs).symm⟩
  · rintro ⟨h1, h2⟩; exact ⟨h1, fun s hs => (h2 s hs).symm⟩

open Classical in
mutual
theorem run_eq (ro : Bool) : ∀ (f : MFrame M) (q : List M), MFrame.run signers origin ro f q =
    q ++ ((allCalls ro f).filter fun x => x.2.2 = false ∧ signedOnlyBy signers origin x.1 x.2.1).map (·.2.1)
  | .schedule c m, q => by
    simp only [MFrame.run, allCalls]
    by_cases h : accepts signers origin ro c m = true
    · have := (accepts_iff signers origin ro c m).mp h
      rw [if_pos h]; simp [this]
    · have h2 : ¬ (ro = false ∧ signedOnlyBy signers origin c m) := fun hx => h ((accepts_iff signers origin ro c m).mpr hx)
      simp only [h, List.filter_cons, List.filter_nil]
      simp [h2]
  | .call st body ok, q => by
    simp only [MFrame.run, allCalls]; exact runAll_eq (ro || st) body q
theorem runAll_eq (ro : Bool) : ∀ (fs : List (MFrame M)) (q : List M), MFrame.runAll signers origin ro fs q =
    q ++ ((allCallsL ro fs).filter fun x => x.2.2 = false ∧ signedOnlyBy signers origin x.1 x.2.1).map (·.2.1)
  | [], q => by simp [MFrame.runAll, allCallsL]
  | f :: fs, q => by
    simp only [MFrame.runAll, allCallsL]
    rw [runAll_eq ro fs, run_eq ro f q]; simp
end

/-- C13: every message that is dispatched was scheduled by some contract through the precompile outside
a static call, and every one of its signers is that contract's own Cosmos address. -/
theorem C13_authorized (body : List (MFrame M)) (m : M)
    (h : m ∈ MFrame.runAll signers origin false body []) :
    ∃ c, (c, m, false) ∈ allCallsL false body ∧ signedOnlyBy signers origin c m := by
  classical
  rw [runAll_eq] at h
  simp only [List.nil_append, List.mem_map, List.mem_filter, decide_eq_true_eq] at h
  obtain ⟨⟨c, m', b⟩, ⟨h1, h2, h3⟩, rfl⟩ := h
  simp only at h2; subst h2
  exact ⟨c, h1, h3⟩

/-- C13: a static call schedules nothing and leaves the state alone. -/
theorem C13_static (s : S) (body : List (MFrame M)) :
    evmStaticCallMsgs signers origin s body = ([], s) := by
  classical
  have gen : ∀ x ∈ allCallsL true body, x.2.2 = true := by
    have : (∀ f : MFrame M, ∀ x ∈ allCalls true f, x.2.2 = true) ∧
        (∀ fs : List (MFrame M), ∀ x ∈ allCallsL true fs, x.2.2 = true) := by
      constructor
      · exact fun f => MFrame.rec (motive_1 := fun f => ∀ x ∈ allCalls true f, x.2.2 = true)
          (motive_2 := fun fs => ∀ x ∈ allCallsL true fs, x.2.2 = true)
          (by intro c m x hx; simp [allCalls] at hx; subst hx; rfl)
          (by intro st body ok ih x hx; simp only [allCalls, Bool.true_or] at hx; exact ih x hx)
          (by simp [allCallsL])
          (by
            intro f fs h1 h2 x hx
            simp only [allCallsL, List.mem_append] at hx
            rcases hx with hx | hx
            · exact h1 x hx
            · exact h2 x hx) f
      · exact fun fs => MFrame.rec_1 (motive_1 := fun f => ∀ x ∈ allCalls true f, x.2.2 = true)
          (motive_2 := fun fs => ∀ x ∈ allCallsL true fs, x.2.2 = true)
          (by intro c m x hx; simp [allCalls] at hx; subst hx; rfl)
          (by intro st body ok ih x hx; simp only [allCalls, Bool.true_or] at hx; exact ih x hx)
          (by simp [allCallsL])
          (by
            intro f fs h1 h2 x hx
            simp only [allCallsL, List.mem_append] at hx
            rcases hx with hx | hx
            · exact h1 x hx
            · exact h2 x hx) fs
    exact this.2 body
  simp only [evmStaticCallMsgs, Prod.mk.injEq, and_true]
  rw [runAll_eq]
  simp only [List.nil_append, List.map_eq_nil_iff, List.filter_eq_nil_iff, decide_eq_true_eq]
  rintro x hx ⟨h1, _⟩
  rw [gen x hx] at h1; simp at h1

mutual
theorem calm_calls : ∀ f : MFrame M, calmM f = true →
    ((allCalls false f).filter fun x => x.2.2 = false).map (fun x => (x.1, x.2.1)) = requested f
  | .schedule c m, _ => by simp [allCalls, requested]
  | .call st body ok, h => by
    simp only [calmM, Bool.and_eq_true] at h
    obtain ⟨rfl, h⟩ := h
    cases st with
    | true =>
      simp only [allCalls, requested, Bool.false_or, Bool.not_true, Bool.and_false, Bool.false_eq_true,
        if_false, List.map_eq_nil_iff, List.filter_eq_nil_iff, decide_eq_true_eq]
      intro x hx
      have := static_calls body x hx
      simp [this]
    | false =>
      simp only [allCalls, requested, Bool.or_self, Bool.not_false, Bool.and_self, if_true]
      exact calm_callsL body h
theorem calm_callsL : ∀ fs : List (MFrame M), calmML fs = true →
    ((allCallsL false fs).filter fun x => x.2.2 = false).map (fun x => (x.1, x.2.1)) = requestedAll fs
  | [], _ => by simp [allCallsL, requestedAll]
  | f :: fs, h => by
    simp only [calmML, Bool.and_eq_true] at h
    simp only [allCallsL, requestedAll, List.filter_append, List.map_append, calm_calls f h.1, calm_callsL fs h.2]
theorem static_call : ∀ (f : MFrame M) (x), x ∈ allCalls true f → x.2.2 = true
  | .schedule c m, x, hx => by simp [allCalls] at hx; subst hx; rfl
  | .call st body ok, x, hx => by simp only [allCalls, Bool.true_or] at hx; exact static_calls body x hx
theorem static_calls : ∀ (fs : List (MFrame M)) (x), x ∈ allCallsL true fs → x.2.2 = true
  | [], x, hx => by simp [allCallsL] at hx
  | f :: fs, x, hx => by
    simp only [allCallsL, List.mem_append] at hx
    rcases hx with hx | hx
    · exact static_call f x hx
    · exact static_calls fs x hx
end

open Classical in
/-- C13 (code, part that holds): if no inner call reverts, the dispatched messages are exactly the
authorised ones scheduled by non-static frames, each once, in scheduling order.
Missing: trees with reverting inner calls (see `C13_violated`). -/
theorem C13_order_partial (body : List (MFrame M)) (hc : calmML body = true) :
    MFrame.runAll signers origin false body [] =
      ((requestedAll body).filter fun x => signedOnlyBy signers origin x.1 x.2).map (·.2) := by
  rw [runAll_eq, ← calm_callsL body hc]
  simp only [List.nil_append, List.filter_map, List.map_map, List.filter_filter]
  have : ((fun x : Addr × M => x.2) ∘ fun x : Addr × M × Bool => (x.1, x.2.1)) = fun x => x.2.1 := rfl
  rw [this]
  congr 1
  apply List.filter_congr
  intro x _
  simp only [Function.comp, Bool.decide_and, Bool.and_comm]

example : calmML [MFrame.schedule (Addr.ofNat 1) 5, .call false [.schedule (Addr.ofNat 2) 6] true,
    .call true [.schedule (Addr.ofNat 2) 7] true] = true ∧
  MFrame.runAll (fun n : Nat => [(Addr.ofNat (n - 4)).bytes]) (·.bytes) false
    [MFrame.schedule (Addr.ofNat 1) 5, .call false [.schedule (Addr.ofNat 2) 6] true,
    .call true [.schedule (Addr.ofNat 2) 7] true, .schedule (Addr.ofNat 9) 8] [] = [5, 6] := by decide +kernel

mutual
theorem attempted_calls : ∀ f : MFrame M,
    ((allCalls false f).filter fun x => x.2.2 = false).map (fun x => (x.1, x.2.1)) = attempted f
  | .schedule c m => by simp [allCalls, attempted]
  | .call st body ok => by
    cases st with
    | true =>
      simp only [allCalls, attempted, Bool.false_or, if_true, List.map_eq_nil_iff, List.filter_eq_nil_iff,
        decide_eq_true_eq]
      intro x hx
      have := static_calls body x hx
      simp [this]
    | false =>
      simp only [allCalls, attempted, Bool.or_self, Bool.false_eq_true, if_false]
      exact attempted_callsL body
theorem attempted_callsL : ∀ fs : List (MFrame M),
    ((allCallsL false fs).filter fun x => x.2.2 = false).map (fun x => (x.1, x.2.1)) = attemptedAll fs
  | [] => by simp [allCallsL, attemptedAll]
  | f :: fs => by
    simp only [allCallsL, attemptedAll, List.filter_append, List.map_append, attempted_calls f,
      attempted_callsL fs]
end

mutual
theorem undone_all : ∀ f : MFrame M, undone true f = attempted f
  | .schedule c m => by simp [undone, attempted]
  | .call st body ok => by simp only [undone, attempted, Bool.true_or, undone_allL body]
theorem undone_allL : ∀ fs : List (MFrame M), undoneAll true fs = attemptedAll fs
  | [] => by simp [undoneAll, attemptedAll]
  | f :: fs => by simp only [undoneAll, attemptedAll, undone_all f, undone_allL fs]
end

mutual
theorem undone_length (p : Addr × M → Bool) : ∀ f : MFrame M,
    ((attempted f).filter p).length = ((requested f).filter p).length + ((undone false f).filter p).length
  | .schedule c m => by simp [attempted, requested, undone]
  | .call st body ok => by
    cases st with
    | true => simp [attempted, requested, undone]
    | false =>
      cases ok with
      | true =>
        simp only [attempted, requested, undone, Bool.not_false, Bool.and_self, if_true, Bool.not_true,
          Bool.or_self, Bool.false_eq_true, if_false]
        exact undone_lengthL p body
      | false =>
        simp only [attempted, requested, undone, Bool.not_false, Bool.false_and, if_true,
          Bool.false_or, Bool.false_eq_true, if_false, undone_allL body]
        simp
theorem undone_lengthL (p : Addr × M → Bool) : ∀ fs : List (MFrame M),
    ((attemptedAll fs).filter p).length =
      ((requestedAll fs).filter p).length + ((undoneAll false fs).filter p).length
  | [] => by simp [attemptedAll, requestedAll, undoneAll]
  | f :: fs => by
    simp only [attemptedAll, requestedAll, undoneAll, List.filter_append, List.length_append,
      undone_length p f, undone_lengthL p fs]
    omega
end

mutual
theorem undone_none (p : Addr × M → Bool) : ∀ f : MFrame M, (undone false f).filter p = [] →
    (attempted f).filter p = (requested f).filter p
  | .schedule c m, _ => by simp [attempted, requested]
  | .call st body ok, h => by
    cases st with
    | true => simp [attempted, requested]
    | false =>
      cases ok with
      | true =>
        simp only [attempted, requested, Bool.not_false, Bool.and_self, if_true, Bool.false_eq_true, if_false]
        simp only [undone, Bool.not_true, Bool.or_self, Bool.false_eq_true, if_false] at h
        exact undone_noneL p body h
      | false =>
        simp only [undone, Bool.not_false, Bool.false_or, Bool.false_eq_true, if_false, undone_allL body] at h
        simp only [attempted, requested, Bool.not_false, Bool.false_and, Bool.false_eq_true, if_false, h,
          List.filter_nil]
theorem undone_noneL (p : Addr × M → Bool) : ∀ fs : List (MFrame M), (undoneAll false fs).filter p = [] →
    (attemptedAll fs).filter p = (requestedAll fs).filter p
  | [], _ => by simp [attemptedAll, requestedAll]
  | f :: fs, h => by
    simp only [undoneAll, List.filter_append, List.append_eq_nil_iff] at h
    simp only [attemptedAll, requestedAll, List.filter_append, undone_none p f h.1, undone_noneL p fs h.2]
end

open Classical in
/-- C13: what is dispatched, for every call tree: the authorised messages of *all* `execute_cosmos` calls
outside static frames, in the order of the calls, whether or not the frame that made the call survived. -/
theorem C13_exact (body : List (MFrame M)) :
    MFrame.runAll signers origin false body [] =
      ((attemptedAll body).filter fun x => signedOnlyBy signers origin x.1 x.2).map (·.2) := by
  rw [runAll_eq, ← attempted_callsL body]
  simp only [List.nil_append, List.filter_map, List.map_map, List.filter_filter]
  have : ((fun x : Addr × M => x.2) ∘ fun x : Addr × M × Bool => (x.1, x.2.1)) = fun x => x.2.1 := rfl
  rw [this]
  congr 1
  apply List.filter_congr
  intro x _
  simp only [Function.comp, Bool.decide_and, Bool.and_comm]

open Classical in
/-- C13: the dispatched messages are those of the surviving calls exactly if no frame that reverts made an
authorised call: this and nothing else is where the code departs from the property. -/
theorem C13_order_iff (body : List (MFrame M)) :
    MFrame.runAll signers origin false body [] =
        ((requestedAll body).filter fun x => signedOnlyBy signers origin x.1 x.2).map (·.2) ↔
      ∀ x ∈ undoneAll false body, ¬ signedOnlyBy signers origin x.1 x.2 := by
  rw [C13_exact]
  constructor
  · intro h x hx hs
    have hl := congrArg List.length h
    simp only [List.length_map, undone_lengthL] at hl
    have : (undoneAll false body).filter (fun x => decide (signedOnlyBy signers origin x.1 x.2)) = [] :=
      List.length_eq_zero_iff.mp (by omega)
    rw [List.filter_eq_nil_iff] at this
    exact this x hx (by simpa using hs)
  · intro h
    rw [undone_noneL]
    rw [List.filter_eq_nil_iff]
    intro x hx
    simpa using h x hx

example : attemptedAll [MFrame.schedule (Addr.ofNat 1) 5, .call false [.schedule (Addr.ofNat 2) 6] false,
      .call true [.schedule (Addr.ofNat 2) 7] true] = [(Addr.ofNat 1, 5), (Addr.ofNat 2, 6)] ∧
    undoneAll false [MFrame.schedule (Addr.ofNat 1) 5, .call false [.schedule (Addr.ofNat 2) 6] false,
      .call true [.schedule (Addr.ofNat 2) 7] true] = [(Addr.ofNat 2, 6)] := by decide +kernel

/-- C13 (violated by the code): a message scheduled by an inner call that reverts is dispatched all the
same when the transaction succeeds — for every contract and every message that contract may sign. -/
theorem C13_violated (handle : M → S → Option S) (s : S) (c : Addr) (m : M)
    (hs : signedOnlyBy signers origin c m) :
    evmCallMsgs signers origin handle s [.call false [.schedule c m] false] true = (handle m s).bind some ∧
    requestedAll [MFrame.call false [.schedule c m] false] = [] := by
  have ha : accepts signers origin false c m = true := (accepts_iff signers origin false c m).mpr ⟨rfl, hs⟩
  constructor
  · simp only [evmCallMsgs, MFrame.runAll, MFrame.run, Bool.or_self, ha, if_true, List.nil_append, dispatch]
    cases handle m s <;> rfl
  · simp [requestedAll, requested]

example : signedOnlyBy (fun _ : Nat => [(Addr.ofNat 1).bytes]) (·.bytes) (Addr.ofNat 1) 5 := by
  intro s hs; simpa using hs

/-- C13: a failed execution dispatches nothing (it is an error), and a successful one succeeds exactly
if every scheduled message, run in order on the committed state, succeeds. -/
theorem C13_all_or_nothing (handle : M → S → Option S) (s s' : S) (body : List (MFrame M)) (ok : Bool) :
    evmCallMsgs signers origin handle s body ok = some s' ↔
      ok = true ∧ (MFrame.runAll signers origin false body []).foldlM (fun st m => handle m st) s = some s' := by
  have hd : ∀ (q : List M) (s : S), dispatch handle q s = q.foldlM (fun st m => handle m st) s := by
    intro q
    induction q with
    | nil => intro s; rfl
    | cons m q ih =>
      intro s
      simp only [dispatch, List.foldlM_cons, Option.bind_eq_bind]
      cases handle m s with
      | none => rfl
      | some s1 => exact ih s1
  cases ok <;> simp [evmCallMsgs, hd]

/-- C13 (remark made precise): a message without any required signer passes the authorisation check for
every caller. -/
theorem C13_no_signers (c : Addr) (m : M) (h : signers m = []) : accepts signers origin false c m = true := by
  simp [accepts, h]

end

/-! ### C47 -/

/-- C47 (code, part that holds): for create messages every listed address and slot is warm when the
execution starts. Missing: call messages (see `C47_violated`). -/
theorem C47_create_partial (w : World) (e : Nat) (kind : EvmMsgKind) (hk : kind ≠ .call)
    (sender target : Addr) (pre : List Addr) (list : List AccessTuple) (hclean : ∀ k, w.access e k = false)
    (t : AccessTuple) (ht : t ∈ list) :
    (prepareMsg w e kind sender target pre list).addressInAccessList e t.addr = true ∧
    ∀ s ∈ t.keys, ((prepareMsg w e kind sender target pre list).slotInAccessList e t.addr s).2 = true := by
  have hl : passedAccessList kind list = list := by cases kind <;> simp_all [passedAccessList]
  simp only [prepareMsg, hl]
  refine ⟨?_, ?_⟩
  · rw [(Verif.Props.World.C09_prepare w e sender _ _ pre list hclean t.addr Hash.zero).1]
    exact Or.inr (Or.inr (Or.inr (Or.inl ⟨t, ht, rfl⟩)))
  · intro s hs
    rw [(Verif.Props.World.C09_prepare w e sender _ _ pre list hclean t.addr s).2]
    exact ⟨t, ht, rfl, hs⟩

/-- C47 (violated by the code): for a call message the access list has no effect whatever: every slot is
cold, and a listed address is warm only if it is the sender, the target, a precompile or the zero
address. -/
theorem C47_violated (w : World) (e : Nat) (sender target : Addr) (pre : List Addr)
    (list : List AccessTuple) (hclean : ∀ k, w.access e k = false) (a : Addr) (s : Hash) :
    ((prepareMsg w e .call sender target pre list).addressInAccessList e a = true ↔
      a = sender ∨ a = target ∨ a ∈ pre ∨ a = Addr.zero) ∧
    ((prepareMsg w e .call sender target pre list).slotInAccessList e a s).2 = false := by
  have h := Verif.Props.World.C09_prepare w e sender Addr.zero (some target) pre [] hclean a s
  simp only [prepareMsg, passedAccessList]
  constructor
  · rw [h.1]; simp [eq_comm]
  · rw [← Bool.not_eq_true, h.2]; simp

example : ((prepareMsg (emptyWorld.newStateDB 1) 1 .call (Addr.ofNat 5) (Addr.ofNat 6) [Addr.ofNat 1]
      [⟨Addr.ofNat 7, [Hash.ofNat 3]⟩]).slotInAccessList 1 (Addr.ofNat 7) (Hash.ofNat 3)) = (false, false) ∧
    ((prepareMsg (emptyWorld.newStateDB 1) 1 .create (Addr.ofNat 5) (Addr.ofNat 6) [Addr.ofNat 1]
      [⟨Addr.ofNat 7, [Hash.ofNat 3]⟩]).slotInAccessList 1 (Addr.ofNat 7) (Hash.ofNat 3)) = (true, true) := by
  decide +kernel

end Verif.Props.Exec
