import Verif.Model.HookGas
import Verif.Props.Nested
import Verif.Props.Refunds
/-
C36, the gas side: callbacks of acknowledgements and timeouts run on the relayer's gas.
-/
namespace Verif.Props.HookGas
open Verif Verif.Nested Verif.HookGas
open Verif.Exec (Meter computeGasLimit calGasUsed VmErr Method)

variable {S C M : Type}

theorem consume_left (m : Meter) (a : Nat) (hf : Fine m) (h : a ≤ left m) :
    m.consume a = some { m with consumed := m.consumed + a } := by
  obtain ⟨h1, h2⟩ := hf
  unfold left at h
  unfold Meter.consume
  rw [if_pos ⟨by omega, by omega⟩]

theorem calc_le (b r f : Nat) (hb : b < 2 ^ 64) (hr : r ≤ b) : calGasUsed b r f ≤ b - r := by
  have e : (b + 2 ^ 64 - r) % 2 ^ 64 = b - r := by
    rw [show b + 2 ^ 64 - r = (b - r) + 2 ^ 64 by omega, Nat.add_mod_right]
    exact Nat.mod_eq_of_lt (by omega)
  unfold calGasUsed
  simp only [e]
  split
  · rw [show b - r + 2 ^ 64 - f = (b - r - f) + 2 ^ 64 by omega, Nat.add_mod_right, Nat.mod_eq_of_lt (by omega)]
    omega
  · rw [show b - r + 2 ^ 64 - (b - r) / 5 = (b - r - (b - r) / 5) + 2 ^ 64 by omega, Nat.add_mod_right, Nat.mod_eq_of_lt (by omega)]
    omega

theorem call_runs (sys : Sys S C M) (n : Nat) (c : C) (s : S) (m : Meter) (h : ∀ g, sys.crash c s g = false) :
    evmCall sys none (n + 1) c s m =
      afterVm sys (evmCall sys none n) (computeGasLimit none m) (sys.vm c s (computeGasLimit none m)) m := by
  rw [evmCall, if_neg (by rw [h]; decide)]

/-- The meter when the callback's contract starts. -/
def started (m : Meter) (appGas pre : Nat) : Meter := { m with consumed := m.consumed + appGas + pre }

theorem process_call (sys : Sys S C M) (n appGas pre : Nat) (app : S → Option S) (asked : S → Option C) (s s1 : S) (c : C) (m : Meter)
    (hf : Fine m) (hg : appGas + pre ≤ left m) (ha : app s = some s1) (hc : asked s1 = some c) :
    runHandler (evmCall sys none n) (process appGas pre app asked s) m =
      match evmCall sys none n c s1 (started m appGas pre) with
      | .stuck => .stuck
      | .panic => .panic
      | .ret m' r => .ret m' (some (r.getD s1)) := by
  obtain ⟨h1, h2⟩ := hf
  unfold left at hg
  have e1 := consume_left m appGas ⟨h1, h2⟩ (by unfold left; omega)
  have e2 := consume_left { m with consumed := m.consumed + appGas } pre ⟨by simp only; omega, h2⟩ (by unfold left; simp only; omega)
  simp only [process, runHandler, e1, ha, hc, e2]
  rfl

/-- **C36 (gas).** Once the transfer application's own callback went through and the gas pays for it and for the start of the contract, a
callback whose contract schedules no Cosmos messages and does not panic the machine never keeps the packet from being processed, whatever the contract does and
however much it burns: processing succeeds within the gas limit, and leaves what the application left or what a successful callback
left. -/
theorem C36_gas (sys : Sys S C M) (hs : ∀ c s g, (sys.vm c s g).remaining ≤ g) (n appGas pre : Nat) (app : S → Option S)
    (asked : S → Option C) (s s1 : S) (c : C) (m : Meter) (hf : Fine m) (hg : appGas + pre ≤ left m) (ha : app s = some s1)
    (hc : asked s1 = some c) (hk : ∀ g, sys.crash c s1 g = false) (hq : ∀ g, (sys.vm c s1 g).msgs = []) :
    ∃ m' s', runHandler (evmCall sys none (n + 1)) (process appGas pre app asked s) m = .ret m' (some s') ∧
      m'.limit = m.limit ∧ m'.consumed ≤ m.limit ∧
      (s' = s1 ∨ (sys.vm c s1 (left m - appGas - pre)).err = none ∧ s' = (sys.vm c s1 (left m - appGas - pre)).state) := by
  rw [process_call sys (n + 1) appGas pre app asked s s1 c m hf hg ha hc]
  obtain ⟨h1, h2⟩ := hf
  have hf' : Fine (started m appGas pre) := ⟨by unfold left at hg; simp only [started]; omega, h2⟩
  have hl : computeGasLimit none (started m appGas pre) = left m - appGas - pre := by
    rw [limit_left _ hf']; simp only [left, started]; omega
  have hle := hs c s1 (left m - appGas - pre)
  have hb : left m - appGas - pre < 2 ^ 64 := by unfold left; omega
  have e : evmCall sys none (n + 1) c s1 (started m appGas pre) = afterVm sys (evmCall sys none n)
      (left m - appGas - pre) (sys.vm c s1 (left m - appGas - pre)) (started m appGas pre) := by
    rw [call_runs sys n c s1 _ hk, hl]
  rw [e]
  have hq' := hq (left m - appGas - pre)
  generalize hr : sys.vm c s1 (left m - appGas - pre) = r at *
  by_cases h : r.remaining = 0 ∧ r.err.isSome ∧ r.err ≠ some .outOfGas
  · have : afterVm sys (evmCall sys none n) (left m - appGas - pre) r (started m appGas pre) = .ret (started m appGas pre) none := by
      unfold afterVm; rw [if_pos h]
    rw [this]
    exact ⟨started m appGas pre, s1, rfl, rfl, hf'.1, .inl rfl⟩
  · have hcal := calc_le (left m - appGas - pre) r.remaining r.refund hb hle
    have hco := consume_left (started m appGas pre) (calGasUsed (left m - appGas - pre) r.remaining r.refund) hf'
      (by simp only [left, started] at *; omega)
    have hfin : m.consumed + appGas + pre + calGasUsed (left m - appGas - pre) r.remaining r.refund ≤ m.limit := by
      simp only [left] at *; omega
    cases herr : r.err with
    | some v =>
      have : afterVm sys (evmCall sys none n) (left m - appGas - pre) r (started m appGas pre) =
          .ret ⟨m.limit, m.consumed + appGas + pre + calGasUsed (left m - appGas - pre) r.remaining r.refund⟩ none := by
        unfold afterVm; rw [if_neg h, hco]; simp [herr, started]
      rw [this]
      exact ⟨_, s1, rfl, rfl, hfin, .inl rfl⟩
    | none =>
      have : afterVm sys (evmCall sys none n) (left m - appGas - pre) r (started m appGas pre) =
          .ret ⟨m.limit, m.consumed + appGas + pre + calGasUsed (left m - appGas - pre) r.remaining r.refund⟩ (some r.state) := by
        unfold afterVm; rw [if_neg h, hco, hq']; simp [herr, dispatch, started]
      rw [this]
      exact ⟨_, r.state, rfl, rfl, hfin, .inr ⟨rfl, rfl⟩⟩

/-- **C36 (gas, every contract).** With any contract, also one that schedules messages: either the packet is processed successfully and
within the gas limit, or the transaction of the relayer is aborted, out of gas or by a panic of the machine. A callback never turns the processing into an error. -/
theorem C36_gas_or_success (sys : Sys S C M) (hs : sys.Metered) (appGas pre : Nat) (app : S → Option S) (asked : S → Option C) (s s1 : S)
    (m : Meter) (hf : Fine m) (ha : app s = some s1) :
    let out := runTop sys none (left m / 160 + 1) (process appGas pre app asked s) m
    out = .panic ∨ ∃ m' s', out = .ret m' (some s') ∧ m'.limit = m.limit ∧ m'.consumed ≤ m'.limit := by
  intro out
  have key : ∀ m', out ≠ .ret m' none := by
    intro m' h
    simp only [out, runTop, process, runHandler] at h
    rw [ha] at h
    cases e1 : m.consume appGas with
    | none => rw [e1] at h; cases h
    | some m1 =>
      rw [e1] at h; simp only at h
      cases hc : asked s1 with
      | none => rw [hc] at h; simp only [runHandler] at h; cases h
      | some c =>
        rw [hc] at h; simp only [runHandler] at h
        cases e2 : m1.consume pre with
        | none => rw [e2] at h; cases h
        | some m2 =>
          rw [e2] at h; simp only at h
          split at h <;> cases h
  rcases C87_ends_partial sys hs (process appGas pre app asked s) m hf with ⟨m', r, h1, h2, _, h4⟩ | h
  · cases r with
    | none => exact absurd h1 (key m')
    | some s' => exact .inr ⟨m', s', h1, h2, h4⟩
  · exact .inl h

/-- What the processing of an acknowledgement or timeout may come to (`rec`: what a call of a contract does): an error if and only if the
application's own callback fails; otherwise what the application left, or what a callback that was asked for and succeeded left. -/
inductive Processed (rec : C → S → Meter → Res S) (app : S → Option S) (asked : S → Option C) (s : S) : Option S → Prop
  | error : app s = none → Processed rec app asked s none
  | plain {s1 : S} : app s = some s1 → Processed rec app asked s (some s1)
  | called {s1 s2 : S} {c : C} {m0 m1 : Meter} : app s = some s1 → asked s1 = some c → rec c s1 m0 = .ret m1 (some s2) →
      Processed rec app asked s (some s2)

/-- **C36 (gas, what is left).** With any contract and any gas: the processing of an acknowledgement or timeout ends in one of these ways, within the
gas limit, or the transaction of the relayer is aborted, out of gas or by a panic of the machine. A failed callback leaves nothing behind. -/
theorem C36_gas_exact (sys : Sys S C M) (hs : sys.Metered) (appGas pre : Nat) (app : S → Option S) (asked : S → Option C) (s : S)
    (m : Meter) (hf : Fine m) :
    let n := left m / 160 + 1
    let out := runTop sys none n (process appGas pre app asked s) m
    out = .panic ∨ ∃ m' r, out = .ret m' r ∧ m'.limit = m.limit ∧ m'.consumed ≤ m'.limit ∧
      Processed (evmCall sys none n) app asked s r := by
  intro n out
  have key : out = .stuck ∨ out = .panic ∨ ∃ m' r, out = .ret m' r ∧ Processed (evmCall sys none n) app asked s r := by
    simp only [out, runTop, process, runHandler]
    cases e1 : m.consume appGas with
    | none => exact .inr (.inl rfl)
    | some m1 =>
      simp only
      cases ha : app s with
      | none => exact .inr (.inr ⟨m1, none, rfl, .error ha⟩)
      | some s1 =>
        simp only
        cases hc : asked s1 with
        | none => exact .inr (.inr ⟨m1, some s1, rfl, .plain ha⟩)
        | some c =>
          simp only [runHandler]
          cases e2 : m1.consume pre with
          | none => exact .inr (.inl rfl)
          | some m2 =>
            simp only
            cases e3 : evmCall sys none n c s1 m2 with
            | stuck => exact .inl rfl
            | panic => exact .inr (.inl rfl)
            | ret m3 r =>
              cases r with
              | none => exact .inr (.inr ⟨m3, some s1, rfl, .plain ha⟩)
              | some s2 => exact .inr (.inr ⟨m3, some s2, rfl, .called ha hc e3⟩)
  rcases C87_ends_partial sys hs (process appGas pre app asked s) m hf with ⟨m', r, h1, h2, _, h4⟩ | h
  · rcases key with k | k | ⟨m2, r2, k, hk⟩
    · rw [show out = _ from h1] at k; cases k
    · exact .inl k
    · rw [show out = _ from h1] at k
      injection k with k1 k2
      subst k1 k2
      exact .inr ⟨m', r, h1, h2, h4, hk⟩
  · exact .inl h

theorem cal_plain (b r : Nat) (hb : b < 2 ^ 64) (hr : r ≤ b) : calGasUsed b r 0 = b - r := by
  have e : (b + 2 ^ 64 - r) % 2 ^ 64 = b - r := by
    rw [show b + 2 ^ 64 - r = (b - r) + 2 ^ 64 by omega, Nat.add_mod_right]
    exact Nat.mod_eq_of_lt (by omega)
  have h0 : (if (b - r) / 5 > 0 then 0 else (b - r) / 5) = 0 := by split <;> omega
  unfold calGasUsed
  simp only [e, h0]
  rw [Nat.sub_zero, Nat.add_mod_right]
  exact Nat.mod_eq_of_lt (by omega)

/-- **C36 (blocked, violated).** A contract that schedules a message and returns with less gas than the message takes aborts, by
its callback, the processing of its packet: whatever the gas limit, as long as it pays for the contract's own work, and however much
the relayer pays, the acknowledgement or timeout, and with it the refund of the transfer, does not happen. -/
theorem C36_blocked_violated (sys : Sys S C M) (n appGas pre spare need work : Nat) (app : S → Option S) (asked : S → Option C)
    (s s1 s2 : S) (c : C) (x : M) (next : S → Handler S C) (m : Meter) (hf : Fine m) (hw : spare ≤ work)
    (hg : appGas + pre + work ≤ left m) (ha : app s = some s1) (hc : asked s1 = some c)
    (hk : ∀ g, sys.crash c s1 g = false) (hn : spare < need)
    (hv : ∀ g, work ≤ g → sys.vm c s1 g = ⟨spare, 0, none, s2, [x]⟩) (hx : ∀ s, sys.handler x s = .use need (next s)) :
    runHandler (evmCall sys none (n + 1)) (process appGas pre app asked s) m = .panic := by
  rw [process_call sys (n + 1) appGas pre app asked s s1 c m hf (by omega) ha hc]
  obtain ⟨h1, h2⟩ := hf
  have hf' : Fine (started m appGas pre) := ⟨by unfold left at hg; simp only [started]; omega, h2⟩
  have hl : computeGasLimit none (started m appGas pre) = left m - appGas - pre := by
    rw [limit_left _ hf']; simp only [left, started]; omega
  have hu := cal_plain (left m - appGas - pre) spare (by unfold left; omega) (by omega)
  have hco := consume_left (started m appGas pre) (left m - appGas - pre - spare) hf' (by simp only [left, started]; omega)
  have hno : ({ started m appGas pre with consumed := (started m appGas pre).consumed + (left m - appGas - pre - spare) } : Meter).consume
      need = none := by
    unfold Meter.consume
    rw [if_neg]
    intro h
    simp only [started, left] at h hg
    omega
  have e : evmCall sys none (n + 1) c s1 (started m appGas pre) = .panic := by
    rw [call_runs sys n c s1 _ hk]
    rw [hl, hv _ (by omega)]
    unfold afterVm
    simp only [Option.isSome_none, Bool.false_eq_true, false_and, and_false, if_false, hu, hco]
    unfold dispatch
    rw [hx]
    simp only [runHandler, hno]
  rw [e]

/-- **C36 (batches, violated).** A callback whose contract runs out of gas leaves none for the rest of the relayer's transaction: whatever
the gas limit, every message after it that uses any gas at all fails, and with it the whole transaction, so that acknowledgements of
others in the same transaction are not processed either. -/
theorem C36_batch_violated (sys : Sys S C M) (n appGas pre k : Nat) (app : S → Option S) (asked : S → Option C) (s s1 : S) (c : C)
    (m : Meter) (hf : Fine m) (hg : appGas + pre ≤ left m) (ha : app s = some s1) (hc : asked s1 = some c)
    (hk : ∀ g, sys.crash c s1 g = false) (hoog : ∀ g, sys.vm c s1 g = ⟨0, 0, some .outOfGas, s1, []⟩) (x y : M) (rest : List M) (next : S → Handler S C)
    (hx : ∀ s, sys.handler x s = process appGas pre app asked s) (hy : ∀ s, sys.handler y s = .use (k + 1) (next s)) :
    relay sys (n + 1) (x :: y :: rest) s m = .panic := by
  have hp := process_call sys (n + 1) appGas pre app asked s s1 c m hf hg ha hc
  obtain ⟨h1, h2⟩ := hf
  have hf' : Fine (started m appGas pre) := ⟨by unfold left at hg; simp only [started]; omega, h2⟩
  have hl : computeGasLimit none (started m appGas pre) = left m - appGas - pre := by
    rw [limit_left _ hf']; simp only [left, started]; omega
  have hu := cal_plain (left m - appGas - pre) 0 (by unfold left; omega) (Nat.zero_le _)
  rw [Nat.sub_zero] at hu
  have hco := consume_left (started m appGas pre) (left m - appGas - pre) hf' (by simp only [left, started]; omega)
  have e : evmCall sys none (n + 1) c s1 (started m appGas pre) =
      .ret { started m appGas pre with consumed := (started m appGas pre).consumed + (left m - appGas - pre) } none := by
    rw [call_runs sys n c s1 _ hk]
    rw [hl, hoog]
    unfold afterVm
    simp [hu, hco]
  rw [e] at hp
  unfold relay dispatch
  rw [hx, hp]
  simp only
  unfold dispatch
  rw [hy]
  simp only [runHandler]
  have : ({ started m appGas pre with consumed := (started m appGas pre).consumed + (left m - appGas - pre) } : Meter).consume
      (k + 1) = none := by
    unfold Meter.consume
    rw [if_neg]
    intro h
    simp only [started, left] at h hg
    omega
  rw [this]

/-! ### Receiving (C35) -/

/-- Calls that all went well, one after the other, from `s` to `s'` (`rec`: what a call of a contract does). -/
inductive AllOk (rec : C → S → Meter → Res S) : List C → S → S → Prop
  | none {s : S} : AllOk rec [] s s
  | one {c : C} {cs : List C} {s s1 s2 : S} {m m1 : Meter} : rec c s m = .ret m1 (some s1) → AllOk rec cs s1 s2 → AllOk rec (c :: cs) s s2

/-- The two acknowledgements: of an error, on the state before the packet; of a success, after the application, every approval
and the contract went well. -/
inductive Acked (rec : C → S → Meter → Res S) (app : S → Option S) (approvals : List C) (call : C) (store : Bool → S → S) (s : S) : S → Prop
  | error : Acked rec app approvals call store s (store false s)
  | success {s1 s2 : S} : app s = some s1 → AllOk rec (approvals ++ [call]) s1 s2 → Acked rec app approvals call store s (store true s2)

theorem ack_write (rec : C → S → Meter → Res S) (ackGas : Nat) (x : S) (m : Meter) :
    runHandler rec (.use ackGas (.done (some x))) m = .panic ∨
    ∃ m', m.consume ackGas = some m' ∧ runHandler rec (.use ackGas (.done (some x))) m = .ret m' (some x) := by
  simp only [runHandler]
  cases h : m.consume ackGas with
  | none => exact .inl rfl
  | some m' => exact .inr ⟨m', rfl, rfl⟩

/-- The three ways a computation on the gas meter ends, the last with `P`. -/
def Ends (P : S → Prop) (r : Res S) : Prop := r = .stuck ∨ r = .panic ∨ ∃ m' s', r = .ret m' (some s') ∧ P s'

theorem approving_ends (rec : C → S → Meter → Res S) (P : S → Prop) (call : C) (fail : Handler S C) (next : Option S → Handler S C)
    (hfail : ∀ m, Ends P (runHandler rec fail m)) (hnone : ∀ m, Ends P (runHandler rec (next none) m)) :
    ∀ (as : List C) (s : S) (m : Meter), (∀ s2 m, AllOk rec (as ++ [call]) s s2 → Ends P (runHandler rec (next (some s2)) m)) →
      Ends P (runHandler rec (approving fail as (fun s2 => .call call s2 next) s) m)
  | [], s, m, h => by
    simp only [approving, runHandler]
    cases e : rec call s m with
    | stuck => exact .inl rfl
    | panic => exact .inr (.inl rfl)
    | ret m1 r =>
      cases r with
      | none => exact hnone m1
      | some s1 => exact h s1 m1 (.one e .none)
  | a :: as, s, m, h => by
    simp only [approving, runHandler]
    cases e : rec a s m with
    | stuck => exact .inl rfl
    | panic => exact .inr (.inl rfl)
    | ret m1 r =>
      cases r with
      | none => exact hfail m1
      | some s1 => exact approving_ends rec P call fail next hfail hnone as s1 m1 fun s2 m2 h2 => h s2 m2 (.one e h2)

/-- **C35 (gas).** However the contracts behave and whatever they use, and however many tokens the packet brings, a delivered packet is
acknowledged - with a success only if the application, every approval and the contract all went well, and with an error that leaves
nothing behind otherwise - or the relayer's transaction is aborted, out of gas or by a panic of the machine: there is no third outcome, in
which the packet is processed in part. -/
theorem C35_gas_or_ack (sys : Sys S C M) (hs : sys.Metered) (appGas pre ackGas : Nat) (app : S → Option S) (approvals : List C) (call : C)
    (store : Bool → S → S) (s : S) (m : Meter) (hf : Fine m) :
    let n := left m / 160 + 1
    let out := runTop sys none n (receive appGas pre ackGas app approvals call store s) m
    out = .panic ∨ ∃ m' s', out = .ret m' (some s') ∧ m'.limit = m.limit ∧ m'.consumed ≤ m'.limit ∧
      Acked (evmCall sys none n) app approvals call store s s' := by
  intro n out
  have fin : ∀ (x : S) (m0 : Meter), Acked (evmCall sys none n) app approvals call store s x →
      Ends (Acked (evmCall sys none n) app approvals call store s) (runHandler (evmCall sys none n) (.use ackGas (.done (some x))) m0) := by
    intro x m0 hx
    rcases ack_write (evmCall sys none n) ackGas x m0 with h | ⟨m', _, h⟩
    · exact .inr (.inl h)
    · exact .inr (.inr ⟨m', x, h, hx⟩)
  have key : Ends (Acked (evmCall sys none n) app approvals call store s) out := by
    simp only [out, runTop, receive, runHandler]
    cases e1 : m.consume appGas with
    | none => exact .inr (.inl rfl)
    | some m1 =>
      simp only
      cases ha : app s with
      | none => exact fin _ m1 .error
      | some s1 =>
        simp only [runHandler]
        cases e2 : m1.consume pre with
        | none => exact .inr (.inl rfl)
        | some m2 =>
          simp only
          exact approving_ends _ _ call _ _ (fun m => fin _ m .error) (fun m => fin _ m .error) approvals s1 m2
            fun s2 m h => fin _ m (.success ha h)
  rcases C87_ends_partial sys hs (receive appGas pre ackGas app approvals call store s) m hf with ⟨m', r, h1, h2, _, h4⟩ | h
  · rcases key with k | k | ⟨m2, s', k, hk⟩
    · rw [show out = _ from h1] at k; cases k
    · exact .inl k
    · rw [show out = _ from h1] at k
      injection k with k1 k2
      subst k1 k2
      exact .inr ⟨m', s', h1, h2, h4, hk⟩
  · exact .inl h

/-- **C35 is violated** (a contract that uses all the gas): the call fails, but no acknowledgement is written, of an error or otherwise:
what is left of the relayer's gas does not pay for storing one, whatever the gas limit. The packet cannot be delivered, by any relayer,
and its sender has to wait for the timeout. -/
theorem C35_gas_violated (sys : Sys S C M) (n appGas pre k apGas : Nat) (app : S → Option S) (approve call : C) (store : Bool → S → S)
    (s s1 s2 : S) (m : Meter) (hf : Fine m) (hg : appGas + pre + apGas ≤ left m) (ha : app s = some s1)
    (hka : ∀ g, sys.crash approve s1 g = false) (hkc : ∀ g, sys.crash call s2 g = false) (hap : ∀ g, apGas ≤ g → sys.vm approve s1 g = ⟨g - apGas, 0, none, s2, []⟩)
    (hoog : ∀ g, sys.vm call s2 g = ⟨0, 0, some .outOfGas, s2, []⟩) :
    runHandler (evmCall sys none (n + 1)) (receive appGas pre (k + 1) app [approve] call store s) m = .panic := by
  obtain ⟨h1, h2⟩ := hf
  unfold left at hg
  have e1 := consume_left m appGas ⟨h1, h2⟩ (by unfold left; omega)
  have e2 := consume_left { m with consumed := m.consumed + appGas } pre ⟨by simp only; omega, h2⟩ (by unfold left; simp only; omega)
  have hf1 : Fine (started m appGas pre) := ⟨by simp only [started]; omega, h2⟩
  have hl1 : computeGasLimit none (started m appGas pre) = m.limit - (m.consumed + appGas + pre) := by
    rw [limit_left _ hf1]; rfl
  have hu1 := cal_plain (m.limit - (m.consumed + appGas + pre)) (m.limit - (m.consumed + appGas + pre) - apGas) (by omega) (by omega)
  have hc1 := consume_left (started m appGas pre) apGas hf1 (by simp only [left, started]; omega)
  have ap : evmCall sys none (n + 1) approve s1 (started m appGas pre) = .ret (started m appGas (pre + apGas)) (some s2) := by
    rw [call_runs sys n approve s1 _ hka]
    rw [hl1, hap _ (by omega)]
    unfold afterVm
    rw [show m.limit - (m.consumed + appGas + pre) - (m.limit - (m.consumed + appGas + pre) - apGas) = apGas by omega] at hu1
    simp only [Option.isSome_none, Bool.false_eq_true, false_and, and_false, if_false, hu1, hc1, dispatch]
    simp only [started, Nat.add_assoc]
  have hf2 : Fine (started m appGas (pre + apGas)) := ⟨by simp only [started]; omega, h2⟩
  have hl2 : computeGasLimit none (started m appGas (pre + apGas)) = m.limit - (m.consumed + appGas + (pre + apGas)) := by
    rw [limit_left _ hf2]; rfl
  have hu2 := cal_plain (m.limit - (m.consumed + appGas + (pre + apGas))) 0 (by omega) (Nat.zero_le _)
  rw [Nat.sub_zero] at hu2
  have hc2 := consume_left (started m appGas (pre + apGas)) (m.limit - (m.consumed + appGas + (pre + apGas))) hf2
    (by simp only [left, started]; omega)
  have ca : evmCall sys none (n + 1) call s2 (started m appGas (pre + apGas)) = .ret { m with consumed := m.limit } none := by
    rw [call_runs sys n call s2 _ hkc, hl2, hoog]
    unfold afterVm
    simp only [ne_eq, not_true_eq_false, and_false, if_false, hu2, hc2, Option.isSome_some, if_true]
    simp only [started]
    rw [show m.consumed + appGas + (pre + apGas) + (m.limit - (m.consumed + appGas + (pre + apGas))) = m.limit by omega]
  have hno : ({ m with consumed := m.limit } : Meter).consume (k + 1) = none := by
    unfold Meter.consume
    rw [if_neg]
    intro h
    simp only at h
    omega
  simp only [receive, approving, runHandler, e1, ha, e2]
  rw [show ({ m with consumed := m.consumed + appGas + pre } : Meter) = started m appGas pre from rfl, ap]
  simp only [runHandler, ca, hno]

/-- **C36 (crashes, violated).** A contract that panics the machine aborts, by its callback, the processing of its packet: whatever the gas
limit, as long as it pays for getting there. (`C163_violated` is such a contract.) -/
theorem C36_crash_violated (sys : Sys S C M) (n appGas pre work : Nat) (app : S → Option S) (asked : S → Option C) (s s1 : S) (c : C)
    (m : Meter) (hf : Fine m) (hg : appGas + pre + work ≤ left m) (ha : app s = some s1) (hc : asked s1 = some c)
    (hk : ∀ g, work ≤ g → sys.crash c s1 g = true) :
    runHandler (evmCall sys none (n + 1)) (process appGas pre app asked s) m = .panic := by
  rw [process_call sys (n + 1) appGas pre app asked s s1 c m hf (by omega) ha hc]
  obtain ⟨h1, h2⟩ := hf
  have hf' : Fine (started m appGas pre) := ⟨by unfold left at hg; simp only [started]; omega, h2⟩
  have hl : computeGasLimit none (started m appGas pre) = left m - appGas - pre := by
    rw [limit_left _ hf']; simp only [left, started]; omega
  rw [evmCall, hl, if_pos (hk _ (by omega))]

/-- **C35 is violated** (a contract that panics the machine): then the delivery of its packet is aborted as well, and nothing is
acknowledged. -/
theorem C35_crash_violated (sys : Sys S C M) (n appGas pre ackGas apGas work : Nat) (app : S → Option S) (approve call : C)
    (store : Bool → S → S) (s s1 s2 : S) (m : Meter) (hf : Fine m) (hg : appGas + pre + apGas + work ≤ left m) (ha : app s = some s1)
    (hka : ∀ g, sys.crash approve s1 g = false) (hap : ∀ g, apGas ≤ g → sys.vm approve s1 g = ⟨g - apGas, 0, none, s2, []⟩)
    (hk : ∀ g, work ≤ g → sys.crash call s2 g = true) :
    runHandler (evmCall sys none (n + 1)) (receive appGas pre ackGas app [approve] call store s) m = .panic := by
  obtain ⟨h1, h2⟩ := hf
  unfold left at hg
  have e1 := consume_left m appGas ⟨h1, h2⟩ (by unfold left; omega)
  have e2 := consume_left { m with consumed := m.consumed + appGas } pre ⟨by simp only; omega, h2⟩ (by unfold left; simp only; omega)
  have hf1 : Fine (started m appGas pre) := ⟨by simp only [started]; omega, h2⟩
  have hl1 : computeGasLimit none (started m appGas pre) = m.limit - (m.consumed + appGas + pre) := by
    rw [limit_left _ hf1]; rfl
  have hu1 := cal_plain (m.limit - (m.consumed + appGas + pre)) (m.limit - (m.consumed + appGas + pre) - apGas) (by omega) (by omega)
  have hc1 := consume_left (started m appGas pre) apGas hf1 (by simp only [left, started]; omega)
  have ap : evmCall sys none (n + 1) approve s1 (started m appGas pre) = .ret (started m appGas (pre + apGas)) (some s2) := by
    rw [call_runs sys n approve s1 _ hka]
    rw [hl1, hap _ (by omega)]
    unfold afterVm
    rw [show m.limit - (m.consumed + appGas + pre) - (m.limit - (m.consumed + appGas + pre) - apGas) = apGas by omega] at hu1
    simp only [Option.isSome_none, Bool.false_eq_true, false_and, and_false, if_false, hu1, hc1, dispatch]
    simp only [started, Nat.add_assoc]
  have hf2 : Fine (started m appGas (pre + apGas)) := ⟨by simp only [started]; omega, h2⟩
  have hl2 : computeGasLimit none (started m appGas (pre + apGas)) = m.limit - (m.consumed + appGas + (pre + apGas)) := by
    rw [limit_left _ hf2]; rfl
  have ca : evmCall sys none (n + 1) call s2 (started m appGas (pre + apGas)) = .panic := by
    rw [evmCall, hl2, if_pos (hk _ (by omega))]
  simp only [receive, approving, runHandler, e1, ha, e2]
  rw [show ({ m with consumed := m.consumed + appGas + pre } : Meter) = started m appGas pre from rfl, ap]
  simp only [runHandler, ca]

/-! ### The hypotheses are met -/

/-- A chain whose contract writes storage as in `C163_violated`, which takes less than 100000 gas (with less, it runs out of gas). -/
def crasher : Sys Unit Bool Unit where
  vm := fun c _ g => if c then ⟨0, 0, some .outOfGas, (), []⟩ else ⟨g - 2000, 0, none, (), []⟩
  handler := fun _ s => .done (some s)
  crash := fun c _ g => c && decide (100000 ≤ g) &&
    match Verif.Refunds.drive Verif.CacheStack.DB.revertToSnapshot Props.Refunds.clearThenSet (Verif.Refunds.start Props.Refunds.held) with
    | .underflow => true
    | _ => false

/-- It panics the machine, by `C163_violated`. -/
theorem crasher_panics (g : Nat) (h : 100000 ≤ g) : crasher.crash true () g = true := by
  simp [crasher, h, Props.Refunds.C163_violated]

/-- No gas limit helps: neither the acknowledgement of its packet nor a packet to it is processed. -/
example (limit : Nat) (h : 103500 ≤ limit) (hl : limit < 2 ^ 64) :
    runHandler (evmCall crasher none 3) (process 1000 500 some (fun _ => some true) ()) ⟨limit, 0⟩ = .panic ∧
    runHandler (evmCall crasher none 3) (receive 1000 500 40 some [false] true (fun _ s => s) ()) ⟨limit, 0⟩ = .panic :=
  ⟨C36_crash_violated crasher 2 1000 500 100000 some (fun _ => some true) () () true ⟨limit, 0⟩ ⟨Nat.zero_le _, hl⟩
      (by unfold left; simp only; omega) rfl rfl crasher_panics,
   C35_crash_violated crasher 2 1000 500 40 2000 100000 some false true (fun _ s => s) () () () ⟨limit, 0⟩ ⟨Nat.zero_le _, hl⟩
      (by unfold left; simp only; omega) rfl (fun _ => rfl) (fun _ _ => rfl) crasher_panics⟩


/-- A chain with one contract that never stops; messages: a packet whose memo asks for it, and a plain one. -/
def spinner : Sys Nat Unit Bool where
  vm := fun _ s _ => ⟨0, 0, some .outOfGas, s, []⟩
  handler := fun x s => if x then process 1000 500 (fun s => some (s + 1)) (fun _ => some ()) s else .use 10 (.done (some (s + 10)))

/-- What a transaction leaves: whether it panicked, the state, the gas. -/
def seen : Res Nat → Bool × Option Nat × Nat
  | .stuck => (false, none, 0)
  | .panic => (true, none, 0)
  | .ret m r => (false, r, m.consumed)

/-- Alone, the packet is processed, with all the gas gone; after it, nothing fits. -/
example : seen (relay spinner 3 [true] 0 ⟨100000, 0⟩) = (false, some 1, 100000) ∧
    seen (relay spinner 3 [true, false] 0 ⟨100000, 0⟩) = (true, none, 0) ∧
    seen (relay spinner 3 [false, false] 0 ⟨100000, 0⟩) = (false, some 20, 20) := by decide +kernel

example : relay spinner 3 [true, false] 0 ⟨100000, 0⟩ = .panic :=
  C36_batch_violated spinner 2 1000 500 9 (fun s => some (s + 1)) (fun _ => some ()) 0 1 () ⟨100000, 0⟩ (by unfold Fine; decide) (by decide)
    rfl rfl (fun _ => rfl) (fun _ => rfl) true false [] (fun s => .done (some (s + 10))) (fun _ => rfl) (fun _ => rfl)

/-- A contract that uses up all but 5000 gas and leaves a message behind whose handling takes 10000. -/
def greedy : Sys Unit Unit Unit where
  vm := fun _ _ g => if 30000 ≤ g then ⟨5000, 0, none, (), [()]⟩ else ⟨0, 0, some .outOfGas, (), []⟩
  handler := fun _ s => .use 10000 (.done (some s))

/-- It is within the gas schedule. -/
theorem greedy_metered : greedy.Metered := by
  constructor
  · intro c s g; simp only [greedy]; split <;> simp; omega
  · intro c s g h; simp only [greedy] at h ⊢
    split at h
    · next hg => rw [if_pos hg]; simp only [Method.gas]; omega
    · exact absurd rfl h

/-- No gas limit that leaves it 30000 will do. -/
example (limit : Nat) (h : 31500 ≤ limit) (hl : limit < 2 ^ 64) :
    runHandler (evmCall greedy none 5) (process 1000 500 some some ()) ⟨limit, 0⟩ = .panic :=
  C36_blocked_violated greedy 4 1000 500 5000 10000 30000 some some () () () () () (fun s => .done (some s)) ⟨limit, 0⟩
    ⟨Nat.zero_le _, hl⟩ (by decide) (by unfold left; simpa using h) rfl rfl (fun _ => rfl) (by decide) (fun g hg => if_pos hg) (fun _ => rfl)

/-- An application that refuses is an error; one that does not, with a contract that ends or one that never does. -/
example : seen (runHandler (evmCall spinner none 3) (process 1000 500 (fun _ => none) (fun _ => some ()) 0) ⟨100000, 0⟩) =
    (false, none, 1000) ∧
    seen (runHandler (evmCall spinner none 3) (process 1000 500 (fun s => some (s + 7)) (fun _ => none) 0) ⟨100000, 0⟩) =
    (false, some 7, 1000) := by decide +kernel

/-- `C36_gas` for the contract that never stops. -/
example : ∃ m' s', runHandler (evmCall spinner none 3) (process 1000 500 (fun s => some (s + 1)) (fun _ => some ()) 0) ⟨100000, 0⟩ =
    .ret m' (some s') :=
  let ⟨m', s', h, _⟩ := C36_gas spinner (fun _ _ _ => Nat.zero_le _) 2 1000 500 (fun s => some (s + 1)) (fun _ => some ()) 0 1 ()
    ⟨100000, 0⟩ ⟨by decide, by decide⟩ (by decide) rfl rfl (fun _ => rfl) (fun _ => rfl)
  ⟨m', s', h⟩

/-- A token contract (`false`) that approves for 2000 gas, and a contract (`true`) that never stops, or one that does. -/
def taker (spins : Bool) : Sys Nat Bool Unit where
  vm := fun c s g =>
    if c then (if spins then ⟨0, 0, some .outOfGas, s, []⟩ else ⟨g - 300, 0, none, s + 10, []⟩)
    else if 2000 ≤ g then ⟨g - 2000, 0, none, s + 1, []⟩ else ⟨0, 0, some .outOfGas, s, []⟩
  handler := fun _ s => .done (some s)

/-- The well-behaved contract is paid and acknowledged; for the other no gas limit is enough. -/
example : seen (runHandler (evmCall (taker false) none 3) (receive 1000 500 40 (fun s => some (s + 100)) [false] true
      (fun ok s => if ok then s + 1000 else s + 2000) 0) ⟨100000, 0⟩) = (false, some 1111, 3840) ∧
    seen (runHandler (evmCall (taker false) none 3) (receive 1000 500 40 (fun _ => none) [false] true
      (fun ok s => if ok then s + 1000 else s + 2000) 0) ⟨100000, 0⟩) = (false, some 2000, 1040) := by decide +kernel

/-- A packet of three tokens: three approvals, 2000 gas each; and one of two that the gas is not enough for. -/
example : seen (runHandler (evmCall (taker false) none 3) (receive 1000 500 40 (fun s => some (s + 100)) [false, false, false] true
      (fun ok s => if ok then s + 1000 else s + 2000) 0) ⟨100000, 0⟩) = (false, some 1113, 7840) ∧
    seen (runHandler (evmCall (taker false) none 3) (receive 1000 500 40 (fun s => some (s + 100)) [false, false] true
      (fun ok s => if ok then s + 1000 else s + 2000) 0) ⟨4000, 0⟩) = (true, none, 0) := by decide +kernel

example (limit : Nat) (h : 3500 ≤ limit) (hl : limit < 2 ^ 64) :
    runHandler (evmCall (taker true) none 3) (receive 1000 500 40 (fun s => some (s + 100)) [false] true
      (fun ok s => if ok then s + 1000 else s + 2000) 0) ⟨limit, 0⟩ = .panic :=
  C35_gas_violated (taker true) 2 1000 500 39 2000 _ false true _ 0 100 101 ⟨limit, 0⟩ ⟨Nat.zero_le _, hl⟩ (by unfold left; simpa using h) rfl
    (fun _ => rfl) (fun _ => rfl) (fun g hg => by simp [taker, hg]) (fun _ => rfl)

end Verif.Props.HookGas
