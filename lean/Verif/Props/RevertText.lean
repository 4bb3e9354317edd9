import Verif.Model.RevertText
import Verif.Spec.RevertText
/-
C145: a revert is reported as a revert, with its data.
-/
namespace Verif.Props.RevertText
open Verif Verif.Text Verif.RevertText Verif.RevertText.Spec

/-! ### Reading a text from its end -/

theorem dropPrefix_append (p t : Str) : dropPrefix p (p ++ t) = some t := by
  induction p with
  | nil => rfl
  | cons c p ih => simp [dropPrefix, ih]

theorem dropPrefix_length : ∀ (p t u : Str), dropPrefix p t = some u → t.length = p.length + u.length
  | [], t, u, h => by simp only [dropPrefix, Option.some.injEq] at h; subst h; simp
  | _ :: _, [], u, h => by simp [dropPrefix] at h
  | c :: p, d :: t, u, h => by
    unfold dropPrefix at h
    split at h
    · have := dropPrefix_length p t u h
      simp only [List.length_cons]; omega
    · cases h

theorem callWord_length : (": EVMCall failed".toList.reverse).length = 16 := by decide
theorem createWord_length : (": EVMCreate failed".toList.reverse).length = 18 := by decide

/-- More fuel than the text is long makes no difference. -/
theorem dropClosing_fuel : ∀ (n m : Nat) (t : Str), t.length ≤ n → t.length ≤ m → dropClosing n t = dropClosing m t
  | 0, m, t, hn, _ => by
    have : t = [] := List.length_eq_zero_iff.mp (by omega)
    subst this
    cases m with
    | zero => rfl
    | succ m => rfl
  | n + 1, 0, t, _, hm => by
    have : t = [] := List.length_eq_zero_iff.mp (by omega)
    subst this
    rfl
  | n + 1, m + 1, t, hn, hm => by
    unfold dropClosing
    cases h1 : dropPrefix (": EVMCall failed".toList.reverse) t with
    | some u =>
      have hl := dropPrefix_length _ _ _ h1
      rw [callWord_length] at hl
      exact dropClosing_fuel n m u (by omega) (by omega)
    | none =>
      cases h2 : dropPrefix (": EVMCreate failed".toList.reverse) t with
      | some u =>
        have hl := dropPrefix_length _ _ _ h2
        rw [createWord_length] at hl
        exact dropClosing_fuel n m u (by omega) (by omega)
      | none => rfl

/-- Closing words do not change what a client reads. -/
theorem recover_wrap (t : Str) (k : Kind) : recover (wrap t k.failed) = recover t := by
  have hk : (wrap t k.failed).reverse = (": ".toList ++ k.failed).reverse ++ t.reverse := by
    simp only [wrap, List.reverse_append, List.append_assoc]
  have key : dropClosing (wrap t k.failed).length (wrap t k.failed).reverse = dropClosing t.length t.reverse := by
    have hlen : (wrap t k.failed).length = t.length + (": ".toList ++ k.failed).length := by
      simp only [wrap, List.length_append]
    rw [hk, hlen]
    cases k with
    | call =>
      show dropClosing (t.length + 15 + 1) (": EVMCall failed".toList.reverse ++ t.reverse) = _
      rw [dropClosing, dropPrefix_append]
      exact dropClosing_fuel (t.length + 15) t.length t.reverse (by rw [List.length_reverse]; omega)
        (by rw [List.length_reverse]; omega)
    | create =>
      show dropClosing (t.length + 17 + 1) (": EVMCreate failed".toList.reverse ++ t.reverse) = _
      rw [dropClosing]
      have : dropPrefix (": EVMCall failed".toList.reverse) (": EVMCreate failed".toList.reverse ++ t.reverse) = none := rfl
      rw [this, dropPrefix_append]
      exact dropClosing_fuel (t.length + 17) t.length t.reverse (by rw [List.length_reverse]; omega)
        (by rw [List.length_reverse]; omega)
  unfold recover
  rw [key]

theorem takeWhile_stop {p : Char → Bool} (l : Str) (c : Char) (r : Str) (hl : ∀ x ∈ l, p x = true) (hc : p c = false) :
    (l ++ c :: r).takeWhile p = l := by
  induction l with
  | nil => simp [hc]
  | cons x xs ih =>
    simp only [List.cons_append, List.takeWhile_cons, hl x (by simp), if_true]
    rw [ih fun y hy => hl y (by simp [hy])]

/-- The heart of it: whatever stands in front. -/
theorem recover_revert (pre : Str) (d : Bytes) :
    recover (pre ++ ("revert: ".toList ++ encode0x d ++ ": Reverted".toList)) = some d := by
  have hr : (pre ++ ("revert: ".toList ++ encode0x d ++ ": Reverted".toList)).reverse
      = ": Reverted".toList.reverse ++ ((hexEnc d).reverse ++ ("revert: 0x".toList.reverse ++ pre.reverse)) := by
    simp only [encode0x, List.reverse_append, List.reverse_cons, List.append_assoc]
    rfl
  have hd : dropClosing (pre ++ ("revert: ".toList ++ encode0x d ++ ": Reverted".toList)).length
      (": Reverted".toList.reverse ++ ((hexEnc d).reverse ++ ("revert: 0x".toList.reverse ++ pre.reverse)))
      = ": Reverted".toList.reverse ++ ((hexEnc d).reverse ++ ("revert: 0x".toList.reverse ++ pre.reverse)) := by
    cases h : (pre ++ ("revert: ".toList ++ encode0x d ++ ": Reverted".toList)).length with
    | zero => rfl
    | succ n => rfl
  have ht : ((hexEnc d).reverse ++ ("revert: 0x".toList.reverse ++ pre.reverse)).takeWhile (fun c => (hexVal c).isSome)
      = (hexEnc d).reverse := by
    apply takeWhile_stop (hexEnc d).reverse 'x' _
    · intro c hc
      obtain ⟨n, hn, rfl⟩ := hexEnc_digits d c (List.mem_reverse.mp hc)
      rw [hexVal_hexDigit n hn]; rfl
    · decide
  unfold recover
  rw [hr, hd, dropPrefix_append]
  simp only [ht, List.drop_left, dropPrefix_append, List.reverse_reverse, hexDec_hexEnc]

theorem recover_newRevertError (unpack : Bytes → Option Str) (pre : Str) (d : Bytes) :
    recover (pre ++ newRevertError unpack d) = some d := by
  unfold newRevertError
  cases unpack d with
  | none =>
    have := recover_revert pre d
    have e : pre ++ wrap ("revert: ".toList ++ encode0x d) "Reverted".toList
        = pre ++ ("revert: ".toList ++ encode0x d ++ ": Reverted".toList) := by
      simp only [wrap, List.append_assoc]
      rfl
    show recover (pre ++ wrap ("revert: ".toList ++ encode0x d) "Reverted".toList) = _
    rw [e]; exact this
  | some reason =>
    have := recover_revert (pre ++ ("reason: ".toList ++ (reason ++ ", ".toList))) d
    have e : pre ++ wrap ("reason: ".toList ++ (reason ++ (", revert: ".toList ++ encode0x d))) "Reverted".toList
        = pre ++ ("reason: ".toList ++ (reason ++ ", ".toList)) ++ ("revert: ".toList ++ encode0x d ++ ": Reverted".toList) := by
      simp only [wrap, List.append_assoc]
      rfl
    show recover (pre ++ wrap ("reason: ".toList ++ (reason ++ (", revert: ".toList ++ encode0x d))) "Reverted".toList) = _
    rw [e]; exact this

theorem wrap_pre (pre t p : Str) : pre ++ wrap t p = wrap (pre ++ t) p := by
  simp only [wrap, List.append_assoc]

/-! ### C145 -/

/-- **C145** (the data arrives). If an execution reverts with `data` and has gas left over, then the keeper, the message
server and the `Call` query fail with texts from whose end the data can be read, whatever reason the data carries and
whatever other layers (baseapp, gRPC, a client) put in front of the text. -/
theorem C145_data_partial (unpack : Bytes → Option Str) (k : Kind) (data : Bytes) (left : Nat) (hl : left ≠ 0)
    (after : Except Str Unit) :
    (∃ t, evmRun unpack k ⟨.reverted data, left⟩ after = .error t ∧ ∀ pre, recover (pre ++ t) = some data) ∧
    (∃ t, msgServer unpack k ⟨.reverted data, left⟩ after = .error t ∧ ∀ pre, recover (pre ++ t) = some data) ∧
    (queryCall unpack k ⟨.reverted data, left⟩ after).response = [] ∧
    recover (queryCall unpack k ⟨.reverted data, left⟩ after).error = some data := by
  have h1 : evmRun unpack k ⟨.reverted data, left⟩ after = .error (wrap (newRevertError unpack data) k.failed) := by
    simp [evmRun, hl]
  have h2 : ∀ pre, recover (pre ++ wrap (newRevertError unpack data) k.failed) = some data := by
    intro pre
    rw [wrap_pre, recover_wrap, recover_newRevertError]
  refine ⟨⟨_, h1, h2⟩, ⟨wrap (wrap (newRevertError unpack data) k.failed) Kind.call.failed, ?_, ?_⟩, ?_, ?_⟩
  · simp [msgServer, h1]
  · intro pre
    rw [wrap_pre, recover_wrap]; exact h2 pre
  · simp [queryCall, h1]
  · have := h2 []
    simpa [queryCall, h1] using this

/-- **C145** (one text, one revert): a client that sees the same text twice saw the same data. -/
theorem C145_distinct (unpack unpack' : Bytes → Option Str) (k k' : Kind) (d d' : Bytes) (l l' : Nat) (hl : l ≠ 0)
    (hl' : l' ≠ 0) (after after' : Except Str Unit)
    (h : evmRun unpack k ⟨.reverted d, l⟩ after = evmRun unpack' k' ⟨.reverted d', l'⟩ after') : d = d' := by
  obtain ⟨⟨t, e, r⟩, _⟩ := C145_data_partial unpack k d l hl after
  obtain ⟨⟨t', e', r'⟩, _⟩ := C145_data_partial unpack' k' d' l' hl' after'
  rw [e, e'] at h
  injection h with h
  have a := r []
  have b := r' []
  rw [h, b] at a
  exact (Option.some.inj a).symm

/-- **C145** (nothing else looks like a revert): an error of the execution itself reads as a revert with `d` only if the
execution reverted with `d` (or the interpreter's own text of the error already did). -/
theorem C145_only (unpack : Bytes → Option Str) (k : Kind) (r : Run) (t : Str) (d : Bytes)
    (he : evmRun unpack k r (.ok ()) = .error t) (hd : recover t = some d) :
    r.out = .reverted d ∨ ∃ u, r.out = .other u ∧ recover u = some d := by
  obtain ⟨out, left⟩ := r
  cases out with
  | ok ret => simp [evmRun] at he
  | reverted data =>
    by_cases h0 : left = 0
    · simp only [evmRun, h0, if_true, Except.error.injEq] at he
      subst he
      rw [recover_wrap] at hd
      have : recover (Outcome.vmText (.reverted data)) = none := by
        show recover "execution reverted".toList = none
        decide +kernel
      rw [this] at hd; cases hd
    · obtain ⟨⟨t', e', rr⟩, _⟩ := C145_data_partial unpack k data left h0 (.ok ())
      rw [e'] at he
      injection he with he
      subst he
      have := rr []
      simp only [List.nil_append] at this
      rw [this] at hd
      cases hd
      exact .inl rfl
  | outOfGas =>
    simp only [evmRun, Except.error.injEq] at he
    subst he
    rw [recover_wrap] at hd
    have : recover (Outcome.vmText .outOfGas) = none := by decide +kernel
    rw [this] at hd; cases hd
  | other u =>
    simp only [evmRun, Except.error.injEq] at he
    subst he
    rw [recover_wrap] at hd
    exact .inr ⟨u, rfl, hd⟩

theorem wrap_failed_ne (t : Str) (k : Kind) : wrap t k.failed ≠ [] := by
  intro h
  simp only [wrap, List.append_eq_nil_iff] at h
  exact absurd h.2.1 (by decide)

theorem evmRun_ok (unpack : Bytes → Option Str) (k : Kind) (r : Run) (after : Except Str Unit) (b : Bytes) :
    evmRun unpack k r after = .ok b ↔ r.out = .ok b ∧ after = .ok () := by
  obtain ⟨out, left⟩ := r
  cases out with
  | ok ret => cases after <;> simp [evmRun]
  | reverted data => by_cases h0 : left = 0 <;> simp [evmRun, h0]
  | outOfGas => simp [evmRun]
  | other u => constructor <;> intro h <;> simp [evmRun] at h

/-- An error of an execution has a text, unless what came after it failed without one. -/
theorem evmRun_text (unpack : Bytes → Option Str) (k : Kind) (r : Run) (after : Except Str Unit)
    (ha : after ≠ .error []) : evmRun unpack k r after ≠ .error [] := by
  obtain ⟨out, left⟩ := r
  cases out with
  | ok ret =>
    cases after with
    | ok u => simp [evmRun]
    | error t => simpa [evmRun] using ha
  | reverted data =>
    by_cases h0 : left = 0
    · simp [evmRun, h0, wrap_failed_ne]
    · simp [evmRun, h0, wrap_failed_ne]
  | outOfGas => simp [evmRun, wrap_failed_ne]
  | other u => simp [evmRun, wrap_failed_ne]

/-- **C145** (a failure is never a success, and no success a failure): `eth_call` answers with bytes exactly if the
execution returned those bytes and everything after it went well; in every other case it answers with an error, never a
crash. So does the gas estimate, and the message succeeds with the hex form of the same bytes. (`after` fails with a
text: all errors of /repo and the sdk have one.) -/
theorem C145_success (unpack : Bytes → Option Str) (k : Kind) (r : Run) (after : Except Str Unit)
    (ha : after ≠ .error []) (gas : Nat) :
    (∀ b, ethCall unpack k r after = some (.ok b) ↔ r.out = .ok b ∧ after = .ok ()) ∧
    ethCall unpack k r after ≠ none ∧
    (∀ g, estimateGas unpack k r after gas = .ok g ↔ g = gas ∧ (∃ b, r.out = .ok b) ∧ after = .ok ()) ∧
    (∀ s, msgServer unpack k r after = .ok s ↔ ∃ b, s = encode0x b ∧ r.out = .ok b ∧ after = .ok ()) := by
  have ht := evmRun_text unpack k r after ha
  have hok := evmRun_ok unpack k r after
  unfold ethCall queryCall estimateGas msgServer
  generalize evmRun unpack k r after = o at ht hok
  cases o with
  | ok ret =>
    have hh := (hok ret).mp rfl
    refine ⟨?_, ?_, ?_, ?_⟩
    · intro b; rw [← hok b]; simp [decode0x_encode0x]
    · simp [decode0x_encode0x]
    · intro g
      simp only [Except.ok.injEq]
      exact ⟨fun e => ⟨e.symm, ⟨ret, hh.1⟩, hh.2⟩, fun e => e.1.symm⟩
    · intro s
      simp only [Except.ok.injEq]
      constructor
      · intro e; exact ⟨ret, e.symm, hh⟩
      · rintro ⟨b, e, hb⟩
        have := (hok b).mpr hb
        rw [Except.ok.injEq] at this
        rw [this, e]
  | error t =>
    have hne : t ≠ [] := fun e => ht (by rw [e])
    have hno : ∀ b, ¬ (r.out = .ok b ∧ after = .ok ()) := by
      intro b hb
      have := (hok b).mpr hb
      cases this
    refine ⟨?_, ?_, ?_, ?_⟩
    · intro b
      simp only [ne_eq, hne, not_false_eq_true, if_true, Option.some.injEq, reduceCtorEq, false_iff]
      exact hno b
    · simp [hne]
    · intro g
      simp only [reduceCtorEq, false_iff]
      rintro ⟨_, ⟨b, x⟩, y⟩
      exact hno b ⟨x, y⟩
    · intro s
      simp only [reduceCtorEq, false_iff]
      rintro ⟨b, _, x⟩
      exact hno b x

/-- **C145** (out of gas is not a revert): running out of gas is reported with a text beginning with "out of gas" by the
keeper, by `eth_call` and by the message server, and with none of the texts a revert is reported with, whatever its
data and however much gas it left. -/
theorem C145_out_of_gas (unpack unpack' : Bytes → Option Str) (k k' : Kind) (data : Bytes) (left left' : Nat)
    (after after' : Except Str Unit) :
    (∃ t, evmRun unpack k ⟨.outOfGas, left⟩ after = .error ("out of gas".toList ++ t)) ∧
    (∃ t, msgServer unpack k ⟨.outOfGas, left⟩ after = .error ("out of gas".toList ++ t)) ∧
    (∃ e t, ethCall unpack k ⟨.outOfGas, left⟩ after = some (.error e) ∧ e.message = "out of gas".toList ++ t) ∧
    (∀ t, evmRun unpack' k' ⟨.reverted data, left'⟩ after' ≠ .error ("out of gas".toList ++ t)) ∧
    (∀ t, msgServer unpack' k' ⟨.reverted data, left'⟩ after' ≠ .error ("out of gas".toList ++ t)) ∧
    (∀ e t, ethCall unpack' k' ⟨.reverted data, left'⟩ after' = some (.error e) →
      e.message ≠ "out of gas".toList ++ t) := by
  have hrev : ∃ c w, evmRun unpack' k' ⟨.reverted data, left'⟩ after' = .error (c :: w) ∧ c ≠ 'o' := by
    by_cases h0 : left' = 0
    · exact ⟨'e', _, by simp only [evmRun, h0, if_true]; rfl, by decide⟩
    · simp only [evmRun, h0, if_false, newRevertError]
      cases unpack' data with
      | none => exact ⟨'r', _, rfl, by decide⟩
      | some _ => exact ⟨'r', _, rfl, by decide⟩
  obtain ⟨c, w, hr, hc⟩ := hrev
  have hne : ∀ (x t : Str), (c :: w) ++ x ≠ "out of gas".toList ++ t := by
    intro x t h
    have h' : c :: (w ++ x) = 'o' :: ("ut of gas".toList ++ t) := h
    exact hc (List.cons.inj h').1
  have hoog : evmRun unpack k ⟨.outOfGas, left⟩ after = .error (wrap "out of gas".toList k.failed) := rfl
  refine ⟨⟨_, hoog⟩, ⟨": ".toList ++ k.failed ++ (": ".toList ++ Kind.call.failed), ?_⟩, ⟨plainError (wrap "out of gas".toList k.failed), _, ?_, rfl⟩, ?_, ?_, ?_⟩
  · simp only [msgServer, hoog, wrap, List.append_assoc]
  · have hx : wrap "out of gas".toList k.failed ≠ [] := by intro h; cases h
    simp only [ethCall, queryCall, hoog, if_pos hx, ne_eq, not_false_eq_true, if_true]
  · intro t h
    rw [hr] at h
    have := Except.error.inj h
    exact hne [] t (by simpa using this)
  · intro t h
    simp only [msgServer, hr, wrap] at h
    exact hne _ t (Except.error.inj h)
  · intro e t h
    have hx : (c :: w) ≠ [] := by intro h; cases h
    simp only [ethCall, queryCall, hr, if_pos hx, ne_eq, not_false_eq_true, if_true] at h
    have := Except.error.inj (Option.some.inj h)
    subst this
    have z := hne [] t
    rw [List.append_nil] at z
    exact z

/-- **C145 is violated** (no gas left): a contract that reverts having used all the gas it was given gets its data
dropped, on every path. -/
theorem C145_zero_gas_violated :
    ¬ ∀ (unpack : Bytes → Option Str) (k : Kind) (data : Bytes) (left : Nat) (t : Str),
      evmRun unpack k ⟨.reverted data, left⟩ (.ok ()) = .error t → recover t = some data := by
  intro h
  have := h (fun _ => none) .call [1, 2, 3, 4] 0 _ rfl
  rw [recover_wrap] at this
  have e : recover (Outcome.vmText (.reverted [1, 2, 3, 4])) = none := by decide +kernel
  rw [e] at this
  cases this

/-- The same in general: then the text does not depend on the data at all, on any of the paths. -/
theorem C145_zero_gas (unpack unpack' : Bytes → Option Str) (k : Kind) (d d' : Bytes) (after after' : Except Str Unit) :
    evmRun unpack k ⟨.reverted d, 0⟩ after = evmRun unpack' k ⟨.reverted d', 0⟩ after' ∧
    msgServer unpack k ⟨.reverted d, 0⟩ after = msgServer unpack' k ⟨.reverted d', 0⟩ after' ∧
    ethCall unpack k ⟨.reverted d, 0⟩ after = ethCall unpack' k ⟨.reverted d', 0⟩ after' := by
  refine ⟨rfl, rfl, rfl⟩

/-- **C145 is violated** (static calls): a revert in a static call (token queries, the bank's view of tokens) keeps no
data, however much gas is left over. -/
theorem C145_static_violated :
    ¬ ∀ (data : Bytes) (left : Nat) (t : Str),
      left ≠ 0 → evmStatic ⟨.reverted data, left⟩ = .error t → recover t = some data := by
  intro h
  have := h [1, 2, 3, 4] 5 _ (by decide) rfl
  rw [recover_wrap] at this
  have e : recover (Outcome.vmText (.reverted [1, 2, 3, 4])) = none := by decide +kernel
  rw [e] at this
  cases this

/-- What Ethereum clients expect of `eth_call` and `eth_estimateGas` for a revert: error code 3 with the data in the
data field of the error object. -/
def AsEthereum (e : RpcErr) (data : Bytes) : Prop := e.code = 3 ∧ e.data = some data

/-- **C145 is violated** (JSON-RPC): no failing execution is ever answered that way: every error of `eth_call` and
`eth_estimateGas` has code -32000 and no data. -/
theorem C145_rpc_violated (unpack : Bytes → Option Str) (k : Kind) (data : Bytes) (left : Nat)
    (after : Except Str Unit) (gas : Nat) :
    (∃ e, ethCall unpack k ⟨.reverted data, left⟩ after = some (.error e) ∧ ¬ AsEthereum e data) ∧
    (∃ e, estimateGas unpack k ⟨.reverted data, left⟩ after gas = .error e ∧ ¬ AsEthereum e data) := by
  by_cases h0 : left = 0
  · simp [ethCall, queryCall, estimateGas, msgServer, evmRun, h0, wrap_failed_ne, AsEthereum, plainError]
  · simp [ethCall, queryCall, estimateGas, msgServer, evmRun, h0, wrap_failed_ne, AsEthereum, plainError]

/-- In general: every error `eth_call` or `eth_estimateGas` ever answers with has code -32000 and no data, so the code
never makes a failure of another kind look like a revert either. -/
theorem C145_rpc_code (unpack : Bytes → Option Str) (k : Kind) (r : Run) (after : Except Str Unit) (gas : Nat) (e : RpcErr)
    (h : ethCall unpack k r after = some (.error e) ∨ estimateGas unpack k r after gas = .error e) :
    e.code = -32000 ∧ e.data = none := by
  rcases h with h | h
  · unfold ethCall at h
    simp only at h
    split at h
    · have := Except.error.inj (Option.some.inj h)
      exact this ▸ ⟨rfl, rfl⟩
    · cases hd : decode0x (queryCall unpack k r after).response <;> simp [hd] at h
  · unfold estimateGas at h
    split at h
    · cases h
    · have := Except.error.inj h
      exact this ▸ ⟨rfl, rfl⟩

/-- **C145** (what an Ethereum client can still do): the message of the error object of `eth_call` and
`eth_estimateGas` carries the data. -/
theorem C145_rpc_message_partial (unpack : Bytes → Option Str) (k : Kind) (data : Bytes) (left : Nat) (hl : left ≠ 0)
    (after : Except Str Unit) (gas : Nat) :
    (∃ e, ethCall unpack k ⟨.reverted data, left⟩ after = some (.error e) ∧ recover e.message = some data) ∧
    (∃ e, estimateGas unpack k ⟨.reverted data, left⟩ after gas = .error e ∧ recover e.message = some data) := by
  obtain ⟨⟨t, e, r⟩, ⟨t2, e2, r2⟩, _⟩ := C145_data_partial unpack k data left hl after
  have hne : t ≠ [] := by
    intro h0
    have := r []
    rw [h0] at this
    have z : recover ([] ++ []) = none := by decide +kernel
    rw [z] at this; cases this
  constructor
  · refine ⟨plainError t, ?_, ?_⟩
    · simp [ethCall, queryCall, e, hne]
    · have := r []; simpa [plainError] using this
  · refine ⟨plainError (runMsgText 0 t2), ?_, ?_⟩
    · simp [estimateGas, e2]
    · have := r2 ("failed to execute message; message index: ".toList ++ natStr 0 ++ ": ".toList)
      simpa only [plainError, runMsgText, wrap, List.append_assoc] using this

/-! ### Concrete cases -/

/-- A client reads the data out of a log of a failed transaction, even though the contract's reason looks like the end of
such a text. -/
example :
    let unpack : Bytes → Option Str := fun _ => some "x, revert: 0xff: Reverted: EVMCall failed".toList
    (match msgServer unpack .create ⟨.reverted [8, 195, 121, 160], 7⟩ (.ok ()) with
      | .error t => recover (runMsgText 0 t)
      | .ok _ => none) = some [8, 195, 121, 160] := by decide +kernel

example : queryCall (fun _ => none) .call ⟨.reverted [1, 171], 7⟩ (.ok ())
    = ⟨[], "revert: 0x01ab: Reverted: EVMCall failed".toList⟩ := by decide +kernel

example : ethCall (fun _ => none) .call ⟨.reverted [1, 171], 0⟩ (.ok ())
    = some (.error ⟨-32000, "execution reverted: EVMCall failed".toList, none⟩) := by rfl

example : ethCall (fun _ => none) .call ⟨.ok [1, 171], 0⟩ (.ok ()) = some (.ok [1, 171]) := by rfl

end Verif.Props.RevertText
