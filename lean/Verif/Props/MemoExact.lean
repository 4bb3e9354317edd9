import Verif.Props.Memo
/-
C86: exactly which id a callback carries.
-/
namespace Verif.Memo
open Verif Verif.Text Verif.WrapMsg Verif.Props.WrapMsg Verif.Hooks Verif.Hooks.Spec Verif.Memo.Spec

variable {σ K : Type}

/-- Numbers of at most 53 binary digits followed by zeros are float64s. -/
theorem toF64_mul (q s : Nat) (h1 : 2 ^ 52 ≤ q) (h2 : q < 2 ^ 53) : toF64 (q * 2 ^ s) = q * 2 ^ s := by
  have hpos : 0 < 2 ^ s := Nat.pow_pos (by decide)
  have h0 : q * 2 ^ s ≠ 0 := by
    have := Nat.mul_pos (show 0 < q by omega) hpos; omega
  have hl : (q * 2 ^ s).log2 = 52 + s := by
    have a : (q * 2 ^ s).log2 < 53 + s := (Nat.log2_lt h0).2 (by rw [Nat.pow_add]; exact (Nat.mul_lt_mul_right hpos).2 h2)
    have b : ¬ (q * 2 ^ s).log2 < 52 + s := fun c => by
      have := (Nat.log2_lt h0).1 c
      rw [Nat.pow_add] at this
      exact absurd (Nat.lt_of_mul_lt_mul_right this) (by omega)
    omega
  simp only [toF64, hl, show 52 + s - 52 = s by omega, Nat.mul_div_cancel _ hpos, Nat.mul_mod_left, Nat.mul_zero]
  rw [if_neg (by omega)]

/-- Reading what is a float64 already changes nothing. -/
theorem toF64_idem (n : Nat) : toF64 (toF64 n) = toF64 n := by
  rcases Nat.lt_or_ge n (2 ^ 53) with h | h
  · rw [toF64_small n h, toF64_small n h]
  · have h0 : n ≠ 0 := by omega
    have hl : 53 ≤ n.log2 := by
      rcases Nat.lt_or_ge n.log2 53 with h1 | h1
      · have := (Nat.log2_lt h0).1 h1; omega
      · exact h1
    have hn : 2 ^ n.log2 ≤ n := Nat.log2_self_le h0
    have hn2 : n < 2 ^ (n.log2 + 1) := Nat.lt_log2_self
    have hpos : 0 < 2 ^ (n.log2 - 52) := Nat.pow_pos (by decide)
    have hq : 2 ^ 52 ≤ n / 2 ^ (n.log2 - 52) := by
      rw [Nat.le_div_iff_mul_le hpos, ← Nat.pow_add, show 52 + (n.log2 - 52) = n.log2 by omega]; exact hn
    have hq2 : n / 2 ^ (n.log2 - 52) < 2 ^ 53 := by
      rw [Nat.div_lt_iff_lt_mul hpos, ← Nat.pow_add, show 53 + (n.log2 - 52) = n.log2 + 1 by omega]; exact hn2
    have form : ∃ q s, toF64 n = q * 2 ^ s ∧ 2 ^ 52 ≤ q ∧ q ≤ 2 ^ 53 := by
      refine ⟨_, n.log2 - 52, rfl, ?_, ?_⟩ <;> split <;> omega
    obtain ⟨q, s, e, a, b⟩ := form
    rw [e]
    rcases Nat.lt_or_ge q (2 ^ 53) with c | c
    · exact toF64_mul q s a c
    · have : q = 2 ^ 53 := by omega
      have e2 : q * 2 ^ s = 2 ^ 52 * 2 ^ (s + 1) := by rw [this, ← Nat.pow_add, ← Nat.pow_add]; congr 1; omega
      rw [e2]
      exact toF64_mul _ _ (by omega) (by omega)

/-- The text written for a float64 reads as it. -/
theorem toF64_shortest (n : Nat) : toF64 (shortest (toF64 n)) = toF64 n := by
  rcases shortFrom_spec (toF64 n) 20 with h | ⟨h, _⟩
  · show toF64 (shortFrom (toF64 n) 20) = _
    rw [h]; exact toF64_idem n
  · exact h

/-- **C86 (callback ids, exact).** Whatever id below 2^64 the memo gives, the allowed contract is called with the number that is written for
the float64 nearest to it — one with the same nearest float64 —, and not called at all if that number does not fit 64 bits. -/
theorem C86_id_exact (F : Floats) (e : Env σ Json K) (hr : Reads F e) (s : σ) (p : Packet) (ack : Bytes) (ok : Bool)
    {sender memo c : Str} {n : Nat} (hp : Sent e p sender memo) (hm : AsksFor F memo n c) (hn : n < 2 ^ 64)
    (happ : (e.appAck p ack s).1 = true) (hl : Allowed e (e.appAck p ack s).2 c) (hok : e.ackDecode ack = some ok) :
    ∃ m, m = shortest (toF64 n) ∧ toF64 m = toF64 n ∧ (n ≤ 2 ^ 53 → m = n) ∧
      (onAck e s p ack).2.ops = if m < 2 ^ 64 then [.call ⟨sender, c, encode0x (e.pack (.ibcAck m ok)), 0⟩] else [] := by
  refine ⟨_, rfl, toF64_shortest n, shortest_small n, ?_⟩
  obtain ⟨a1, a2⟩ := asked F hr hm hn
  rw [onAck_ops e s p ack hp, if_pos happ]
  by_cases hlt : shortest (toF64 n) < 2 ^ 64
  · rw [if_pos hlt, callback_made (a1 hlt) hl]
    simp only [isAckError, hok, Bool.not_not]
  · rw [if_neg hlt]
    rcases callback_ops (e := e) (s := (e.appAck p ack s).2) (memo := memo) (sender := sender)
      (f := fun id => .ibcAck id (!isAckError e ack)) with h | ⟨cb, h, _⟩
    · exact h
    · exact absurd h (a2 hlt cb)

/-- **C86 (callback ids, exactly when).** The contract gets the id of the memo exactly if that is the number written for the float64 nearest
to it (calls with different ids being different). -/
theorem C86_id_iff (F : Floats) (e : Env σ Json K) (hr : Reads F e) (s : σ) (p : Packet) (ack : Bytes) (ok : Bool)
    {sender memo c : Str} {n : Nat} (hp : Sent e p sender memo) (hm : AsksFor F memo n c) (hn : n < 2 ^ 64)
    (happ : (e.appAck p ack s).1 = true) (hl : Allowed e (e.appAck p ack s).2 c) (hok : e.ackDecode ack = some ok)
    (hinj : ∀ i j, encode0x (e.pack (.ibcAck i ok)) = encode0x (e.pack (.ibcAck j ok)) → i = j) :
    (onAck e s p ack).2.ops = [.call ⟨sender, c, encode0x (e.pack (.ibcAck n ok)), 0⟩] ↔ shortest (toF64 n) = n := by
  obtain ⟨m, rfl, _, _, h⟩ := C86_id_exact F e hr s p ack ok hp hm hn happ hl hok
  rw [h]
  constructor
  · intro h1
    split at h1
    · simp only [List.cons.injEq, Op.call.injEq, MsgCall.mk.injEq, and_true, true_and] at h1
      exact hinj _ _ h1
    · cases h1
  · intro h1; rw [h1, if_pos hn]

/-- **C86 (confused ids).** For two ids with the same nearest float64 the contract cannot tell their callbacks apart, as they are the same
call. -/
theorem C86_confused (F : Floats) (e : Env σ Json K) (hr : Reads F e) (s : σ) (p p' : Packet) (ack : Bytes) (ok : Bool)
    {sender memo memo' c : Str} {n n' : Nat} (hp : Sent e p sender memo) (hp' : Sent e p' sender memo')
    (hm : AsksFor F memo n c) (hm' : AsksFor F memo' n' c) (hn : n < 2 ^ 64) (hn' : n' < 2 ^ 64) (hf : toF64 n = toF64 n')
    (happ : (e.appAck p ack s).1 = true) (happ' : (e.appAck p' ack s).1 = true)
    (hl : Allowed e (e.appAck p ack s).2 c) (hl' : Allowed e (e.appAck p' ack s).2 c) (hok : e.ackDecode ack = some ok) :
    (onAck e s p ack).2.ops = (onAck e s p' ack).2.ops := by
  obtain ⟨m, rfl, _, _, h⟩ := C86_id_exact F e hr s p ack ok hp hm hn happ hl hok
  obtain ⟨m', rfl, _, _, h'⟩ := C86_id_exact F e hr s p' ack ok hp' hm' hn' happ' hl' hok
  rw [h, h', hf]

/-- 2^53 + 1 and 2^53 have the same nearest float64, and so have the largest numbers of 64 bits, for which none is written that fits. -/
example : toF64 (2 ^ 53 + 1) = toF64 (2 ^ 53) ∧ shortest (toF64 (2 ^ 53 + 1)) = 2 ^ 53 ∧ shortest (toF64 (2 ^ 53 + 2)) = 2 ^ 53 + 2 ∧
    ¬ shortest (toF64 (2 ^ 64 - 1)) < 2 ^ 64 := by decide +kernel

/-- Even above 2^60 there are ids that arrive, and even ones that do not. -/
example : shortest (toF64 1234567890123456768) = 1234567890123456800 ∧ shortest (toF64 1234567890123456800) = 1234567890123456800 := by
  decide +kernel

end Verif.Memo
