import Verif.Props.ReadText
/-
C102 and C52: exactly which texts are read, and as what.
-/
namespace Verif.ReadText
open Verif Verif.Text Verif.TxUtils Verif.Props.TxUtils

variable {K : Type}

theorem partial_odd : ∀ s : Str, s.length % 2 = 1 → (hexDecPartial s).2 = false
  | [], h => by simp at h
  | [_], _ => rfl
  | a :: b :: rest, h => by
    have ih := partial_odd rest (by simp at h; omega)
    rw [hexDecPartial]
    split
    · exact ih
    · rfl

theorem hexDec_odd (s : Str) (h : s.length % 2 = 1) : hexDec s = none := by
  unfold hexDec
  simp only [partial_odd s h, Bool.false_eq_true, if_false]

/-- **C102 (storage over gRPC, exact).** The query is answered exactly for a contract that can be read and a key of `0x` and an even number
of hexadecimal digits; the answer is the value in the slot whose number is the key's, modulo 2^256. -/
theorem C102_state_exact (e : Env K) (w : Contracts) (c key : Str) (v : Str) :
    queryState e w c key = some v ↔
      ∃ a n slot, contractAddressFromString e c = some a ∧ has0x key = true ∧ (strip0x key).length % 2 = 0 ∧
        hexNum (strip0x key) = some n ∧ fromBE (Hash.bytes slot) = n % 256 ^ 32 ∧ v = hashHex (w.storage a slot) := by
  constructor
  · intro h
    unfold queryState at h
    cases hc : contractAddressFromString e c with
    | none => rw [hc] at h; cases h
    | some a =>
      rw [hc] at h
      simp only [decode0x] at h
      by_cases hx : has0x key = true
      · rw [if_pos hx] at h
        by_cases h2 : (strip0x key).length % 2 = 0
        · cases hn : hexNum (strip0x key) with
          | none => rw [(dec_spec _ h2).2 hn] at h; cases h
          | some n =>
            obtain ⟨b, b1, b2, _⟩ := (dec_spec _ h2).1 n hn
            rw [b1] at h
            simp only [Option.some.injEq] at h
            exact ⟨a, n, bytesToHash b, rfl, hx, h2, rfl, by rw [fit_value, b2], h.symm⟩
        · rw [hexDec_odd _ (by omega)] at h; cases h
      · rw [if_neg hx] at h; cases h
  · rintro ⟨a, n, slot, hc, hx, h2, hn, hs, rfl⟩
    obtain ⟨b, b1, b2, _⟩ := (dec_spec _ h2).1 n hn
    unfold queryState decode0x
    rw [hc]
    simp only
    rw [if_pos hx, b1]
    simp only [Option.some.injEq]
    congr 2
    apply hash_ext
    rw [fit_value, b2, hs]

theorem fit_value20 (b : Bytes) : fromBE (bytesToAddress b).bytes = fromBE b % 256 ^ 20 := by
  show fromBE (fitBytes 20 b) = _
  unfold fitBytes
  simp only
  rw [fromBE_zeros]
  have h := fromBE_split (b.take (b.length - 20)) (b.drop (b.length - 20))
  rw [List.take_append_drop] at h
  have hlt := fromBE_lt (b.drop (b.length - 20))
  by_cases hl : 20 ≤ b.length
  · have e : (b.drop (b.length - 20)).length = 20 := by rw [List.length_drop]; omega
    rw [e] at h hlt
    rw [h, Nat.add_comm, Nat.add_mul_mod_self_right, Nat.mod_eq_of_lt hlt]
  · have e : b.length - 20 = 0 := by omega
    rw [e, List.drop_zero] at hlt ⊢
    have : 256 ^ b.length ≤ 256 ^ 20 := Nat.pow_le_pow_right (by decide) (by omega)
    rw [Nat.mod_eq_of_lt (by omega)]

theorem addr_ext {a b : Addr} (h : fromBE a.bytes = fromBE b.bytes) : a = b := by
  apply Addr.ext
  have x := toBE_fromBE_aux 20 a.bytes a.len
  have y := toBE_fromBE_aux 20 b.bytes b.len
  rw [← x, ← y, h]

/-- **C52 (address texts, exact).** A text is read as the address `a` exactly if it is `a` in hexadecimal (any case, with or without `0x`),
or is no address in hexadecimal but a Bech32 text, and `a` is the number its bytes write, modulo 2^160. -/
theorem C52_exact (e : Env K) (s : Str) (a : Addr) :
    contractAddressFromString e s = some a ↔
      SameDigits (strip0x s) (hexEnc a.bytes) ∨
      (¬ ∃ a' : Addr, SameDigits (strip0x s) (hexEnc a'.bytes)) ∧ ∃ b, e.unbech s = some b ∧ fromBE a.bytes = fromBE b % 256 ^ 20 := by
  constructor
  · intro h
    by_cases hx : ∃ a' : Addr, SameDigits (strip0x s) (hexEnc a'.bytes)
    · obtain ⟨a', ha'⟩ := hx
      have := C52_hex e a' s ha'
      rw [h] at this
      cases this
      exact .inl ha'
    · refine .inr ⟨hx, ?_⟩
      unfold contractAddressFromString at h
      split at h
      · rename_i hh
        exact absurd ⟨_, isHexAddress_digits s hh⟩ hx
      · obtain ⟨b, hb, e'⟩ := Option.map_eq_some_iff.1 h
        exact ⟨b, hb, by rw [← e', fit_value20]⟩
  · rintro (h | ⟨hx, b, hb, hv⟩)
    · exact C52_hex e a s h
    · unfold contractAddressFromString
      rw [if_neg (fun hh => hx ⟨_, isHexAddress_digits s hh⟩), hb]
      simp only [Option.map_some, Option.some.injEq]
      exact addr_ext (by rw [fit_value20, hv])

/-- **C52 (confused texts, exactly when).** Two Bech32 texts, neither an address in hexadecimal, are read as the same address exactly if the
numbers their bytes write agree modulo 2^160. -/
theorem C52_confused_iff (e : Env K) (s t : Str) (b c : Bytes) (hs : ¬ ∃ a : Addr, SameDigits (strip0x s) (hexEnc a.bytes))
    (ht : ¬ ∃ a : Addr, SameDigits (strip0x t) (hexEnc a.bytes)) (hb : e.unbech s = some b) (hc : e.unbech t = some c) :
    contractAddressFromString e s = contractAddressFromString e t ↔ fromBE b % 256 ^ 20 = fromBE c % 256 ^ 20 := by
  have h1 := (C52_exact e s (bytesToAddress b)).2 (.inr ⟨hs, b, hb, fit_value20 b⟩)
  have h2 := (C52_exact e t (bytesToAddress c)).2 (.inr ⟨ht, c, hc, fit_value20 c⟩)
  rw [h1, h2]
  constructor
  · intro h
    simp only [Option.some.injEq] at h
    rw [← fit_value20, ← fit_value20, h]
  · intro h
    rw [addr_ext (a := bytesToAddress b) (b := bytesToAddress c) (by rw [fit_value20, fit_value20, h])]

/-- The bytes of an account of 32 bytes and of one of 20 bytes that are read as the same address. -/
example : fromBE (List.replicate 12 (1 : UInt8) ++ List.replicate 20 2) % 256 ^ 20 = fromBE (List.replicate 20 (2 : UInt8)) % 256 ^ 20 := by
  decide +kernel

end Verif.ReadText
