import Verif.Model.ReadText
import Verif.Props.TxUtils
import Verif.Props.World
import Verif.Props.Keys
/-
C102: a read reads what it names.
-/
namespace Verif.ReadText
open Verif Verif.Text Verif.TxUtils Verif.Props.TxUtils
open Verif.Keys (fromBE_cons)

variable {K : Type}

/-! ### Specification -/

/-- The number a string of hexadecimal digits (of either case) writes; `none`: something else is among them. -/
def hexNum (s : Str) : Option Nat :=
  s.foldl (fun acc c => match acc, hexVal c with | some n, some d => some (n * 16 + d) | _, _ => none) (some 0)

/-! ### Numbers -/

theorem hexNum_none (s : Str) : s.foldl (fun acc c => match acc, hexVal c with | some n, some d => some (n * 16 + d) | _, _ => none)
    (none : Option Nat) = none := by
  induction s with
  | nil => rfl
  | cons c s ih => simpa using ih

theorem foldl_acc : ∀ (s : Str) (n : Nat),
    s.foldl (fun acc c => match acc, hexVal c with | some n, some d => some (n * 16 + d) | _, _ => none) (some n) =
      (hexNum s).map (fun m => n * 16 ^ s.length + m)
  | [], n => by simp [hexNum]
  | c :: s, n => by
    simp only [hexNum, List.foldl_cons]
    cases h : hexVal c with
    | none => simp only [hexNum_none]; rfl
    | some d =>
      simp only
      rw [foldl_acc s (n * 16 + d), foldl_acc s (0 * 16 + d)]
      cases hexNum s with
      | none => rfl
      | some m =>
        simp only [Option.map_some, Option.some.injEq, List.length_cons, Nat.pow_succ]
        rw [Nat.add_mul, Nat.zero_mul, Nat.zero_add, Nat.mul_assoc, Nat.mul_comm 16]
        omega

theorem hexNum_cons (c : Char) (s : Str) : hexNum (c :: s) =
    match hexVal c, hexNum s with | some d, some m => some (d * 16 ^ s.length + m) | _, _ => none := by
  unfold hexNum
  simp only [List.foldl_cons]
  cases h : hexVal c with
  | none => simp only [hexNum_none]
  | some d =>
    simp only
    rw [foldl_acc s (0 * 16 + d), Nat.zero_mul, Nat.zero_add]
    unfold hexNum
    cases List.foldl _ (some 0) s <;> rfl

theorem fromBE_zeros (n : Nat) (b : Bytes) : fromBE (List.replicate n 0 ++ b) = fromBE b := by
  induction n with
  | zero => rfl
  | succ n ih => rw [List.replicate_succ, List.cons_append, fromBE_cons, ih]; simp

theorem fromBE_split (a b : Bytes) : fromBE (a ++ b) = fromBE a * 256 ^ b.length + fromBE b := by
  induction a with
  | nil => simp [fromBE]
  | cons x a ih =>
    rw [List.cons_append, fromBE_cons, ih, fromBE_cons, List.length_append, Nat.pow_add, Nat.add_mul]
    rw [Nat.mul_assoc]
    omega

/-- The last 32 bytes: the number modulo 2^256. -/
theorem fit_value (b : Bytes) : fromBE (bytesToHash b).bytes = fromBE b % 256 ^ 32 := by
  show fromBE (fitBytes 32 b) = _
  unfold fitBytes
  simp only
  rw [fromBE_zeros]
  have h := fromBE_split (b.take (b.length - 32)) (b.drop (b.length - 32))
  rw [List.take_append_drop] at h
  have hlt := fromBE_lt (b.drop (b.length - 32))
  by_cases hl : 32 ≤ b.length
  · have e : (b.drop (b.length - 32)).length = 32 := by rw [List.length_drop]; omega
    rw [e] at h hlt
    rw [h, Nat.mul_comm, Nat.mul_add_mod, Nat.mod_eq_of_lt hlt]
  · have e : b.length - 32 = 0 := by omega
    have hb := fromBE_lt b
    rw [e, List.drop_zero]
    have : (256 : Nat) ^ b.length ≤ 256 ^ 32 := Nat.pow_le_pow_right (by decide) (by omega)
    rw [Nat.mod_eq_of_lt (by omega)]

theorem hash_ext {h k : Hash} (e : fromBE h.bytes = fromBE k.bytes) : h = k := by
  apply Hash.ext
  have a := toBE_fromBE_aux 32 h.bytes h.len
  have b := toBE_fromBE_aux 32 k.bytes k.len
  rw [← a, ← b, e]

/-- Decoding hexadecimal text. -/
theorem dec_spec : ∀ (s : Str), s.length % 2 = 0 →
    (∀ n, hexNum s = some n → ∃ b, hexDec s = some b ∧ fromBE b = n ∧ 2 * b.length = s.length) ∧
    (hexNum s = none → hexDec s = none)
  | [], _ => ⟨fun n h => ⟨[], rfl, by simpa [hexNum, fromBE] using h, rfl⟩, fun h => by simp [hexNum] at h⟩
  | [c], h => by simp at h
  | c :: d :: s, h => by
    obtain ⟨h1, h2⟩ := dec_spec s (by simp at h; omega)
    have hd : hexDec (c :: d :: s) = match hexVal c, hexVal d with
        | some x, some y => (hexDec s).map (UInt8.ofNat (x * 16 + y) :: ·)
        | _, _ => none := by
      have gen : ∀ (u v : Option Nat) (r : Bytes × Bool),
          (if (match u, v with
              | some x, some y => (UInt8.ofNat (x * 16 + y) :: r.1, r.2)
              | _, _ => (([] : Bytes), false)).2 = true then
            some (match u, v with
              | some x, some y => (UInt8.ofNat (x * 16 + y) :: r.1, r.2)
              | _, _ => (([] : Bytes), false)).1 else none) =
          match u, v with
          | some x, some y => (if r.2 = true then some r.1 else none).map (UInt8.ofNat (x * 16 + y) :: ·)
          | _, _ => none := by
        intro u v r
        cases u <;> cases v <;> try rfl
        obtain ⟨r1, r2⟩ := r
        cases r2 <;> rfl
      exact gen (hexVal c) (hexVal d) (hexDecPartial s)
    rw [hd, hexNum_cons, hexNum_cons]
    cases hc : hexVal c with
    | none => exact ⟨fun n e => by simp at e, fun _ => rfl⟩
    | some x =>
      cases hdd : hexVal d with
      | none => exact ⟨fun n e => by simp at e, fun _ => rfl⟩
      | some y =>
        have lx := hexVal_lt hc
        have ly := hexVal_lt hdd
        cases hs : hexNum s with
        | none =>
          rw [h2 hs]
          exact ⟨fun n e => by simp at e, fun _ => rfl⟩
        | some m =>
          obtain ⟨b, b1, b2, b3⟩ := h1 m hs
          rw [b1]
          refine ⟨fun n e => ⟨_, rfl, ?_, by simp; omega⟩, fun e => by simp at e⟩
          simp only [Option.some.injEq] at e
          rw [fromBE_cons, b2, ← e]
          have e1 : (UInt8.ofNat (x * 16 + y)).toNat = x * 16 + y := by
            rw [UInt8.toNat_ofNat']; exact Nat.mod_eq_of_lt (by omega)
          have e2 : (256 : Nat) ^ b.length = 16 ^ s.length := by
            rw [← b3, Nat.pow_mul]
          rw [e1, e2, List.length_cons, Nat.pow_succ, Nat.add_mul, Nat.mul_assoc, Nat.mul_comm 16]
          omega

theorem contract_hex (e : Env K) (mask : Str → List Bool) (a : Addr) : contractAddressFromString e (addrHex mask a) = some a := by
  unfold contractAddressFromString
  rw [if_pos (isHexAddress_addrHex mask a), hexToAddress_addrHex]

/-! ### C102 -/

/-- **C102.** eth_getStorageAt: whatever way the number of the slot is written in hexadecimal (capitals or not, with or
without `0x`, with leading zeros, an odd number of digits), the answer is the 32 bytes stored in that slot of that
contract. -/
theorem C102_storage (e : Env K) (mask : Str → List Bool) (w : Contracts) (a : Addr) (key : Str) (n : Nat)
    (hn : hexNum (strip0x key) = some n) (hl : (strip0x key).length ≤ 64) (slot : Hash) (hs : fromBE slot.bytes = n) :
    getStorageAt e mask w a key = some (w.storage a slot).bytes := by
  have hdec : decodeHash key = some slot := by
    unfold decodeHash
    simp only
    generalize strip0x key = t at *
    have : ∃ b, hexDec (if t.length % 2 = 1 then '0' :: t else t) = some b ∧ fromBE b = n ∧ b.length ≤ 32 := by
      by_cases ho : t.length % 2 = 1
      · rw [if_pos ho]
        have hz : hexNum ('0' :: t) = some n := by
          rw [hexNum_cons, hn]
          have : hexVal '0' = some 0 := by decide
          rw [this]; simp
        obtain ⟨b, b1, b2, b3⟩ := (dec_spec ('0' :: t) (by simp; omega)).1 n hz
        exact ⟨b, b1, b2, by simp at b3; omega⟩
      · rw [if_neg ho]
        obtain ⟨b, b1, b2, b3⟩ := (dec_spec t (by omega)).1 n hn
        exact ⟨b, b1, b2, by omega⟩
    obtain ⟨b, b1, b2, b3⟩ := this
    rw [b1]
    simp only
    rw [if_neg (by omega)]
    congr 1
    apply hash_ext
    rw [fit_value, b2, hs]
    apply Nat.mod_eq_of_lt
    rw [← hs]
    have := fromBE_lt slot.bytes
    rw [slot.len] at this
    exact this
  unfold getStorageAt
  rw [hdec]
  simp only
  unfold backendStorageAt queryState
  rw [contract_hex]
  simp only [hashHex, decode0x_encode0x, bytesToHash_bytes]

/-- **C102.** Anything else is refused: other characters, or more than 64 digits. No other slot is ever read. -/
theorem C102_storage_refused (e : Env K) (mask : Str → List Bool) (w : Contracts) (a : Addr) (key : Str)
    (h : hexNum (strip0x key) = none ∨ 64 < (strip0x key).length) : getStorageAt e mask w a key = none := by
  have hdec : decodeHash key = none := by
    unfold decodeHash
    simp only
    generalize strip0x key = t at *
    cases hn : hexNum t with
    | none =>
      have : hexDec (if t.length % 2 = 1 then '0' :: t else t) = none := by
        by_cases ho : t.length % 2 = 1
        · rw [if_pos ho]
          apply (dec_spec ('0' :: t) (by simp; omega)).2
          rw [hexNum_cons, hn]
          cases hexVal '0' <;> rfl
        · rw [if_neg ho]; exact (dec_spec t (by omega)).2 hn
      rw [this]
    | some n =>
      have hl : 64 < t.length := by
        rcases h with h | h
        · rw [hn] at h; cases h
        · exact h
      have : ∃ b, hexDec (if t.length % 2 = 1 then '0' :: t else t) = some b ∧ 32 < b.length := by
        by_cases ho : t.length % 2 = 1
        · rw [if_pos ho]
          have hz : hexNum ('0' :: t) = some n := by
            rw [hexNum_cons, hn]
            have : hexVal '0' = some 0 := by decide
            rw [this]; simp
          obtain ⟨b, b1, b2, b3⟩ := (dec_spec ('0' :: t) (by simp; omega)).1 n hz
          exact ⟨b, b1, by simp at b3; omega⟩
        · rw [if_neg ho]
          obtain ⟨b, b1, b2, b3⟩ := (dec_spec t (by omega)).1 n hn
          exact ⟨b, b1, by omega⟩
      obtain ⟨b, b1, b2⟩ := this
      rw [b1]
      simp only
      rw [if_pos (by omega)]
  unfold getStorageAt
  rw [hdec]

/-- **C102.** eth_getCode answers the contract's code, byte for byte; so does the gRPC query in hexadecimal, for the
contract's address in hexadecimal or bech32. -/
theorem C102_code (e : Env K) (mask : Str → List Bool) (w : Contracts) (a : Addr) :
    getCode e mask w a = some (w.code a) ∧
    (∀ s, isHexAddress s = true → queryCode e w s = some (encode0x (w.code (hexToAddress s)))) ∧
    (∀ s, isHexAddress s = false → e.unbech s = some a.bytes → queryCode e w s = some (encode0x (w.code a))) := by
  refine ⟨?_, fun s hs => ?_, fun s hs hb => ?_⟩
  · unfold getCode queryCode
    rw [contract_hex]
    simp only [Option.map_some, decode0x_encode0x]
  · unfold queryCode contractAddressFromString
    rw [if_pos hs]; rfl
  · unfold queryCode contractAddressFromString
    rw [if_neg (by simp [hs]), hb]
    simp only [Option.map_some, bytesToAddress_bytes]

/-- **C102 (partial).** The gRPC query for a storage slot: `0x` and an even number of hexadecimal digits that
write `n` are answered with the value in slot `n`. -/
theorem C102_state_partial (e : Env K) (w : Contracts) (a : Addr) (c key : Str) (n : Nat)
    (hc : contractAddressFromString e c = some a) (hx : has0x key = true) (hn : hexNum (strip0x key) = some n)
    (h2 : (strip0x key).length % 2 = 0) (slot : Hash) (hs : fromBE slot.bytes = n) :
    queryState e w c key = some (hashHex (w.storage a slot)) := by
  obtain ⟨b, b1, b2, b3⟩ := (dec_spec _ h2).1 n hn
  unfold queryState decode0x
  rw [hc]
  simp only
  rw [if_pos hx, b1]
  simp only [Option.some.injEq]
  congr 2
  apply hash_ext
  rw [fit_value, b2, hs]
  apply Nat.mod_eq_of_lt
  rw [← hs]
  have := fromBE_lt slot.bytes
  rw [slot.len] at this
  exact this

/-- C102 does not hold for the gRPC query: more digits are not refused. A number that no slot has, 2^256 or more, is
answered with the value of the slot with the same last 64 digits. -/
theorem C102_state_violated (e : Env K) (w : Contracts) (a : Addr) (c key : Str) (n : Nat)
    (hc : contractAddressFromString e c = some a) (hx : has0x key = true) (hn : hexNum (strip0x key) = some n)
    (h2 : (strip0x key).length % 2 = 0) (_hbig : 256 ^ 32 ≤ n) (slot : Hash) (hs : fromBE slot.bytes = n % 256 ^ 32) :
    queryState e w c key = some (hashHex (w.storage a slot)) := by
  obtain ⟨b, b1, b2, b3⟩ := (dec_spec _ h2).1 n hn
  unfold queryState decode0x
  rw [hc]
  simp only
  rw [if_pos hx, b1]
  simp only [Option.some.injEq]
  congr 2
  apply hash_ext
  rw [fit_value, b2, hs]

/-! ### net_version -/

theorem lastItem_spec : ∀ (s acc : Str), (∀ c ∈ s, c ≠ '-') → lastItem acc s = acc ++ s
  | [], acc, _ => by simp [lastItem]
  | c :: s, acc, h => by
    simp only [lastItem]
    rw [if_neg (h c (List.mem_cons_self ..)), lastItem_spec s (acc ++ [c]) (fun d hd => h d (List.mem_cons_of_mem _ hd))]
    simp

theorem lastItem_append : ∀ (a acc s : Str), (∀ c ∈ s, c ≠ '-') → lastItem acc (a ++ '-' :: s) = s
  | [], acc, s, h => by
    simp only [List.nil_append, lastItem]
    rw [if_pos trivial, lastItem_spec s [] h]; rfl
  | c :: a, acc, s, h => by
    simp only [List.cons_append, lastItem]
    split
    · exact lastItem_append a [] s h
    · exact lastItem_append a _ s h

theorem atoi_nat (s : Str) (n b : Nat) (hp : parseInt s = some (n : Int)) (hb : b = 9223372036854775808) (hn : n < b) :
    atoi s = some (n : Int) := by
  unfold atoi
  rw [hp]
  simp only
  rw [if_pos]
  have h2 : (9223372036854775808 : Int) = (b : Int) := by rw [hb]; rfl
  rw [h2]
  omega

/-- **C102.** net_version of a chain called `name-n` is `n`. -/
theorem C102_version (name : Str) (n : Nat) (hn : n < 2 ^ 63) : netVersion (name ++ '-' :: natStr n) = natStr n := by
  have hd : ∀ c ∈ natStr n, c ≠ '-' := fun c hc => by
    obtain ⟨d, h1, rfl⟩ := natStr_head n c hc
    exact (decDigit_ne d h1).1
  unfold netVersion
  simp only
  rw [lastItem_append name [] _ hd]
  have hp : parseInt (natStr n) = some (n : Int) := parseInt_intStr (n : Int)
  rw [atoi_nat _ n (2 ^ 63) hp (by decide) hn]

/-- **C102.** A chain id that does not end in a number of at most 63 bits is network 1. -/
theorem C102_version_default (name tail : Str) (hd : ∀ c ∈ tail, c ≠ '-')
    (hn : ∀ i, parseInt tail = some i → i < -9223372036854775808 ∨ 9223372036854775808 ≤ i) :
    netVersion (name ++ '-' :: tail) = ['1'] ∧ netVersion tail = ['1'] := by
  have ha : atoi tail = none := by
    unfold atoi
    cases h : parseInt tail with
    | none => rfl
    | some i =>
      have hi := hn i h
      simp only
      rw [if_neg (by omega)]
  unfold netVersion
  simp only
  rw [lastItem_append name [] _ hd, lastItem_spec _ _ hd, List.nil_append, ha]
  exact ⟨rfl, rfl⟩

/-- A number too long for 63 bits and no number at all. -/
example : netVersion "chain-9223372036854775808".toList = ['1'] ∧ netVersion "chain-9223372036854775807".toList =
    "9223372036854775807".toList ∧ netVersion "chain-1x".toList = ['1'] := by decide +kernel

/-- C102 does not hold: net_version is not the network id that eth_chainId and signatures use. Chains of different names,
with different chain ids, answer the same; whatever the hash function, a chain `name-1` calls itself network 1. -/
theorem C102_version_violated (keccak : Bytes → Hash) (a b : Str) (ab bb : Bytes)
    (h : Fees.ethChainId keccak ab ≠ Fees.ethChainId keccak bb) :
    netVersion (a ++ "-1".toList) = netVersion (b ++ "-1".toList) ∧
    (parseNat (netVersion (a ++ "-1".toList)) ≠ some (Fees.ethChainId keccak ab) ∨
      parseNat (netVersion (b ++ "-1".toList)) ≠ some (Fees.ethChainId keccak bb)) := by
  have h1 : natStr 1 = ['1'] := by decide +kernel
  have e1 : netVersion (a ++ "-1".toList) = ['1'] := by
    have := C102_version a 1 (by decide)
    rw [h1] at this
    exact this
  have e2 : netVersion (b ++ "-1".toList) = ['1'] := by
    have := C102_version b 1 (by decide)
    rw [h1] at this
    exact this
  refine ⟨e1.trans e2.symm, ?_⟩
  rw [e1, e2]
  by_cases h1 : parseNat ['1'] = some (Fees.ethChainId keccak ab)
  · right
    intro h2
    rw [h1] at h2
    exact h (Option.some.inj h2)
  · exact .inl h1

/-! ### Concrete cases -/

/-- A contract whose slot `10` and no other holds something. -/
def toyContracts : Contracts where
  storage a h := if a.bytes.head? = some 7 ∧ h = Hash.ofNat 10 then Hash.ofNat 77 else Hash.ofNat 0
  code a := if a.bytes.head? = some 7 then [0x60, 0x01] else []

def toyC : Addr := ⟨7 :: List.replicate 19 0, by decide⟩

/-- `0x0A`, `a`, `0X00a` and all 64 digits name slot 10; `g` and 65 digits name none. -/
example : (getStorageAt (toyEnv 6) (fun _ => []) toyContracts toyC "0x0A".toList = some (Hash.ofNat 77).bytes) ∧
    (getStorageAt (toyEnv 6) (fun _ => []) toyContracts toyC "a".toList = some (Hash.ofNat 77).bytes) ∧
    (getStorageAt (toyEnv 6) (fun _ => []) toyContracts toyC "0X00a".toList = some (Hash.ofNat 77).bytes) ∧
    (getStorageAt (toyEnv 6) (fun _ => []) toyContracts toyC (List.replicate 63 '0' ++ ['A']) = some (Hash.ofNat 77).bytes) ∧
    (getStorageAt (toyEnv 6) (fun _ => []) toyContracts toyC "g".toList = none) ∧
    (getStorageAt (toyEnv 6) (fun _ => []) toyContracts toyC (List.replicate 64 '0' ++ ['A']) = none) :=
  ⟨C102_storage _ _ toyContracts toyC _ 10 (by decide +kernel) (by decide +kernel) (Hash.ofNat 10) (by decide +kernel),
    C102_storage _ _ toyContracts toyC _ 10 (by decide +kernel) (by decide +kernel) (Hash.ofNat 10) (by decide +kernel),
    C102_storage _ _ toyContracts toyC _ 10 (by decide +kernel) (by decide +kernel) (Hash.ofNat 10) (by decide +kernel),
    C102_storage _ _ toyContracts toyC _ 10 (by decide +kernel) (by decide +kernel) (Hash.ofNat 10) (by decide +kernel),
    C102_storage_refused _ _ _ _ _ (.inl (by decide +kernel)), C102_storage_refused _ _ _ _ _ (.inr (by decide +kernel))⟩

/-- The gRPC query answers slot 10 for 2^256 + 10 as well. -/
example : queryState (toyEnv 6) toyContracts (addrHex (fun _ => []) toyC) "0x0a".toList = some (hashHex (Hash.ofNat 77)) ∧
    queryState (toyEnv 6) toyContracts (addrHex (fun _ => []) toyC) ("0x01".toList ++ List.replicate 63 '0' ++ ['a']) =
      some (hashHex (Hash.ofNat 77)) :=
  ⟨C102_state_partial _ toyContracts toyC _ _ 10 (contract_hex ..) (by decide +kernel) (by decide +kernel) (by decide +kernel)
      (Hash.ofNat 10) (by decide +kernel),
    C102_state_violated _ toyContracts toyC _ _ (256 ^ 32 + 10) (contract_hex ..) (by decide +kernel) (by decide +kernel)
      (by decide +kernel) (by decide +kernel) (Hash.ofNat 10) (by decide +kernel)⟩

example : netVersion "minievm-12".toList = "12".toList ∧ netVersion "minievm".toList = "1".toList ∧
    netVersion "mini-evm-7".toList = "7".toList := by decide +kernel

end Verif.ReadText
