import Verif.Model.Bytes
/-
Strings as character lists and the go-ethereum hex conventions used throughout /repo
(`common.HexToAddress`, `common.IsHexAddress`, `hexutil.Encode/Decode`, `Address.Hex`, `Hash.Hex`).
These functions are in go-ethereum (outside /repo) and are modelled from their documented behaviour.
-/
namespace Verif

/-- A Go `string`, as its characters (all strings here are ASCII, non-ASCII characters are just other
characters). -/
abbrev Str := List Char

namespace Text

/-- Lower-case hexadecimal digit of `n < 16` (encoding/hex `hextable`). -/
def hexDigit : Nat → Char
  | 0 => '0' | 1 => '1' | 2 => '2' | 3 => '3' | 4 => '4' | 5 => '5' | 6 => '6' | 7 => '7'
  | 8 => '8' | 9 => '9' | 10 => 'a' | 11 => 'b' | 12 => 'c' | 13 => 'd' | 14 => 'e' | _ => 'f'

/-- Value of a hexadecimal digit of either case (encoding/hex `fromHexChar`). -/
def hexVal (c : Char) : Option Nat :=
  if '0' ≤ c ∧ c ≤ '9' then some (c.toNat - 48)
  else if 'a' ≤ c ∧ c ≤ 'f' then some (c.toNat - 87)
  else if 'A' ≤ c ∧ c ≤ 'F' then some (c.toNat - 55)
  else none

/-- ASCII upper case of a lower-case hex letter (EIP-55 subtracts 32 from characters above '9'). -/
def upHex (c : Char) : Char :=
  match c with
  | 'a' => 'A' | 'b' => 'B' | 'c' => 'C' | 'd' => 'D' | 'e' => 'E' | 'f' => 'F' | c => c

/-- `hex.EncodeToString` -/
def hexEnc : Bytes → Str
  | [] => []
  | b :: bs => hexDigit (b.toNat / 16) :: hexDigit (b.toNat % 16) :: hexEnc bs

/-- `hex.DecodeString`: the bytes decoded before the first problem, and whether there was none. -/
def hexDecPartial : Str → Bytes × Bool
  | [] => ([], true)
  | [_] => ([], false)
  | a :: b :: rest =>
    match hexVal a, hexVal b with
    | some x, some y => let r := hexDecPartial rest; (UInt8.ofNat (x * 16 + y) :: r.1, r.2)
    | _, _ => ([], false)

/-- `hex.DecodeString` with its error. -/
def hexDec (s : Str) : Option Bytes :=
  let r := hexDecPartial s
  if r.2 then some r.1 else none

/-- go-ethereum `has0xPrefix` + strip -/
def strip0x : Str → Str
  | '0' :: 'x' :: r => r
  | '0' :: 'X' :: r => r
  | s => s

/-- go-ethereum `has0xPrefix` -/
def has0x : Str → Bool
  | '0' :: 'x' :: _ => true
  | '0' :: 'X' :: _ => true
  | _ => false

/-- `common.FromHex`: strip `0x`, prepend `0` to odd lengths, decode and ignore errors. -/
def fromHex (s : Str) : Bytes :=
  let t := strip0x s
  let t := if t.length % 2 = 1 then '0' :: t else t
  (hexDecPartial t).1

/-- `common.IsHexAddress`: optional `0x`, then exactly 40 hex digits. -/
def isHexAddress (s : Str) : Bool :=
  let t := strip0x s
  t.length == 40 && t.all fun c => (hexVal c).isSome

/-- `common.HexToAddress` -/
def hexToAddress (s : Str) : Addr := bytesToAddress (fromHex s)

/-- `common.HexToHash` -/
def hexToHash (s : Str) : Hash := bytesToHash (fromHex s)

/-- `hexutil.Encode` -/
def encode0x (b : Bytes) : Str := '0' :: 'x' :: hexEnc b

/-- `hexutil.Decode`: error without `0x` prefix, on odd length or on a non-hex character. -/
def decode0x (s : Str) : Option Bytes :=
  if has0x s then hexDec (strip0x s) else none

/-- `Hash.Hex` / `Hash.String` -/
def hashHex (h : Hash) : Str := encode0x h.bytes

/-- Decimal digit. -/
def decDigit (n : Nat) : Char :=
  match n with
  | 0 => '0' | 1 => '1' | 2 => '2' | 3 => '3' | 4 => '4' | 5 => '5' | 6 => '6' | 7 => '7' | 8 => '8'
  | _ => '9'

/-- Value of a decimal digit. -/
def decVal (c : Char) : Option Nat := if '0' ≤ c ∧ c ≤ '9' then some (c.toNat - 48) else none

/-- `big.Int.String` of a non-negative number. -/
def natStr (n : Nat) : Str :=
  if _h : n < 10 then [decDigit n] else natStr (n / 10) ++ [decDigit (n % 10)]
decreasing_by omega

/-- `big.Int.String` -/
def intStr : Int → Str
  | .ofNat n => natStr n
  | .negSucc n => '-' :: natStr (n + 1)

/-- Decimal digits to a number; at least one digit is required by the callers. -/
def digitsVal : Nat → Str → Option Nat
  | acc, [] => some acc
  | acc, c :: cs => match decVal c with
    | some d => digitsVal (acc * 10 + d) cs
    | none => none

/-- Unsigned decimal parse: at least one digit, digits only. -/
def parseNat (s : Str) : Option Nat := if s = [] then none else digitsVal 0 s

/-- `new(big.Int).SetString(s, 10)`: optional sign, at least one digit, digits only. -/
def parseInt : Str → Option Int
  | '-' :: r => Option.map (fun n : Nat => - Int.ofNat n) (parseNat r)
  | '+' :: r => Option.map Int.ofNat (parseNat r)
  | s => Option.map Int.ofNat (parseNat s)

/-- Apply the EIP-55 case mask. -/
def applyCase : List Bool → Str → Str
  | m :: ms, c :: cs => (if m then upHex c else c) :: applyCase ms cs
  | _, cs => cs

/-- `Address.Hex`: EIP-55 checksummed hex. `mask` gives, for the lower-case hex string, which characters are
upper-cased (in go-ethereum: nibbles of keccak256 of that string above 7); a parameter of the model. -/
def addrHex (mask : Str → List Bool) (a : Addr) : Str :=
  '0' :: 'x' :: applyCase (mask (hexEnc a.bytes)) (hexEnc a.bytes)

/-! ### Facts -/

theorem hexVal_hexDigit : ∀ n, n < 16 → hexVal (hexDigit n) = some n := by decide

theorem hexVal_upHex_digit : ∀ n, n < 16 → hexVal (upHex (hexDigit n)) = some n := by decide

/-- `t` is `s` up to the case of hex digits: it has the same digit values. -/
def SameDigits (s t : Str) : Prop := s.map hexVal = t.map hexVal

theorem byte_digits (b : UInt8) : UInt8.ofNat (b.toNat / 16 * 16 + b.toNat % 16) = b := by
  have : b.toNat / 16 * 16 + b.toNat % 16 = b.toNat := by omega
  rw [this]; simp

theorem byte_hi (b : UInt8) : b.toNat / 16 < 16 := by have := b.toNat_lt; omega
theorem byte_lo (b : UInt8) : b.toNat % 16 < 16 := by omega

theorem hexDecPartial_same : ∀ (b : Bytes) (s : Str), SameDigits s (hexEnc b) → hexDecPartial s = (b, true)
  | [], s, h => by
    cases s with
    | nil => rfl
    | cons c r => simp [SameDigits, hexEnc] at h
  | x :: xs, s, h => by
    match s with
    | [] => simp [SameDigits, hexEnc] at h
    | [c] => simp [SameDigits, hexEnc] at h
    | c :: d :: r =>
      simp only [SameDigits, hexEnc, List.map_cons, List.cons.injEq] at h
      obtain ⟨h1, h2, h3⟩ := h
      rw [hexVal_hexDigit _ (byte_hi x)] at h1
      rw [hexVal_hexDigit _ (byte_lo x)] at h2
      have ih := hexDecPartial_same xs r h3
      simp [hexDecPartial, h1, h2, ih]
      have := byte_digits x
      simpa using this

theorem hexEnc_length (b : Bytes) : (hexEnc b).length = 2 * b.length := by
  induction b with
  | nil => rfl
  | cons x xs ih => simp [hexEnc, ih]; omega

theorem hexEnc_digits (b : Bytes) : ∀ c ∈ hexEnc b, ∃ n, n < 16 ∧ c = hexDigit n := by
  induction b with
  | nil => intro c h; simp [hexEnc] at h
  | cons x xs ih =>
    intro c h
    simp only [hexEnc, List.mem_cons] at h
    rcases h with h | h | h
    · exact ⟨_, byte_hi x, h⟩
    · exact ⟨_, byte_lo x, h⟩
    · exact ih c h

theorem hexDec_hexEnc (b : Bytes) : hexDec (hexEnc b) = some b := by
  simp [hexDec, hexDecPartial_same b (hexEnc b) rfl]

theorem applyCase_length (m : List Bool) (s : Str) : (applyCase m s).length = s.length := by
  induction m generalizing s with
  | nil => cases s <;> rfl
  | cons x xs ih => cases s with
    | nil => rfl
    | cons c cs => simp [applyCase, ih]

theorem applyCase_same (m : List Bool) (s : Str) (hs : ∀ c ∈ s, ∃ n, n < 16 ∧ c = hexDigit n) :
    SameDigits (applyCase m s) s := by
  induction m generalizing s with
  | nil => cases s <;> rfl
  | cons x xs ih => cases s with
    | nil => rfl
    | cons c cs =>
      have h2 := ih cs (fun d hd => hs d (List.mem_cons_of_mem _ hd))
      obtain ⟨n, hn, hc⟩ := hs c List.mem_cons_self
      simp only [SameDigits, applyCase, List.map_cons] at h2 ⊢
      rw [h2]
      congr 1
      cases x
      · rfl
      · simp only [if_true]; rw [hc, hexVal_upHex_digit n hn, hexVal_hexDigit n hn]

theorem strip0x_of_ne (s : Str) (h : ∀ c ∈ s.drop 1, hexVal c ≠ none) : strip0x s = s := by
  unfold strip0x
  split
  · rename_i r; exact absurd (by decide : hexVal 'x' = none) (h 'x' (by simp))
  · rename_i r; exact absurd (by decide : hexVal 'X' = none) (h 'X' (by simp))
  · rfl

/-- Any string with the digits of `b` (any case), with or without `0x`, parses to `b`. -/
theorem fromHex_same (b : Bytes) (s : Str) (h : SameDigits (strip0x s) (hexEnc b)) : fromHex s = b := by
  unfold fromHex
  have hl : (strip0x s).length = 2 * b.length := by
    have := congrArg List.length h
    simpa [hexEnc_length] using this
  have : ¬ ((strip0x s).length % 2 = 1) := by omega
  simp only [this, if_false]
  rw [hexDecPartial_same b _ h]

theorem applyCase_cons_strip (mask : Str → List Bool) (a : Addr) :
    strip0x (addrHex mask a) = applyCase (mask (hexEnc a.bytes)) (hexEnc a.bytes) := rfl

theorem hexToAddress_addrHex (mask : Str → List Bool) (a : Addr) : hexToAddress (addrHex mask a) = a := by
  unfold hexToAddress
  rw [fromHex_same a.bytes (addrHex mask a)
    (applyCase_same (mask (hexEnc a.bytes)) (hexEnc a.bytes) (hexEnc_digits _))]
  exact bytesToAddress_bytes a

theorem sameDigits_all {s : Str} {b : Bytes} (h : SameDigits s (hexEnc b)) :
    ∀ c ∈ s, (hexVal c).isSome := by
  intro c hc
  have : hexVal c ∈ s.map hexVal := List.mem_map.mpr ⟨c, hc, rfl⟩
  rw [h] at this
  obtain ⟨d, hd, e⟩ := List.mem_map.mp this
  obtain ⟨n, hn, rfl⟩ := hexEnc_digits b d hd
  rw [← e, hexVal_hexDigit n hn]; rfl

theorem isHexAddress_same (a : Addr) (s : Str) (h : SameDigits (strip0x s) (hexEnc a.bytes)) :
    isHexAddress s = true := by
  have hl : (strip0x s).length = 40 := by
    have := congrArg List.length h
    simp [hexEnc_length, a.len] at this; exact this
  simp only [isHexAddress, hl, Bool.and_eq_true, beq_self_eq_true, true_and, List.all_eq_true]
  exact sameDigits_all h

theorem isHexAddress_addrHex (mask : Str → List Bool) (a : Addr) : isHexAddress (addrHex mask a) = true :=
  isHexAddress_same a _ (applyCase_same _ _ (hexEnc_digits _))

theorem hexToHash_hashHex (h : Hash) : hexToHash (hashHex h) = h := by
  unfold hexToHash hashHex
  rw [fromHex_same h.bytes (encode0x h.bytes) rfl]
  exact bytesToHash_bytes h

theorem decode0x_encode0x (b : Bytes) : decode0x (encode0x b) = some b := by
  simp [decode0x, encode0x, has0x, strip0x, hexDec_hexEnc]

/-- Conversely: a string accepted as a hex address has the digits of exactly the address it parses to. -/
theorem hexVal_lt {c : Char} {n : Nat} (h : hexVal c = some n) : n < 16 := by
  unfold hexVal at h
  split at h
  · rename_i g; cases h
    have : c.toNat ≤ 57 := g.2
    omega
  · split at h
    · rename_i g; cases h
      have : c.toNat ≤ 102 := g.2
      omega
    · split at h
      · rename_i g; cases h
        have : c.toNat ≤ 70 := g.2
        omega
      · cases h

theorem hexDecPartial_all : ∀ (s : Str), s.length % 2 = 0 → (∀ c ∈ s, (hexVal c).isSome) →
    SameDigits s (hexEnc (hexDecPartial s).1)
  | [], _, _ => rfl
  | [c], h, _ => by simp at h
  | a :: b :: r, h, hall => by
    have hr := hexDecPartial_all r (by simp at h; omega)
      (fun c hc => hall c (List.mem_cons_of_mem _ (List.mem_cons_of_mem _ hc)))
    obtain ⟨x, hx⟩ := Option.isSome_iff_exists.mp (hall a (by simp))
    obtain ⟨y, hy⟩ := Option.isSome_iff_exists.mp (hall b (by simp))
    have lx := hexVal_lt hx
    have ly := hexVal_lt hy
    have e : (UInt8.ofNat (x * 16 + y)).toNat = x * 16 + y := by
      rw [UInt8.toNat_ofNat']; exact Nat.mod_eq_of_lt (by omega)
    simp only [SameDigits, hexDecPartial, hx, hy, hexEnc, List.map_cons] at hr ⊢
    rw [e, hr, show (x * 16 + y) / 16 = x by omega, show (x * 16 + y) % 16 = y by omega,
      hexVal_hexDigit x lx, hexVal_hexDigit y ly]

theorem isHexAddress_digits (s : Str) (h : isHexAddress s = true) :
    SameDigits (strip0x s) (hexEnc (hexToAddress s).bytes) := by
  simp only [isHexAddress, Bool.and_eq_true, beq_iff_eq, List.all_eq_true] at h
  have h1 := hexDecPartial_all (strip0x s) (by omega) h.2
  have hl : (fromHex s).length = 20 := by
    have := congrArg List.length h1
    simp [hexEnc_length] at this
    have e : fromHex s = (hexDecPartial (strip0x s)).1 := by simp [fromHex, h.1]
    rw [e]; omega
  have e : (hexToAddress s).bytes = (hexDecPartial (strip0x s)).1 := by
    show fitBytes 20 (fromHex s) = _
    rw [fitBytes_eq 20 _ hl]; simp [fromHex, h.1]
  rw [e]; exact h1

/-! ### Decimal strings -/

theorem decVal_decDigit : ∀ n, n < 10 → decVal (decDigit n) = some n := by decide

theorem digitsVal_append (acc : Nat) (s : Str) (c : Char) :
    digitsVal acc (s ++ [c]) = (digitsVal acc s).bind fun v => (decVal c).map fun d => v * 10 + d := by
  induction s generalizing acc with
  | nil => simp [digitsVal]; cases decVal c <;> rfl
  | cons x xs ih =>
    simp only [List.cons_append, digitsVal]
    cases decVal x with
    | none => rfl
    | some d => simp only [ih]

theorem natStr_ne (n : Nat) : natStr n ≠ [] := by
  unfold natStr; split <;> simp

theorem digitsVal_natStr (n : Nat) : digitsVal 0 (natStr n) = some n := by
  induction n using Nat.strongRecOn with
  | _ n ih =>
    unfold natStr
    split
    · rename_i h; simp [digitsVal, decVal_decDigit n h]
    · rename_i h
      rw [digitsVal_append, ih (n / 10) (by omega), decVal_decDigit _ (Nat.mod_lt _ (by decide))]
      simp; omega

theorem parseNat_natStr (n : Nat) : parseNat (natStr n) = some n := by
  simp [parseNat, natStr_ne, digitsVal_natStr]

theorem natStr_head (n : Nat) : ∀ c ∈ natStr n, ∃ d, d < 10 ∧ c = decDigit d := by
  induction n using Nat.strongRecOn with
  | _ n ih =>
    unfold natStr
    split
    · rename_i h; intro c hc; simp at hc; exact ⟨n, h, hc⟩
    · rename_i h
      intro c hc
      rw [List.mem_append] at hc
      rcases hc with hc | hc
      · exact ih (n / 10) (by omega) c hc
      · simp at hc; exact ⟨_, Nat.mod_lt _ (by decide), hc⟩

theorem decDigit_ne : ∀ d, d < 10 → decDigit d ≠ '-' ∧ decDigit d ≠ '+' := by decide

theorem parseInt_intStr (i : Int) : parseInt (intStr i) = some i := by
  cases i with
  | ofNat n =>
    unfold parseInt intStr
    split
    · rename_i r h
      obtain ⟨d, hd, e⟩ := natStr_head n '-' (by have h' : natStr n = _ := h; rw [h']; simp)
      exact absurd e.symm (decDigit_ne d hd).1
    · rename_i r h
      obtain ⟨d, hd, e⟩ := natStr_head n '+' (by have h' : natStr n = _ := h; rw [h']; simp)
      exact absurd e.symm (decDigit_ne d hd).2
    · show Option.map Int.ofNat (parseNat (natStr n)) = _
      rw [parseNat_natStr]; rfl
  | negSucc n => simp [intStr, parseInt, parseNat_natStr]; omega

end Text
end Verif
