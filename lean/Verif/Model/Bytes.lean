/-
Byte strings, fixed-width words and the big-endian encoding used by the state database.
-/
namespace Verif

/-- A Go `[]byte`. -/
abbrev Bytes := List UInt8

/-- go-ethereum `common.Address`: exactly 20 bytes. -/
structure Addr where
  /-- the bytes, as returned by `Address.Bytes()` -/
  bytes : Bytes
  len : bytes.length = 20
deriving DecidableEq

/-- go-ethereum `common.Hash`: exactly 32 bytes. -/
structure Hash where
  /-- the bytes, as returned by `Hash.Bytes()` -/
  bytes : Bytes
  len : bytes.length = 32
deriving DecidableEq

theorem Addr.ext {a b : Addr} (h : a.bytes = b.bytes) : a = b := by
  cases a; cases b; simp at h; subst h; rfl

theorem Hash.ext {a b : Hash} (h : a.bytes = b.bytes) : a = b := by
  cases a; cases b; simp at h; subst h; rfl

/-- `common.Hash{}` -/
def Hash.zero : Hash := ⟨List.replicate 32 0, by simp⟩

/-- `common.Address{}` -/
def Addr.zero : Addr := ⟨List.replicate 20 0, by simp⟩

/-- A word-sized address from a small number, for examples and witnesses. -/
def Addr.ofNat (n : Nat) : Addr := ⟨List.replicate 19 0 ++ [UInt8.ofNat n], by simp⟩

/-- A hash from a small number, for examples and witnesses. -/
def Hash.ofNat (n : Nat) : Hash := ⟨List.replicate 31 0 ++ [UInt8.ofNat n], by simp⟩

/-- go-ethereum `SetBytes`/`BytesToHash`/`BytesToAddress` (common/types.go, outside /repo, by contract):
keep the last `n` bytes, left-pad with zeros. -/
def fitBytes (n : Nat) (b : Bytes) : Bytes :=
  let t := b.drop (b.length - n)
  List.replicate (n - t.length) 0 ++ t

theorem fitBytes_length (n : Nat) (b : Bytes) : (fitBytes n b).length = n := by
  simp [fitBytes, List.length_drop]; omega

theorem fitBytes_eq (n : Nat) (b : Bytes) (h : b.length = n) : fitBytes n b = b := by
  simp [fitBytes, h]

/-- `common.BytesToHash` -/
def bytesToHash (b : Bytes) : Hash := ⟨fitBytes 32 b, fitBytes_length 32 b⟩

/-- `common.BytesToAddress` -/
def bytesToAddress (b : Bytes) : Addr := ⟨fitBytes 20 b, fitBytes_length 20 b⟩

theorem bytesToHash_bytes (h : Hash) : bytesToHash h.bytes = h :=
  Hash.ext (fitBytes_eq 32 _ h.len)

theorem bytesToAddress_bytes (a : Addr) : bytesToAddress a.bytes = a :=
  Addr.ext (fitBytes_eq 20 _ a.len)

/-- Big-endian encoding of `v` in `n` bytes (high bytes dropped): `binary.BigEndian.PutUint64` for
`n = 8`. -/
def toBE : Nat → Nat → Bytes
  | 0, _ => []
  | n + 1, v => toBE n (v / 256) ++ [UInt8.ofNat (v % 256)]

/-- Big-endian decoding: `binary.BigEndian.Uint64` / `big.Int.SetBytes`. -/
def fromBE (b : Bytes) : Nat := b.foldl (fun acc x => acc * 256 + x.toNat) 0

theorem toBE_length (n v : Nat) : (toBE n v).length = n := by
  induction n generalizing v with
  | zero => rfl
  | succ n ih => simp [toBE, ih]

theorem fromBE_append_singleton (b : Bytes) (x : UInt8) : fromBE (b ++ [x]) = fromBE b * 256 + x.toNat := by
  simp [fromBE, List.foldl_append]

theorem fromBE_toBE (n v : Nat) (h : v < 256 ^ n) : fromBE (toBE n v) = v := by
  induction n generalizing v with
  | zero => simp at h; subst h; rfl
  | succ n ih =>
    have h1 : v / 256 < 256 ^ n := by
      rw [Nat.div_lt_iff_lt_mul (by decide)]; rw [Nat.pow_succ] at h; exact h
    rw [toBE, fromBE_append_singleton, ih _ h1]
    have : (UInt8.ofNat (v % 256)).toNat = v % 256 := by
      rw [UInt8.toNat_ofNat']; exact Nat.mod_eq_of_lt (Nat.mod_lt _ (by decide))
    rw [this]; omega

theorem fromBE_lt_aux (n : Nat) (b : Bytes) (h : b.length = n) : fromBE b < 256 ^ n := by
  induction n generalizing b with
  | zero => simp [List.length_eq_zero_iff.mp h, fromBE]
  | succ n ih =>
    have hne : b ≠ [] := by intro e; subst e; simp at h
    rw [← List.dropLast_concat_getLast hne, fromBE_append_singleton]
    have h1 := ih b.dropLast (by simp [h])
    have h2 := (b.getLast hne).toNat_lt
    rw [Nat.pow_succ]; omega

theorem fromBE_lt (b : Bytes) : fromBE b < 256 ^ b.length := fromBE_lt_aux _ b rfl

theorem toBE_fromBE_aux (n : Nat) (b : Bytes) (h : b.length = n) : toBE n (fromBE b) = b := by
  induction n generalizing b with
  | zero => simp [List.length_eq_zero_iff.mp h, toBE]
  | succ n ih =>
    have hne : b ≠ [] := by intro e; subst e; simp at h
    have h1 := ih b.dropLast (by simp [h])
    have h2 := (b.getLast hne).toNat_lt
    conv => lhs; rw [← List.dropLast_concat_getLast hne, fromBE_append_singleton]
    rw [toBE]
    have e1 : (fromBE b.dropLast * 256 + (b.getLast hne).toNat) / 256 = fromBE b.dropLast := by omega
    have e2 : (fromBE b.dropLast * 256 + (b.getLast hne).toNat) % 256 = (b.getLast hne).toNat := by omega
    rw [e1, e2, h1]
    have : UInt8.ofNat (b.getLast hne).toNat = b.getLast hne := by simp
    rw [this, List.dropLast_concat_getLast]

theorem toBE_fromBE (b : Bytes) : toBE b.length (fromBE b) = b := toBE_fromBE_aux _ b rfl

end Verif
