import Verif.Model.Keys
/-
C80: stored data of different kinds, accounts, executions and blocks never mix.
-/
namespace Verif.Keys
open Verif

theorem u64_inj {a b : Nat} (ha : a < 2 ^ 64) (hb : b < 2 ^ 64) (h : u64 a = u64 b) : a = b := by
  have h1 := fromBE_toBE 8 a (by omega)
  have h2 := fromBE_toBE 8 b (by omega)
  unfold u64 at h
  rw [h, h2] at h1
  exact h1.symm

theorem u64_app {a b : Nat} (ha : a < 2 ^ 64) (hb : b < 2 ^ 64) {s t : Bytes} (h : u64 a ++ s = u64 b ++ t) : a = b ∧ s = t := by
  have := List.append_inj h (by simp [u64, toBE_length])
  exact ⟨u64_inj ha hb this.1, this.2⟩

theorem uvarint_app : ∀ (a b : Nat) (s t : Bytes), uvarint a ++ s = uvarint b ++ t → a = b ∧ s = t := by
  intro a
  induction a using Nat.strongRecOn with
  | ind a ih =>
    intro b s t h
    rw [uvarint, uvarint.eq_def b] at h
    by_cases ha : a < 128 <;> by_cases hb : b < 128
    · rw [if_pos ha, if_pos hb] at h
      simp only [List.singleton_append, List.cons.injEq] at h
      have := congrArg UInt8.toNat h.1
      rw [UInt8.toNat_ofNat', UInt8.toNat_ofNat'] at this
      exact ⟨by omega, h.2⟩
    · rw [if_pos ha, if_neg hb] at h
      simp only [List.singleton_append, List.cons_append, List.cons.injEq] at h
      have := congrArg UInt8.toNat h.1
      rw [UInt8.toNat_ofNat', UInt8.toNat_ofNat'] at this
      omega
    · rw [if_neg ha, if_pos hb] at h
      simp only [List.singleton_append, List.cons_append, List.cons.injEq] at h
      have := congrArg UInt8.toNat h.1
      rw [UInt8.toNat_ofNat', UInt8.toNat_ofNat'] at this
      omega
    · rw [if_neg ha, if_neg hb] at h
      simp only [List.cons_append, List.cons.injEq] at h
      have h1 := congrArg UInt8.toNat h.1
      rw [UInt8.toNat_ofNat', UInt8.toNat_ofNat'] at h1
      obtain ⟨h2, h3⟩ := ih (a / 128) (by omega) (b / 128) s t h.2
      exact ⟨by omega, h3⟩

theorem ntBytes_app {a b s t : Bytes} (h : ntBytes a ++ s = ntBytes b ++ t) : a = b ∧ s = t := by
  unfold ntBytes at h
  rw [List.append_assoc, List.append_assoc] at h
  obtain ⟨h1, h2⟩ := uvarint_app _ _ _ _ h
  exact List.append_inj h2 h1

/-- A walk over a prefix range visits exactly the keys that start with the prefix. -/
theorem inRange_iff : ∀ p k : Bytes, inRange p k = true ↔ p <+: k := by
  intro p
  induction p with
  | nil => intro k; simp [inRange, prefixEnd, ltB]
  | cons x xs ih =>
    intro k
    cases k with
    | nil => simp [inRange, ltB]
    | cons y ys =>
      have ih' := ih ys
      unfold inRange at ih' ⊢
      rw [List.cons_prefix_cons]
      unfold prefixEnd
      by_cases hxy : x = y
      · subst hxy
        simp only [true_and]
        rw [← ih']
        have hlt : ¬ x < x := by rw [UInt8.lt_iff_toNat_lt]; omega
        cases hp : prefixEnd xs with
        | some e => simp [ltB, hlt]
        | none =>
          by_cases h255 : x = 255
          · simp [ltB, hlt, h255]
          · have : x < x + 1 := by
              rw [UInt8.lt_iff_toNat_lt, UInt8.toNat_add]
              have h1 := x.toNat_lt
              have : x.toNat ≠ 255 := fun h => h255 (UInt8.toNat_inj.1 h)
              have h2 : (1 : UInt8).toNat = 1 := rfl
              omega
            simp [ltB, hlt, h255, this]
      · simp only [hxy, false_and, iff_false]
        have hne : x.toNat ≠ y.toNat := fun h => hxy (UInt8.toNat_inj.1 h)
        by_cases hlt : y < x
        · simp [ltB, hlt]
        · have hgt : ¬ y < x := hlt
          rw [UInt8.lt_iff_toNat_lt] at hlt
          have hyx : ¬ (y = x) := fun h => hxy h.symm
          cases hp : prefixEnd xs with
          | some e => simp [ltB, hgt, hyx]
          | none =>
            by_cases h255 : x = 255
            · exfalso
              have h1 := y.toNat_lt
              rw [h255] at hlt hne
              have h2 : (255 : UInt8).toNat = 255 := rfl
              omega
            · have h3 : ¬ y < x + 1 := by
                rw [UInt8.lt_iff_toNat_lt, UInt8.toNat_add]
                have h1 := y.toNat_lt
                have h2 : (1 : UInt8).toNat = 1 := rfl
                omega
              simp [h255, ltB, h3]

/-! ### Different things have different keys -/

/-- Numbers stored in keys are 64-bit. -/
def EvmKey.Ok : EvmKey → Prop
  | .blockHash n => n < 2 ^ 64
  | _ => True

def TransKey.Ok : TransKey → Prop
  | .vm e _ => e < 2 ^ 64
  | .created e _ => e < 2 ^ 64
  | .destruct e _ => e < 2 ^ 64
  | .log e i => e < 2 ^ 64 ∧ i < 2 ^ 64
  | .logSize e => e < 2 ^ 64
  | .access e _ => e < 2 ^ 64
  | .refund e => e < 2 ^ 64

def IndexKey.Ok : IndexKey → Prop
  | .header n => n < 2 ^ 64
  | .byIndex n i => n < 2 ^ 64 ∧ i < 2 ^ 64
  | _ => True

/-- C80: two entries of the module's store have the same key only if they are the same entry. -/
theorem C80_persistent (x y : EvmKey) (hx : x.Ok) (hy : y.Ok) (h : x.bytes = y.bytes) : x = y := by
  cases x <;> cases y <;> simp only [EvmKey.bytes, List.cons.injEq, EvmKey.Ok] at h hx hy <;>
    first
    | rfl
    | exact absurd h.1 (by decide)
    | (obtain ⟨_, h⟩ := h; subst h; rfl)
    | (obtain ⟨_, h⟩ := h; obtain ⟨h1, h2⟩ := ntBytes_app h; subst h1; subst h2; rfl)
    | (obtain ⟨_, h⟩ := h; have := u64_inj hx hy h; subst this; rfl)

/-- C80: likewise in the transient store: different executions and kinds of records never share a key. -/
theorem C80_transient (x y : TransKey) (hx : x.Ok) (hy : y.Ok) (h : x.bytes = y.bytes) : x = y := by
  cases x <;> cases y <;> simp only [TransKey.bytes, List.cons.injEq, TransKey.Ok] at h hx hy <;>
    first
    | exact absurd h.1 (by decide)
    | (obtain ⟨_, h⟩ := h; obtain ⟨h1, h2⟩ := u64_app hx hy h; subst h1; subst h2; rfl)
    | (obtain ⟨_, h⟩ := h; have := u64_inj hx hy h; subst this; rfl)
    | (obtain ⟨_, h⟩ := h; obtain ⟨h1, h2⟩ := u64_app hx.1 hy.1 h; have h3 := u64_inj hx.2 hy.2 h2; subst h1; subst h3; rfl)

/-- C80: likewise in the index. -/
theorem C80_index (x y : IndexKey) (hx : x.Ok) (hy : y.Ok) (h : x.bytes = y.bytes) : x = y := by
  cases x <;> cases y <;> simp only [IndexKey.bytes, List.cons_append, List.nil_append, List.cons.injEq, IndexKey.Ok, true_and] at h hx hy <;>
    first
    | exact absurd h.1 (by decide)
    | exact absurd h.2.1 (by decide)
    | (subst h; rfl)
    | (have := u64_inj hx hy h; subst this; rfl)
    | (obtain ⟨h1, h2⟩ := u64_app hx.1 hy.1 h; have h3 := u64_inj hx.2 hy.2 h2; subst h1; subst h3; rfl)

/-! ### Walks see exactly what they should -/

/-- C80: listing an account's tokens visits exactly the tokens entered for this account, whatever other accounts (of any length, also
ones whose bytes begin like this one's) and other records there are. -/
theorem C80_account (a : Bytes) (k : EvmKey) : inRange (accountRange a) k.bytes = true ↔ ∃ c, k = .erc20Store a c := by
  rw [inRange_iff]
  unfold accountRange
  constructor
  · rintro ⟨t, ht⟩
    cases k <;> simp only [EvmKey.bytes, List.cons_append, List.cons.injEq] at ht <;>
      first
      | exact absurd ht.1 (by decide)
      | (obtain ⟨_, h⟩ := ht; obtain ⟨h1, _⟩ := ntBytes_app h; subst h1; exact ⟨_, rfl⟩)
  · rintro ⟨c, rfl⟩
    exact ⟨c, rfl⟩

/-- C80: listing all tokens visits exactly the registered tokens. -/
theorem C80_tokens (k : EvmKey) : inRange (wholeRange [0x31]) k.bytes = true ↔ ∃ a, k = .erc20 a := by
  rw [inRange_iff]
  unfold wholeRange
  constructor
  · rintro ⟨t, ht⟩
    cases k <;> simp only [EvmKey.bytes, List.cons_append, List.nil_append, List.cons.injEq] at ht <;>
      first
      | exact absurd ht.1 (by decide)
      | exact ⟨_, rfl⟩
  · rintro ⟨a, rfl⟩
    exact ⟨a, rfl⟩

/-- C80: clearing a destroyed contract removes exactly the virtual machine's records that begin with its address: no other account's, and
no other kind of record. -/
theorem C80_clear (a : Addr) (k : EvmKey) : inRange (clearRange a) k.bytes = true ↔ ∃ r, k = .vm (a.bytes ++ r) := by
  rw [inRange_iff]
  unfold clearRange
  constructor
  · rintro ⟨t, ht⟩
    cases k <;> simp only [EvmKey.bytes, List.cons_append, List.cons.injEq] at ht <;>
      first
      | exact absurd ht.1 (by decide)
      | (obtain ⟨_, h⟩ := ht; exact ⟨t, by rw [h]⟩)
  · rintro ⟨r, rfl⟩
    exact ⟨r, rfl⟩

/-- C80: committing an execution handles exactly the accounts destroyed in it. -/
theorem C80_destructed (e : Nat) (he : e < 2 ^ 64) (k : TransKey) (hk : k.Ok) :
    inRange (destructRange e) k.bytes = true ↔ ∃ a, k = .destruct e a := by
  rw [inRange_iff]
  unfold destructRange
  constructor
  · rintro ⟨t, ht⟩
    cases k <;> simp only [TransKey.bytes, List.cons_append, List.cons.injEq, TransKey.Ok] at ht hk <;>
      first
      | exact absurd ht.1 (by decide)
      | (obtain ⟨_, h⟩ := ht; obtain ⟨h1, _⟩ := u64_app he hk h; subst h1; exact ⟨_, rfl⟩)
  · rintro ⟨a, rfl⟩
    exact ⟨a, rfl⟩

/-- C80: collecting the logs of an execution visits exactly its logs. -/
theorem C80_logs (e : Nat) (he : e < 2 ^ 64) (k : TransKey) (hk : k.Ok) :
    inRange (logRange e) k.bytes = true ↔ ∃ i, k = .log e i := by
  rw [inRange_iff]
  unfold logRange
  constructor
  · rintro ⟨t, ht⟩
    cases k <;> simp only [TransKey.bytes, List.cons_append, List.cons.injEq, TransKey.Ok] at ht hk <;>
      first
      | exact absurd ht.1 (by decide)
      | (obtain ⟨_, h⟩ := ht; obtain ⟨h1, _⟩ := u64_app he hk.1 h; subst h1; exact ⟨_, rfl⟩)
  · rintro ⟨i, rfl⟩
    exact ⟨u64 i, rfl⟩

/-- C80: listing a block's transactions visits exactly the transactions of this block. -/
theorem C80_block (n : Nat) (hn : n < 2 ^ 64) (k : IndexKey) (hk : k.Ok) :
    inRange (blockRange n) k.bytes = true ↔ ∃ i, k = .byIndex n i := by
  rw [inRange_iff]
  unfold blockRange
  constructor
  · rintro ⟨t, ht⟩
    cases k <;> simp only [IndexKey.bytes, List.cons_append, List.nil_append, List.cons.injEq, IndexKey.Ok, true_and] at ht hk <;>
      first
      | exact absurd ht.1 (by decide)
      | exact absurd ht.2.1 (by decide)
      | (obtain ⟨h1, _⟩ := u64_app hn hk.1 ht; subst h1; exact ⟨_, rfl⟩)
  · rintro ⟨i, rfl⟩
    exact ⟨u64 i, by simp [IndexKey.bytes]⟩

/-! ### Order -/

theorem ltB_append_same (p s t : Bytes) : ltB (p ++ s) (p ++ t) = ltB s t := by
  induction p with
  | nil => rfl
  | cons x xs ih =>
    have : ¬ x < x := by rw [UInt8.lt_iff_toNat_lt]; omega
    simp [ltB, this, ih]

theorem fromBE_cons (x : UInt8) (xs : Bytes) : fromBE (x :: xs) = x.toNat * 256 ^ xs.length + fromBE xs := by
  have key : ∀ (l : Bytes) (a : Nat), l.foldl (fun acc x => acc * 256 + x.toNat) a = a * 256 ^ l.length + fromBE l := by
    intro l
    induction l with
    | nil => intro a; simp [fromBE]
    | cons y ys ih =>
      intro a
      have h0 := ih (a * 256 + y.toNat)
      have h1 := ih (0 * 256 + y.toNat)
      simp only [List.foldl_cons, fromBE, List.length_cons] at h0 h1 ⊢
      rw [h0, h1, Nat.pow_succ, Nat.add_mul, Nat.add_mul]
      simp only [Nat.zero_mul, Nat.zero_add]
      rw [Nat.mul_assoc, Nat.mul_comm 256]
      omega
  have := key xs (0 * 256 + x.toNat)
  simp only [Nat.zero_mul, Nat.zero_add] at this
  simp only [fromBE, List.foldl_cons, Nat.zero_mul, Nat.zero_add] at this ⊢
  exact this

/-- Big-endian numbers of the same length compare like numbers. -/
theorem ltB_fixed : ∀ (s t x y : Bytes), s.length = t.length →
    (ltB (s ++ x) (t ++ y) = true ↔ fromBE s < fromBE t ∨ (s = t ∧ ltB x y = true)) := by
  intro s
  induction s with
  | nil =>
    intro t x y h
    have : t = [] := List.length_eq_zero_iff.1 h.symm
    subst this
    simp
  | cons a as ih =>
    intro t x y h
    cases t with
    | nil => simp at h
    | cons b bs =>
      have hl : as.length = bs.length := by simpa using h
      have ih' := ih bs x y hl
      rw [fromBE_cons, fromBE_cons]
      have h1 := fromBE_lt as
      have h2 := fromBE_lt bs
      rw [hl] at h1 ⊢
      simp only [List.cons_append, ltB, Bool.or_eq_true, decide_eq_true_eq, Bool.and_eq_true, beq_iff_eq, List.cons.injEq, ih']
      by_cases hab : a = b
      · subst hab
        have : ¬ a < a := by rw [UInt8.lt_iff_toNat_lt]; omega
        simp [this]
      · have hne : a.toNat ≠ b.toNat := fun h => hab (UInt8.toNat_inj.1 h)
        simp only [hab, false_and, or_false]
        rw [UInt8.lt_iff_toNat_lt]
        constructor
        · intro hlt
          have : (a.toNat + 1) * 256 ^ bs.length ≤ b.toNat * 256 ^ bs.length := Nat.mul_le_mul_right _ hlt
          rw [Nat.add_mul] at this
          omega
        · intro hlt
          by_cases hgt : a.toNat < b.toNat
          · exact hgt
          · have : (b.toNat + 1) * 256 ^ bs.length ≤ a.toNat * 256 ^ bs.length := Nat.mul_le_mul_right _ (by omega)
            rw [Nat.add_mul] at this
            omega

theorem u64_lt {a b : Nat} (ha : a < 2 ^ 64) (hb : b < 2 ^ 64) (s t : Bytes) :
    ltB (u64 a ++ s) (u64 b ++ t) = true ↔ a < b ∨ (a = b ∧ ltB s t = true) := by
  have h1 := fromBE_toBE 8 a (by omega)
  have h2 := fromBE_toBE 8 b (by omega)
  rw [ltB_fixed _ _ _ _ (by simp [u64, toBE_length])]
  have : u64 a = u64 b ↔ a = b := ⟨u64_inj ha hb, fun h => by rw [h]⟩
  rw [this]
  unfold u64
  rw [h1, h2]

/-- C80: the keys of transactions are in the order of block number and position, so that walks return them in this order. -/
theorem C80_order (n i m j : Nat) (hn : n < 2 ^ 64) (hi : i < 2 ^ 64) (hm : m < 2 ^ 64) (hj : j < 2 ^ 64) :
    ltB (IndexKey.byIndex n i).bytes (IndexKey.byIndex m j).bytes = true ↔ n < m ∨ (n = m ∧ i < j) := by
  unfold IndexKey.bytes
  rw [ltB_append_same, u64_lt hn hm]
  have := u64_lt hi hj [] []
  simp only [List.append_nil] at this
  rw [this]
  simp [ltB]

/-- C80: and so are an execution's logs: they are collected in the order in which they were written. -/
theorem C80_log_order (e i f j : Nat) (he : e < 2 ^ 64) (hi : i < 2 ^ 64) (hf : f < 2 ^ 64) (hj : j < 2 ^ 64) :
    ltB (TransKey.log e i).bytes (TransKey.log f j).bytes = true ↔ e < f ∨ (e = f ∧ i < j) := by
  have h1 : ∀ a b : Nat, (TransKey.log a b).bytes = [0x25] ++ (u64 a ++ u64 b) := fun _ _ => rfl
  rw [h1, h1, ltB_append_same, u64_lt he hf]
  have := u64_lt hi hj [] []
  simp only [List.append_nil] at this
  rw [this]
  simp [ltB]

/-- C80: stored block hashes are in the order of their heights. -/
theorem C80_hash_order (n m : Nat) (hn : n < 2 ^ 64) (hm : m < 2 ^ 64) :
    ltB (EvmKey.blockHash n).bytes (EvmKey.blockHash m).bytes = true ↔ n < m := by
  have h1 : ∀ a : Nat, (EvmKey.blockHash a).bytes = [0x71] ++ (u64 a ++ []) := fun _ => by simp [EvmKey.bytes]
  rw [h1, h1, ltB_append_same, u64_lt hn hm]
  simp [ltB]

/-! ### Concrete cases -/

/-- Accounts whose bytes begin like another's: the shorter one's walk does not see the longer one's tokens, although the address is a
prefix of the other; without the length it would. -/
example : inRange (accountRange [1, 2]) (EvmKey.erc20Store [1, 2] [9]).bytes = true ∧
    inRange (accountRange [1, 2]) (EvmKey.erc20Store [1, 2, 3] [9]).bytes = false ∧
    inRange (0x32 :: [1, 2]) (0x32 :: ([1, 2, 3] ++ [9])) = true := by
  refine ⟨(inRange_iff _ _).2 ⟨[9], rfl⟩, ?_, by decide⟩
  rw [Bool.eq_false_iff]
  intro h
  obtain ⟨c, hc⟩ := (C80_account _ _).1 h
  simp at hc

/-- The ranges at the end of the byte order: block 255 (keys ending in 255) and the greatest number, where the upper bound carries over. -/
example : inRange (blockRange 255) (IndexKey.byIndex 255 7).bytes = true ∧ inRange (blockRange 255) (IndexKey.byIndex 256 0).bytes = false ∧
    inRange (blockRange (2 ^ 64 - 1)) (IndexKey.byIndex (2 ^ 64 - 1) 3).bytes = true ∧
    inRange (blockRange (2 ^ 64 - 1)) (IndexKey.toCosmos []).bytes = false := by decide +kernel

example : inRange (destructRange 1) (TransKey.destruct 1 [5]).bytes = true ∧ inRange (destructRange 1) (TransKey.destruct 256 [5]).bytes = false ∧
    inRange (logRange 1) (TransKey.log 1 0).bytes = true ∧ inRange (logRange 1) (TransKey.destruct 1 [5]).bytes = false := by decide +kernel

example : inRange (wholeRange [0x31]) (EvmKey.erc20 (Addr.ofNat 3).bytes).bytes = true ∧
    inRange (wholeRange [0x31]) (EvmKey.denomByAddr (Addr.ofNat 3).bytes).bytes = false := by decide +kernel

example : inRange (clearRange (Addr.ofNat 3)) (EvmKey.vm ((Addr.ofNat 3).bytes ++ [1, 2])).bytes = true ∧
    inRange (clearRange (Addr.ofNat 3)) (EvmKey.vm ((Addr.ofNat 4).bytes ++ [1, 2])).bytes = false ∧
    inRange (clearRange (Addr.ofNat 3)) (EvmKey.erc20 (Addr.ofNat 3).bytes).bytes = false := by decide +kernel

/-- Position 255 before position 256, and the last of a block before the first of the next. -/
example : ltB (IndexKey.byIndex 4 255).bytes (IndexKey.byIndex 4 256).bytes = true ∧
    ltB (IndexKey.byIndex 4 (2 ^ 64 - 1)).bytes (IndexKey.byIndex 5 0).bytes = true := by decide +kernel

/-- Distinct entries that all meet the hypotheses. -/
example : (EvmKey.blockHash 7).Ok ∧ (TransKey.log 1 2).Ok ∧ (IndexKey.byIndex 1 2).Ok ∧
    (EvmKey.blockHash 7).bytes ≠ (EvmKey.blockHash 8).bytes := by
  refine ⟨?_, ?_, ?_, by decide +kernel⟩ <;> simp [EvmKey.Ok, TransKey.Ok, IndexKey.Ok]

end Verif.Keys
