import Verif.Model.TxUtils
/-
C17 (Ethereum transactions survive the Cosmos encoding), C18 (what an Ethereum signature authorizes),
C52 (address strings).
-/
namespace Verif.Props.TxUtils
open Verif Verif.Text Verif.TxUtils

/-! ### Lemmas -/

/-- The order of the curve secp256k1 (SEC 2, section 2.4.1), written in another way. -/
example : secpN = 2 ^ 256 - 2 ^ 128 - 0x45512319_50b75fc4402da1732fc9bebf := by decide +kernel

theorem secpN_lt : secpN < 256 ^ 32 := by decide +kernel

theorem recoverPlain_some {K : Type} {e : Env K} {p : Payload} {r s vb : Nat} {k : K}
    (h : recoverPlain e p r s vb = some k) :
    e.recover p r s (vb - 27) = some k ∧ (vb = 27 ∨ vb = 28) ∧ r < 256 ^ 32 ∧ s < 256 ^ 32 := by
  unfold recoverPlain at h
  split at h
  · cases h
  · split at h
    · rename_i h1 h2
      have hN := secpN_lt
      refine ⟨h, h2.2.2.2.2, Nat.lt_trans h2.2.1 hN, ?_⟩
      have : secpN / 2 ≤ secpN := Nat.div_le_self _ _
      exact Nat.lt_of_le_of_lt (Nat.le_trans h2.2.2.2.1 this) hN
    · cases h

theorem splitSig_join (r s : Nat) (v : Nat) (hr : r < 256 ^ 32) (hs : s < 256 ^ 32) (hv : v < 256) :
    splitSig (toBE 32 r ++ toBE 32 s ++ [UInt8.ofNat v]) = some (v, r, s) := by
  have l1 := toBE_length 32 r
  have l2 := toBE_length 32 s
  have hl : (toBE 32 r ++ toBE 32 s ++ [UInt8.ofNat v]).length = 65 := by simp [l1, l2]
  unfold splitSig
  rw [if_pos hl]
  have e1 : (toBE 32 r ++ toBE 32 s ++ [UInt8.ofNat v]).drop 64 = [UInt8.ofNat v] := by
    have : (toBE 32 r ++ toBE 32 s).length = 64 := by simp [l1, l2]
    rw [List.drop_append_of_le_length (by omega)]
    rw [show (64 : Nat) = (toBE 32 r ++ toBE 32 s).length from this.symm]; simp
  have e2 : (toBE 32 r ++ toBE 32 s ++ [UInt8.ofNat v]).take 32 = toBE 32 r := by
    rw [List.append_assoc, List.take_append_of_le_length (by omega)]
    exact List.take_of_length_le (by omega)
  have e3 : ((toBE 32 r ++ toBE 32 s ++ [UInt8.ofNat v]).drop 32).take 32 = toBE 32 s := by
    rw [List.append_assoc, List.drop_append_of_le_length (by omega),
      List.drop_of_length_le (by omega), List.nil_append, List.take_append_of_le_length (by omega)]
    exact List.take_of_length_le (by omega)
  rw [e1, e2, e3, fromBE_toBE 32 r hr, fromBE_toBE 32 s hs]
  have : fromBE [UInt8.ofNat v] = v := by
    simp [fromBE]; exact hv
  rw [this]

theorem access_roundtrip {K : Type} (e : Env K) (al : EthAccess) : toEthAccess (toCosAccess e al) = al := by
  induction al with
  | nil => rfl
  | cons t ts ih =>
    simp only [toCosAccess, toEthAccess, List.map_cons, List.map_map] at ih ⊢
    rw [ih, hexToAddress_addrHex]
    congr 1
    have : (t.2.map (hexToHash ∘ hashHex)) = t.2 := by
      have h : (hexToHash ∘ hashHex) = id := by funext x; exact hexToHash_hashHex x
      rw [h]; simp
    rw [this]

theorem contractAddress_hex {K : Type} (e : Env K) (a : Addr) :
    contractAddressFromString e (addrHex e.mask a) = some a := by
  simp [contractAddressFromString, isHexAddress_addrHex, hexToAddress_addrHex]

/-! ### C17 -/

/-- The transaction is EIP-155 protected or typed (an unprotected legacy transaction names no chain). -/
def Protected : EthTx → Prop
  | .legacy _ _ _ _ _ _ v _ _ => protectedV v = true
  | _ => True

/-- What the conversion checks establish about the signature: same key from both recoveries, `v` byte, `r`, `s`
in range. -/
theorem sig_facts {K : Type} (e : Env K) (tx : EthTx) (hp : Protected tx) (k : K) (vb : Nat) (p : Payload)
    (hs : senderKey e tx = some k) (hv : vByte e.chainId tx = some vb) (hpl : payloadOf e.chainId tx = some p) :
    e.recover p tx.vrs.2.1 tx.vrs.2.2 vb = some k ∧ vb < 256 ∧ tx.vrs.2.1 < 256 ^ 32 ∧ tx.vrs.2.2 < 256 ^ 32 ∧
    ∀ seq cap tip to input value al, seq = tx.nonce → cap = tx.feeCap → tip = tx.tipCap → to = tx.to →
      input = tx.data → value = tx.value → al = tx.access →
      assemble e.chainId tx.type seq tx.gas cap tip to input value al vb tx.vrs.2.1 tx.vrs.2.2 = some tx := by
  cases tx with
  | legacy nonce gas price to value data v r s =>
    simp only [payloadOf, Option.some.injEq] at hpl; subst hpl
    simp only [vByte, Option.some.injEq] at hv
    simp only [senderKey] at hs
    rw [if_pos (show protectedV v = true from hp)] at hs
    split at hs
    · cases hs
    · rename_i hn
      obtain ⟨h1, h2, h3, h4⟩ := recoverPlain_some hs
      have hv35 : ¬ v < 35 := fun h => hn (Or.inl h)
      have hc : (v - 35) / 2 = e.chainId := by
        by_cases g : (v - 35) / 2 = e.chainId
        · exact g
        · exact absurd (Or.inr g) hn
      have hvb : vb = v - 2 * e.chainId - 35 := by
        have : ((v : Int) - (2 * (e.chainId : Int) + 35)).natAbs = v - 2 * e.chainId - 35 := by omega
        rw [this] at hv
        have lt : v - 2 * e.chainId - 35 < 2 := by omega
        rw [Nat.mod_eq_of_lt (Nat.lt_trans lt (by decide)), Nat.mod_eq_of_lt (Nat.lt_trans lt (by decide))] at hv
        exact hv.symm
      have e1 : v - 2 * e.chainId - 8 - 27 = vb := by omega
      rw [e1] at h1
      refine ⟨h1, by omega, h3, h4, ?_⟩
      intro seq cap tip to' input value' al a1 a2 a3 a4 a5 a6 a7
      subst a1 a2 a3 a4 a5 a6 a7
      simp only [EthTx.type, assemble, EthTx.nonce, EthTx.gas, EthTx.feeCap, EthTx.to, EthTx.value,
        EthTx.data, EthTx.vrs, Option.some.injEq, EthTx.legacy.injEq, and_true, true_and]
      omega
  | accessList c nonce gas price to value data al v r s =>
    simp only [payloadOf, Option.some.injEq] at hpl; subst hpl
    simp only [vByte, Option.some.injEq] at hv
    simp only [senderKey] at hs
    split at hs
    · cases hs
    · rename_i hn
      have hc : c = e.chainId := by
        by_cases g : c = e.chainId
        · exact g
        · exact absurd g hn
      obtain ⟨h1, h2, h3, h4⟩ := recoverPlain_some hs
      have lt : v < 2 := by omega
      rw [Nat.mod_eq_of_lt (Nat.lt_trans lt (by decide)), Nat.mod_eq_of_lt (Nat.lt_trans lt (by decide))] at hv
      subst hv
      rw [Nat.add_sub_cancel] at h1
      refine ⟨hc ▸ h1, by omega, h3, h4, ?_⟩
      intro seq cap tip to' input value' al a1 a2 a3 a4 a5 a6 a7
      subst a1 a2 a3 a4 a5 a6 a7
      simp only [EthTx.type, assemble, EthTx.nonce, EthTx.gas, EthTx.feeCap, EthTx.to, EthTx.value,
        EthTx.data, EthTx.vrs, EthTx.access, hc]
  | dynamic c nonce gas tip cap to value data al v r s =>
    simp only [payloadOf, Option.some.injEq] at hpl; subst hpl
    simp only [vByte, Option.some.injEq] at hv
    simp only [senderKey] at hs
    split at hs
    · cases hs
    · rename_i hn
      have hc : c = e.chainId := by
        by_cases g : c = e.chainId
        · exact g
        · exact absurd g hn
      obtain ⟨h1, h2, h3, h4⟩ := recoverPlain_some hs
      have lt : v < 2 := by omega
      rw [Nat.mod_eq_of_lt (Nat.lt_trans lt (by decide)), Nat.mod_eq_of_lt (Nat.lt_trans lt (by decide))] at hv
      subst hv
      rw [Nat.add_sub_cancel] at h1
      refine ⟨hc ▸ h1, by omega, h3, h4, ?_⟩
      intro seq cap tip to' input value' al a1 a2 a3 a4 a5 a6 a7
      subst a1 a2 a3 a4 a5 a6 a7
      simp only [EthTx.type, assemble, EthTx.nonce, EthTx.gas, EthTx.feeCap, EthTx.tipCap, EthTx.to,
        EthTx.value, EthTx.data, EthTx.vrs, EthTx.access, hc]
  | other t => simp [payloadOf] at hpl

/-- **C17.** Converting a signed Ethereum transaction (EIP-155 legacy, access-list or dynamic-fee) to a Cosmos
transaction and back gives the very same transaction, reported as sent by the recovered sender; the Cosmos
transaction is recognised as an Ethereum one and its signature verifies. For every transaction, chain id,
fee token and decimals. -/
theorem C17_roundtrip {K : Type} (e : Env K) (he : e.Ok) (tx : EthTx) (hp : Protected tx) (t : CosmosTx K)
    (h : ethToCosmos e tx = some t) :
    (∃ k, senderKey e tx = some k ∧ cosmosToEth e t = some (some (tx, bytesToAddress (e.keyAddr k)))) ∧
    isEthereumTx e t = true ∧ verifyEth e t = true := by
  unfold ethToCosmos at h
  generalize hfee : (if tx.feeCap = 0 then (0 : Int) else fromEthersI e.decimals (tx.feeCap * tx.gas) + 1) = fee at h
  simp only at h
  split at h
  · cases h
  · split at h
    · cases h
    · rename_i hval
      have hval : toEthersI e.decimals (fromEthersI e.decimals tx.value) = tx.value := by
        by_cases g : toEthersI e.decimals (fromEthersI e.decimals tx.value) = tx.value
        · exact g
        · exact absurd g hval
      split at h
      · rename_i sk vb p hsk hvb hpl
        obtain ⟨hrec, hvlt, hr, hs, hasm⟩ := sig_facts e tx hp sk vb p hsk hvb hpl
        rw [hrec] at h
        simp only at h
        split at h
        · cases h
        · rename_i hbig
          simp only [Option.some.injEq] at h
          have h20 := he.key20 _ _ _ _ _ hrec
          have key : cosmosToEth e t = some (some (tx, bytesToAddress (e.keyAddr sk))) := by
            rw [← h]
            unfold cosmosToEth
            simp only [he.jsonNe, he.json, if_false]
            have hf : wrongFeeDenom e (if fee = 0 then [] else [(e.feeDenom, fee.toNat)]) = false := by
              by_cases g : fee = 0
              · rw [if_pos g]; rfl
              · rw [if_neg g]; simp [wrongFeeDenom]
            simp only [hf, h20, splitSig_join _ _ _ hr hs hvlt, parseInt_intStr, ne_eq, not_true_eq_false,
              if_false, Bool.false_eq_true]
            cases hto : tx.to with
            | none =>
              simp only [msgFields, decode0x_encode0x, access_roundtrip, hval]
              rw [hasm _ _ _ _ _ _ _ rfl rfl rfl hto.symm rfl rfl rfl]
            | some a =>
              simp only [msgFields, contractAddress_hex, decode0x_encode0x, access_roundtrip, hval]
              rw [hasm _ _ _ _ _ _ _ rfl rfl rfl hto.symm rfl rfl rfl]
          refine ⟨⟨sk, hsk, key⟩, ?_, ?_⟩
          · rw [← h]
            unfold isEthereumTx
            have hf : wrongFeeDenom e (if fee = 0 then [] else [(e.feeDenom, fee.toNat)]) = false := by
              by_cases g : fee = 0
              · rw [if_pos g]; rfl
              · rw [if_neg g]; simp [wrongFeeDenom]
            simp only [hf, h20, he.jsonNe, he.json]
            cases hto : tx.to <;> simp [he.jsonNe]
          · unfold verifyEth
            rw [key]
            simp only [hsk, beq_self_eq_true]
      · cases h

theorem scale_gen (n d : Nat) (v : Int) :
    (if d = n then v else if d > n then v * (10 ^ (d - n) : Nat) else v / (10 ^ (n - d) : Nat)) =
      v * (10 ^ d : Nat) / (10 ^ n : Nat) := by
  have pn : (0 : Int) < (10 ^ n : Nat) := Int.natCast_pos.mpr (Nat.pow_pos (by decide))
  have pd : (0 : Int) < (10 ^ d : Nat) := Int.natCast_pos.mpr (Nat.pow_pos (by decide))
  split
  · rename_i h; subst h
    rw [Int.mul_ediv_cancel _ (by omega)]
  · split
    · rename_i h
      have e : (10 ^ d : Nat) = 10 ^ (d - n) * 10 ^ n := by rw [← Nat.pow_add]; congr 1; omega
      rw [e, Int.natCast_mul, ← Int.mul_assoc, Int.mul_ediv_cancel _ (by omega)]
    · rename_i h
      have e : (10 ^ n : Nat) = 10 ^ (n - d) * 10 ^ d := by rw [← Nat.pow_add]; congr 1; omega
      rw [e, Int.natCast_mul, Int.mul_ediv_mul_of_pos_left _ _ pd]

theorem scale_gen' (n d : Nat) (v : Int) :
    (if d = n then v else if d > n then v / (10 ^ (d - n) : Nat) else v * (10 ^ (n - d) : Nat)) =
      v * (10 ^ n : Nat) / (10 ^ d : Nat) := by
  rw [← scale_gen d n v]
  by_cases h : d = n
  · rw [if_pos h, if_pos h.symm]
  · have h' : ¬ n = d := fun g => h g.symm
    simp only [h, h', if_false]
    by_cases g : d > n
    · rw [if_pos g, if_neg (by omega)]
    · rw [if_neg g, if_pos (by omega)]

/-- The amount of a message. -/
def amountOfMsg : Msg → Int
  | .call _ _ _ v _ => v
  | .create _ _ v _ => v
  | .create2 _ _ _ v _ => v
  | .other _ => 0

/-- The conversion only refuses for the documented reasons, and moves the decimal point exactly: if the sender can be
recovered (protected), the value in ether units is a whole number `units` of the fee token's smallest units, and amounts fit in
256 bits, the conversion succeeds; the message carries exactly `units`, and the fee is the whole part of gas × fee cap in the
fee token, plus one (nothing at fee cap 0). -/
theorem C17_accepts {K : Type} (e : Env K) (tx : EthTx) (hp : Protected tx) (k : K)
    (hs : senderKey e tx = some k)
    (units : Int) (hval : units * (10 ^ 18 : Nat) = tx.value * (10 ^ e.decimals : Nat))
    (hvb : units.natAbs < 2 ^ 256)
    (hfee : 0 ≤ tx.feeCap)
    (hfeeb : tx.feeCap * tx.gas * (10 ^ e.decimals : Nat) / (10 ^ 18 : Nat) + 1 < 2 ^ 256) :
    ∃ t m, ethToCosmos e tx = some t ∧ t.msgs = [m] ∧ amountOfMsg m = units ∧
      t.fee = if tx.feeCap = 0 then []
        else [(e.feeDenom, (tx.feeCap * tx.gas * (10 ^ e.decimals : Nat) / (10 ^ 18 : Nat) + 1).toNat)] := by
  have hunits : fromEthersI e.decimals tx.value = units := by
    show (if e.decimals = 18 then tx.value else if e.decimals > 18 then _ else _) = _
    rw [scale_gen, ← hval]
    generalize hN : (10 ^ 18 : Nat) = N
    have : (N : Int) ≠ 0 := by
      have := Nat.pow_pos (n := 18) (show 0 < 10 by decide); omega
    rw [Int.mul_ediv_cancel _ this]
  have hback : toEthersI e.decimals units = tx.value := by
    show (if e.decimals = 18 then units else if e.decimals > 18 then _ else _) = _
    rw [scale_gen', hval]
    generalize hN : (10 ^ e.decimals : Nat) = N
    have : (N : Int) ≠ 0 := by
      have := Nat.pow_pos (n := e.decimals) (show 0 < 10 by decide); omega
    rw [Int.mul_ediv_cancel _ this]
  have hfd : fromEthersI e.decimals (tx.feeCap * tx.gas) =
      tx.feeCap * tx.gas * (10 ^ e.decimals : Nat) / (10 ^ 18 : Nat) := scale_gen 18 e.decimals _
  rw [← hfd] at hfeeb ⊢
  have hval : toEthersI e.decimals (fromEthersI e.decimals tx.value) = tx.value := by rw [hunits, hback]
  rw [← hunits] at hvb
  have hpl : ∃ p, payloadOf e.chainId tx = some p := by
    cases tx with
    | other t => simp [senderKey] at hs
    | _ => exact ⟨_, rfl⟩
  have hv : ∃ v, vByte e.chainId tx = some v := by
    cases tx with
    | other t => simp [senderKey] at hs
    | _ => exact ⟨_, rfl⟩
  obtain ⟨p, hpl⟩ := hpl
  obtain ⟨v, hv⟩ := hv
  obtain ⟨hrec, _⟩ := sig_facts e tx hp k v p hs hv hpl
  have hnn : 0 ≤ fromEthersI e.decimals (tx.feeCap * tx.gas) := by
    have h0 : 0 ≤ tx.feeCap * (tx.gas : Int) := Int.mul_nonneg hfee (Int.natCast_nonneg _)
    unfold fromEthersI
    split
    · exact h0
    · split
      · exact Int.mul_nonneg h0 (Int.natCast_nonneg _)
      · exact Int.ediv_nonneg h0 (Int.natCast_nonneg _)
  unfold ethToCosmos
  have hf : ¬ ((if tx.feeCap = 0 then (0 : Int) else fromEthersI e.decimals (tx.feeCap * tx.gas) + 1) < 0 ∨
      (if tx.feeCap = 0 then (0 : Int) else fromEthersI e.decimals (tx.feeCap * tx.gas) + 1) ≥ 2 ^ 256) := by
    split <;> omega
  simp only
  rw [if_neg hf, if_neg (by simpa using hval), hs, hv, hpl]
  simp only [hrec]
  rw [if_neg (by omega)]
  refine ⟨_, _, rfl, rfl, ?_, ?_⟩
  · cases tx.to <;> exact hunits
  · by_cases g : tx.feeCap = 0
    · simp only [if_pos g]; rfl
    · simp only [if_neg g]
      rw [if_neg (by omega)]

/-! ### A concrete environment -/

/-- Toy memo encoding, in place of JSON. -/
def encS : Str → Str
  | [] => ['0']
  | c :: r => '1' :: c :: encS r
def decS : Str → Option (Str × Str)
  | '0' :: r => some ([], r)
  | '1' :: c :: r => (decS r).map fun p => (c :: p.1, p.2)
  | _ => none
def encN : Nat → Str
  | 0 => ['0']
  | n + 1 => '1' :: encN n
def decN : Str → Option (Nat × Str)
  | '0' :: r => some (0, r)
  | '1' :: r => (decN r).map fun p => (p.1 + 1, p.2)
  | _ => none

theorem decS_encS (s r : Str) : decS (encS s ++ r) = some (s, r) := by
  induction s with
  | nil => rfl
  | cons c cs ih => simp [encS, decS, ih]

theorem decN_encN (n : Nat) (r : Str) : decN (encN n ++ r) = some (n, r) := by
  induction n with
  | zero => rfl
  | succ n ih => simp [encN, decN, ih]

/-- Toy surroundings: one key, whose address is twenty sevens; every signature recovers to it. -/
def toyEnv (decimals : Nat) : Env Unit where
  mask := fun _ => []
  bech := fun b => 'i' :: hexEnc b
  unbech := fun s => match s with | 'i' :: r => hexDec r | _ => none
  keyAddr := fun _ => List.replicate 20 7
  recover := fun _ _ _ _ => some ()
  memoEnc := fun m => encN m.type ++ (encS m.gasFeeCap ++ encS m.gasTipCap)
  memoDec := fun s => match decN s with
    | none => none
    | some (n, r) => match decS r with
      | none => none
      | some (a, r) => match decS r with
        | none => none
        | some (b, _) => some ⟨n, a, b⟩
  chainId := 5
  feeDenom := ['f']
  decimals := decimals

theorem toyEnv_ok (d : Nat) : (toyEnv d).Ok where
  key20 := by intro p r s v k _; simp [toyEnv]
  json := by
    intro m
    have h := decS_encS m.gasTipCap []
    simp only [List.append_nil] at h
    simp only [toyEnv, decN_encN, decS_encS, h]
  jsonNe := by
    intro m h
    simp only [toyEnv, List.append_eq_nil_iff] at h
    cases hm : m.type <;> simp [hm, encN] at h

/-- A dynamic-fee transfer of 3 gwei and a legacy contract creation. -/
def toyTx : EthTx := .dynamic 5 9 21000 1 2 (some (Addr.ofNat 3)) 3000000000 [1, 2]
  [(Addr.ofNat 4, [Hash.ofNat 1])] 1 77 88
def toyCreate : EthTx := .legacy 4 50000 0 none 0 [] 46 77 88

example : Protected toyTx ∧ (ethToCosmos (toyEnv 9) toyTx).isSome = true := ⟨trivial, by decide +kernel⟩
/-- `C17_accepts` at 9 and at 20 decimals: 3 gwei are 3 units, and 300000000000 units. -/
example : (∃ t m, ethToCosmos (toyEnv 9) toyTx = some t ∧ t.msgs = [m] ∧ amountOfMsg m = 3 ∧ t.fee = [(['f'], 1)]) ∧
    (∃ t m, ethToCosmos (toyEnv 20) toyTx = some t ∧ t.msgs = [m] ∧ amountOfMsg m = 300000000000 ∧
      t.fee = [(['f'], 4200001)]) :=
  ⟨C17_accepts (toyEnv 9) toyTx trivial () (by decide +kernel) 3 (by decide +kernel) (by decide +kernel) (by decide +kernel)
      (by decide +kernel),
    C17_accepts (toyEnv 20) toyTx trivial () (by decide +kernel) 300000000000 (by decide +kernel) (by decide +kernel)
      (by decide +kernel) (by decide +kernel)⟩
example : Protected toyCreate ∧ (ethToCosmos (toyEnv 18) toyCreate).isSome = true :=
  ⟨by unfold Protected toyCreate; decide +kernel, by decide +kernel⟩

/-! ### C18 -/

/-- What a message asks the chain to execute, as the message server reads it: contract (none: creation), input,
amount. -/
def asks {K : Type} (e : Env K) : Msg → Option (Option Addr × Bytes × Int)
  | .call _ c input value _ =>
    match contractAddressFromString e c, decode0x input with
    | some a, some d => some (some a, d, value)
    | _, _ => none
  | .create _ code value _ => (decode0x code).map fun d => (none, d, value)
  | _ => none

/-- The access list of a message, as the message server reads it. -/
def accessOf : Msg → EthAccess
  | .call _ _ _ _ al => toEthAccess al
  | .create _ _ _ al => toEthAccess al
  | _ => []

/-- A message that calls or creates a contract. -/
def IsEvmMsg : Msg → Prop
  | .call .. => True
  | .create .. => True
  | _ => False

/-- `cosmosToEth` inverted. -/
theorem cosmosToEth_inv {K : Type} {e : Env K} {t : CosmosTx K} {x : EthTx} {a : Addr}
    (h : cosmosToEth e t = some (some (x, a))) :
    ∃ msg md sig bz v r s cap tip to input value al,
      t.msgs = [msg] ∧ t.memo ≠ [] ∧ e.memoDec t.memo = some md ∧ t.sigs = [sig] ∧
      wrongFeeDenom e t.fee = false ∧
      (e.keyAddr sig.pubKey).length = 20 ∧ sig.data = .single ethMode bz ∧ splitSig bz = some (v, r, s) ∧
      parseInt md.gasFeeCap = some cap ∧ parseInt md.gasTipCap = some tip ∧
      msgFields e msg = some (some (to, input, value, al)) ∧
      assemble e.chainId md.type sig.sequence t.gas cap tip to input value al v r s = some x ∧
      a = bytesToAddress (e.keyAddr sig.pubKey) := by
  unfold cosmosToEth at h
  split at h
  · rename_i msg hmsg
    split at h
    · cases h
    · rename_i hmemo
      split at h
      · cases h
      · rename_i md hmd
        split at h
        · rename_i sig hsig
          generalize hf : wrongFeeDenom e t.fee = fb at h
          split at h
          · cases h
          · rename_i hfb
            split at h
            · cases h
            · rename_i h20
              split at h
              · cases h
              · rename_i mode bz hd
                split at h
                · cases h
                · rename_i hm
                  split at h
                  · cases h
                  · rename_i v r s hsp
                    split at h
                    · rename_i cap tip hc ht
                      split at h
                      · cases h
                      · cases h
                      · rename_i to input value al hmf
                        split at h
                        · cases h
                        · rename_i t' hasm
                          cases h
                          have hm' : mode = ethMode := by
                            by_cases g : mode = ethMode
                            · exact g
                            · exact absurd g hm
                          subst hm'
                          have h20' : (e.keyAddr sig.pubKey).length = 20 := by
                            by_cases g : (e.keyAddr sig.pubKey).length = 20
                            · exact g
                            · exact absurd g h20
                          refine ⟨msg, md, sig, bz, v, r, s, cap, tip, to, input, value, al, hmsg, hmemo, hmd,
                            hsig, by simpa [hf] using hfb, h20', hd, hsp, hc, ht, hmf, hasm, rfl⟩
                    · cases h
        · cases h
  · cases h

/-- **C17 (what counts as an Ethereum transaction).** The test that grants Ethereum treatment (gas refunds) agrees with
the conversion: of the transactions that convert to an Ethereum one, exactly those that call or create a contract
pass; and one that passes without converting carries a signature or a gas price that is malformed, or an input,
address or transaction type that does not decode. -/
theorem C17_recognised {K : Type} (e : Env K) (t : CosmosTx K) :
    (∀ x a, cosmosToEth e t = some (some (x, a)) →
      (isEthereumTx e t = true ↔ ∃ m, t.msgs = [m] ∧ IsEvmMsg m)) ∧
    (isEthereumTx e t = true → cosmosToEth e t = some none →
      ∃ sig bz md, t.sigs = [sig] ∧ sig.data = .single ethMode bz ∧ e.memoDec t.memo = some md ∧
        ((bz.length ≠ 64 ∧ bz.length ≠ 65) ∨ parseInt md.gasFeeCap = none ∨ parseInt md.gasTipCap = none)) := by
  refine ⟨?_, ?_⟩
  · intro x a h
    obtain ⟨msg, md, sig, bz, v, r, s, cap, tip, to, input, value, al, h1, h2, h3, h4, h5, h6, h7, _⟩ := cosmosToEth_inv h
    unfold isEthereumTx
    rw [h1, h4]
    simp only [h3, h5, h6, h7]
    cases msg <;> simp [h2, IsEvmMsg]
  · intro h hc
    unfold isEthereumTx at h
    split at h
    · rename_i msg sig hm hs
      simp only [Bool.and_eq_true, decide_eq_true_eq, bne_iff_ne, ne_eq, Bool.not_eq_true', beq_iff_eq] at h
      obtain ⟨⟨⟨⟨⟨g1, g2⟩, g3⟩, g4⟩, g5⟩, g6⟩ := h
      obtain ⟨md, hmd⟩ := Option.isSome_iff_exists.mp g2
      cases hd : sig.data with
      | multi => rw [hd] at g6; simp at g6
      | single mode bz =>
        rw [hd] at g6
        simp only [beq_iff_eq] at g6
        subst g6
        refine ⟨sig, bz, md, hs, by rw [hd], hmd, ?_⟩
        unfold cosmosToEth at hc
        rw [hm, hs] at hc
        simp only [hmd, g3, g5, hd, ne_eq, not_true_eq_false, if_false, Bool.false_eq_true, g1] at hc
        split at hc
        · rename_i hsp
          left
          unfold splitSig at hsp
          split at hsp
          · cases hsp
          · split at hsp
            · cases hsp
            · rename_i a b; exact ⟨b, a⟩
        · split at hc
          · rename_i v r s hsp cap tip hcap htip
            exfalso
            cases msg with
            | call sd c inp val al =>
              simp only [msgFields] at hc
              split at hc
              · cases hc
              · rename_i hmf
                split at hmf <;> cases hmf
              · split at hc <;> cases hc
            | create sd c val al =>
              simp only [msgFields] at hc
              split at hc
              · cases hc
              · rename_i hmf
                split at hmf <;> cases hmf
              · split at hc <;> cases hc
            | create2 => simp at g4
            | other => simp at g4
          · rename_i hne
            right
            cases hp1 : parseInt md.gasFeeCap with
            | none => exact .inl rfl
            | some cap =>
              cases hp2 : parseInt md.gasTipCap with
              | none => exact .inr rfl
              | some tip => exact absurd hp2 (hne _ _ hp1)
    · cases h

/-- The payload by transaction type. -/
def payloadTy (c type seq gas : Nat) (cap tip : Int) (to : Option Addr) (input : Bytes)
    (value : Int) (al : EthAccess) : Payload :=
  match type with
  | 0 => (Payload.eip155 c seq gas cap to value input).hashed
  | 1 => (Payload.eip2930 c seq gas cap to value input al).hashed
  | _ => (Payload.eip1559 c seq gas tip cap to value input al).hashed

/-- The payload of an assembled transaction. -/
theorem assemble_payload {c type seq gas : Nat} {cap tip : Int} {to : Option Addr} {input : Bytes}
    {value : Int} {al : EthAccess} {v r s : Nat} {x : EthTx}
    (h : assemble c type seq gas cap tip to input value al v r s = some x) :
    payloadOf c x = some (payloadTy c type seq gas cap tip to input value al) ∧ x.type = type ∧
      x.feeCap = cap ∧ x.value = value ∧ (type = 2 → x.tipCap = tip) ∧ type ≤ 2 := by
  unfold assemble at h
  split at h
  · cases h; exact ⟨rfl, rfl, rfl, rfl, (fun h => by cases h), by decide⟩
  · cases h; exact ⟨rfl, rfl, rfl, rfl, (fun h => by cases h), by decide⟩
  · cases h; exact ⟨rfl, rfl, rfl, rfl, fun _ => rfl, by decide⟩
  · cases h

theorem toEthersI_inj (d : Nat) (hd : d ≤ 18) (v w : Int) (h : toEthersI d v = toEthersI d w) : v = w := by
  unfold toEthersI at h
  split at h
  · exact h
  · split at h
    · omega
    · refine Int.eq_of_mul_eq_mul_right ?_ h
      have : 0 < 10 ^ (18 - d) := Nat.pos_of_ne_zero (by simp)
      omega

/-- The message is one the Ethereum encoding can express. -/
def Evm : Msg → Prop
  | .call .. => True
  | .create .. => True
  | _ => False

theorem msgFields_asks {K : Type} {e : Env K} {m : Msg} {to : Option Addr} {input : Bytes} {value : Int}
    {al : EthAccess} (hm : Evm m) (h : msgFields e m = some (some (to, input, value, al))) :
    ∃ v, asks e m = some (to, input, v) ∧ value = toEthersI e.decimals v ∧ accessOf m = al := by
  cases m with
  | call sender c inp v l =>
    simp only [msgFields] at h
    split at h
    · rename_i a d h1 h2
      simp only [Option.some.injEq, Prod.mk.injEq] at h
      obtain ⟨rfl, rfl, rfl, rfl⟩ := h
      exact ⟨v, by simp [asks, h1, h2], rfl, rfl⟩
    · cases h
  | create sender code v l =>
    simp only [msgFields] at h
    split at h
    · rename_i d h1
      simp only [Option.some.injEq, Prod.mk.injEq] at h
      obtain ⟨rfl, rfl, rfl, rfl⟩ := h
      exact ⟨v, by simp [asks, h1], rfl, rfl⟩
    · cases h
  | create2 => exact hm.elim
  | other => exact hm.elim

/-- **C18 (the part that holds).** Two EVM-message Cosmos transactions that present the same signed Ethereum
payload execute the same thing: same gas limit, same account sequence, same contract (or creation), same
input, same amount, and the same fee cap; and, for typed transactions, the same access list. (Fee token with at
most 18 decimals, no negative amounts.) Missing: the fee actually paid, message types other than the EVM ones, the
access list of legacy transactions, tokens with more than 18 decimals, and negative amounts — all refuted below. -/
theorem C18_partial {K : Type} (e : Env K) (hd : e.decimals ≤ 18) (t1 t2 : CosmosTx K) (x1 x2 : EthTx)
    (a1 a2 : Addr) (h1 : cosmosToEth e t1 = some (some (x1, a1))) (h2 : cosmosToEth e t2 = some (some (x2, a2)))
    (hp : payloadOf e.chainId x1 = payloadOf e.chainId x2)
    (hpos : 0 ≤ x1.feeCap ∧ 0 ≤ x1.tipCap ∧ 0 ≤ x1.value) :
    t1.gas = t2.gas ∧ t1.sigs.map (·.sequence) = t2.sigs.map (·.sequence) ∧ x1.feeCap = x2.feeCap ∧
    ∀ m1 m2, t1.msgs = [m1] → t2.msgs = [m2] → Evm m1 → Evm m2 →
      asks e m1 = asks e m2 ∧ (asks e m1).isSome = true ∧
      (x1.type ≠ 0 → accessOf m1 = accessOf m2) := by
  obtain ⟨m1, md1, s1, b1, v1, r1, ss1, c1, p1, to1, in1, va1, al1, q1, _, _, q2, _, _, _, _, _, _, q3, q4, _⟩ :=
    cosmosToEth_inv h1
  obtain ⟨m2, md2, s2, b2, v2, r2, ss2, c2, p2, to2, in2, va2, al2, w1, _, _, w2, _, _, _, _, _, _, w3, w4, _⟩ :=
    cosmosToEth_inv h2
  have A1 := assemble_payload q4
  have A2 := assemble_payload w4
  have ty1 := A1.2.1
  have fc1 := A1.2.2.1
  have fc2 := A2.2.2.1
  have n1 : 0 ≤ c1 := fc1 ▸ hpos.1
  have n2 : 0 ≤ va1 := A1.2.2.2.1 ▸ hpos.2.2
  have n3 : md1.type = 2 → 0 ≤ p1 := fun h => (A1.2.2.2.2.1 h) ▸ hpos.2.1
  have l1 := A1.2.2.2.2.2
  have l2 := A2.2.2.2.2.2
  rw [A1.1, A2.1, Option.some.injEq] at hp
  have core : s1.sequence = s2.sequence ∧ t1.gas = t2.gas ∧ c1 = c2 ∧ to1 = to2 ∧ in1 = in2 ∧ va1 = va2 ∧
      (md1.type ≠ 0 → al1 = al2) := by
    clear A1 A2 q4 w4 ty1
    generalize md1.type = ty1 at hp n3 l1 ⊢
    generalize md2.type = ty2 at hp l2
    unfold payloadTy at hp
    have h0 : ¬ (c1 < 0 ∨ va1 < 0) := by omega
    match ty1, ty2, l1, l2 with
    | 0, 0, _, _ =>
      simp only [Payload.hashed, if_neg h0] at hp
      split at hp <;> simp at hp
      simp [hp]
    | 0, 1, _, _ => simp only [Payload.hashed, if_neg h0] at hp; split at hp <;> simp at hp
    | 0, 2, _, _ => simp only [Payload.hashed, if_neg h0] at hp; split at hp <;> simp at hp
    | 1, 0, _, _ => simp only [Payload.hashed, if_neg h0] at hp; split at hp <;> simp at hp
    | 1, 1, _, _ =>
      simp only [Payload.hashed, if_neg h0] at hp
      split at hp <;> simp at hp
      simp [hp]
    | 1, 2, _, _ => simp only [Payload.hashed, if_neg h0] at hp; split at hp <;> simp at hp
    | 2, n, _, l2 =>
      have h2 : ¬ (p1 < 0 ∨ c1 < 0 ∨ va1 < 0) := by have := n3 rfl; omega
      match n, l2 with
      | 0, _ => simp only [Payload.hashed, if_neg h2] at hp; split at hp <;> simp at hp
      | 1, _ => simp only [Payload.hashed, if_neg h2] at hp; split at hp <;> simp at hp
      | 2, _ =>
        simp only [Payload.hashed, if_neg h2] at hp
        split at hp <;> simp at hp
        simp [hp]
  obtain ⟨e1, e2, e3, e4, e5, e6, e7⟩ := core
  refine ⟨e2, by simp [q2, w2, e1], by rw [fc1, fc2, e3], ?_⟩
  intro n1 n2 hn1 hn2 hm1 hm2
  rw [q1] at hn1; rw [w1] at hn2
  cases hn1; cases hn2
  obtain ⟨u1, f1, f2, f3⟩ := msgFields_asks hm1 q3
  obtain ⟨u2, g1, g2, g3⟩ := msgFields_asks hm2 w3
  have hu : u1 = u2 := toEthersI_inj e.decimals hd _ _ (by rw [← f2, ← g2, e6])
  refine ⟨by rw [f1, g1, e4, e5, hu], by rw [f1]; rfl, ?_⟩
  intro hty
  rw [f3, g3]
  exact e7 (ty1 ▸ hty)

/-- Acceptance depends only on what is rebuilt: a transaction with the same rebuilt Ethereum transaction and
expected sender is accepted too. -/
theorem verifyEth_congr {K : Type} (e : Env K) (t t' : CosmosTx K) (h : cosmosToEth e t' = cosmosToEth e t) :
    verifyEth e t' = verifyEth e t := by unfold verifyEth; rw [h]

/-- **C18 is violated: the fee is not signed.** Any accepted Ethereum-signed transaction stays accepted, under the
same signature, after anybody changes its fee to any amount (including zero, or the sender's whole balance). -/
theorem C18_violated_fee {K : Type} (e : Env K) (t : CosmosTx K) (amount : Nat)
    (h : verifyEth e t = true) : verifyEth e { t with fee := [(e.feeDenom, amount)] } = true := by
  rw [← h]
  have hne : ∃ x a, cosmosToEth e t = some (some (x, a)) := by
    unfold verifyEth at h
    split at h
    · rename_i x a hx; exact ⟨x, a, hx⟩
    · cases h
  obtain ⟨x, a, hx⟩ := hne
  apply verifyEth_congr
  rw [hx]
  obtain ⟨m, md, s, b, v, r, ss, c, p, to, inp, va, al, q1, q2, q3, q4, q5, q6, q7, q8, q9, q10, q11, q12, q13⟩ :=
    cosmosToEth_inv hx
  unfold cosmosToEth
  simp [q1, q2, q3, q4, q6, q7, q8, q9, q10, q11, q12, q13, wrongFeeDenom]

/-- **C18 is violated: the message is not signed.** Any accepted Ethereum-signed transaction that deploys empty
code with no value stays accepted after its message is replaced by any message of a non-EVM module (a bank
send, a governance vote, ...). -/
theorem C18_violated_message {K : Type} (e : Env K) (t : CosmosTx K) (sender : Str)
    (hm : t.msgs = [.create sender ['0', 'x'] 0 []]) (content : Str)
    (h : verifyEth e t = true) : verifyEth e { t with msgs := [.other content] } = true := by
  rw [← h]
  have hne : ∃ x a, cosmosToEth e t = some (some (x, a)) := by
    unfold verifyEth at h
    split at h
    · rename_i x a hx; exact ⟨x, a, hx⟩
    · cases h
  obtain ⟨x, a, hx⟩ := hne
  apply verifyEth_congr
  rw [hx]
  obtain ⟨m, md, s, b, v, r, ss, c, p, to, inp, va, al, q1, q2, q3, q4, q5, q6, q7, q8, q9, q10, q11, q12, q13⟩ :=
    cosmosToEth_inv hx
  rw [hm] at q1
  cases q1
  have hz : toEthersI e.decimals 0 = 0 := by
    unfold toEthersI
    split
    · rfl
    · split <;> simp
  have hq : msgFields e (.create sender ['0', 'x'] 0 []) = some (some (none, [], 0, [])) := by
    simp [msgFields, decode0x, has0x, strip0x, hexDec, hexDecPartial, hz, toEthAccess]
  rw [hq] at q11
  simp only [Option.some.injEq, Prod.mk.injEq] at q11
  obtain ⟨rfl, rfl, rfl, rfl⟩ := q11
  unfold cosmosToEth
  rw [show ({ t with msgs := [.other content] } : CosmosTx K).msgs = [.other content] from rfl]
  simp [q2, q3, q4, q6, q7, q8, q9, q10, q12, q13, msgFields, q5]

/-- **C18 is violated: the access list of a legacy transaction is not signed.** -/
theorem C18_violated_access {K : Type} (e : Env K) (t : CosmosTx K) (md : Metadata) (sender c input : Str)
    (value : Int) (al al' : CosAccess) (hm : t.msgs = [.call sender c input value al])
    (hmd : e.memoDec t.memo = some md) (hty : md.type = 0) (h : verifyEth e t = true) :
    verifyEth e { t with msgs := [.call sender c input value al'] } = true := by
  rw [← h]
  have hne : ∃ x a, cosmosToEth e t = some (some (x, a)) := by
    unfold verifyEth at h
    split at h
    · rename_i x a hx; exact ⟨x, a, hx⟩
    · cases h
  obtain ⟨x, a, hx⟩ := hne
  apply verifyEth_congr
  rw [hx]
  obtain ⟨m, md', s, b, v, r, ss, cp, p, to, inp, va, l, q1, q2, q3, q4, q5, q6, q7, q8, q9, q10, q11, q12, q13⟩ :=
    cosmosToEth_inv hx
  rw [hm] at q1
  cases q1
  rw [hmd] at q3
  cases q3
  simp only [msgFields] at q11
  split at q11
  · rename_i a' d h1 h2
    simp only [Option.some.injEq, Prod.mk.injEq] at q11
    obtain ⟨rfl, rfl, rfl, rfl⟩ := q11
    rw [hty] at q12
    unfold cosmosToEth
    rw [show ({ t with msgs := [.call sender c input value al'] } : CosmosTx K).msgs =
      [.call sender c input value al'] from rfl]
    simp only [assemble] at q12
    simp [q2, hmd, q4, q6, q7, q8, q9, q10, q13, msgFields, h1, h2, q5, hty, assemble]
    simpa using q12
  · cases q11

/-- **C18 is violated for fee tokens with more than 18 decimals: the amount is not fully signed.** -/
theorem C18_violated_value :
    ∃ t1 t2 : CosmosTx Unit, ∃ x, ∃ a, cosmosToEth (toyEnv 19) t1 = some (some (x, a)) ∧
      cosmosToEth (toyEnv 19) t2 = some (some (x, a)) ∧ verifyEth (toyEnv 19) t1 = true ∧
      verifyEth (toyEnv 19) t2 = true ∧
      (t1.msgs.map (asks (toyEnv 19)) ≠ t2.msgs.map (asks (toyEnv 19))) := by
  let tx (v : Int) : CosmosTx Unit :=
    { msgs := [.create [] ['0', 'x'] v []], memo := (toyEnv 19).memoEnc ⟨0, ['0'], ['0']⟩, fee := [], gas := 9,
      sigs := [⟨(), .single ethMode (toBE 32 5 ++ toBE 32 6 ++ [0]), 0⟩] }
  refine ⟨tx 0, tx 9, .legacy 0 9 0 none 0 [] 45 5 6, bytesToAddress (List.replicate 20 7), ?_, ?_, ?_, ?_, ?_⟩
  all_goals decide +kernel

/-- **C18 is violated for negative amounts: nothing is signed.** If the fee cap in the memo of an accepted Ethereum-signed
transaction is negative, its signature is good for any transaction of that account: any message (EVM or not), any gas limit,
any fee, and any sequence number, now and later. -/
theorem C18_violated_negative {K : Type} (e : Env K) (t : CosmosTx K) (md : Metadata) (cap : Int)
    (h : verifyEth e t = true) (hmd : e.memoDec t.memo = some md) (hcap : parseInt md.gasFeeCap = some cap) (hneg : cap < 0)
    (sig : Sig K) (hsig : t.sigs = [sig]) (m : Msg) (hm : ∃ f, msgFields e m = some (some f)) (gas seq amount : Nat) :
    verifyEth e { t with msgs := [m], gas := gas, fee := [(e.feeDenom, amount)], sigs := [{ sig with sequence := seq }] } = true := by
  have hne : ∃ x a, cosmosToEth e t = some (some (x, a)) := by
    unfold verifyEth at h
    split at h
    · rename_i x a hx; exact ⟨x, a, hx⟩
    · cases h
  obtain ⟨x, a, hx⟩ := hne
  unfold verifyEth at h
  rw [hx] at h
  simp only at h
  obtain ⟨m0, md', s, b, v, r, ss, c, p, to, inp, va, al, q1, q2, q3, q4, q5, q6, q7, q8, q9, q10, q11, q12, q13⟩ :=
    cosmosToEth_inv hx
  rw [hmd] at q3
  cases q3
  rw [hsig] at q4
  cases q4
  rw [hcap] at q9
  cases q9
  obtain ⟨⟨to', inp', va', al'⟩, hf⟩ := hm
  have key : ∃ x', assemble e.chainId md.type seq gas cap p to' inp' va' al' v r ss = some x' ∧ senderKey e x' = senderKey e x := by
    unfold assemble at q12 ⊢
    split at q12
    · cases q12
      exact ⟨_, rfl, by simp [senderKey, Payload.hashed, hneg]⟩
    · cases q12
      exact ⟨_, rfl, by simp [senderKey, Payload.hashed, hneg]⟩
    · cases q12
      exact ⟨_, rfl, by simp [senderKey, Payload.hashed, hneg]⟩
    · cases q12
  obtain ⟨x', hx', hk⟩ := key
  have hc : cosmosToEth e { t with msgs := [m], gas := gas, fee := [(e.feeDenom, amount)], sigs := [{ sig with sequence := seq }] } =
      some (some (x', a)) := by
    unfold cosmosToEth
    simp [q2, hmd, q6, q7, q8, hcap, q10, hf, hx', q13, wrongFeeDenom]
  unfold verifyEth
  rw [hc]
  simp only [hk]
  exact h

/-- It can happen: a transaction with fee cap -1 that signs nothing; the same signature sends another message with
another sequence number. -/
example : ∃ t : CosmosTx Unit, verifyEth (toyEnv 18) t = true ∧ ∃ md, (toyEnv 18).memoDec t.memo = some md ∧
    parseInt md.gasFeeCap = some (-1) ∧ ∃ sig, t.sigs = [sig] ∧
      verifyEth (toyEnv 18)
        { t with msgs := [.other ['x']], gas := 7, fee := [((toyEnv 18).feeDenom, 3)], sigs := [{ sig with sequence := 12 }] } = true := by
  let t : CosmosTx Unit :=
    { msgs := [.create [] ['0', 'x'] 0 []], memo := (toyEnv 18).memoEnc ⟨0, ['-', '1'], ['0']⟩, fee := [], gas := 9,
      sigs := [⟨(), .single ethMode (toBE 32 5 ++ toBE 32 6 ++ [0]), 0⟩] }
  have h1 : verifyEth (toyEnv 18) t = true := by decide +kernel
  have h2 : (toyEnv 18).memoDec t.memo = some ⟨0, ['-', '1'], ['0']⟩ := (toyEnv_ok 18).json _
  have h3 : parseInt ['-', '1'] = some (-1) := by decide +kernel
  exact ⟨t, h1, _, h2, h3, _, rfl,
    C18_violated_negative (toyEnv 18) t _ (-1) h1 h2 h3 (by decide) _ rfl _ ⟨_, rfl⟩ 7 12 3⟩

/-- **C18 (fee denom).** An Ethereum-signed transaction that is accepted pays nothing, or its first fee coin is of the fee
denom; which other coins follow is not looked at: any may be added or removed. -/
theorem C18_fee_denom {K : Type} (e : Env K) (t : CosmosTx K) (h : verifyEth e t = true) :
    (t.fee = [] ∨ ∃ n rest, t.fee = (e.feeDenom, n) :: rest) ∧
    (t.fee ≠ [] → ∀ more, verifyEth e { t with fee := t.fee ++ more } = true) := by
  have hne : ∃ x a, cosmosToEth e t = some (some (x, a)) := by
    unfold verifyEth at h
    split at h
    · rename_i x a hx; exact ⟨x, a, hx⟩
    · cases h
  obtain ⟨x, a, hx⟩ := hne
  obtain ⟨m0, md', s, b, v, r, ss, c, p, to, inp, va, al, q1, q2, q3, q4, q5, q6, q7, q8, q9, q10, q11, q12, q13⟩ :=
    cosmosToEth_inv hx
  constructor
  · cases hf : t.fee with
    | nil => exact Or.inl rfl
    | cons y rest =>
      obtain ⟨d, n⟩ := y
      rw [hf] at q5
      simp only [wrongFeeDenom, decide_eq_false_iff_not, ne_eq, Decidable.not_not] at q5
      exact Or.inr ⟨n, rest, by rw [q5]⟩
  · intro hn more
    have e1 : cosmosToEth e { t with fee := t.fee ++ more } = cosmosToEth e t := by
      have hw : wrongFeeDenom e (t.fee ++ more) = wrongFeeDenom e t.fee := by
        cases hf : t.fee with
        | nil => exact absurd hf hn
        | cons y rest => rfl
      unfold cosmosToEth
      simp only [hw]
    unfold verifyEth
    rw [e1]
    exact h

/-- Met by the transfer of two coins below, whose second coin is foreign. -/
example : ∃ t : CosmosTx Unit, verifyEth (toyEnv 18) t = true ∧ t.fee = [(['f'], 1), (['z'], 5)] := by
  let t : CosmosTx Unit :=
    { msgs := [.create [] ['0', 'x'] 0 []], memo := (toyEnv 18).memoEnc ⟨0, ['0'], ['0']⟩, fee := [(['f'], 1), (['z'], 5)], gas := 9,
      sigs := [⟨(), .single ethMode (toBE 32 5 ++ toBE 32 6 ++ [0]), 0⟩] }
  exact ⟨t, by decide +kernel, rfl⟩

/-- **C18 (across types).** Whatever the amounts, two transactions that are signed with the same signature data are of the
same type: a signature of one type is never the signature of another. -/
theorem C18_types (c : Nat) (x y : EthTx) (p : Payload) (hx : payloadOf c x = some p) (hy : payloadOf c y = some p) :
    x.type = y.type := by
  let kind : Payload → Nat
    | .homestead .. => 0 | .eip155 .. => 0 | .eip2930 .. => 1 | .eip1559 .. => 2 | .nothing t => t
  have aux : ∀ z : EthTx, payloadOf c z = some p → z.type = kind p := by
    intro z hz
    cases z <;> simp only [payloadOf, Payload.hashed, Option.some.injEq, reduceCtorEq] at hz
    all_goals split at hz <;> subst hz <;> rfl
  rw [aux x hx, aux y hy]

example : payloadOf 5 (.accessList 5 0 9 (-1) none 0 [] [] 0 1 1) = some (.nothing 1) ∧
    payloadOf 5 (.accessList 5 3 8 (-2) none 4 [7] [] 0 1 1) = some (.nothing 1) := by decide

/-- The hypotheses of the C18 theorems are met: the empty creation converts to an accepted transaction. -/
example : ∃ t, ethToCosmos (toyEnv 18) toyCreate = some t ∧ verifyEth (toyEnv 18) t = true ∧
    ∃ sender, t.msgs = [.create sender ['0', 'x'] 0 []] := by
  cases h : ethToCosmos (toyEnv 18) toyCreate with
  | none => exact absurd h (by decide +kernel)
  | some t =>
    refine ⟨t, rfl, (C17_roundtrip _ (toyEnv_ok 18) toyCreate (by unfold Protected toyCreate; decide +kernel) t h).2.2, ?_⟩
    have : (ethToCosmos (toyEnv 18) toyCreate).map (·.msgs) =
        some [.create ((toyEnv 18).bech (List.replicate 20 7)) ['0', 'x'] 0 []] := by decide +kernel
    rw [h] at this
    simp only [Option.map_some, Option.some.injEq] at this
    exact ⟨_, this⟩

/-! ### C52 -/

/-- **C52 (hex).** Every way of writing an address in hex — any letter case, with or without `0x` — parses to that
address. -/
theorem C52_hex {K : Type} (e : Env K) (a : Addr) (s : Str) (h : SameDigits (strip0x s) (hexEnc a.bytes)) :
    contractAddressFromString e s = some a := by
  unfold contractAddressFromString
  rw [if_pos (isHexAddress_same a s h)]
  unfold hexToAddress
  rw [fromHex_same a.bytes s h, bytesToAddress_bytes]

/-- **C52 (print/parse).** The checksummed form and the bech32 form of an address both parse back to it. -/
theorem C52_roundtrip {K : Type} (e : Env K) (hb : ∀ b, b ≠ [] → e.unbech (e.bech b) = some b)
    (hnh : ∀ b, isHexAddress (e.bech b) = false) (a : Addr) :
    contractAddressFromString e (addrHex e.mask a) = some a ∧
    contractAddressFromString e (e.bech a.bytes) = some a := by
  refine ⟨contractAddress_hex e a, ?_⟩
  have hne : a.bytes ≠ [] := by intro h; have := a.len; rw [h] at this; simp at this
  simp [contractAddressFromString, hnh, hb _ hne, bytesToAddress_bytes]

/-- **C52 (soundness).** Whatever is accepted is either hex with exactly the digits of the result, or a bech32
string whose bytes, when 20 of them, are the result; everything else is rejected. -/
theorem C52_sound_partial {K : Type} (e : Env K) (s : Str) (a : Addr)
    (h : contractAddressFromString e s = some a) :
    SameDigits (strip0x s) (hexEnc a.bytes) ∨
    ∃ b, e.unbech s = some b ∧ (b.length = 20 → b = a.bytes) := by
  unfold contractAddressFromString at h
  split at h
  · rename_i hx
    cases h
    exact Or.inl (isHexAddress_digits s hx)
  · right
    cases hb : e.unbech s with
    | none => rw [hb] at h; cases h
    | some b =>
      rw [hb] at h
      simp only [Option.map_some, Option.some.injEq] at h
      refine ⟨b, rfl, ?_⟩
      intro hl
      rw [← h]
      exact (fitBytes_eq 20 b hl).symm

/-- **C52 is violated** for bech32 strings of other lengths: they are not rejected, and two different accounts
(one 32 bytes long) denote the same contract. -/
theorem C52_violated : ∃ b c : Bytes, b ≠ c ∧ b.length = 32 ∧ c.length = 20 ∧
    contractAddressFromString (toyEnv 18) ((toyEnv 18).bech b) =
      contractAddressFromString (toyEnv 18) ((toyEnv 18).bech c) ∧
    (contractAddressFromString (toyEnv 18) ((toyEnv 18).bech b)).isSome = true := by
  refine ⟨List.replicate 12 1 ++ List.replicate 20 2, List.replicate 20 2, ?_, ?_, ?_, ?_, ?_⟩ <;> decide +kernel

/-- The toy codec meets the hypotheses of `C52_roundtrip`. -/
example : (∀ b, b ≠ [] → (toyEnv 18).unbech ((toyEnv 18).bech b) = some b) ∧
    (∀ b, isHexAddress ((toyEnv 18).bech b) = false) := by
  constructor
  · intro b _; exact hexDec_hexEnc b
  · intro b
    simp only [toyEnv, isHexAddress, strip0x, Bool.and_eq_false_iff]
    right
    show (List.all ('i' :: hexEnc b) fun c => (hexVal c).isSome) = false
    rw [List.all_cons, show (hexVal 'i').isSome = false by decide]
    rfl

example : SameDigits (strip0x ("0xAbcdefabcdefabcdefabcdefabcdefabcdefabcd".toList))
    (hexEnc (hexToAddress ("abcdefabcdefabcdefabcdefabcdefabcdefabcd".toList)).bytes) := by
  unfold SameDigits; decide +kernel

end Verif.Props.TxUtils
