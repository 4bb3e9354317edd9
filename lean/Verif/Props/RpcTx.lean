import Verif.Model.RpcTx
import Verif.Props.TxUtils
/-
C61: the raw transaction served is the one that was signed.
-/
namespace Verif.RpcTx
open Verif Verif.TxUtils Verif.Props.TxUtils

/-! ### Specification -/

/-- The types of transactions the chain takes. -/
def Supported : EthTx → Prop
  | .other _ => False
  | _ => True

/-- Chain id of a transaction with a chain id. -/
def chainOf : EthTx → Option Nat
  | .accessList c .. => some c
  | .dynamic c .. => some c
  | _ => none

/-- All numbers have at most 256 bits and none is negative. -/
def Fits (tx : EthTx) : Prop :=
  bigOk tx.feeCap = true ∧ bigOk tx.tipCap = true ∧ bigOk tx.value = true ∧ bigOk tx.vrs.1 = true ∧ bigOk tx.vrs.2.1 = true ∧ bigOk tx.vrs.2.2 = true

instance (tx : EthTx) : Decidable (Fits tx) := by unfold Fits; infer_instance

/-- C61: the JSON form of a transaction that fits 256 bits and was made for this chain is read back from the index, and rebuilding
it gives the original transaction. -/
theorem C61_roundtrip_partial (hashOf : EthTx → Hash) (sender : EthTx → Option Addr) (tx : EthTx) (bh : Hash) (bn ix c : Nat)
    (hs : Supported tx) (hc : ∀ x, chainOf tx = some x → x = c) (hf : Fits tx) (hcb : bigOk c = true) :
    rawOf (newRpc hashOf sender tx bh bn ix c) = some tx ∧ (newRpc hashOf sender tx bh bn ix c).hash = hashOf tx := by
  refine ⟨?_, rfl⟩
  obtain ⟨f1, f2, f3, f4, f5, f6⟩ := hf
  have : stored (newRpc hashOf sender tx bh bn ix c) = some (newRpc hashOf sender tx bh bn ix c) := by
    unfold stored
    rw [if_pos]
    simp [newRpc, Option.all, f1, f2, f3, f4, f5, f6, hcb]
  rw [rawOf, this]
  cases tx with
  | other => exact absurd hs id
  | legacy => simp [toTransaction, newRpc, EthTx.type, EthTx.feeCap, EthTx.nonce, EthTx.gas, EthTx.to, EthTx.value, EthTx.data, EthTx.vrs]
  | accessList c' =>
    have := hc c' rfl; subst this
    simp [toTransaction, newRpc, EthTx.type, EthTx.feeCap, EthTx.nonce, EthTx.gas, EthTx.to, EthTx.value, EthTx.data, EthTx.vrs, EthTx.access]
  | dynamic c' =>
    have := hc c' rfl; subst this
    simp [toTransaction, newRpc, EthTx.type, EthTx.feeCap, EthTx.tipCap, EthTx.nonce, EthTx.gas, EthTx.to, EthTx.value, EthTx.data, EthTx.vrs, EthTx.access]

example : Supported toyTx ∧ chainOf toyTx = some 5 ∧ Fits toyTx ∧ Supported toyCreate ∧ Fits toyCreate := by
  refine ⟨trivial, rfl, ?_, trivial, ?_⟩ <;> decide +kernel

/-- C61: conversely, only such transactions are served: what the index gives back is what was put in, and no number in it is
negative or has more than 256 bits. -/
theorem C61_only_fits (hashOf : EthTx → Hash) (sender : EthTx → Option Addr) (tx : EthTx) (bh : Hash) (bn ix c : Nat) (r : Rpc)
    (h : stored (newRpc hashOf sender tx bh bn ix c) = some r) :
    r = newRpc hashOf sender tx bh bn ix c ∧
    ∀ x ∈ [tx.value, tx.vrs.1, tx.vrs.2.1, tx.vrs.2.2], 0 ≤ (x : Int) ∧ (x : Int) < 2 ^ 256 := by
  unfold stored at h
  split at h
  · rename_i hf
    cases h
    refine ⟨rfl, ?_⟩
    simp only [newRpc, Bool.and_eq_true] at hf
    obtain ⟨⟨⟨⟨⟨⟨⟨_, _⟩, _⟩, h1⟩, _⟩, h2⟩, h3⟩, h4⟩ := hf
    have key : ∀ x : Int, bigOk x = true → 0 ≤ x ∧ x < 2 ^ 256 := by
      intro x hx
      simp only [bigOk, Bool.and_eq_true, decide_eq_true_eq] at hx
      exact ⟨hx.1, by have := hx.2; simpa using this⟩
    intro x hx
    simp only [List.mem_cons, List.not_mem_nil, or_false] at hx
    rcases hx with rfl | rfl | rfl | rfl
    · exact key _ h1
    · exact key _ h2
    · exact key _ h3
    · exact key _ h4
  · cases h

/-- C61: the position reported is the one given when the transaction was indexed, and none for a pending one (its block hash is
zero); the sender is the recovered one, and the parity of the signature is reported for the typed transactions alone. -/
theorem C61_position (hashOf : EthTx → Hash) (sender : EthTx → Option Addr) (tx : EthTx) (bh : Hash) (bn ix c : Nat) :
    ((newRpc hashOf sender tx bh bn ix c).block = none ↔ bh = Hash.zero) ∧
    (∀ h n i, (newRpc hashOf sender tx bh bn ix c).block = some (h, n, i) → h = bh ∧ n = bn ∧ i = ix) ∧
    (newRpc hashOf sender tx bh bn ix c).from = sender tx ∧
    ((newRpc hashOf sender tx bh bn ix c).yParity = none ↔ tx.type = 0) ∧
    (∀ y, tx.vrs.1 < 18446744073709551616 → (newRpc hashOf sender tx bh bn ix c).yParity = some y → y = tx.vrs.1) := by
  refine ⟨?_, ?_, rfl, ?_, ?_⟩
  · simp [newRpc]
  · intro h n i e
    simp only [newRpc] at e
    split at e
    · cases e; exact ⟨rfl, rfl, rfl⟩
    · cases e
  · simp only [newRpc]; split <;> simp [*]
  · intro y hv e
    simp only [newRpc] at e
    split at e
    · cases e
    · cases e; exact Nat.mod_eq_of_lt hv

example : (newRpc (fun _ => Hash.zero) (fun _ => none) toyTx (Hash.ofNat 1) 7 2 5).block = some (Hash.ofNat 1, 7, 2) ∧ toyTx.type ≠ 0 ∧
    (newRpc (fun _ => Hash.zero) (fun _ => none) toyTx (Hash.ofNat 1) 7 2 5).yParity = some toyTx.vrs.1 := by decide +kernel

theorem splitSig_fits {bz : Bytes} {v r s : Nat} (h : splitSig bz = some (v, r, s)) : v < 256 ∧ r < 256 ^ 32 ∧ s < 256 ^ 32 := by
  unfold splitSig at h
  split at h
  · next hl =>
    simp only [Option.some.injEq, Prod.mk.injEq] at h
    obtain ⟨h1, h2, h3⟩ := h
    have a := fromBE_lt_aux 1 (bz.drop 64) (by simp [hl])
    have b := fromBE_lt_aux 32 (bz.take 32) (by simp [hl])
    have c := fromBE_lt_aux 32 ((bz.drop 32).take 32) (by simp [hl])
    rw [← h1, ← h2, ← h3]
    exact ⟨by simpa using a, b, c⟩
  · split at h
    · next hl =>
      simp only [Option.some.injEq, Prod.mk.injEq] at h
      obtain ⟨h1, h2, h3⟩ := h
      have b := fromBE_lt_aux 32 (bz.take 32) (by simp [hl])
      have c := fromBE_lt_aux 32 ((bz.drop 32).take 32) (by simp [hl])
      rw [← h1, ← h2, ← h3]
      exact ⟨by omega, b, c⟩
    · cases h

theorem bigOk_nat (n : Nat) (h : n < 256 ^ 32) : bigOk (n : Int) = true := by
  have e : (256 : Nat) ^ 32 = 115792089237316195423570985008687907853269984665640564039457584007913129639936 := by decide +kernel
  rw [e] at h
  simp only [bigOk, Bool.and_eq_true, decide_eq_true_eq]
  omega

/-- C61: for every Cosmos transaction the indexer takes for an Ethereum transaction, the raw transaction served is the one whose
signature was checked, provided its fee caps and its value fit 256 bits; signature and chain id always fit. -/
theorem C61_indexed_partial {K : Type} (e : Env K) (t : CosmosTx K) (x : EthTx) (a : Addr) (h : cosmosToEth e t = some (some (x, a)))
    (hashOf : EthTx → Hash) (sender : EthTx → Option Addr) (bh : Hash) (bn ix : Nat) (hc : e.chainId < 18446744073709551616)
    (h1 : bigOk x.feeCap = true) (h2 : bigOk x.tipCap = true) (h3 : bigOk x.value = true) :
    rawOf (newRpc hashOf sender x bh bn ix e.chainId) = some x := by
  obtain ⟨msg, md, sig, bz, v, r, s, cap, tip, to, input, value, al, _, _, _, _, _, _, _, hsp, _, _, _, hasm, _⟩ := cosmosToEth_inv h
  obtain ⟨s1, s2, s3⟩ := splitSig_fits hsp
  have e32 : (256 : Nat) ^ 32 = 115792089237316195423570985008687907853269984665640564039457584007913129639936 := by decide +kernel
  have hcb : bigOk (e.chainId : Int) = true := bigOk_nat _ (by rw [e32]; omega)
  have hv : bigOk (v : Int) = true := bigOk_nat _ (by rw [e32]; omega)
  have hv' : bigOk ((v + (35 + e.chainId * 2) : Nat) : Int) = true := bigOk_nat _ (by rw [e32]; omega)
  have hr := bigOk_nat r s2
  have hs := bigOk_nat s s3
  unfold assemble at hasm
  split at hasm
  · cases hasm
    refine (C61_roundtrip_partial hashOf sender _ bh bn ix e.chainId ?_ (fun x hx => by cases hx) ⟨h1, h2, h3, hv', hr, hs⟩ hcb).1
    trivial
  · cases hasm
    refine (C61_roundtrip_partial hashOf sender _ bh bn ix e.chainId ?_ (fun x hx => by cases hx; rfl) ⟨h1, h2, h3, hv, hr, hs⟩ hcb).1
    trivial
  · cases hasm
    refine (C61_roundtrip_partial hashOf sender _ bh bn ix e.chainId ?_ (fun x hx => by cases hx; rfl) ⟨h1, h2, h3, hv, hr, hs⟩ hcb).1
    trivial
  · cases hasm

/-- A transfer like `toyTx` whose tip cap has 301 bits; the tip cap is not used by this chain. -/
def hugeTip : EthTx := .dynamic 5 9 21000 (2 ^ 300) 2 (some (Addr.ofNat 3)) 3000000000 [1, 2] [] 1 77 88

/-- C61 does not hold for numbers above 256 bits: such a transaction is accepted from eth_sendRawTransaction, is converted, passes
the signature check and is indexed, but can not be read back. -/
theorem C61_huge_tip_violated (hashOf : EthTx → Hash) (sender : EthTx → Option Addr) (bh : Hash) (bn ix : Nat) :
    ∃ t a, ethToCosmos (toyEnv 9) hugeTip = some t ∧ verifyEth (toyEnv 9) t = true ∧ cosmosToEth (toyEnv 9) t = some (some (hugeTip, a)) ∧
      rawOf (newRpc hashOf sender hugeTip bh bn ix 5) = none := by
  have h1 : (ethToCosmos (toyEnv 9) hugeTip).isSome = true := by decide +kernel
  obtain ⟨t, ht⟩ := Option.isSome_iff_exists.1 h1
  have h2 : ((ethToCosmos (toyEnv 9) hugeTip).map (fun t => (verifyEth (toyEnv 9) t, cosmosToEth (toyEnv 9) t))) =
      some (true, some (some (hugeTip, bytesToAddress (List.replicate 20 7)))) := by decide +kernel
  rw [ht] at h2
  simp only [Option.map_some, Option.some.injEq, Prod.mk.injEq] at h2
  refine ⟨t, _, ht, h2.1, h2.2, ?_⟩
  have : bigOk hugeTip.tipCap = false := by decide +kernel
  simp [rawOf, stored, newRpc, this]

/-- C61: and with it every transaction of its block: reading the block fails. -/
theorem C61_block_violated (hashOf : EthTx → Hash) (sender : EthTx → Option Addr) (tx : EthTx) (bh : Hash) (bn ix c : Nat) (before after : List Rpc)
    (h : bigOk tx.tipCap = false) : readBlock (before ++ newRpc hashOf sender tx bh bn ix c :: after) = none := by
  induction before with
  | nil => simp [readBlock, stored, newRpc, h]
  | cons b bs ih =>
    simp only [List.cons_append, readBlock]
    cases stored b with
    | none => rfl
    | some _ => simp [ih]

/-- C61: a block whose transactions all fit is read whole. -/
theorem C61_block_partial (l : List Rpc) (h : ∀ t ∈ l, stored t = some t) : readBlock l = some l := by
  induction l with
  | nil => rfl
  | cons t ts ih =>
    simp only [readBlock, h t (by simp), ih (fun x hx => h x (List.mem_cons_of_mem _ hx)), Option.map_some]

example : stored (newRpc (fun _ => Hash.zero) (fun _ => none) toyTx (Hash.ofNat 1) 1 0 5) = some (newRpc (fun _ => Hash.zero) (fun _ => none) toyTx (Hash.ofNat 1) 1 0 5) := by
  decide +kernel

end Verif.RpcTx
