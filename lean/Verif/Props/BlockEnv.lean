import Verif.Model.BlockEnv
import Verif.Props.Params
import Verif.Props.Exec
import Verif.Props.Fees
/-
C105: what a contract is told about its block and transaction, beside what JSON-RPC serves for the same block.
-/
namespace Verif.BlockEnv
open Verif Verif.Exec Verif.Params Verif.GasPrice Verif.Fees

variable {D : Type} [DecidableEq D]

theorem hashes_eq (c : Chain D) : ∀ h, c.hashes h = Props.Params.runBlocks c.num c.hash h
  | 0 => rfl
  | h + 1 => by rw [Chain.hashes, hashes_eq c h]; rfl

theorem random_hash : ∀ x : Hash, randomOf x.bytes = some x
  | ⟨b, l⟩ => by
    unfold randomOf sliceToHash
    rw [if_neg (by simp only; omega), dif_pos (by simp only; omega)]
    congr 2
    simp only
    rw [← l, List.take_length]

theorem told_some (keccak : Bytes → Hash) (c : Chain D) (h : Nat) (r : Run D) :
    c.told keccak h r = some { number := h, time := toU64 (c.unix h), gasLimit := computeGasLimit none r.meter, baseFee := seenBase r.setting.decimals r.setting.prices r.setting.feeDenom, random := c.hash h, coinbase := Addr.zero, blobBaseFee := 0, blockhash := blockhashOp (Props.Params.runBlocks c.num c.hash h) h, origin := r.caller, chainId := ethChainId keccak c.name } := by
  have hr := random_hash (c.hash h)
  unfold Chain.told build
  rw [show (c.ctx h r.meter).headerHash = (c.hash h).bytes from rfl, hr, hashes_eq]
  rfl

/-- **C105** (one block). Every execution of a block, whatever its caller, gas and moment, is told the number, the time, the beneficiary and
the chain id that JSON-RPC serves for that block and chain; times after 1970 are the seconds themselves. -/
theorem C105_block (keccak : Bytes → Hash) (c : Chain D) (h : Nat) (r : Run D) : ∃ v, c.told keccak h r = some v ∧
    v.number = h ∧ (c.served h).number = h ∧ v.time = (c.served h).timestamp ∧ v.coinbase = (c.served h).miner ∧
    v.chainId = rpcChainId keccak c.name ∧ (0 ≤ c.unix h → c.unix h < 18446744073709551616 → (v.time : Int) = c.unix h) := by
  refine ⟨_, told_some keccak c h r, rfl, rfl, rfl, rfl, rfl, fun h0 h1 => ?_⟩
  simp only [toU64]
  rw [Int.emod_eq_of_lt h0 h1]
  omega

/-- **C105** (a chain after the merge): JSON-RPC serves difficulty 0 for every block, and what contracts get in its place is the header hash
that consensus handed over, which is how Ethereum clients tell such chains; blobs cost nothing. -/
theorem C105_merge (keccak : Bytes → Hash) (c : Chain D) (h : Nat) (r : Run D) : (c.served h).difficulty = 0 ∧
    ∃ v, c.told keccak h r = some v ∧ v.random = c.hash h ∧ v.blobBaseFee = 0 ∧ v.origin = r.caller :=
  ⟨rfl, _, told_some keccak c h r, rfl, rfl, rfl⟩

/-- **C105** (time goes forward): if consensus time does not go back, no later execution is told an earlier time. -/
theorem C105_time (keccak : Bytes → Hash) (c : Chain D) (hm : ∀ i j, i ≤ j → c.unix i ≤ c.unix j)
    (h0 : ∀ i, 0 ≤ c.unix i) (h1 : ∀ i, c.unix i < 18446744073709551616) (i j : Nat) (hij : i ≤ j) (r r' : Run D) (v v' : Env)
    (hv : c.told keccak i r = some v) (hv' : c.told keccak j r' = some v') : v.time ≤ v'.time := by
  obtain ⟨w, e, _, _, _, _, _, t⟩ := C105_block keccak c i r
  obtain ⟨w', e', _, _, _, _, _, t'⟩ := C105_block keccak c j r'
  rw [hv] at e; cases e
  rw [hv'] at e'; cases e'
  have := t (h0 i) (h1 i)
  have := t' (h0 j) (h1 j)
  have := hm i j hij
  omega

/-- **C105** (the random number is no secret and is not new). From block 2 on PREVRANDAO is the same as BLOCKHASH of the block before, and
in the following 255 blocks BLOCKHASH still gives the number that was the random number of this block. -/
theorem C105_random (keccak : Bytes → Hash) (c : Chain D) (hv : ∀ i, c.num i = 0 ∨ 256 ≤ c.num i) (h k : Nat) (h2 : 2 ≤ h) (hk : h ≤ k)
    (hk' : k ≤ h + 255) (r r' : Run D) : ∃ v v', c.told keccak h r = some v ∧ c.told keccak k r' = some v' ∧
    v.random = v'.blockhash (h - 1) := by
  refine ⟨_, _, told_some keccak c h r, told_some keccak c k r', ?_⟩
  simp only
  rw [Props.Params.C31_opcode_partial c.num c.hash hv, if_pos ⟨by omega, by omega, by omega⟩]
  congr 1
  omega

/-- **C105** (an execution outside a block, such as eth_call, has no random number): PREVRANDAO is zero. -/
theorem C105_random_call (keccak : Bytes → Hash) (hashes : Hashes) (s : Setting D) (c : Ctx) (caller : Addr) (hc : c.headerHash = []) :
    ∃ v, build keccak hashes s c caller = some v ∧ v.random = Hash.zero := by
  unfold build randomOf
  rw [hc]
  exact ⟨_, rfl, rfl⟩

/-- **C105 does not hold** for the random number: JSON-RPC serves zero as the `mixHash` of every block, while contracts were told the header
hash. -/
theorem C105_mix_violated (keccak : Bytes → Hash) (c : Chain D) (h : Nat) (hz : c.hash h ≠ Hash.zero) (r : Run D) :
    ∃ v, c.told keccak h r = some v ∧ v.random ≠ (c.served h).mixHash :=
  ⟨_, told_some keccak c h r, hz⟩

/-- **C105 does not hold** for block hashes: however JSON-RPC's hash is computed from the header it serves, there are chains in which BLOCKHASH
gives another hash for a block than JSON-RPC. -/
theorem C105_hash_violated (keccak : Bytes → Hash) (rpcHash : Header → Hash) (r : Run D) : ¬ ∀ (c : Chain D), (∀ i, c.num i = 0 ∨ 256 ≤ c.num i) →
    ∀ h n v, 1 ≤ n → n < h → h ≤ n + 256 → c.told keccak h r = some v → v.blockhash n = rpcHash (c.served n) := by
  intro H
  let c (x : Hash) : Chain D := ⟨fun _ => 256, fun _ => x, fun _ => 0, fun _ => r.setting, fun _ => ⟨0, 0⟩, []⟩
  have h1 : ∀ x, x = rpcHash ((c x).served 1) := fun x => by
    have := H (c x) (fun _ => .inr (by simp [c])) 2 1 _ (by omega) (by omega) (by omega) (told_some keccak (c x) 2 r)
    simp only at this
    rw [Props.Params.C31_opcode_partial _ _ (fun _ => .inr (by simp [c])), if_pos ⟨by omega, by omega, by omega⟩] at this
    exact this
  have a := h1 (Hash.ofNat 1)
  have b := h1 (Hash.ofNat 2)
  have e : (c (Hash.ofNat 1)).served 1 = (c (Hash.ofNat 2)).served 1 := rfl
  rw [e, ← b] at a
  revert a; decide +kernel

/-- **C105 does not hold** for the gas limit: GASLIMIT is the gas left to the transaction when the execution starts, so it is the block's gas
limit only by chance, and two executions of one block are told the same only if they have the same gas left. -/
theorem C105_gas_limit_violated (keccak : Bytes → Hash) (c : Chain D) (h : Nat) (r r' : Run D) (hr : r.meter.consumed ≤ r.meter.limit)
    (hr' : r'.meter.consumed ≤ r'.meter.limit) (hl : r.meter.limit < 2 ^ 64) (hl' : r'.meter.limit < 2 ^ 64) :
    ∃ v v', c.told keccak h r = some v ∧ c.told keccak h r' = some v' ∧
      (v.gasLimit = (c.served h).gasLimit ↔ r.meter.limit - r.meter.consumed = (c.meter h).limit) ∧
      (v.gasLimit = v'.gasLimit ↔ r.meter.limit - r.meter.consumed = r'.meter.limit - r'.meter.consumed) := by
  have gl : ∀ m : Meter, m.consumed ≤ m.limit → m.limit < 2 ^ 64 → computeGasLimit none m = m.limit - m.consumed := by
    intro m h1 h2
    simp only [computeGasLimit, Meter.consumedToLimit, Nat.min_eq_left h1]
    omega
  refine ⟨_, _, told_some keccak c h r, told_some keccak c h r', ?_, ?_⟩
  · simp only [gl _ hr hl]; exact Iff.rfl
  · simp only [gl _ hr hl, gl _ hr' hl']

/-- **C105** (base fee; partial: the settings are those at the end of the block). BASEFEE is the base fee JSON-RPC serves. The full statement
drops the condition. -/
theorem C105_base_fee_partial (keccak : Bytes → Hash) (c : Chain D) (h : Nat) (r : Run D) (hs : r.setting = c.after h) :
    ∃ v, c.told keccak h r = some v ∧ v.baseFee = (c.served h).baseFeePerGas :=
  ⟨_, told_some keccak c h r, by simp only [hs]; rfl⟩

/-- **C105 does not hold** for the base fee when the minimum price changes within the block: JSON-RPC serves the price at its end, what
executions before the change were told is lost. -/
theorem C105_base_fee_violated (keccak : Bytes → Hash) (c : Chain D) (h : Nat) (d : D) (p q : Nat) (r : Run D)
    (hr : r.setting = ⟨some [(d, p)], d, 18⟩) (ha : c.after h = ⟨some [(d, q)], d, 18⟩)
    (hpq : p * 10 ^ 9 / 10 ^ 18 / 10 ^ 9 ≠ q * 10 ^ 9 / 10 ^ 18 / 10 ^ 9) :
    ∃ v, c.told keccak h r = some v ∧ v.baseFee ≠ (c.served h).baseFeePerGas := by
  refine ⟨_, told_some keccak c h r, ?_⟩
  have hb : ∀ x, seenBase 18 (some [(d, x)]) d = x * 10 ^ 9 / 10 ^ 18 / 10 ^ 9 := by
    intro x
    have ha : minPrice (some [(d, x)]) d = x := by simp [minPrice, amountOf]
    rw [seenBase, ha, weiGasPrice, toEthers, decOne, if_neg (by decide), if_pos (by decide)]
  simp only [hr, Chain.served, header, ha, hb]
  exact hpq

/-- **C105 (gas used).** The header that JSON-RPC serves never says that more gas was used than its gas limit allows, and
says exactly what was used if that is within the limit. -/
theorem C105_gas_used (c : Chain D) (h : Nat) : (c.served h).gasUsed ≤ (c.served h).gasLimit ∧
    (c.served h).gasLimit = (c.meter h).limit ∧
    ((c.meter h).consumed ≤ (c.meter h).limit → (c.served h).gasUsed = (c.meter h).consumed) := by
  simp only [Chain.served, header, Meter.consumedToLimit]
  refine ⟨?_, trivial, ?_⟩
  · omega
  · intro hh; omega

/-- **C105** (origin): ORIGIN is the account the message is executed for. -/
theorem C105_origin (keccak : Bytes → Hash) (c : Chain D) (h : Nat) (r : Run D) : ∃ v, c.told keccak h r = some v ∧ v.origin = r.caller :=
  ⟨_, told_some keccak c h r, rfl⟩

/-- **C105 does not hold** for the origin within one transaction: a message that a contract `k` schedules is accepted and, when it is
executed, ORIGIN is `k`, not the account `u` that started the transaction. So code called by that message finds ORIGIN = CALLER although
its caller is a contract. -/
theorem C105_origin_violated {M : Type} (signers : M → List Bytes) (origin : Addr → Bytes) (k u : Addr) (hku : u ≠ k) (m : M)
    (hs : Exec.Spec.signedOnlyBy signers origin k m) (keccak : Bytes → Hash) (c : Chain D) (h : Nat) (outer inner : Run D)
    (ho : outer.caller = u) (hi : inner.caller = k) :
    MFrame.runAll signers origin false [.schedule k m] [] = [m] ∧
    ∃ v v', c.told keccak h outer = some v ∧ c.told keccak h inner = some v' ∧ v'.origin = inner.caller ∧ v'.origin ≠ v.origin := by
  refine ⟨?_, _, _, told_some keccak c h outer, told_some keccak c h inner, rfl, ?_⟩
  · have ha : accepts signers origin false k m = true := (Props.Exec.accepts_iff signers origin false k m).mpr ⟨rfl, hs⟩
    simp only [MFrame.runAll, MFrame.run, ha, if_true, List.nil_append]
  · simp only [ho, hi]; exact hku.symm

/-! ### Cases -/

/-- A chain in which prices rise at block 3. -/
def toyEnvChain : Chain Nat := ⟨fun _ => 256, fun i => Hash.ofNat (i + 1), fun i => 1700000000 + i,
  fun i => ⟨some [(0, if i < 3 then 2000000000000000000000000000 else 3000000000000000000000000000)], 0, 18⟩, fun _ => ⟨30000000, 100000⟩, [1]⟩

def toyRun : Run Nat := ⟨Addr.ofNat 7, ⟨200000, 50000⟩, ⟨some [(0, 2000000000000000000000000000)], 0, 18⟩⟩

example : ((toyEnvChain.told (fun _ => Hash.ofNat 5) 3 toyRun).map fun v => (v.number, v.time, v.gasLimit, v.baseFee)) =
    some (3, 1700000003, 150000, 2000000000) := by decide +kernel

example : ((toyEnvChain.served 3).gasLimit, (toyEnvChain.served 3).baseFeePerGas, (toyEnvChain.served 2).baseFeePerGas) =
    (30000000, 3000000000, 2000000000) := by decide +kernel

example : ((toyEnvChain.told (fun _ => Hash.ofNat 5) 3 toyRun).map fun v => (v.random, v.blockhash 2)) = some (Hash.ofNat 4, Hash.ofNat 4) := by
  decide +kernel

example : toyRun.setting = ⟨some [(0, 2000000000000000000000000000)], 0, 18⟩ ∧ toyEnvChain.hash 3 ≠ Hash.zero ∧
    (∀ i, toyEnvChain.num i = 0 ∨ 256 ≤ toyEnvChain.num i) ∧ (∀ i j, i ≤ j → toyEnvChain.unix i ≤ toyEnvChain.unix j) :=
  ⟨rfl, by decide +kernel, fun _ => .inr (by simp [toyEnvChain]), fun i j h => by simp only [toyEnvChain]; omega⟩

end Verif.BlockEnv
