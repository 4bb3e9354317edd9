import Verif.Props.Query
import Verif.Props.TxUtils
/-
C91, what is estimated: the message `eth_estimateGas` simulates beside the one the signed transaction is turned into.
-/
namespace Verif.Props.EstimateMsg
open Verif Verif.Text Verif.TxUtils Verif.Query Verif.Props.Query

/-- The arguments of an estimate describe the transaction: its sender (the address of the recovered key), recipient, amount and data. -/
structure Describes {K : Type} (e : Env K) (a : TxArgs) (tx : EthTx) : Prop where
  sender : ∀ k, senderKey e tx = some k → a.from_ = some (bytesToAddress (e.keyAddr k))
  to : a.to = tx.to
  value : ((a.value.getD 0 : Nat) : Int) = tx.value
  data : (a.input.or a.data).getD [] = tx.data

theorem recoverPlain_recovered {K : Type} {e : Env K} {p : Payload} {r s v : Nat} {k : K} (h : recoverPlain e p r s v = some k) :
    ∃ p r s v, e.recover p r s v = some k := by
  unfold recoverPlain at h
  split at h
  · cases h
  · split at h
    · exact ⟨_, _, _, _, h⟩
    · cases h

theorem senderKey_recovered {K : Type} {e : Env K} {tx : EthTx} {k : K} (h : senderKey e tx = some k) :
    ∃ p r s v, e.recover p r s v = some k := by
  cases tx with
  | legacy nonce gas price to value data v r s =>
    simp only [senderKey] at h
    split at h
    · split at h
      · cases h
      · exact recoverPlain_recovered h
    · exact recoverPlain_recovered h
  | accessList c nonce gas price to value data al v r s =>
    simp only [senderKey] at h
    split at h
    · cases h
    · exact recoverPlain_recovered h
  | dynamic c nonce gas tip cap to value data al v r s =>
    simp only [senderKey] at h
    split at h
    · cases h
    · exact recoverPlain_recovered h
  | other t => cases h

/-- **C91** (what is estimated): a transaction without an access list that the node accepts carries exactly the message that
`eth_estimateGas` simulates when given its sender, recipient, amount and data. -/
theorem C91_message {K : Type} (e : Env K) (he : e.Ok) (tx : EthTx) (c : CosmosTx K) (h : ethToCosmos e tx = some c)
    (hal : tx.access = []) (a : TxArgs) (ha : Describes e a tx) : c.msgs = [estimateMsg e a] := by
  unfold ethToCosmos at h
  generalize hfee : (if tx.feeCap = 0 then (0 : Int) else fromEthersI e.decimals (tx.feeCap * tx.gas) + 1) = fee at h
  simp only at h
  split at h
  · cases h
  · split at h
    · cases h
    · split at h
      · rename_i sk vb p h1 h2 h3
        split at h
        · cases h
        · split at h
          · cases h
          · cases h
            obtain ⟨p', r, s, v, hr⟩ := senderKey_recovered h1
            have hb : (bytesToAddress (e.keyAddr sk)).bytes = e.keyAddr sk := fitBytes_eq 20 _ (he.key20 _ _ _ _ _ hr)
            have hf := ha.sender sk h1
            have hd := ha.data
            rw [← getData_eq] at hd
            simp only [estimateMsg, hf, Option.getD_some, hb, ha.to, ha.value, hd, hal]
            cases tx.to <;> rfl
      · cases h

/-- Non-vacuity: a creation that is accepted, and the arguments that describe it. -/
example : (ethToCosmos (Props.TxUtils.toyEnv 18) Props.TxUtils.toyCreate).isSome = true ∧
    (Props.TxUtils.toyEnv 18).Ok ∧ Props.TxUtils.toyCreate.access = [] ∧
    Describes (Props.TxUtils.toyEnv 18) ⟨some ⟨List.replicate 20 7, rfl⟩, none, none, none, none⟩ Props.TxUtils.toyCreate :=
  ⟨by decide +kernel, Props.TxUtils.toyEnv_ok 18, rfl, ⟨fun _ _ => rfl, rfl, rfl, rfl⟩⟩

end Verif.Props.EstimateMsg
