import Verif.Props.Query
import Verif.Props.TxPoolExact
/-
C68, C64: the exact differences.
-/
namespace Verif.Props.Query
open Verif Verif.Query Verif.TxUtils Verif.Props.TxUtils Verif.Text

variable {P K V : Type}

/-- What `eth_call` executes instead of the message asked for: without the amount, and creating a contract if the zero address
is called. -/
def executed (a : TxArgs) : Ask :=
  { intended a with value := 0, to := if (intended a).to = some Addr.zero then none else (intended a).to }

/-- **C68 (exact).** For all arguments, `eth_call` answers what executing `executed a` on the stores of the block answers: its
return data, or an error. -/
theorem C68_exact (e : Env P) (he : CodecOk e) (exec : Ask → Prog K V Outcome) (a : TxArgs)
    (s : Stores K V) (hn : s.next = 0) :
    (ethCall e exec a [] s).2 = match ((exec (executed a)).run [[]] s).2 with
      | some (.ok ret) => some ret
      | _ => none := by
  have h := C46_same_answer e exec (ethCallReq e a) s _ (ethCall_asks e he a) hn
  have hi : executed a = { caller := a.from_.getD Addr.zero
                           to := if a.to = some Addr.zero then none else a.to
                           input := (a.input.or a.data).getD []
                           value := 0 } := by simp [executed, intended]
  unfold ethCall
  simp only
  rw [h, ← hi]
  rcases hx : ((exec (executed a)).run [[]] s).2 with _ | o
  · rfl
  · cases o with
    | ok ret => simp [decode0x_encode0x]
    | error m => cases m <;> simp; rfl

/-- **C68 (exact).** `eth_call` gives, whatever the contracts, the answer of the message asked for if and only if that message
carries no amount and does not call the zero address. -/
theorem C68_iff (e : Env P) (he : CodecOk e) (a : TxArgs) :
    (∀ (exec : Ask → Prog Nat Nat Outcome),
      (ethCall e exec a [] noStores).2 = match ((exec (intended a)).run [[]] noStores).2 with
        | some (.ok ret) => some ret
        | _ => none) ↔
    a.value.getD 0 = 0 ∧ a.to ≠ some Addr.zero := by
  constructor
  · intro h
    constructor
    · apply Classical.byContradiction
      intro hv
      have := h (fun x => .ret (.ok (if x.value = 0 then [0] else [1])))
      rw [C68_exact e he _ a noStores rfl] at this
      simp [executed, intended, Prog.run, hv] at this
    · intro ht
      have := h (fun x => .ret (.ok (if x.to = none then [0] else [1])))
      rw [C68_exact e he _ a noStores rfl] at this
      simp [executed, intended, Prog.run, ht] at this
  · intro ⟨hv, ht⟩ exec
    rw [C68_exact e he exec a noStores rfl]
    have : executed a = intended a := by simp [executed, intended, hv, ht]
    rw [this]

/-- **C68 (the command).** `query evm call` is refused exactly if one of its arguments cannot be read; otherwise the node reads its request
too, and executes exactly what was typed: as that sender, with that input and no amount, on that contract, unless it is the zero
address (then the input is run as a creation, the only way to try one from the command line). -/
theorem C68_cli (e : Env P) (h0 : e.unbech [] = none) (sender contract input : Str) :
    ((∃ b a i, e.unbech sender = some b ∧ contractAddressFromString e contract = some a ∧ decode0x input = some i) ↔
      (cliCall e sender contract input).isSome = true) ∧
    ∀ r, cliCall e sender contract input = some r → ∃ b a i, e.unbech sender = some b ∧
      contractAddressFromString e contract = some a ∧ decode0x input = some i ∧
      parseCall e r = some { caller := bytesToAddress b, to := if a = Addr.zero then none else some a, input := i, value := 0 } := by
  unfold cliCall
  cases hs : e.unbech sender with
  | none => simp
  | some b =>
    cases hc : contractAddressFromString e contract with
    | none => simp
    | some a =>
      cases hi : decode0x input with
      | none => simp
      | some i =>
        refine ⟨by simp, fun r hr => ?_⟩
        cases hr
        refine ⟨b, a, i, rfl, rfl, rfl, ?_⟩
        have hsn : sender ≠ [] := by rintro rfl; rw [h0] at hs; cases hs
        have hcn : contract ≠ [] := by
          rintro rfl
          unfold contractAddressFromString at hc
          rw [h0] at hc
          revert hc
          split
          · rename_i hx; exact absurd hx (by decide)
          · simp
        unfold parseCall
        rw [if_neg hsn, if_neg hcn, hs, hc, hi]
        rfl

example : (cliCall (toyEnv 18) ((toyEnv 18).bech (Addr.ofNat 7).bytes) "0x0000000000000000000000000000000000000001".toList
      "0x01".toList).bind (parseCall (toyEnv 18)) = some ⟨Addr.ofNat 7, some (Addr.ofNat 1), [1], 0⟩ ∧
    (cliCall (toyEnv 18) ((toyEnv 18).bech (Addr.ofNat 7).bytes) "0x0000000000000000000000000000000000000000".toList
      "0x01".toList).bind (parseCall (toyEnv 18)) = some ⟨Addr.ofNat 7, none, [1], 0⟩ ∧
    (cliCall (toyEnv 18) ((toyEnv 18).bech (Addr.ofNat 7).bytes) "0x0000000000000000000000000000000000000001".toList
      "01".toList).isNone = true := by decide +kernel

end Verif.Props.Query

namespace Verif.TxPool
open Verif Verif.TxUtils Verif.Props.TxUtils

/-- **C64 (exact).** Inserting a transaction, with any number of watchers: if it converts, the mempool decides and every
watcher is told its Ethereum form, if it has one, whatever the mempool decided; if it does not convert and somebody watches, it
is refused, without asking the mempool. -/
theorem C64_exact {K M : Type} (e : Env K) (inner : M → CosmosTx K → M × Bool) (w : Nat) (m : M) (tx : CosmosTx K) :
    (∀ o, cosmosToEth e tx = some o →
      insert e inner w m tx = ((inner m tx).1, (inner m tx).2, List.replicate w (o.map Prod.fst).toList)) ∧
    (cosmosToEth e tx = none → insert e inner w m tx =
      if w = 0 then ((inner m tx).1, (inner m tx).2, []) else (m, false, List.replicate w [])) := by
  unfold insert
  constructor
  · intro o h
    rw [h]
    by_cases hw : w > 0
    · rw [if_pos hw]; cases o <;> rfl
    · have : w = 0 := by omega
      subst this; rfl
  · intro h
    rw [h]
    by_cases hw : w > 0
    · rw [if_pos hw, if_neg (by omega)]
    · rw [if_neg hw, if_pos (by omega)]

/-- **C64 (exact).** With somebody watching, a transaction is announced although it is not taken exactly if it is an Ethereum
transaction and the mempool refuses it. -/
theorem C64_announced_iff {K M : Type} (e : Env K) (inner : M → CosmosTx K → M × Bool) (w : Nat) (hw : 0 < w) (m : M)
    (tx : CosmosTx K) :
    ((insert e inner w m tx).2.1 = false ∧ ∃ l ∈ (insert e inner w m tx).2.2, l ≠ []) ↔
    (inner m tx).2 = false ∧ ∃ x a, cosmosToEth e tx = some (some (x, a)) := by
  obtain ⟨h1, h2⟩ := C64_exact e inner w m tx
  cases hc : cosmosToEth e tx with
  | none =>
    rw [h2 hc, if_neg (by omega)]
    simp
  | some o =>
    rw [h1 o hc]
    cases o with
    | none => simp
    | some p =>
      simp only [Option.map_some, Option.toList_some]
      constructor
      · intro ⟨a, _⟩; exact ⟨a, p.1, p.2, rfl⟩
      · intro ⟨a, _⟩; exact ⟨a, [p.1], List.mem_replicate.mpr ⟨by omega, rfl⟩, by simp⟩

example : (insert (toyEnv 18) (fun (m : List (CosmosTx Unit)) _ => (m, false)) 3 [] tx0).2.1 = false ∧
    ((cosmosToEth (toyEnv 18) tx0).map fun o => o.map Prod.fst) = some (some (.legacy 0 9 0 none 0 [] 45 5 6)) := by
  constructor <;> decide +kernel

end Verif.TxPool
