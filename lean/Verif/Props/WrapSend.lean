import Verif.Model.WrapSend
import Verif.Props.Wrapper
import Verif.Props.WrapMsg
/-
C49: whoever can wrap anything can take everything the wrapper holds.
-/
namespace Verif.Props.WrapSend
open Verif.Props.Ledger (alice bob)
open Verif Verif.Text Verif.Tokens Verif.Wrapper Verif.WrapMsg Verif.WrapSend Verif.Spec.Wrapper Verif.Props.WrapMsg Verif.Props.Wrapper

/-- **C49 is violated** (the locked tokens can be taken). In every state, reachable or not: an account that can wrap any amount of any
token at all can, by the text it passes for the receiver, make the wrapper send any amount `n` of any token `o` it holds - the
tokens it has locked for others - to any receiver on the other chain, over any channel, instead of the wrapped tokens. -/
theorem C49_drain_violated (x : Names) (e : Env) (user token o w : Addr) (amount wa timeout n tm : Nat) (channel r d memo : Str)
    (s s1 : WS) (b : Bool) (t : Token)
    (hw : wrap e user token amount s = some s1) (hc : s1.cbs s1.cbId = some (user, w, wa)) (hwa : wa < 2 ^ 256)
    (hid : s1.cbId < 2 ^ 64) (ht : timeout < 2 ^ 256) (hch : Plain channel) (hd1 : Plain (x.denomOf w)) (hst : Plain x.selfText)
    (hr : Plain r) (hd : Plain d) (hm : Plain memo) (htm : tm < 2 ^ 64)
    (ho : x.resolve d = some o) (hto : s1.ts o = some (b, t)) (hn : 0 < n) (hbal : n ≤ t.bal e.self)
    (hne : x.escrow channel ≠ e.self) (hesc : t.bal (x.escrow channel) + n < 2 ^ 256) :
    ∃ s' t', wrapTx x e user token amount channel (inject r d n tm memo) timeout s = some s' ∧ s'.ts o = some (b, t') ∧
      t'.bal e.self = t.bal e.self - n ∧ t'.bal (x.escrow channel) = t.bal (x.escrow channel) + n ∧ t'.supply = t.supply ∧
      (∀ a, a ≠ o → s'.ts a = s1.ts a) := by
  have hn' : n < 2 ^ 256 := Nat.lt_of_le_of_lt (Nat.le_add_left _ _) hesc
  have hi := C83_injection_violated (argsOf x e channel (inject r d n tm memo) timeout w wa s1) r d memo n tm hch hd1 hst hwa ht hid rfl
    hr hd hm htm hn'
  unfold wrapTx
  simp only [hw, hc, hi, escrowed, ho]
  rw [if_neg (by have : (0:Int) < Int.ofNat n := by simpa using hn
                 omega)]
  have hex : doTransfer t e.self (x.escrow channel) n = some { t with
      bal := setB (setB t.bal e.self (t.bal e.self - n)) (x.escrow channel) (t.bal (x.escrow channel) + n) } := by
    unfold doTransfer subU
    rw [if_pos hbal]
    simp only [addU]
    have : setB t.bal e.self (t.bal e.self - n) (x.escrow channel) = t.bal (x.escrow channel) := by simp [setB, hne]
    rw [this, if_pos hesc]
  have hs : solCall e.chain s1.ts e.chain.chainAddr o (.sudoTransfer e.self (x.escrow channel) n) =
      some (upd s1.ts o (b, { t with
        bal := setB (setB t.bal e.self (t.bal e.self - n)) (x.escrow channel) (t.bal (x.escrow channel) + n) })) := by
    unfold solCall
    simp only [hto, exec, ne_eq, not_true_eq_false, if_false, hex]
  simp only [argsOf, show (Int.ofNat n).toNat = n from rfl, hs, Option.map_some]
  refine ⟨_, { t with bal := setB (setB t.bal e.self (t.bal e.self - n)) (x.escrow channel) (t.bal (x.escrow channel) + n) },
    rfl, if_pos rfl, ?_, ?_, rfl, ?_⟩
  · simp [setB, Ne.symm hne]
  · simp [setB]
  · intro a ha
    simp only [upd, ha, if_false]

/-! ### A concrete case -/

/-- Denoms of the toy chain. -/
def toyNames : Names where
  denomOf a := if a = Addr.ofNat 30 then "evm/30".toList else if a = Addr.ofNat 50 then "evm/50".toList else "evm/32".toList
  selfText := "init1w".toList
  resolve d := if d = "evm/30".toList then some (Addr.ofNat 30) else if d = "evm/50".toList then some (Addr.ofNat 50) else
    if d = "evm/32".toList then some (Addr.ofNat 32) else none
  escrow _ := Addr.ofNat 99

/-- carol makes a worthless token of her own (31), and approves the wrapper. -/
def carol : Addr := Addr.ofNat 102

def runO : Option WS := (create toyW carol 6 ws2).map (·.1)
def ws5 : WS := runO.getD ws2
def runP : Option WS := doOther carol (Addr.ofNat 31) (.mint carol 5) ws5
def ws6 : WS := runP.getD ws5
def runQ : Option WS := doOther carol (Addr.ofNat 31) (.approve (Addr.ofNat 20) 5) ws6
def ws7 : WS := runQ.getD ws6

theorem ws7_reach : Reach toyW false ws0 ws7 := by
  have h1 : runO = some ws5 := of_getD (by decide +kernel)
  have h2 : runP = some ws6 := of_getD (by decide +kernel)
  have h3 : runQ = some ws7 := of_getD (by decide +kernel)
  have s1 : Step toyW false ws2 ws5 := by
    unfold runO at h1
    cases hc : create toyW carol 6 ws2 with
    | none => rw [hc] at h1; cases h1
    | some v =>
      rw [hc] at h1
      obtain ⟨s', a⟩ := v
      simp only [Option.map_some, Option.some.injEq] at h1
      subst h1
      exact .create carol a 6 _ hc
  exact .step _ _ (.step _ _ (.step _ _ (ws2_reach false) s1) (doOther_step (by decide +kernel) (fun h => absurd h (by decide +kernel)) h2))
    (doOther_step (by decide +kernel) (fun h => absurd h (by decide +kernel)) h3)

/-- What carol passes as the receiver: it asks for the 100 units of token 50 that the wrapper has locked. -/
def theft : Str := inject "carol".toList "evm/50".toList 100 0 []

/-- She wraps 5 units of her own token. -/
def runT : Option WS := wrapTx toyNames toyW carol (Addr.ofNat 31) 5 "channel-0".toList theft 0 ws7
def ws8 : WS := runT.getD ws7

theorem not_solvent (e : Env) (z : WS) (w o : Addr) (n m k : Nat) (hor : z.origin w = some o) (hd : z.dec o = 6) (hn : 0 < n)
    (hw : ((z.ts w).map fun x => (x.2.supply, x.2.bal bob)) = some (n, m))
    (ho : ((z.ts o).map fun x => (x.2.bal e.self, x.2.bal (Addr.ofNat 99))) = some (0, k)) : ¬ Solvent e z := by
  intro hs
  cases h1 : z.ts w with
  | none => rw [h1] at hw; cases hw
  | some v =>
    cases h2 : z.ts o with
    | none => rw [h2] at ho; cases ho
    | some v' =>
      rw [h1] at hw; rw [h2] at ho
      simp only [Option.map_some, Option.some.injEq, Prod.mk.injEq] at hw ho
      have := hs _ _ v.1 v.2 v'.1 v'.2 hor h1 h2
      rw [hd] at this
      unfold Covers at this
      rw [if_pos (Nat.le_refl 6)] at this
      omega

/-- **C49 is violated** (from a reachable state). bob holds 100 wrapped tokens, covered by 100 locked ones, and can redeem them. carol
wraps 5 units of a token she has just made. Her transaction succeeds; it sends the 100 locked tokens to the other chain, to be hers
there; the wrapper holds nothing for bob's tokens, and he can redeem none of them. -/
theorem C49_injection_violated :
    Reach toyW false ws0 ws7 ∧ Start toyW ws0 ∧ (unwrap toyW bob (Addr.ofNat 30) bob 60 ws7).isSome = true ∧
    wrapTx toyNames toyW carol (Addr.ofNat 31) 5 "channel-0".toList theft 0 ws7 = some ws8 ∧
    ((ws8.ts (Addr.ofNat 30)).map fun x => (x.2.supply, x.2.bal bob)) = some (100, 100) ∧
    ((ws8.ts (Addr.ofNat 50)).map fun x => (x.2.bal toyW.self, x.2.bal (toyNames.escrow "channel-0".toList))) = some (0, 100) ∧
    ¬ Solvent toyW ws8 ∧ unwrap toyW bob (Addr.ofNat 30) bob 60 ws8 = none := by
  have hr : runT = some ws8 := of_getD (by decide +kernel)
  have hw : ((ws8.ts (Addr.ofNat 30)).map fun x => (x.2.supply, x.2.bal bob)) = some (100, 100) := by decide +kernel
  have ho : ((ws8.ts (Addr.ofNat 50)).map fun x => (x.2.bal toyW.self, x.2.bal (toyNames.escrow "channel-0".toList))) = some (0, 100) := by
    decide +kernel
  have hu : (unwrap toyW bob (Addr.ofNat 30) bob 60 ws8).isNone = true := by decide +kernel
  refine ⟨ws7_reach, ws0_start, by decide +kernel, hr, hw, ho, ?_, by simpa using hu⟩
  exact not_solvent toyW ws8 (Addr.ofNat 30) (Addr.ofNat 50) 100 100 100 (by decide +kernel) (by decide +kernel) (by decide) hw ho

/-- The hypotheses of `C49_drain_violated` are met there. -/
example : (wrap toyW carol (Addr.ofNat 31) 5 ws7).isSome = true ∧
    ((wrap toyW carol (Addr.ofNat 31) 5 ws7).bind fun s => s.cbs s.cbId) = some (carol, Addr.ofNat 32, 5) ∧
    toyNames.resolve "evm/50".toList = some (Addr.ofNat 50) ∧
    ((wrap toyW carol (Addr.ofNat 31) 5 ws7).bind fun s => (s.ts (Addr.ofNat 50)).map fun x =>
      (x.2.bal toyW.self, x.2.bal (toyNames.escrow []))) = some (100, 0) := by
  refine ⟨by decide +kernel, by decide +kernel, by decide +kernel, by decide +kernel⟩

end Verif.Props.WrapSend
