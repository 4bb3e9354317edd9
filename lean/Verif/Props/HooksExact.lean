import Verif.Props.HooksNft
/-
C58: exactly to whom the allowance of a received transfer goes.
-/
namespace Verif.Hooks
open Verif Verif.Text Verif.Hooks.Spec

variable {σ J K : Type}

/-- **C58 (exact, fungible tokens).** When the requested call of a received fungible transfer goes through, whatever the text that
names the contract: the operations were the redirected transfer, one approval of the packet's amount on the contract of the
received token, for the address that text is when read as hexadecimal digits, and the call. -/
theorem C58_exact (e : Env σ J K) (s : σ) (p : Packet) (d : Ics20) (msg : MsgCall)
    (hp : e.decode20 p.data = some d) (hm : Asks e d.memo msg) (hs : (onRecv e ⟨s, []⟩ p).1.success = true) :
    ∃ amt erc20, parseInt d.amount = some amt ∧
      let inter := intermediate e p.dstChan d.sender
      let p' : Packet := { p with data := e.encode20 { d with receiver := inter } }
      e.denomContract (e.appRecv p' s).2 (localDenom e p d.denom) = some erc20 ∧
      (onRecv e ⟨s, []⟩ p).2.ops = [.app p',
        .call ⟨inter, addrHex e.tx.mask erc20, encode0x (e.pack (.approve20 (hexToAddress msg.contractAddr) amt)), 0⟩,
        .call { msg with sender := inter }] := by
  obtain ⟨cb, hpm⟩ := parseMemo_asks e hm
  have hshape : onRecv e ⟨s, []⟩ p = recv20 e ⟨s, []⟩ p d := by simp only [onRecv, hp]
  rw [hshape] at hs ⊢
  simp only [recv20, hpm] at hs ⊢
  by_cases hacl : checkACL e s msg.contractAddr = some true
  · by_cases hrc : d.receiver = msg.contractAddr
    · simp only [hacl, hrc, ne_eq, not_true_eq_false, if_false] at hs ⊢
      split at hs
      · next h => rw [hs] at h; cases h
      · next h =>
        rw [if_neg h]
        split at hs
        · cases hs
        · next h2 =>
          rw [if_neg h2]
          split at hs
          · cases hs
          · next h3 =>
            rw [if_neg h3]
            have hld : localDenom e { p with data := e.encode20 { d with receiver := intermediate e p.dstChan d.sender } } d.denom
                = localDenom e p d.denom := rfl
            unfold approveERC20 at h2 ⊢
            cases hpi : parseInt d.amount with
            | none => rw [hpi] at h2; simp at h2
            | some amt =>
              cases hdc : e.denomContract (Run.app e ⟨s, []⟩ { p with data := e.encode20 { d with receiver := intermediate e p.dstChan d.sender } }).2.st
                  (localDenom e p d.denom) with
              | none => rw [hpi] at h2; simp only [hld, hdc] at h2; simp at h2
              | some erc20 =>
                refine ⟨amt, erc20, rfl, hdc, ?_⟩
                · simp only [hld, hdc]
                  simp [Run.call, Run.app]
    · simp only [hacl, hrc, ne_eq, not_true_eq_false, if_false, not_false_eq_true, if_true] at hs; cases hs
  · simp only [hacl, ne_eq, not_false_eq_true, if_true] at hs; cases hs

/-- **C58 (exact, NFTs).** The same for a received NFT transfer: one approval for every token. -/
theorem C58_nft_exact (e : Env σ J K) (s : σ) (p : Packet) (d : Ics721) (msg : MsgCall)
    (h20 : e.decode20 p.data = none) (hp : e.decode721 p.data p.srcPort = some d) (hm : Asks e d.memo msg)
    (hs : (onRecv e ⟨s, []⟩ p).1.success = true) :
    ∃ s1 cs,
      let inter := intermediate e p.dstChan d.sender
      let p' : Packet := { p with data := e.encode721 { d with receiver := inter } p.srcPort }
      Approved e inter (hexToAddress msg.contractAddr) (localClassId e p d.classId) d.tokenIds (e.appRecv p' s).2 cs s1 ∧
      (e.call { msg with sender := inter } s1).1 = true ∧
      (onRecv e ⟨s, []⟩ p).2.ops = .app p' :: cs.map .call ++ [.call { msg with sender := inter }] := by
  obtain ⟨cb, hpm⟩ := parseMemo_asks e hm
  have hshape : onRecv e ⟨s, []⟩ p = recv721 e ⟨s, []⟩ p d := by simp only [onRecv, h20, hp]
  rw [hshape] at hs ⊢
  simp only [recv721, hpm] at hs ⊢
  by_cases hacl : checkACL e s msg.contractAddr = some true
  · by_cases hrc : d.receiver = msg.contractAddr
    · simp only [hacl, hrc, ne_eq, not_true_eq_false, if_false] at hs ⊢
      split at hs
      · next h => rw [hs] at h; cases h
      · next h =>
        rw [if_neg h]
        split at hs
        · cases hs
        · next h2 =>
          rw [if_neg h2]
          split at hs
          · cases hs
          · next h3 =>
            rw [if_neg h3]
            obtain ⟨cs, h4, h5⟩ := approveAll_spec e _ _ _ _ _ (by simpa using h2)
            refine ⟨_, cs, h4, by simpa [Run.call] using h3, ?_⟩
            · simp only [Run.call]
              rw [h5]
              simp [Run.app]
    · simp only [hacl, hrc, ne_eq, not_true_eq_false, if_false, not_false_eq_true, if_true] at hs; cases hs
  · simp only [hacl, ne_eq, not_false_eq_true, if_true] at hs; cases hs

/-- **C58 (the spender, exactly).** The address approved is the contract called if the text is a hexadecimal address; if it is not
(a Bech32 address), exactly if that address happens to be what the leading hexadecimal digits of the text say. -/
theorem C58_spender_iff (e : Env σ J K) (t : Str) (a : Addr) (ha : TxUtils.contractAddressFromString e.tx t = some a) :
    hexToAddress t = a ↔ isHexAddress t = true ∨ ∃ b, e.tx.unbech t = some b ∧ bytesToAddress b = hexToAddress t := by
  unfold TxUtils.contractAddressFromString at ha
  by_cases h : isHexAddress t = true
  · rw [if_pos h] at ha
    injection ha with ha
    simp [ha, h]
  · rw [if_neg h] at ha
    cases hb : e.tx.unbech t with
    | none => rw [hb] at ha; cases ha
    | some b =>
      rw [hb] at ha
      simp only [Option.map_some, Option.some.injEq] at ha
      subst ha
      constructor
      · intro h1; exact .inr ⟨b, rfl, h1.symm⟩
      · rintro (h1 | ⟨b', h1, h2⟩)
        · exact absurd h1 h
        · injection h1 with h1; subst h1; exact h2.symm

/-- **C58 fails for every Bech32 address of this chain** (they begin with `init1`): it is the zero address that is approved, so no
contract called by its Bech32 address can spend what it was sent, unless it is the contract at the zero address. -/
theorem C58_bech_violated (rest : Str) : hexToAddress ('i' :: rest) = Addr.zero ∧ isHexAddress ('i' :: rest) = false := by
  have hi : hexVal 'i' = none := by decide
  have h0 : bytesToAddress [] = Addr.zero := by decide
  constructor
  · have hs : strip0x ('i' :: rest) = 'i' :: rest := rfl
    unfold hexToAddress fromHex
    simp only [hs]
    split
    · simp only [hexDecPartial, hi]; exact h0
    · cases rest with
      | nil => exact h0
      | cons b r => simp only [hexDecPartial, hi]; exact h0
  · have hs : strip0x ('i' :: rest) = 'i' :: rest := rfl
    unfold isHexAddress
    simp only [hs, List.all_cons, hi]
    simp

/-- The digits that a text begins with are what counts: `c0ffee…` would be read, `init1…` is nobody. -/
example : hexToAddress "init1qyqszqgpqyqszqgpqyqszqgpqyqszqgp".toList = Addr.zero ∧ hexToAddress "5zz".toList = Addr.ofNat 5 := by
  decide +kernel

end Verif.Hooks
