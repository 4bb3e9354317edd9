import Verif.Props.Hooks
import Verif.Props.IbcDenom
import Verif.Model.BigText
/-
C35, C50, C58 continued: the derived sender is no other module's address; channels and short denoms; the approvals of a
received NFT transfer.
-/
namespace Verif.Hooks
open Verif Verif.Text Verif.Hooks.Spec

variable {σ J K : Type}

/-- **C35** (the derived address, separation): no address that another module derives with the SDK's `address.Hash` — from a type
name other than the hooks' own — is the derived address of a packet, unless two byte strings with the same SHA-256 have been
found. -/
theorem C35_separate (e : Env σ J K) (c s typ : Str) (key : Bytes) (ht : typ ≠ "ibc-evm-hook-intermediary".toList)
    (hu : ∀ a b, e.utf8 a = e.utf8 b → a = b) (hb : ∀ a b, a.length = 32 → b.length = 32 → e.tx.bech a = e.tx.bech b → a = b)
    (hl : ∀ a, (e.sha a).length = 32) (h : intermediate e c s = e.tx.bech (e.sha (e.sha (e.utf8 typ) ++ key))) :
    ∃ x y, x ≠ y ∧ e.sha x = e.sha y := by
  have h1 := hb _ _ (hl _) (hl _) h
  by_cases hx : e.sha (e.utf8 senderPrefix) ++ e.utf8 (c ++ '/' :: s) = e.sha (e.utf8 typ) ++ key
  · have h2 := (List.append_inj hx (by rw [hl, hl])).1
    refine ⟨_, _, ?_, h2⟩
    intro he
    exact ht (hu _ _ he).symm
  · exact ⟨_, _, hx, h1⟩

/-! ### C50: channels and short denoms -/

theorem natStr_len : ∀ (k n : Nat), n < 10 ^ (k + 1) → (natStr n).length ≤ k + 1
  | 0, n, h => by rw [natStr, dif_pos (by simpa using h)]; simp
  | k + 1, n, h => by
    rw [natStr]
    split
    · simp
    · have := natStr_len k (n / 10) (by rw [Nat.pow_succ] at h; omega)
      simp only [List.length_append, List.length_singleton]
      omega

/-- **C50** (what a channel is): a hop's channel name is `channel-` followed by a number below 2^64, and every such name — whatever
the number — counts as one; a larger number, or none, does not. -/
theorem C50_channel (n : Nat) : isChannelId ("channel-".toList ++ natStr n) = decide (n < 18446744073709551616) := by
  have hd : ("channel-".toList ++ natStr n).drop 8 = natStr n := rfl
  have hp : "channel-".toList.isPrefixOf ("channel-".toList ++ natStr n) = true := by simp
  simp only [isChannelId, hd, hp, parseNat_natStr, Bool.true_and]
  by_cases hn : n < 18446744073709551616
  · have h1 : (natStr n).length ≤ 20 := natStr_len 19 n (Nat.lt_of_lt_of_le hn (by decide))
    have h2 : 1 ≤ (natStr n).length := List.length_pos_iff.2 (natStr_ne n)
    simp [hn, h1, h2]
  · simp [hn]

theorem C50_channel_bare : isChannelId "channel-".toList = false := by decide +kernel

/-- **C50** (too short for a hop): a denom with at most one slash has no hop, even if it reads `port/channel-N`: it is a base denom. -/
theorem C50_short (a b : Str) (ha : '/' ∉ a) (hb : '/' ∉ b) :
    parseTrace a = ⟨[], a⟩ ∧ parseTrace (a ++ '/' :: b) = ⟨[], a ++ '/' :: b⟩ := by
  have one : ∀ w : Str, '/' ∉ w → split w = [w] := by
    intro w
    induction w with
    | nil => intro _; rfl
    | cons c w ih =>
      intro h
      have hc : c ≠ '/' := fun e => h (by simp [e])
      rw [split_cons c w hc, ih (fun e => h (by simp [e]))]
      rfl
  constructor
  · simp [parseTrace, one a ha]
  · simp [parseTrace, split_seg a b ha, one b hb]

/-- Non-vacuity: `transfer/channel-0` is a base denom, `transfer/channel-0/uinit` is not. -/
example : (parseTrace "transfer/channel-0".toList).base = "transfer/channel-0".toList ∧
    (parseTrace "transfer/channel-0/uinit".toList).base = "uinit".toList := by decide +kernel

/-! ### C58: approvals of a received NFT transfer -/

/-- The number of a token: of a class that came over IBC the SHA-256 of the id, read as a big-endian number; of a local class the
decimal number the id is. -/
def TokenNumber (e : Env σ J K) (classId id : Str) (n : Int) : Prop :=
  (∃ rest, classId = "ibc/".toList ++ rest ∧ n = fromBE (e.sha (e.utf8 id))) ∨
  ((∀ rest, classId ≠ "ibc/".toList ++ rest) ∧ parseInt id = some n)

/-- `Approved e sender a cls ids s cs s'`: from state `s`, `sender` approves `a` for one token after another, each on the contract
registered for the class at that moment; `cs` are the calls made and `s'` the state after them. -/
inductive Approved (e : Env σ J K) (sender : Str) (a : Addr) (cls : Str) : List Str → σ → List MsgCall → σ → Prop
  | nil (s : σ) : Approved e sender a cls [] s [] s
  | cons {id : Str} {ids : List Str} {s s1 s' : σ} {n : Int} {erc721 : Addr} {cs : List MsgCall} {m : MsgCall}
      (hn : TokenNumber e cls id n) (hc : e.classContract s cls = some erc721)
      (hm : m = ⟨sender, addrHex e.tx.mask erc721, encode0x (e.pack (.approve721 a n)), 0⟩)
      (hok : e.call m s = (true, s1)) (rest : Approved e sender a cls ids s1 cs s') : Approved e sender a cls (id :: ids) s (m :: cs) s'

theorem tokenIdToInt_spec (e : Env σ J K) (cls id : Str) (n : Int) (h : tokenIdToInt e cls id = some n) : TokenNumber e cls id n := by
  unfold tokenIdToInt at h
  split at h
  · next hp =>
    obtain ⟨rest, hr⟩ := List.isPrefixOf_iff_prefix.1 hp
    exact .inl ⟨rest, hr.symm, (Option.some.inj h).symm⟩
  · next hp =>
    refine .inr ⟨fun rest hr => hp ?_, h⟩
    rw [hr]; exact List.isPrefixOf_iff_prefix.2 ⟨rest, rfl⟩

theorem approveAll_spec (e : Env σ J K) (sender : Str) (a : Addr) (cls : Str) : ∀ (ids : List Str) (r : Run σ),
    (approveAll e sender a cls ids r).1 = true →
      ∃ cs, Approved e sender a cls ids r.st cs (approveAll e sender a cls ids r).2.st ∧
        (approveAll e sender a cls ids r).2.ops = r.ops ++ cs.map Op.call
  | [], r, _ => ⟨[], .nil _, by simp [approveAll]⟩
  | id :: ids, r, h => by
    simp only [approveAll] at h ⊢
    split at h
    · next hx =>
      rw [if_pos hx]
      obtain ⟨cs, h1, h2⟩ := approveAll_spec e sender a cls ids _ h
      unfold approveERC721 at hx h1 h2 ⊢
      cases ht : tokenIdToInt e cls id with
      | none => rw [ht] at hx; cases hx
      | some n =>
        cases hcc : e.classContract r.st cls with
        | none => rw [ht] at hx; simp only [hcc] at hx; cases hx
        | some erc =>
          simp only [ht, hcc, Run.call] at hx h1 h2 ⊢
          refine ⟨_ :: cs, .cons (tokenIdToInt_spec e cls id n ht) hcc rfl (Prod.ext hx rfl) h1, ?_⟩
          rw [h2]; simp
    · next hx => exact absurd h hx

/-- **C58** (NFTs): when the requested call of a received NFT transfer goes through, the operations were: the redirected transfer;
for every token of the packet, in order, one approval — of that token, on the contract of the received class, for the contract the
hook calls —, and the call. -/
theorem C58_nft_partial (e : Env σ J K) (s : σ) (p : Packet) (d : Ics721) (msg : MsgCall)
    (h20 : e.decode20 p.data = none) (hp : e.decode721 p.data p.srcPort = some d) (hm : Asks e d.memo msg)
    (hs : (onRecv e ⟨s, []⟩ p).1.success = true) (hhex : isHexAddress msg.contractAddr = true) :
    ∃ a s1 cs, TxUtils.contractAddressFromString e.tx msg.contractAddr = some a ∧
      let inter := intermediate e p.dstChan d.sender
      let p' : Packet := { p with data := e.encode721 { d with receiver := inter } p.srcPort }
      Approved e inter a (localClassId e p d.classId) d.tokenIds (e.appRecv p' s).2 cs s1 ∧
      (e.call { msg with sender := inter } s1).1 = true ∧
      (onRecv e ⟨s, []⟩ p).2.ops = .app p' :: cs.map .call ++ [.call { msg with sender := inter }] := by
  obtain ⟨cb, hpm⟩ := parseMemo_asks e hm
  have hshape : onRecv e ⟨s, []⟩ p = recv721 e ⟨s, []⟩ p d := by simp only [onRecv, h20, hp]
  rw [hshape] at hs ⊢
  simp only [recv721, hpm] at hs ⊢
  by_cases hacl : checkACL e s msg.contractAddr = some true
  · by_cases hrc : d.receiver = msg.contractAddr
    · simp only [hacl, hrc, ne_eq, not_true_eq_false, if_false] at hs ⊢
      split at hs
      · next h => rw [hs] at h; cases h
      · next h =>
        rw [if_neg h]
        split at hs
        · cases hs
        · next h2 =>
          rw [if_neg h2]
          split at hs
          · cases hs
          · next h3 =>
            rw [if_neg h3]
            obtain ⟨cs, h4, h5⟩ := approveAll_spec e _ _ _ _ _ (by simpa using h2)
            refine ⟨hexToAddress msg.contractAddr, _, cs, ?_, h4, by simpa [Run.call] using h3, ?_⟩
            · simp only [TxUtils.contractAddressFromString, hhex, if_true]
            · simp only [Run.call]
              rw [h5]
              simp [Run.app]
    · simp only [hacl, hrc, ne_eq, not_true_eq_false, if_false, not_false_eq_true, if_true] at hs; cases hs
  · simp only [hacl, ne_eq, not_false_eq_true, if_true] at hs; cases hs

theorem approved_none {e : Env σ J K} {sender : Str} {a : Addr} {cls : Str} {ids : List Str} {s s' : σ} {cs : List MsgCall}
    (hne : ids ≠ []) (hn : ∀ s, e.classContract s cls = none) (h : Approved e sender a cls ids s cs s') : False := by
  cases h with
  | nil => exact hne rfl
  | cons _ hc _ _ _ => rw [hn] at hc; cases hc

/-- **C58 does not hold** for the NFTs of a contract deployed on this chain: such a contract's class (`evm/…`) is not in the table the
hook consults (only classes the chain created itself are), so a packet returning at least one such token with a hook message is
always refused, although the class has a contract. -/
theorem C58_nft_evm_violated (e : Env σ J K) (s : σ) (p : Packet) (d : Ics721) (msg : MsgCall)
    (h20 : e.decode20 p.data = none) (hp : e.decode721 p.data p.srcPort = some d) (hm : Asks e d.memo msg) (hne : d.tokenIds ≠ [])
    (hn : ∀ s, e.classContract s (localClassId e p d.classId) = none) : (onRecv e ⟨s, []⟩ p).1.success = false := by
  cases hs : (onRecv e ⟨s, []⟩ p).1.success with
  | false => rfl
  | true =>
    exfalso
    obtain ⟨cb, hpm⟩ := parseMemo_asks e hm
    have hshape : onRecv e ⟨s, []⟩ p = recv721 e ⟨s, []⟩ p d := by simp only [onRecv, h20, hp]
    rw [hshape] at hs
    simp only [recv721, hpm] at hs
    split at hs
    · cases hs
    · split at hs
      · cases hs
      · split at hs
        · next h => rw [hs] at h; cases h
        · split at hs
          · cases hs
          · next h2 =>
            obtain ⟨cs, h4, _⟩ := approveAll_spec e _ _ _ _ _ (by simpa using h2)
            rw [show ∀ b, localClassId e { p with data := b } d.classId = localClassId e p d.classId from fun _ => rfl] at h4
            exact approved_none hne hn h4

/-! ### The amount (C58) -/

/-- **C58** (the amount): written the way ibc-go writes it, the packet's amount is read alike by the transfer application (base 0,
`math.NewIntFromString`) and by the hook (base 10). -/
theorem C58_amount (n : Nat) (hn : n < 2 ^ 256) : parseInt (natStr n) = some (Int.ofNat n) ∧ parseInt0 (natStr n) = some (Int.ofNat n) :=
  ⟨parseInt_intStr (Int.ofNat n), parseInt0_natStr n hn⟩

/-- **C58 does not hold** for an amount written with a leading zero, which a counterparty chain may send: of `010` the transfer
application delivers 8 (base 8), while the hook approves 10. -/
theorem C58_amount_violated (e : Env σ J K) (s : σ) (p : Packet) (d : Ics20) (msg : MsgCall)
    (hp : e.decode20 p.data = some d) (hm : Asks e d.memo msg) (hs : (onRecv e ⟨s, []⟩ p).1.success = true)
    (hhex : isHexAddress msg.contractAddr = true) (ha : d.amount = "010".toList) :
    parseInt0 d.amount = some 8 ∧ ∃ a m, TxUtils.contractAddressFromString e.tx msg.contractAddr = some a ∧
      Op.call m ∈ (onRecv e ⟨s, []⟩ p).2.ops ∧ m.input = encode0x (e.pack (.approve20 a 10)) := by
  obtain ⟨amt, erc20, a, h1, h2, h3, h4⟩ := C58_partial e s p d msg hp hm hs hhex
  have e10 : parseInt "010".toList = some 10 := by decide +kernel
  rw [ha, e10] at h1
  have : amt = 10 := (Option.some.inj h1).symm
  subst this
  refine ⟨by rw [ha]; decide +kernel, a,
    ⟨intermediate e p.dstChan d.sender, addrHex e.tx.mask erc20, encode0x (e.pack (.approve20 a 10)), 0⟩, h2, ?_, rfl⟩
  rw [h4]; simp

/-- Non-vacuity of C58_amount_violated: the toy packet with that amount goes through. -/
example : (onRecv { toyHooks fiveHex backDenom with decode20 := fun b => if b = [] then some ⟨backDenom, "010".toList, ['s'], fiveHex, ['m']⟩ else none }
    ⟨(0, []), []⟩ toyPacket).1.success = true := by decide +kernel

/-! ### A concrete chain receiving NFTs -/

/-- The toy chain of C35 with packets of data `[7]` being NFT transfers of tokens 1 and 2; class `u` has contract 0x…09. -/
def toyNft (cls : Str) (ids : List Str) : Env (Nat × List (Str × Str)) Unit Unit :=
  { toyHooks fiveHex backDenom with
    decode20 := fun _ => none
    decode721 := fun _ _ => some ⟨cls, ids, ['s'], fiveHex, ['m']⟩
    classContract := fun _ c => if c = ['u'] then some (Addr.ofNat 9) else none }

theorem toyNft_asks (cls : Str) (ids : List Str) : Asks (toyNft cls ids) ['m'] ⟨[], fiveHex, ['0', 'x'], 0⟩ :=
  ⟨by decide, (), _, by simp [toyNft, toyHooks, memoKey], rfl, rfl⟩

/-- Non-vacuity of C58_nft_partial: two tokens, two approvals, one call. -/
example : (onRecv (toyNft backDenom [['1'], ['2']]) ⟨(0, []), []⟩ toyPacket).1.success = true ∧
    (onRecv (toyNft backDenom [['1'], ['2']]) ⟨(0, []), []⟩ toyPacket).2.ops.length = 4 ∧ isHexAddress fiveHex = true := by
  decide +kernel

/-- Non-vacuity of C58_nft_evm_violated: a class outside the table. -/
example : ∀ s, (toyNft ['t', '/', 'c', '/', 'v'] [['1']]).classContract s
    (localClassId (toyNft ['t', '/', 'c', '/', 'v'] [['1']]) toyPacket ['t', '/', 'c', '/', 'v']) = none := by
  intro s
  rw [show localClassId (toyNft ['t', '/', 'c', '/', 'v'] [['1']]) toyPacket ['t', '/', 'c', '/', 'v'] = ['v'] by decide +kernel]
  rfl

end Verif.Hooks
