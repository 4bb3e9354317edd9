import Verif.Spec.Hooks
import Verif.Props.TxUtils
/-
C35: receive hook. C36: acknowledgement and timeout hooks. C58: the allowance given by the receive hook.
-/
namespace Verif.Hooks
open Verif Verif.Text Verif.Hooks.Spec

variable {σ J K : Type}

/-- The common shape of `recv20` and `recv721`. -/
def recvG (e : Env σ J K) (r : Run σ) (p : Packet) (sender receiver memo : Str) (redirect : Str → Packet)
    (approve : Str → Str → Run σ → Bool × Run σ) : Ack × Run σ :=
  match parseMemo e memo with
  | (false, _, _) => r.app e p
  | (true, ⟨none, _⟩, _) => r.app e p
  | (true, ⟨some _, _⟩, false) => (errorAck, r)
  | (true, ⟨some msg, _⟩, true) =>
    if checkACL e r.st msg.contractAddr ≠ some true then (errorAck, r)
    else if receiver ≠ msg.contractAddr then (errorAck, r)
    else
      let inter := intermediate e p.dstChan sender
      let x := r.app e (redirect inter)
      if !x.1.success then x
      else
        let y := approve inter msg.contractAddr x.2
        if !y.1 then (errorAck, y.2)
        else
          let z := y.2.call e { msg with sender := inter }
          if !z.1 then (errorAck, z.2) else (x.1, z.2)

/-- Approval steps only perform calls, all by the given sender. -/
def Approves (e : Env σ J K) (approve : Str → Str → Run σ → Bool × Run σ) : Prop :=
  ∀ i c r, ∃ l : List MsgCall, (approve i c r).2.ops = r.ops ++ l.map Op.call ∧ ∀ m ∈ l, m.sender = i

theorem approve20_ok (e : Env σ J K) (amt : Str) (i : Str) (sp : Addr) (den : Str) (r : Run σ) :
    ∃ l : List MsgCall, (approveERC20 e r i sp den amt).2.ops = r.ops ++ l.map Op.call ∧ ∀ m ∈ l, m.sender = i := by
  unfold approveERC20
  split
  · exact ⟨[], by simp, by simp⟩
  · split
    · exact ⟨[], by simp, by simp⟩
    · next a _ => exact ⟨[_], by simp [Run.call]; rfl, by simp⟩

theorem approve721_ok (e : Env σ J K) (cls t : Str) (i : Str) (sp : Addr) (r : Run σ) :
    ∃ l : List MsgCall, (approveERC721 e r i sp cls t).2.ops = r.ops ++ l.map Op.call ∧ ∀ m ∈ l, m.sender = i := by
  unfold approveERC721
  split
  · exact ⟨[], by simp, by simp⟩
  · split
    · exact ⟨[], by simp, by simp⟩
    · next a _ => exact ⟨[_], by simp [Run.call]; rfl, by simp⟩

theorem approveAll_ok (e : Env σ J K) (cls : Str) (i : Str) (sp : Addr) : ∀ (ts : List Str) (r : Run σ),
    ∃ l : List MsgCall, (approveAll e i sp cls ts r).2.ops = r.ops ++ l.map Op.call ∧ ∀ m ∈ l, m.sender = i
  | [], r => ⟨[], by simp [approveAll], by simp⟩
  | t :: ts, r => by
    obtain ⟨l, h1, h2⟩ := approve721_ok e cls t i sp r
    simp only [approveAll]
    split
    · obtain ⟨l', h1', h2'⟩ := approveAll_ok e cls i sp ts (approveERC721 e r i sp cls t).2
      refine ⟨l ++ l', by rw [h1', h1]; simp, ?_⟩
      intro m hm; rcases List.mem_append.1 hm with h | h
      · exact h2 m h
      · exact h2' m h
    · exact ⟨l, h1, h2⟩

/-- Every received packet is handled by the common shape, or passed on. -/
theorem onRecv_shape (e : Env σ J K) (r : Run σ) (p : Packet) {s v m : Str} {red : Str → Packet} (h : Carries e p s v m red) :
    ∃ approve, Approves e approve ∧ onRecv e r p = recvG e r p s v m red approve := by
  cases h with
  | ft d h =>
    refine ⟨fun i c x => approveERC20 e x i (hexToAddress c) (localDenom e p d.denom) d.amount,
      fun i c r => approve20_ok e d.amount i _ _ r, ?_⟩
    simp only [onRecv, h]; rfl
  | nft d h0 h =>
    refine ⟨fun i c x => approveAll e i (hexToAddress c) (localClassId e p d.classId) d.tokenIds x,
      fun i c r => approveAll_ok e _ i _ _ r, ?_⟩
    simp only [onRecv, h0, h]; rfl

theorem parseMemo_asks (e : Env σ J K) {memo : Str} {msg : MsgCall} (h : Asks e memo msg) :
    ∃ cb, parseMemo e memo = (true, ⟨some msg, cb⟩, true) := by
  obtain ⟨hne, j, hd, h1, h2, h3⟩ := h
  have h1' : e.jsonField memo memoKey = some (some j) := h1
  obtain ⟨m, cb⟩ := hd
  simp only at h3
  subst h3
  exact ⟨cb, by simp only [parseMemo, hne, if_false, h1', h2]⟩

theorem parseMemo_cases (e : Env σ J K) (memo : Str) :
    NoMessage e memo ∨ (∃ msg, Asks e memo msg) ∨ ∃ m cb, parseMemo e memo = (true, ⟨some m, cb⟩, false) := by
  by_cases hm : memo = []
  · exact .inl (.inl hm)
  · cases hj : e.jsonField memo memoKey with
    | none => exact .inl (.inr (.inl (fun j h => by rw [show "evm".toList = memoKey from rfl, hj] at h; cases h)))
    | some o =>
      cases o with
      | none => exact .inl (.inr (.inl (fun j h => by rw [show "evm".toList = memoKey from rfl, hj] at h; cases h)))
      | some j =>
        rcases hd : e.decodeHook j with ⟨⟨m, cb⟩, ok⟩
        cases m with
        | none => exact .inl (.inr (.inr ⟨j, hj, by rw [hd]⟩))
        | some m =>
          cases ok with
          | true => exact .inr (.inl ⟨m, hm, j, _, hj, hd, rfl⟩)
          | false => exact .inr (.inr ⟨m, cb, by simp only [parseMemo, hm, if_false, hj, hd]⟩)

theorem parseMemo_none (e : Env σ J K) {memo : Str} (h : NoMessage e memo) :
    (∃ a b, parseMemo e memo = (false, a, b)) ∨ ∃ cb ok, parseMemo e memo = (true, ⟨none, cb⟩, ok) := by
  by_cases hm : memo = []
  · exact .inl ⟨⟨none, none⟩, true, by simp only [parseMemo, hm, if_true]⟩
  · rcases h with h | h | ⟨j, h1, h2⟩
    · exact absurd h hm
    · refine .inl ⟨⟨none, none⟩, true, ?_⟩
      simp only [parseMemo, hm, if_false]
      cases hj : e.jsonField memo memoKey with
      | none => rfl
      | some o => cases o with
        | none => rfl
        | some j => exact absurd hj (h j)
    · have h1' : e.jsonField memo memoKey = some (some j) := h1
      rcases hd : e.decodeHook j with ⟨⟨m, cb⟩, ok⟩
      rw [hd] at h2; simp only at h2; subst h2
      exact .inr ⟨cb, ok, by simp only [parseMemo, hm, if_false, h1', hd]⟩

theorem checkACL_iff (e : Env σ J K) (s : σ) (c : Str) : checkACL e s c = some true ↔ Allowed e s c := by
  unfold checkACL Allowed
  cases TxUtils.contractAddressFromString e.tx c with
  | none => simp
  | some a => simp

/-- **C35** (a packet that asks for nothing): it is handed to the transfer module unchanged, and nothing else happens. -/
theorem C35_plain (e : Env σ J K) (s : σ) (p : Packet) {sender receiver memo : Str} {redirect : Str → Packet}
    (hp : Carries e p sender receiver memo redirect) (hm : NoMessage e memo) :
    onRecv e ⟨s, []⟩ p = ((e.appRecv p s).1, ⟨(e.appRecv p s).2, [.app p]⟩) := by
  obtain ⟨ap, _, h⟩ := onRecv_shape e ⟨s, []⟩ p hp
  rw [h]
  rcases parseMemo_none e hm with ⟨a, b, h⟩ | ⟨cb, ok, h⟩ <;> simp only [recvG, h] <;> rfl

/-- **C35** (only when asked, allowed, addressed; as the derived sender; after the credit). Whenever the hook performs
any contract call for a packet, the packet is a transfer whose memo asks for a message to a contract that is allowed and
is the packet's receiver; the first thing done was to hand the transfer, redirected to the address derived from
(channel, sender), to the transfer module, which accepted it; every call is made by that address; and a call other
than an approval is the requested message. -/
theorem C35_calls (e : Env σ J K) (s : σ) (p : Packet) (m : MsgCall) (hm : Op.call m ∈ (onRecv e ⟨s, []⟩ p).2.ops) :
    ∃ sender receiver memo redirect msg, ∃ approvals : List MsgCall, Carries e p sender receiver memo redirect ∧ Asks e memo msg ∧
      Allowed e s msg.contractAddr ∧ receiver = msg.contractAddr ∧
      (e.appRecv (redirect (intermediate e p.dstChan sender)) s).1.success = true ∧
      (∀ a ∈ approvals, MsgCall.sender a = intermediate e p.dstChan sender) ∧
      ((onRecv e ⟨s, []⟩ p).2.ops = .app (redirect (intermediate e p.dstChan sender)) :: approvals.map .call ∧
          (onRecv e ⟨s, []⟩ p).1.success = false ∨
       (onRecv e ⟨s, []⟩ p).2.ops = .app (redirect (intermediate e p.dstChan sender)) :: approvals.map .call ++
          [.call { msg with sender := intermediate e p.dstChan sender }]) := by
  -- is it a transfer?
  by_cases hc : ∃ se rc me red, Carries e p se rc me red
  · obtain ⟨se, rc, me, red, hc⟩ := hc
    obtain ⟨ap, hap, hsh⟩ := onRecv_shape e ⟨s, []⟩ p hc
    rcases parseMemo_cases e me with h | ⟨msg, h⟩ | ⟨mm, cb, h⟩
    · rw [C35_plain e s p hc h] at hm; simp at hm
    · obtain ⟨cb, hpm⟩ := parseMemo_asks e h
      rw [hsh] at hm ⊢
      simp only [recvG, hpm] at hm ⊢
      by_cases hacl : checkACL e s msg.contractAddr = some true
      · by_cases hrc : rc = msg.contractAddr
        · by_cases happ : (e.appRecv (red (intermediate e p.dstChan se)) s).1.success = true
          · obtain ⟨l, hl1, hl2⟩ := hap (intermediate e p.dstChan se) msg.contractAddr
              (Run.app e ⟨s, []⟩ (red (intermediate e p.dstChan se))).2
            refine ⟨se, rc, me, red, msg, l, hc, h, (checkACL_iff e s _).1 hacl, hrc, happ, hl2, ?_⟩
            have happ' : (Run.app e ⟨s, []⟩ (red (intermediate e p.dstChan se))).1.success = true := happ
            simp only [hacl, hrc, happ', ne_eq, not_true_eq_false, if_false, Bool.not_true, Bool.false_eq_true]
            split
            · left; exact ⟨by rw [hl1]; rfl, rfl⟩
            · right
              split <;> (simp only [Run.call]; rw [hl1]; rfl)
          · have happ' : ¬ (Run.app e ⟨s, []⟩ (red (intermediate e p.dstChan se))).1.success = true := happ
            simp only [hacl, hrc, happ', ne_eq, not_true_eq_false, if_false, Bool.not_false, if_true] at hm
            simp [Run.app] at hm
        · simp only [hacl, hrc, ne_eq, not_true_eq_false, if_false, not_false_eq_true, if_true] at hm; simp at hm
      · simp only [hacl, ne_eq, not_false_eq_true, if_true] at hm; simp at hm
    · rw [hsh] at hm; simp only [recvG, h] at hm; simp at hm
  · exfalso
    unfold onRecv at hm
    split at hm
    · next d h => exact hc ⟨_, _, _, _, .ft d h⟩
    · next h0 =>
      split at hm
      · next d h => exact hc ⟨_, _, _, _, .nft d h0 h⟩
      · simp [Run.app] at hm

/-- **C35** (success means everything was done): if the packet asks for a message and the acknowledgement reports
success, then the contract is allowed, it is the packet's receiver, the redirected transfer was accepted, and the last
operation was the requested call by the derived address, which succeeded. -/
theorem C35_success (e : Env σ J K) (s : σ) (p : Packet) {sender receiver memo : Str} {redirect : Str → Packet} {msg : MsgCall}
    (hp : Carries e p sender receiver memo redirect) (hm : Asks e memo msg)
    (hs : (onRecv e ⟨s, []⟩ p).1.success = true) :
    Allowed e s msg.contractAddr ∧ receiver = msg.contractAddr ∧
      (e.appRecv (redirect (intermediate e p.dstChan sender)) s).1 = (onRecv e ⟨s, []⟩ p).1 ∧
      ∃ s' before, e.call { msg with sender := intermediate e p.dstChan sender } s' = (true, (onRecv e ⟨s, []⟩ p).2.st) ∧
        (onRecv e ⟨s, []⟩ p).2.ops = before ++ [.call { msg with sender := intermediate e p.dstChan sender }] := by
  obtain ⟨ap, hap, hsh⟩ := onRecv_shape e ⟨s, []⟩ p hp
  obtain ⟨cb, hpm⟩ := parseMemo_asks e hm
  rw [hsh] at hs ⊢
  simp only [recvG, hpm] at hs ⊢
  by_cases hacl : checkACL e s msg.contractAddr = some true
  · by_cases hrc : receiver = msg.contractAddr
    · refine ⟨(checkACL_iff e s _).1 hacl, hrc, ?_⟩
      simp only [hacl, hrc, ne_eq, not_true_eq_false, if_false] at hs ⊢
      split
      · next h => exfalso; rw [if_pos h] at hs; rw [hs] at h; cases h
      · next h =>
        rw [if_neg h] at hs
        split
        · next h2 => rw [if_pos h2] at hs; cases hs
        · next h2 =>
          rw [if_neg h2] at hs
          split
          · next h3 => rw [if_pos h3] at hs; cases hs
          · next h3 =>
            refine ⟨rfl, (ap (intermediate e p.dstChan sender) msg.contractAddr
              (Run.app e ⟨s, []⟩ (redirect (intermediate e p.dstChan sender))).2).2.st, _, ?_, rfl⟩
            simp only [Run.call, Bool.not_eq_true, Bool.not_eq_false'] at h3 ⊢
            exact Prod.ext h3 rfl
    · simp only [hacl, hrc, ne_eq, not_true_eq_false, if_false, not_false_eq_true, if_true] at hs; cases hs
  · simp only [hacl, ne_eq, not_false_eq_true, if_true] at hs; cases hs

/-- **C35** (a request that does not decode is refused): the field "evm" is there, it yields a message, but decoding it
reported an error: the acknowledgement is an error and nothing was done. -/
theorem C35_malformed (e : Env σ J K) (s : σ) (p : Packet) {sender receiver memo : Str} {redirect : Str → Packet}
    (hp : Carries e p sender receiver memo redirect) (hne : memo ≠ []) (j : J) (hj : e.jsonField memo "evm".toList = some (some j))
    (hd : (e.decodeHook j).1.message ≠ none) (herr : (e.decodeHook j).2 = false) :
    (onRecv e ⟨s, []⟩ p).1.success = false ∧ (onRecv e ⟨s, []⟩ p).2.ops = [] := by
  obtain ⟨ap, _, h⟩ := onRecv_shape e ⟨s, []⟩ p hp
  have hj' : e.jsonField memo memoKey = some (some j) := hj
  rcases hx : e.decodeHook j with ⟨⟨m, cb⟩, ok⟩
  rw [hx] at hd herr; simp only at hd herr; subst herr
  cases m with
  | none => exact absurd rfl hd
  | some m =>
    have : parseMemo e memo = (true, ⟨some m, cb⟩, false) := by simp only [parseMemo, hne, if_false, hj', hx]
    rw [h]; simp [recvG, this, errorAck]

/-- **C35** (all or nothing): with the IBC core around it, a packet whose acknowledgement is an error leaves the state as
it was. -/
theorem C35_atomic (e : Env σ J K) (s : σ) (p : Packet) (h : (coreRecv e s p).1.success = false) : (coreRecv e s p).2 = s := by
  simp only [coreRecv] at h ⊢; rw [if_neg (by rw [h]; decide)]

/-- **C35** (the derived address): two transfers that lead to the same derived address came over the same channel from the
same sender, unless two different byte strings with the same SHA-256 have been found or two byte strings of 32 bytes have
the same Bech32 form. Channel identifiers contain no slash (ICS-24). -/
theorem C35_intermediate (e : Env σ J K) (c1 s1 c2 s2 : Str) (hc1 : '/' ∉ c1) (hc2 : '/' ∉ c2)
    (hu : ∀ a b, e.utf8 a = e.utf8 b → a = b) (hb : ∀ a b, a.length = 32 → b.length = 32 → e.tx.bech a = e.tx.bech b → a = b)
    (hl : ∀ a, (e.sha a).length = 32) (h : intermediate e c1 s1 = intermediate e c2 s2) :
    (c1 = c2 ∧ s1 = s2) ∨ ∃ x y, x ≠ y ∧ e.sha x = e.sha y := by
  have h1 := hb _ _ (hl _) (hl _) h
  by_cases hx : e.sha (e.utf8 senderPrefix) ++ e.utf8 (c1 ++ '/' :: s1) = e.sha (e.utf8 senderPrefix) ++ e.utf8 (c2 ++ '/' :: s2)
  · left
    have h2 := hu _ _ (List.append_cancel_left hx)
    clear hx h1 h
    induction c1 generalizing c2 with
    | nil =>
      cases c2 with
      | nil => simp at h2; exact ⟨rfl, h2⟩
      | cons a as => simp at h2; exact absurd (by rw [h2.1]; simp) hc2
    | cons a as ih =>
      cases c2 with
      | nil => simp at h2; exact absurd (by rw [← h2.1]; simp) hc1
      | cons b bs =>
        simp at h2
        have := ih bs (fun h => hc1 (by simp [h])) (fun h => hc2 (by simp [h])) (by simpa using h2.2)
        exact ⟨by rw [h2.1, this.1], this.2⟩
  · exact .inr ⟨_, _, hx, h1⟩

/-! ### Acknowledgement and timeout -/

theorem callback_spec (e : Env σ J K) (s : σ) (memo sender : Str) (f : Nat → AbiCall) :
    (callback e ⟨s, []⟩ memo sender f).st = s ∨
    ∃ cb, AsksCallback e memo cb ∧ Allowed e s cb.contractAddress ∧
      e.call ⟨sender, cb.contractAddress, encode0x (e.pack (f cb.id)), 0⟩ s = (true, (callback e ⟨s, []⟩ memo sender f).st) := by
  unfold callback
  split
  · exact .inl rfl
  · exact .inl rfl
  · exact .inl rfl
  · next m cb hpm =>
    split
    · exact .inl rfl
    · next hacl =>
      simp only [ne_eq, Decidable.not_not] at hacl
      dsimp only
      split
      · next hz =>
        right
        refine ⟨cb, ?_, (checkACL_iff e s _).1 hacl, Prod.ext hz rfl⟩
        unfold parseMemo at hpm
        split at hpm
        · cases hpm
        · next hne =>
          split at hpm
          · next j hj => exact ⟨hne, j, ⟨m, some cb⟩, hj, (Prod.ext_iff.1 hpm).2, rfl⟩
          · cases hpm
      · exact .inl rfl

theorem callback_runs (e : Env σ J K) (s s' : σ) (memo sender : Str) (f : Nat → AbiCall) (cb : AsyncCallback)
    (ha : AsksCallback e memo cb) (hl : Allowed e s cb.contractAddress)
    (hc : e.call ⟨sender, cb.contractAddress, encode0x (e.pack (f cb.id)), 0⟩ s = (true, s')) :
    (callback e ⟨s, []⟩ memo sender f).st = s' := by
  obtain ⟨hne, j, ⟨m, c⟩, hj, hd, hcb⟩ := ha
  simp only at hcb; subst hcb
  have hj' : e.jsonField memo memoKey = some (some j) := hj
  have : parseMemo e memo = (true, ⟨m, some cb⟩, true) := by simp only [parseMemo, hne, if_false, hj', hd]
  simp only [callback, this, (checkACL_iff e s _).2 hl, ne_eq, not_true_eq_false, if_false, Run.call, hc, if_true]

theorem hookFields_sent (e : Env σ J K) (p : Packet) (se me : Str) : hookFields e p = some (se, me) ↔ Sent e p se me := by
  unfold hookFields
  constructor
  · intro h
    split at h
    · next d hd => cases h; exact .ft d hd
    · next h0 =>
      split at h
      · next d hd => cases h; exact .nft d h0 hd
      · cases h
  · intro h
    cases h with
    | ft d h => simp [h]
    | nft d h0 h => simp [h0, h]

/-- **C36** (never blocks): processing an acknowledgement fails exactly when the transfer module's own callback fails. -/
theorem C36_ack_result (e : Env σ J K) (s : σ) (p : Packet) (ack : Bytes) : (onAck e s p ack).1 = (e.appAck p ack s).1 := by
  simp only [onAck]
  cases hookFields e p with
  | none => rfl
  | some x => simp only; split
              · next h => simp at h; exact h.symm
              · next h => simp at h; exact h.symm

/-- **C36** (never blocks), timeout. -/
theorem C36_timeout_result (e : Env σ J K) (s : σ) (p : Packet) : (onTimeout e s p).1 = (e.appTimeout p s).1 := by
  simp only [onTimeout]
  cases hookFields e p with
  | none => rfl
  | some x => simp only; split
              · next h => simp at h; exact h.symm
              · next h => simp at h; exact h.symm

/-- **C36** (atomic): after an acknowledgement the state is the one the transfer module left, or the one a successful
callback left, and then the packet's memo asked for the callback, the contract is allowed, the caller is the packet's
sender and the call says `ibc_ack(id, success)`, where success is false exactly when the acknowledgement decodes to an
error. -/
theorem C36_ack_state (e : Env σ J K) (s : σ) (p : Packet) (ack : Bytes) :
    (onAck e s p ack).2.st = (e.appAck p ack s).2 ∨
    ∃ sender memo cb, Sent e p sender memo ∧ AsksCallback e memo cb ∧ Allowed e (e.appAck p ack s).2 cb.contractAddress ∧
      e.call ⟨sender, cb.contractAddress, encode0x (e.pack (.ibcAck cb.id (decide (e.ackDecode ack ≠ some false)))), 0⟩
        (e.appAck p ack s).2 = (true, (onAck e s p ack).2.st) := by
  simp only [onAck]
  cases h : hookFields e p with
  | none => exact .inl rfl
  | some x =>
    obtain ⟨se, me⟩ := x
    simp only
    split
    · exact .inl rfl
    · rcases callback_spec e (e.appAck p ack s).2 me se (fun id => .ibcAck id (!isAckError e ack)) with h1 | ⟨cb, h1, h2, h3⟩
      · exact .inl h1
      · refine .inr ⟨se, me, cb, (hookFields_sent e p se me).1 h, h1, h2, ?_⟩
        have : (!isAckError e ack) = decide (e.ackDecode ack ≠ some false) := by
          unfold isAckError
          cases e.ackDecode ack with
          | none => rfl
          | some b => cases b <;> rfl
        rw [this] at h3
        rw [this]
        exact h3

/-- **C36** (atomic), timeout. -/
theorem C36_timeout_state (e : Env σ J K) (s : σ) (p : Packet) :
    (onTimeout e s p).2.st = (e.appTimeout p s).2 ∨
    ∃ sender memo cb, Sent e p sender memo ∧ AsksCallback e memo cb ∧ Allowed e (e.appTimeout p s).2 cb.contractAddress ∧
      e.call ⟨sender, cb.contractAddress, encode0x (e.pack (.ibcTimeout cb.id)), 0⟩
        (e.appTimeout p s).2 = (true, (onTimeout e s p).2.st) := by
  simp only [onTimeout]
  cases h : hookFields e p with
  | none => exact .inl rfl
  | some x =>
    obtain ⟨se, me⟩ := x
    simp only
    split
    · exact .inl rfl
    · rcases callback_spec e (e.appTimeout p s).2 me se (fun id => .ibcTimeout id) with h1 | ⟨cb, h1, h2, h3⟩
      · exact .inl h1
      · exact .inr ⟨se, me, cb, (hookFields_sent e p se me).1 h, h1, h2, h3⟩

/-- **C36** (the callback does run): a packet whose memo asks for a callback to an allowed contract gets it, with the
outcome the acknowledgement reports, and what it wrote is kept. -/
theorem C36_ack_runs (e : Env σ J K) (s s' : σ) (p : Packet) (ack : Bytes) (ok : Bool) {sender memo : Str} (cb : AsyncCallback)
    (hp : Sent e p sender memo) (ha : AsksCallback e memo cb) (happ : (e.appAck p ack s).1 = true)
    (hl : Allowed e (e.appAck p ack s).2 cb.contractAddress) (hok : e.ackDecode ack = some ok)
    (hc : e.call ⟨sender, cb.contractAddress, encode0x (e.pack (.ibcAck cb.id ok)), 0⟩ (e.appAck p ack s).2 = (true, s')) :
    (onAck e s p ack).2.st = s' := by
  simp only [onAck, (hookFields_sent e p sender memo).2 hp, happ, Bool.not_true, Bool.false_eq_true, if_false]
  apply callback_runs e _ s' memo sender _ cb ha hl
  simp only [isAckError, hok, Bool.not_not]
  exact hc

/-- **C36** (the callback does run), timeout. -/
theorem C36_timeout_runs (e : Env σ J K) (s s' : σ) (p : Packet) {sender memo : Str} (cb : AsyncCallback)
    (hp : Sent e p sender memo) (ha : AsksCallback e memo cb) (happ : (e.appTimeout p s).1 = true)
    (hl : Allowed e (e.appTimeout p s).2 cb.contractAddress)
    (hc : e.call ⟨sender, cb.contractAddress, encode0x (e.pack (.ibcTimeout cb.id)), 0⟩ (e.appTimeout p s).2 = (true, s')) :
    (onTimeout e s p).2.st = s' := by
  simp only [onTimeout, (hookFields_sent e p sender memo).2 hp, happ, Bool.not_true, Bool.false_eq_true, if_false]
  exact callback_runs e _ s' memo sender _ cb ha hl hc

/-! ### The allowance (C58) -/

/-- **C58** (fungible tokens): when the requested call of a received fungible transfer goes through, the operations were:
the redirected transfer, exactly one approval, of the packet's amount, on the contract of the received token, for the
address the hook reads from the contract string, and the call. If the string is a hexadecimal address, that address is
the contract which is called. -/
theorem C58_partial (e : Env σ J K) (s : σ) (p : Packet) (d : Ics20) (msg : MsgCall)
    (hp : e.decode20 p.data = some d) (hm : Asks e d.memo msg) (hs : (onRecv e ⟨s, []⟩ p).1.success = true)
    (hhex : isHexAddress msg.contractAddr = true) :
    ∃ amt erc20 a, parseInt d.amount = some amt ∧
      TxUtils.contractAddressFromString e.tx msg.contractAddr = some a ∧
      let inter := intermediate e p.dstChan d.sender
      let p' : Packet := { p with data := e.encode20 { d with receiver := inter } }
      e.denomContract (e.appRecv p' s).2 (localDenom e p d.denom) = some erc20 ∧
      (onRecv e ⟨s, []⟩ p).2.ops = [.app p',
        .call ⟨inter, addrHex e.tx.mask erc20, encode0x (e.pack (.approve20 a amt)), 0⟩,
        .call { msg with sender := inter }] := by
  obtain ⟨cb, hpm⟩ := parseMemo_asks e hm
  have hshape : onRecv e ⟨s, []⟩ p = recv20 e ⟨s, []⟩ p d := by simp only [onRecv, hp]
  rw [hshape] at hs ⊢
  simp only [recv20, hpm] at hs ⊢
  by_cases hacl : checkACL e s msg.contractAddr = some true
  · by_cases hrc : d.receiver = msg.contractAddr
    · simp only [hacl, hrc, ne_eq, not_true_eq_false, if_false] at hs ⊢
      split at hs
      · next h => rw [hs] at h; cases h
      · next h =>
        rw [if_neg h]
        split at hs
        · cases hs
        · next h2 =>
          rw [if_neg h2]
          split at hs
          · cases hs
          · next h3 =>
            rw [if_neg h3]
            have hld : localDenom e { p with data := e.encode20 { d with receiver := intermediate e p.dstChan d.sender } } d.denom
                = localDenom e p d.denom := rfl
            unfold approveERC20 at h2 ⊢
            cases hpi : parseInt d.amount with
            | none => rw [hpi] at h2; simp at h2
            | some amt =>
              cases hdc : e.denomContract (Run.app e ⟨s, []⟩ { p with data := e.encode20 { d with receiver := intermediate e p.dstChan d.sender } }).2.st
                  (localDenom e p d.denom) with
              | none => rw [hpi] at h2; simp only [hld, hdc] at h2; simp at h2
              | some erc20 =>
                refine ⟨amt, erc20, hexToAddress msg.contractAddr, rfl, ?_, hdc, ?_⟩
                · simp only [TxUtils.contractAddressFromString, hhex, if_true]
                · simp only [hld, hdc]
                  simp [Run.call, Run.app]
    · simp only [hacl, hrc, ne_eq, not_true_eq_false, if_false, not_false_eq_true, if_true] at hs; cases hs
  · simp only [hacl, ne_eq, not_false_eq_true, if_true] at hs; cases hs

/-! ### A concrete chain -/

/-- Toy chain: the state counts accepted transfers and lists the calls made; memo "m" asks for a message to `contract` and
a callback with number 7 to it; ICS20 data is always the same transfer; the contract 0x…05 and nothing else is allowed;
calls with an empty input fail. -/
def toyHooks (contract denom : Str) : Env (Nat × List (Str × Str)) Unit Unit where
  tx := Props.TxUtils.toyEnv 6
  jsonField := fun m k => if m = ['m'] ∧ k = memoKey then some (some ()) else none
  decodeHook := fun _ => (⟨some ⟨[], contract, ['0', 'x'], 0⟩, some ⟨7, contract⟩⟩, true)
  decode20 := fun b => if b = [] then some ⟨denom, ['5'], ['s'], contract, ['m']⟩ else none
  encode20 := fun _ => [1]
  decode721 := fun _ _ => none
  encode721 := fun _ _ => [2]
  sha := fun b => fitBytes 32 b
  utf8 := fun s => s.map (fun c => UInt8.ofNat c.toNat)
  pack := fun c => match c with
    | .approve20 a n => a.bytes ++ [UInt8.ofNat n.toNat]
    | .approve721 a n => a.bytes ++ [UInt8.ofNat n.toNat]
    | .ibcAck n b => [UInt8.ofNat n, if b then 1 else 0]
    | .ibcTimeout n => [UInt8.ofNat n]
  ackDecode := fun b => if b = [0] then some false else if b = [1] then some true else none
  appRecv := fun _ s => (⟨true, []⟩, (s.1 + 1, s.2))
  appAck := fun _ b s => (b = [0] || b = [1], (s.1 + 1, s.2))
  appTimeout := fun _ s => (true, (s.1 + 1, s.2))
  call := fun m s => (m.input ≠ [], (s.1, s.2 ++ [(m.contractAddr, m.input)]))
  allowed := fun _ a => some (a = Addr.ofNat 5)
  denomContract := fun _ d => if d = ['u'] then some (Addr.ofNat 9) else none
  classContract := fun _ _ => none

/-- the contract's address, hexadecimal and in the toy Bech32 -/
def fiveHex : Str := addrHex (fun _ => []) (Addr.ofNat 5)
def fiveBech : Str := (Props.TxUtils.toyEnv 6).bech (Addr.ofNat 5).bytes

/-- a packet whose token returns over the channel it came by -/
def toyPacket : Packet := ⟨['t'], ['c'], ['t'], ['d'], []⟩
def backDenom : Str := ['t', '/', 'c', '/', 'u']

theorem toy_asks (c d : Str) : Asks (toyHooks c d) ['m'] ⟨[], c, ['0', 'x'], 0⟩ :=
  ⟨by decide, (), _, by simp [toyHooks, memoKey], rfl, rfl⟩

theorem toy_carries (c d : Str) : Carries (toyHooks c d) toyPacket ['s'] c ['m']
    (fun _ => ⟨['t'], ['c'], ['t'], ['d'], [1]⟩) :=
  .ft (e := toyHooks c d) (p := toyPacket) ⟨d, ['5'], ['s'], c, ['m']⟩ rfl

/-- Non-vacuity of C35_success and C58_partial: the toy packet triggers an approval and the call. -/
example : (onRecv (toyHooks fiveHex backDenom) ⟨(0, []), []⟩ toyPacket).1.success = true ∧
    (onRecv (toyHooks fiveHex backDenom) ⟨(0, []), []⟩ toyPacket).2.ops.length = 3 ∧ isHexAddress fiveHex = true := by
  decide +kernel

/-- Non-vacuity of C35_calls. -/
example : ∃ m, Op.call m ∈ (onRecv (toyHooks fiveHex backDenom) ⟨(0, []), []⟩ toyPacket).2.ops := by
  have hs : (onRecv (toyHooks fiveHex backDenom) ⟨(0, []), []⟩ toyPacket).1.success = true := by decide +kernel
  obtain ⟨_, _, _, s', before, _, h⟩ := C35_success _ _ _ (toy_carries fiveHex backDenom) (toy_asks fiveHex backDenom) hs
  exact ⟨_, by rw [h]; exact List.mem_append_right _ (List.mem_singleton.2 rfl)⟩

/-- Non-vacuity of C35_plain: another memo field asks for nothing. -/
example : NoMessage (toyHooks fiveHex backDenom) ['x'] := .inr (.inl (by intro j; simp [toyHooks]))

/-- Non-vacuity of C35_malformed: a chain whose decoder yields a message together with an error. -/
example : let e : Env (Nat × List (Str × Str)) Unit Unit :=
      { toyHooks fiveHex backDenom with decodeHook := fun _ => (⟨some ⟨[], [], [], 0⟩, none⟩, false) }
    (∃ se rc red, Carries e toyPacket se rc ['m'] red) ∧ e.jsonField ['m'] "evm".toList = some (some ()) ∧
      (e.decodeHook ()).1.message ≠ none ∧ (e.decodeHook ()).2 = false :=
  ⟨⟨_, _, _, .ft ⟨backDenom, ['5'], ['s'], fiveHex, ['m']⟩ rfl⟩, by simp [toyHooks, memoKey], by simp, rfl⟩

/-- Non-vacuity of C35_atomic: a contract that is not allowed yields an error acknowledgement. -/
example : (coreRecv (toyHooks (addrHex (fun _ => []) (Addr.ofNat 6)) backDenom) (0, []) toyPacket).1.success = false := by
  decide +kernel

/-- Non-vacuity of C36: the callback with number 7 is made with the failure flag, and kept; an undecodable
acknowledgement is refused by the transfer module. -/
example : (onAck (toyHooks fiveHex backDenom) (0, []) toyPacket [0]).2.st = (1, [(fiveHex, encode0x [7, 0])]) ∧
    (onAck (toyHooks fiveHex backDenom) (0, []) toyPacket [0]).1 = true ∧
    (onAck (toyHooks fiveHex backDenom) (0, []) toyPacket [9]).1 = false ∧
    (onTimeout (toyHooks fiveHex backDenom) (0, []) toyPacket).2.st = (1, [(fiveHex, encode0x [7])]) ∧
    (onTimeout (toyHooks (addrHex (fun _ => []) (Addr.ofNat 6)) backDenom) (0, []) toyPacket).2.st = (1, []) := by
  decide +kernel

/-- Non-vacuity of the hypotheses of C36_ack_runs and C36_timeout_runs. -/
example : Sent (toyHooks fiveHex backDenom) toyPacket ['s'] ['m'] ∧ AsksCallback (toyHooks fiveHex backDenom) ['m'] ⟨7, fiveHex⟩ ∧
    Allowed (toyHooks fiveHex backDenom) (1, []) fiveHex :=
  ⟨.ft (e := toyHooks fiveHex backDenom) (p := toyPacket) ⟨backDenom, ['5'], ['s'], fiveHex, ['m']⟩ rfl,
   ⟨by decide, (), _, by simp [toyHooks, memoKey], rfl, rfl⟩, (checkACL_iff _ _ _).1 (by decide +kernel)⟩

/-- **C58 does not hold** for a contract named by its Bech32 address: the requested call goes through, but the allowance
went to another address (`common.HexToAddress` of the Bech32 string), not to the contract called. -/
theorem C58_violated : ∃ spender,
    (onRecv (toyHooks fiveBech backDenom) ⟨(0, []), []⟩ toyPacket).1.success = true ∧
    TxUtils.contractAddressFromString (Props.TxUtils.toyEnv 6) fiveBech = some (Addr.ofNat 5) ∧
    spender ≠ Addr.ofNat 5 ∧
    (onRecv (toyHooks fiveBech backDenom) ⟨(0, []), []⟩ toyPacket).2.st.2 =
      [(addrHex (fun _ => []) (Addr.ofNat 9), encode0x (spender.bytes ++ [5])), (fiveBech, ['0', 'x'])] :=
  ⟨hexToAddress fiveBech, by decide +kernel⟩

/-- **C58 does not hold** for a returning ERC20 token native to this chain (denom `evm/…`): its contract is found by the
naming rule, not in the collection the hook reads, so every hook packet with it is refused. -/
theorem C58_evm_violated (e : Env σ J K) (s : σ) (p : Packet) (d : Ics20) (msg : MsgCall)
    (hp : e.decode20 p.data = some d) (hm : Asks e d.memo msg)
    (hn : ∀ s, e.denomContract s (localDenom e p d.denom) = none) : (onRecv e ⟨s, []⟩ p).1.success = false := by
  cases hs : (onRecv e ⟨s, []⟩ p).1.success with
  | false => rfl
  | true =>
    exfalso
    obtain ⟨cb, hpm⟩ := parseMemo_asks e hm
    have hshape : onRecv e ⟨s, []⟩ p = recv20 e ⟨s, []⟩ p d := by simp only [onRecv, hp]
    rw [hshape] at hs
    simp only [recv20, hpm] at hs
    split at hs
    · cases hs
    · split at hs
      · cases hs
      · split at hs
        · next h => rw [hs] at h; cases h
        · have : (approveERC20 e (Run.app e ⟨s, []⟩ { p with data := e.encode20 { d with receiver := intermediate e p.dstChan d.sender } }).2
              (intermediate e p.dstChan d.sender) (hexToAddress msg.contractAddr)
              (localDenom e { p with data := e.encode20 { d with receiver := intermediate e p.dstChan d.sender } } d.denom) d.amount).1 = false := by
            unfold approveERC20
            split
            · rfl
            · rw [show localDenom e { p with data := e.encode20 { d with receiver := intermediate e p.dstChan d.sender } } d.denom
                = localDenom e p d.denom from rfl, hn]
          simp only [this, Bool.not_false, if_true] at hs
          cases hs

/-- The hypotheses of C58_evm_violated are met: the denom `evm/00…09` denotes contract 9 (Denom.denomToContract) but is in no
collection. -/
example : let den : Str := "t/c/evm/0000000000000000000000000000000000000009".toList
    (∀ s, (toyHooks fiveHex den).denomContract s (localDenom (toyHooks fiveHex den) toyPacket den) = none) ∧
    localDenom (toyHooks fiveHex den) toyPacket den = "evm/0000000000000000000000000000000000000009".toList := by
  constructor
  · intro s; simp only [toyHooks]; rw [if_neg (by decide +kernel)]
  · decide +kernel

end Verif.Hooks
