import Verif.Model.Stack
import Verif.Props.Hooks
/-
C166: what becomes of a packet that arrives on a transfer channel, over the whole middleware stack.
-/
namespace Verif.Props.Stack
open Verif Verif.Text Verif.Hooks Verif.Hooks.Spec Verif.Stack

variable {σ J K : Type}

/-! ### Specification -/

/-- The tokens of packet `q`, carrying `d`, are sent on: the memo names a valid route, the packet is within the limit for
incoming transfers, the tokens are credited to the forwarding account, and the onward transfer is taken, within the limit
for outgoing transfers, and put on its channel. -/
def SendsOn (e : Stack.Env σ J K) (q : Packet) (d : Ics20) (s s' : σ) : Prop :=
  e.forwards d.memo = true ∧ ∃ (rt : Route) (s1 : σ) (a : Ack) (s2 : σ) (n : Int) (s3 s4 : σ),
    let who := e.account q.dstChan d.sender
    let o : Out := ⟨who, localDenom e.hooks q d.denom, n, rt⟩
    e.route d.memo = some rt ∧ e.limitIn q s = some s1 ∧
    e.bottom { q with data := e.encodeCdc { d with receiver := who, memo := [] } } s1 = (a, s2) ∧ a.success = true ∧
    parseInt d.amount = some n ∧
    e.escrow o s2 = some s3 ∧ e.limitOut o s3 = some s4 ∧ e.channel o s4 = some s'

/-- The packet, its tokens redirected to the account derived for its sender. -/
def redirected (e : Stack.Env σ J K) (p : Packet) (d : Ics20) : Ics20 :=
  { d with receiver := intermediate e.hooks p.dstChan d.sender }

/-- The two JSON codecs agree: what the hooks write, the transfer module's codec reads; it reads no NFT packet. -/
structure Codecs (e : Stack.Env σ J K) : Prop where
  read20 : ∀ d, e.decodeCdc (e.hooks.encode20 d) = some d
  not721 : ∀ d port, e.decodeCdc (e.hooks.encode721 d port) = none

/-- Credit within the limit for incoming transfers: what a plain transfer does. -/
def credit (e : Stack.Env σ J K) (p : Packet) (s : σ) : Ack × σ :=
  match e.limitIn p s with
  | none => (refusal, s)
  | some s1 => e.bottom p s1

/-! ### The layers below the hooks -/

/-- The layers below the hooks. -/
def lower (e : Stack.Env σ J K) : Handler σ := rateLimit e (packetForward e (base e))

theorem stack_eq (e : Stack.Env σ J K) : transferStack e = fee e (evmHooks e (lower e)) := rfl

theorem send_some (e : Stack.Env σ J K) (o : Out) (s s' : σ) :
    send e o s = some s' ↔ ∃ s3 s4, e.escrow o s = some s3 ∧ e.limitOut o s3 = some s4 ∧ e.channel o s4 = some s' := by
  unfold send
  cases h1 : e.escrow o s with
  | none => simp
  | some s3 =>
    simp only
    cases h2 : e.limitOut o s3 with
    | none => constructor
              · intro h; cases h
              · rintro ⟨a, b, ha, hb, _⟩; cases ha; rw [h2] at hb; cases hb
    | some s4 =>
      constructor
      · intro h; exact ⟨s3, s4, rfl, h2, h⟩
      · rintro ⟨a, b, ha, hb, hc⟩; cases ha; rw [h2] at hb; cases hb; exact hc

/-- The lower layers never panic, perform no operation of the hooks, and postpone the answer exactly when the tokens are
sent on. -/
theorem lower_ok (e : Stack.Env σ J K) (q : Packet) (d : Ics20) (hd : e.decodeCdc q.data = some d) (s : σ) (ops : List Op) :
    (∃ s', SendsOn e q d s s' ∧ lower e q ⟨s, ops⟩ = some (.later, ⟨s', ops⟩)) ∨
    ((∀ s', ¬ SendsOn e q d s s') ∧ ∃ a s', lower e q ⟨s, ops⟩ = some (.now a, ⟨s', ops⟩)) := by
  unfold lower rateLimit
  cases hl : e.limitIn q s with
  | none =>
    refine .inr ⟨?_, refusal, s, by simp only [hl]⟩
    rintro s' ⟨_, _, _, _, _, _, _, _, _, h, _⟩; rw [hl] at h; cases h
  | some s1 =>
    simp only [hl, packetForward, hd]
    by_cases hf : e.forwards d.memo = false
    · rw [if_pos hf]
      refine .inr ⟨?_, _, _, rfl⟩
      rintro s' ⟨h, _⟩; rw [hf] at h; cases h
    · rw [if_neg hf]
      have hf' : e.forwards d.memo = true := by cases h : e.forwards d.memo with
        | true => rfl
        | false => exact absurd h hf
      cases hr : e.route d.memo with
      | none =>
        refine .inr ⟨?_, refusal, s1, rfl⟩
        rintro s' ⟨_, _, _, _, _, _, _, _, h, _⟩; rw [hr] at h; cases h
      | some rt =>
        simp only [base]
        generalize hb : e.bottom { q with data := e.encodeCdc { d with receiver := e.account q.dstChan d.sender, memo := [] } } s1 = x
        obtain ⟨a, s2⟩ := x
        simp only
        cases ha : a.success with
        | false =>
          refine .inr ⟨?_, refusal, s2, by simp⟩
          rintro s' ⟨_, _, _, _, _, _, _, _, _, h1, h2, h3, _⟩
          rw [hl] at h1; cases h1; rw [hb] at h2; cases h2; rw [ha] at h3; cases h3
        | true =>
          simp only [Bool.true_eq_false, if_false]
          cases hn : parseInt d.amount with
          | none =>
            refine .inr ⟨?_, refusal, s2, rfl⟩
            rintro s' ⟨_, _, _, _, _, _, _, _, _, _, _, _, h, _⟩; rw [hn] at h; cases h
          | some n =>
            simp only
            cases hs : send e ⟨e.account q.dstChan d.sender, localDenom e.hooks q d.denom, n, rt⟩ s2 with
            | none =>
              refine .inr ⟨?_, refusal, s2, rfl⟩
              rintro s' ⟨_, rt', _, _, _, _, s3, s4, h0, h1, h2, _, hn', h3, h4, h5⟩
              rw [hr] at h0; cases h0; rw [hl] at h1; cases h1; rw [hb] at h2; cases h2; rw [hn] at hn'; cases hn'
              have := (send_some e _ s2 s').2 ⟨s3, s4, h3, h4, h5⟩
              rw [hs] at this; cases this
            | some s' =>
              obtain ⟨s3, s4, h3, h4, h5⟩ := (send_some e _ _ _).1 hs
              exact .inl ⟨s', ⟨hf', rt, s1, a, s2, n, s3, s4, hr, hl, hb, ha, hn, h3, h4, h5⟩, rfl⟩

theorem lower_none (e : Stack.Env σ J K) (q : Packet) (hd : e.decodeCdc q.data = none) (s : σ) (ops : List Op) :
    lower e q ⟨s, ops⟩ = some (.now (credit e q s).1, ⟨(credit e q s).2, ops⟩) := by
  unfold lower rateLimit credit
  cases hl : e.limitIn q s with
  | none => simp only [hl]
  | some s1 => simp only [hl, packetForward, hd, base]

theorem lower_plain (e : Stack.Env σ J K) (q : Packet) (hd : ∀ d, e.decodeCdc q.data = some d → e.forwards d.memo = false) (s : σ)
    (ops : List Op) : lower e q ⟨s, ops⟩ = some (.now (credit e q s).1, ⟨(credit e q s).2, ops⟩) := by
  cases h : e.decodeCdc q.data with
  | none => exact lower_none e q h s ops
  | some d =>
    unfold lower rateLimit credit
    cases hl : e.limitIn q s with
    | none => simp only [hl]
    | some s1 => simp only [hl, packetForward, h, hd d h, if_true, base]

theorem fee_none (e : Stack.Env σ J K) (h : Handler σ) (p : Packet) (r : Run σ) : fee e h p r = none ↔ h p r = none := by
  unfold fee
  cases hh : h p r with
  | none => simp
  | some x =>
    obtain ⟨a, r'⟩ := x
    simp only
    split
    · simp
    · cases a <;> simp

theorem recv_none (h : Handler σ) (p : Packet) (s : σ) : recvPacket h p s = none ↔ h p ⟨s, []⟩ = none := by
  unfold recvPacket
  cases hh : h p ⟨s, []⟩ with
  | none => simp
  | some x => obtain ⟨a, r⟩ := x; cases a <;> simp

theorem thenCall_none (x : Option (Answer × Run σ)) (rest : Ack → Run σ → Ack × Run σ) :
    thenCall x rest = none ↔ x = none ∨ ∃ r, x = some (.later, r) := by
  cases x with
  | none => simp [thenCall]
  | some y =>
    obtain ⟨a, r⟩ := y
    cases a with
    | later => simp [thenCall]
    | now a =>
      simp only [thenCall]
      constructor
      · intro h; split at h <;> cases h
      · rintro (h | ⟨_, h⟩) <;> cases h

theorem lower_never (e : Stack.Env σ J K) (q : Packet) (r : Run σ) : lower e q r ≠ none := by
  obtain ⟨s, ops⟩ := r
  cases hd : e.decodeCdc q.data with
  | none => rw [lower_none e q hd]; simp
  | some d => rcases lower_ok e q d hd s ops with ⟨_, _, h⟩ | ⟨_, _, _, h⟩ <;> rw [h] <;> simp

/-! ### The property -/

/-- **C166** (which packets are left without an answer, exactly): the transaction that delivers a packet panics iff the
packet is a token transfer whose memo asks for a call of an allowed contract, to which it is addressed, and, besides, its
tokens can be sent on along the route the memo names. -/
theorem C166_unanswered_iff (e : Stack.Env σ J K) (hc : Codecs e) (p : Packet) (s : σ) :
    recvPacket (transferStack e) p s = none ↔
      ∃ d msg s', e.hooks.decode20 p.data = some d ∧ Asks e.hooks d.memo msg ∧ Allowed e.hooks s msg.contractAddr ∧
        d.receiver = msg.contractAddr ∧
        SendsOn e { p with data := e.hooks.encode20 (redirected e p d) } (redirected e p d) s s' := by
  rw [recv_none, stack_eq, fee_none]
  unfold evmHooks
  cases h20 : e.hooks.decode20 p.data with
  | none =>
    constructor
    · intro h
      exfalso
      simp only [h20] at h
      cases h7 : e.hooks.decode721 p.data p.srcPort with
      | none => simp only [h7, under] at h; exact lower_never e _ _ h
      | some d =>
        simp only [h7, hook721] at h
        split at h
        · exact lower_never e _ _ h
        · exact lower_never e _ _ h
        · cases h
        · split at h
          · cases h
          · split at h
            · cases h
            · rcases (thenCall_none _ _).1 h with h | ⟨r, h⟩
              · exact lower_never e _ _ h
              · simp only [under] at h
                rw [lower_none e _ (hc.not721 _ _)] at h
                cases h
    · rintro ⟨d, _, _, h, _⟩; cases h
  | some d =>
    simp only
    constructor
    · intro h
      unfold hook20 at h
      split at h
      · exact absurd h (lower_never e _ _)
      · exact absurd h (lower_never e _ _)
      · cases h
      · next msg cb hpm =>
        split at h
        · cases h
        · next hacl =>
          split at h
          · cases h
          · next hrc =>
            rcases (thenCall_none _ _).1 h with h | ⟨r, h⟩
            · exact absurd h (lower_never e _ _)
            · simp only [under] at h
              rcases lower_ok e { p with data := e.hooks.encode20 (redirected e p d) } (redirected e p d)
                (hc.read20 _) s ([] ++ [.app { p with data := e.hooks.encode20 (redirected e p d) }]) with ⟨s', hs, _⟩ | ⟨_, a, s', h'⟩
              · refine ⟨d, msg, s', rfl, ?_, (checkACL_iff _ _ _).1 (Decidable.not_not.1 hacl), Decidable.not_not.1 hrc, hs⟩
                rcases parseMemo_cases e.hooks d.memo with hn | ⟨m, hm⟩ | ⟨m, cb', hm⟩
                · rcases parseMemo_none e.hooks hn with ⟨a, b, h⟩ | ⟨a, b, h⟩ <;> rw [hpm] at h <;> cases h
                · obtain ⟨cb', h'⟩ := parseMemo_asks e.hooks hm
                  rw [hpm] at h'; cases h'; exact hm
                · rw [hpm] at hm; cases hm
              · exfalso
                have h2 : lower e { p with data := e.hooks.encode20 (redirected e p d) }
                    ⟨s, [] ++ [.app { p with data := e.hooks.encode20 (redirected e p d) }]⟩ = some (.later, r) := h
                rw [h'] at h2; cases h2
    · rintro ⟨d', msg, s', hd, hm, hacl, hrc, hs⟩
      cases hd
      obtain ⟨cb, hpm⟩ := parseMemo_asks e.hooks hm
      simp only [hook20, hpm]
      rw [if_neg (by simp [(checkACL_iff _ _ _).2 hacl]), if_neg (by simp [hrc]), thenCall_none]
      refine .inr ?_
      rcases lower_ok e { p with data := e.hooks.encode20 (redirected e p d) } (redirected e p d)
        (hc.read20 _) s ([] ++ [.app { p with data := e.hooks.encode20 (redirected e p d) }]) with ⟨s2, _, h'⟩ | ⟨hn, _⟩
      · exact ⟨_, h'⟩
      · exact absurd hs (hn s')

/-- **C166** (a packet that asks for no contract call but for forwarding): it is not answered yet exactly when its tokens
are sent on, and then the state is the one after the onward transfer, with the relayer noted on channels with fees. -/
theorem C166_forwarded_iff (e : Stack.Env σ J K) (p : Packet) (s : σ) (d : Ics20) (hd : e.hooks.decode20 p.data = some d)
    (hc : e.decodeCdc p.data = some d) (hm : NoMessage e.hooks d.memo) (t : σ) :
    recvPacket (transferStack e) p s = some (.later, t) ↔
      ∃ s', SendsOn e p d s s' ∧ t = if e.feeOn p s = true then e.noteRelayer p s' else s' := by
  have hk : evmHooks e (lower e) p ⟨s, []⟩ = lower e p ⟨s, [.app p]⟩ := by
    unfold evmHooks
    simp only [hd]
    rcases parseMemo_none e.hooks hm with ⟨a, b, h⟩ | ⟨cb, ok, h⟩ <;> simp only [hook20, h] <;> rfl
  rw [stack_eq]
  unfold recvPacket fee
  rw [hk]
  rcases lower_ok e p d hc s [.app p] with ⟨s', hs, h⟩ | ⟨hn, a, s', h⟩
  · rw [h]
    have huniq : ∀ s2, SendsOn e p d s s2 → s2 = s' := by
      rintro s2 h2
      obtain ⟨_, rt, s1, a, s2', n, s3, s4, h0, h1, h2', ha, hn, h3, h4, h5⟩ := h2
      obtain ⟨_, rt', s1', a', s2'', n', s3', s4', k0, k1, k2, _, kn, k3, k4, k5⟩ := hs
      rw [h0] at k0; cases k0; rw [h1] at k1; cases k1; rw [h2'] at k2; cases k2
      rw [hn] at kn; cases kn; rw [h3] at k3; cases k3; rw [h4] at k4; cases k4; rw [h5] at k5; cases k5; rfl
    cases hf : e.feeOn p s with
    | false =>
      simp only [if_true]
      constructor
      · intro h'
        injection h' with h'; injection h' with _ h'
        exact ⟨s', hs, by simp [← h']⟩
      · rintro ⟨s2, h2, h3⟩; rw [h3, huniq s2 h2]; simp
    | true =>
      simp only [Bool.true_eq_false, if_false]
      constructor
      · intro h'
        injection h' with h'; injection h' with _ h'
        exact ⟨s', hs, by simp [← h']⟩
      · rintro ⟨s2, h2, h3⟩; rw [h3, huniq s2 h2]; simp
  · rw [h]
    constructor
    · intro h'
      simp only at h'
      cases hf : e.feeOn p s <;> simp only [hf, if_true, Bool.true_eq_false, if_false] at h' <;> cases h'
    · rintro ⟨s2, h2, _⟩; exact absurd h2 (hn s2)

/-- Forwarded tokens were within both limits, the incoming and the outgoing one. -/
theorem C166_both_limits (e : Stack.Env σ J K) (p : Packet) (s : σ) (d : Ics20) (hd : e.hooks.decode20 p.data = some d)
    (hc : e.decodeCdc p.data = some d) (hm : NoMessage e.hooks d.memo) (t : σ)
    (h : recvPacket (transferStack e) p s = some (.later, t)) :
    e.limitIn p s ≠ none ∧ ∃ o s', o.sender = e.account p.dstChan d.sender ∧ o.denom = localDenom e.hooks p d.denom ∧
      parseInt d.amount = some o.amount ∧ e.limitOut o s' ≠ none := by
  obtain ⟨s', ⟨_, rt, s1, a, s2, n, s3, s4, h0, h1, h2, ha, hn, h3, h4, h5⟩, _⟩ :=
    (C166_forwarded_iff e p s d hd hc hm t).1 h
  exact ⟨by rw [h1]; simp, _, s3, rfl, rfl, hn, by rw [h4]; simp⟩

theorem approveAll_env (e : Hooks.Env σ J K) (f : Packet → σ → Ack × σ) (i : Str) (sp : Addr) (c : Str) :
    ∀ (ts : List Str) (r : Run σ), approveAll { e with appRecv := f } i sp c ts r = approveAll e i sp c ts r
  | [], _ => rfl
  | t :: ts, r => by
    have h : approveERC721 { e with appRecv := f } r i sp c t = approveERC721 e r i sp c t := rfl
    simp only [approveAll, h, approveAll_env e f i sp c ts]

/-- **C166** (no forwarding asked for): the hooks see an application that credits the tokens within the limit and answers
at once, so C35, C36 and C58 describe what happens. -/
theorem C166_hooks (e : Stack.Env σ J K) (hc : Codecs e) (p : Packet) (s : σ) (ops : List Op)
    (hp : ∀ d, e.decodeCdc p.data = some d → e.forwards d.memo = false)
    (hd : ∀ d, e.hooks.decode20 p.data = some d → e.forwards d.memo = false) :
    evmHooks e (lower e) p ⟨s, ops⟩ =
      some (.now (onRecv { e.hooks with appRecv := credit e } ⟨s, ops⟩ p).1,
        (onRecv { e.hooks with appRecv := credit e } ⟨s, ops⟩ p).2) := by
  have hpass : under (lower e) p ⟨s, ops⟩ =
      some (.now (Run.app { e.hooks with appRecv := credit e } ⟨s, ops⟩ p).1,
        (Run.app { e.hooks with appRecv := credit e } ⟨s, ops⟩ p).2) := lower_plain e p hp s _
  have hthen : ∀ (q : Packet) (rest : Ack → Run σ → Ack × Run σ), 
      (∀ d, e.decodeCdc q.data = some d → e.forwards d.memo = false) →
      thenCall (under (lower e) q ⟨s, ops⟩) rest =
        let x := Run.app { e.hooks with appRecv := credit e } ⟨s, ops⟩ q
        some (.now (if !x.1.success then x else rest x.1 x.2).1, (if !x.1.success then x else rest x.1 x.2).2) := by
    intro q rest hq
    have : under (lower e) q ⟨s, ops⟩ = some (.now (Run.app { e.hooks with appRecv := credit e } ⟨s, ops⟩ q).1,
        (Run.app { e.hooks with appRecv := credit e } ⟨s, ops⟩ q).2) := lower_plain e q hq s _
    rw [this]
    simp only [thenCall]
    split <;> rfl
  unfold evmHooks onRecv
  simp only
  cases h20 : e.hooks.decode20 p.data with
  | some d =>
    simp only [hook20, recv20]
    have hpm : parseMemo { e.hooks with appRecv := credit e } d.memo = parseMemo e.hooks d.memo := rfl
    rw [hpm]
    rcases parseMemo e.hooks d.memo with ⟨b, ⟨m, cb⟩, ok⟩
    cases b with
    | false => exact hpass
    | true =>
      cases m with
      | none => exact hpass
      | some msg =>
        cases ok with
        | false => rfl
        | true =>
          simp only
          have hacl : checkACL { e.hooks with appRecv := credit e } s msg.contractAddr = checkACL e.hooks s msg.contractAddr := rfl
          rw [hacl]
          by_cases h1 : checkACL e.hooks s msg.contractAddr ≠ some true
          · rw [if_pos h1, if_pos h1]
          · rw [if_neg h1, if_neg h1]
            by_cases h2 : d.receiver ≠ msg.contractAddr
            · rw [if_pos h2, if_pos h2]
            · rw [if_neg h2, if_neg h2]
              rw [hthen _ _ (by
                intro d' hd'
                rw [hc.read20] at hd'; cases hd'; exact hd d h20)]
              rfl
  | none =>
    simp only
    cases h7 : e.hooks.decode721 p.data p.srcPort with
    | none => exact hpass
    | some d =>
      simp only [hook721, recv721]
      have hpm : parseMemo { e.hooks with appRecv := credit e } d.memo = parseMemo e.hooks d.memo := rfl
      rw [hpm]
      rcases parseMemo e.hooks d.memo with ⟨b, ⟨m, cb⟩, ok⟩
      cases b with
      | false => exact hpass
      | true =>
        cases m with
        | none => exact hpass
        | some msg =>
          cases ok with
          | false => rfl
          | true =>
            simp only
            have hacl : checkACL { e.hooks with appRecv := credit e } s msg.contractAddr = checkACL e.hooks s msg.contractAddr := rfl
            rw [hacl]
            by_cases h1 : checkACL e.hooks s msg.contractAddr ≠ some true
            · rw [if_pos h1, if_pos h1]
            · rw [if_neg h1, if_neg h1]
              by_cases h2 : d.receiver ≠ msg.contractAddr
              · rw [if_pos h2, if_pos h2]
              · rw [if_neg h2, if_neg h2]
                rw [hthen _ _ (by intro d' hd'; rw [hc.not721] at hd'; cases hd')]
                simp only [approveAll_env]
                rfl

/-- **C166** (over the limit): a packet beyond the limit for incoming transfers, whoever receives the tokens, is refused
at once; no contract is called and nothing changes. -/
theorem C166_limited (e : Stack.Env σ J K) (p : Packet) (s : σ) (hl : e.limitIn p s = none)
    (h20 : ∀ d i, e.hooks.decode20 p.data = some d →
      e.limitIn { p with data := e.hooks.encode20 { d with receiver := i } } s = none)
    (h721 : ∀ d i, e.hooks.decode721 p.data p.srcPort = some d →
      e.limitIn { p with data := e.hooks.encode721 { d with receiver := i } p.srcPort } s = none) :
    (∃ a ops, transferStack e p ⟨s, []⟩ = some (.now a, ⟨s, ops⟩) ∧ a.success = false ∧ ∀ m, Op.call m ∉ ops) ∧
    ∃ a, recvPacket (transferStack e) p s = some (.now a, s) ∧ a.success = false := by
  have hlow : ∀ q, e.limitIn q s = none → under (lower e) q ⟨s, []⟩ = some (.now refusal, ⟨s, [.app q]⟩) := by
    intro q hq; simp only [under, lower, rateLimit, hq]; rfl
  have hk : ∃ a ops, evmHooks e (lower e) p ⟨s, []⟩ = some (.now a, ⟨s, ops⟩) ∧ a.success = false ∧ ∀ m, Op.call m ∉ ops := by
    unfold evmHooks
    cases hd : e.hooks.decode20 p.data with
    | some d =>
      simp only [hook20]
      rcases parseMemo e.hooks d.memo with ⟨b, ⟨m, cb⟩, ok⟩
      cases b with
      | false => exact ⟨_, _, hlow p hl, rfl, by simp⟩
      | true =>
        cases m with
        | none => exact ⟨_, _, hlow p hl, rfl, by simp⟩
        | some msg =>
          cases ok with
          | false => exact ⟨_, _, rfl, rfl, by simp⟩
          | true =>
            simp only
            split
            · exact ⟨_, _, rfl, rfl, by simp⟩
            · split
              · exact ⟨_, _, rfl, rfl, by simp⟩
              · rw [hlow _ (h20 d _ hd)]
                exact ⟨_, _, rfl, rfl, by simp⟩
    | none =>
      simp only
      cases h7 : e.hooks.decode721 p.data p.srcPort with
      | none => exact ⟨_, _, hlow p hl, rfl, by simp⟩
      | some d =>
        simp only [hook721]
        rcases parseMemo e.hooks d.memo with ⟨b, ⟨m, cb⟩, ok⟩
        cases b with
        | false => exact ⟨_, _, hlow p hl, rfl, by simp⟩
        | true =>
          cases m with
          | none => exact ⟨_, _, hlow p hl, rfl, by simp⟩
          | some msg =>
            cases ok with
            | false => exact ⟨_, _, rfl, rfl, by simp⟩
            | true =>
              simp only
              split
              · exact ⟨_, _, rfl, rfl, by simp⟩
              · split
                · exact ⟨_, _, rfl, rfl, by simp⟩
                · rw [hlow _ (h721 d _ h7)]
                  exact ⟨_, _, rfl, rfl, by simp⟩
  obtain ⟨a, ops, hk, ha, hops⟩ := hk
  have hst : ∃ a', transferStack e p ⟨s, []⟩ = some (.now a', ⟨s, ops⟩) ∧ a'.success = false := by
    rw [stack_eq]
    unfold fee
    rw [hk]
    simp only
    split
    · exact ⟨a, rfl, ha⟩
    · exact ⟨_, rfl, ha⟩
  obtain ⟨a', hst, ha'⟩ := hst
  exact ⟨⟨a', ops, hst, ha', hops⟩, a', by unfold recvPacket; rw [hst]; simp [ha'], ha'⟩

/-- **C166** (refused): a packet answered with an error changes nothing; in particular it does not count against the
limits. -/
theorem C166_refused (e : Stack.Env σ J K) (p : Packet) (s t : σ) (a : Ack)
    (h : recvPacket (transferStack e) p s = some (.now a, t)) (ha : a.success = false) : t = s := by
  unfold recvPacket at h
  cases hh : transferStack e p ⟨s, []⟩ with
  | none => rw [hh] at h; cases h
  | some x =>
    obtain ⟨b, r⟩ := x
    rw [hh] at h
    cases b with
    | later => cases h
    | now b =>
      simp only at h
      injection h with h
      injection h with h1 h2
      injection h1 with h1
      subst h1
      rw [ha] at h2
      exact h2.symm

/-- **C166** (the nft-transfer port): every packet is answered at once. -/
theorem C166_nft (e : Stack.Env σ J K) (p : Packet) (s : σ) : ∃ a t, recvPacket (nftStack e) p s = some (.now a, t) := by
  have hb : ∀ q r, ∃ a r', under (base e) q r = some (.now a, r') := fun q r => ⟨_, _, rfl⟩
  have ht : ∀ q r rest, ∃ a r', thenCall (under (base e) q r) rest = some (.now a, r') := by
    intro q r rest
    obtain ⟨a, r', h⟩ := hb q r
    rw [h]; simp only [thenCall]; split <;> exact ⟨_, _, rfl⟩
  have hk : ∃ a r', evmHooks e (base e) p ⟨s, []⟩ = some (.now a, r') := by
    unfold evmHooks
    split
    · unfold hook20
      split
      · exact hb _ _
      · exact hb _ _
      · exact ⟨_, _, rfl⟩
      · split
        · exact ⟨_, _, rfl⟩
        · split
          · exact ⟨_, _, rfl⟩
          · exact ht _ _ _
    · split
      · unfold hook721
        split
        · exact hb _ _
        · exact hb _ _
        · exact ⟨_, _, rfl⟩
        · split
          · exact ⟨_, _, rfl⟩
          · split
            · exact ⟨_, _, rfl⟩
            · exact ht _ _ _
      · exact hb _ _
  obtain ⟨a, r', hk⟩ := hk
  have : ∃ a r', nftStack e p ⟨s, []⟩ = some (.now a, r') := by
    show ∃ a r', fee e (evmHooks e (base e)) p ⟨s, []⟩ = some (.now a, r')
    unfold fee
    rw [hk]; simp only
    split <;> exact ⟨_, _, rfl⟩
  obtain ⟨a, r', h⟩ := this
  exact ⟨a, _, by unfold recvPacket; rw [h]⟩

/-! ### A concrete chain -/

/-- A code for packet data, as zeros and ones, that can be read back. -/
def put : List Char → Bytes
  | [] => [2]
  | c :: cs => List.replicate c.toNat 0 ++ 1 :: put cs

def get (n : Nat) : Bytes → Option (List Char × Bytes)
  | [] => none
  | b :: bs => if b = 0 then get (n + 1) bs
    else if b = 1 then match get 0 bs with
      | none => none
      | some (l, r) => some (Char.ofNat n :: l, r)
    else some ([], bs)

theorem get_zeros : ∀ (k n : Nat) (bs : Bytes), get n (List.replicate k 0 ++ bs) = get (n + k) bs
  | 0, n, bs => by simp
  | k + 1, n, bs => by
    rw [List.replicate_succ, List.cons_append]
    simp only [get, if_true]
    rw [get_zeros k (n + 1) bs]
    congr 1; omega

theorem get_put : ∀ (l : List Char) (bs : Bytes), get 0 (put l ++ bs) = some (l, bs)
  | [], bs => by simp [put, get]
  | c :: cs, bs => by
    rw [put, List.append_assoc, get_zeros]
    simp only [List.cons_append, get]
    rw [if_neg (by decide)]
    simp only [if_true]
    rw [get_put cs bs]
    simp only [Nat.zero_add]
    rw [Char.ofNat_toNat]

def put20 (d : Ics20) : Bytes := put d.denom ++ (put d.amount ++ (put d.sender ++ (put d.receiver ++ (put d.memo ++ []))))

def get20 (b : Bytes) : Option Ics20 :=
  match get 0 b with
  | none => none
  | some (v, b) => match get 0 b with
    | none => none
    | some (w, b) => match get 0 b with
      | none => none
      | some (x, b) => match get 0 b with
        | none => none
        | some (y, b) => match get 0 b with
          | none => none
          | some (z, _) => some ⟨v, w, x, y, z⟩

theorem get20_put20 (d : Ics20) : get20 (put20 d) = some d := by
  simp only [get20, put20, get_put]

/-- Toy chain: that of Props/Hooks.lean, with packet data that can be read back; the memos "m" (which also asks for a
contract call) and "f" (which does not) ask to forward; five tokens more are within the limit as long as fewer than two
packets came in; the second component of the state records what was sent on. -/
def toyStack : Stack.Env (Nat × List (Str × Str)) Unit Unit where
  hooks := { toyHooks fiveHex backDenom with encode20 := put20, decode20 := get20, encode721 := fun _ _ => [] }
  bottom := fun _ s => (⟨true, []⟩, s)
  limitIn := fun _ s => if s.1 < 2 then some (s.1 + 1, s.2) else none
  decodeCdc := get20
  encodeCdc := put20
  forwards := fun m => m = ['m'] || m = ['f']
  route := fun _ => some ⟨['r'], ['t'], ['k'], []⟩
  account := fun c s => c ++ s
  escrow := fun o s => some (s.1, s.2 ++ [(o.sender, o.denom)])
  limitOut := fun _ s => some s
  channel := fun _ s => some s
  feeOn := fun _ _ => false
  incentivized := id
  noteRelayer := fun _ s => s

theorem toy_codecs : Codecs toyStack := ⟨get20_put20, fun _ _ => rfl⟩

/-- The toy transfer with a memo. -/
def toySent (memo : Str) : Packet := ⟨['t'], ['c'], ['t'], ['d'], put20 ⟨backDenom, ['5'], ['s'], fiveHex, memo⟩⟩

/-- What a relayer sees: nothing, or the state and whether the packet was accepted (`none`: not yet). -/
def seen : Option (Answer × (Nat × List (Str × Str))) → Option (Option Bool × (Nat × List (Str × Str)))
  | none => none
  | some (.now a, t) => some (some a.success, t)
  | some (.later, t) => some (none, t)

/-- Non-vacuity of C166_limited, C166_refused and C166_forwarded_iff: a packet to forward is forwarded; the third one is
refused. -/
example : seen (recvPacket (transferStack toyStack) (toySent ['f']) (0, [])) = some (none, (1, [(['d', 's'], ['u'])])) ∧
    seen (recvPacket (transferStack toyStack) (toySent ['f']) (2, [])) = some (some false, (2, [])) ∧
    NoMessage toyStack.hooks ['f'] :=
  ⟨by decide +kernel, by decide +kernel, .inr (.inl (by intro j; simp [toyStack, toyHooks]))⟩

/-- **C166 does not hold**: a packet whose memo asks both for a contract call and for forwarding, each of which alone would
be carried out, is neither acknowledged nor forwarded nor refused: delivering it panics, every time, until it times out on
the chain it came from. -/
theorem C166_both_violated :
    recvPacket (transferStack toyStack) (toySent ['m']) (0, []) = none ∧
    seen (recvPacket (transferStack toyStack) (toySent ['f']) (0, [])) = some (none, (1, [(['d', 's'], ['u'])])) ∧
    ∃ t, seen (recvPacket (transferStack { toyStack with forwards := fun _ => false }) (toySent ['m']) (0, [])) =
      some (some true, t) ∧ t.2.length = 2 := by
  refine ⟨?_, by decide +kernel, ?_⟩
  · cases h : recvPacket (transferStack toyStack) (toySent ['m']) (0, []) with
    | none => rfl
    | some x =>
      have : (recvPacket (transferStack toyStack) (toySent ['m']) (0, [])).isSome = false := by decide +kernel
      rw [h] at this; cases this
  · have : ((seen (recvPacket (transferStack { toyStack with forwards := fun _ => false }) (toySent ['m']) (0, []))).map
        fun x => (x.1, x.2.2.length)) = some (some true, 2) := by decide +kernel
    revert this
    generalize seen (recvPacket (transferStack { toyStack with forwards := fun _ => false }) (toySent ['m']) (0, [])) = x
    intro h
    cases x with
    | none => cases h
    | some x =>
      obtain ⟨a, t⟩ := x
      simp only [Option.map] at h
      injection h with h
      injection h with h1 h2
      exact ⟨t, by rw [h1], h2⟩

/-- The hypotheses of C166_unanswered_iff hold for the toy chain, and so does its right-hand side for the packet that asks
for both. -/
example : Codecs toyStack ∧ ∃ d msg s', toyStack.hooks.decode20 (toySent ['m']).data = some d ∧
    Asks toyStack.hooks d.memo msg ∧ Allowed toyStack.hooks (0, []) msg.contractAddr ∧ d.receiver = msg.contractAddr ∧
    SendsOn toyStack { toySent ['m'] with data := toyStack.hooks.encode20 (redirected toyStack (toySent ['m']) d) }
      (redirected toyStack (toySent ['m']) d) (0, []) s' :=
  ⟨toy_codecs, (C166_unanswered_iff toyStack toy_codecs (toySent ['m']) (0, [])).1 C166_both_violated.1⟩

end Verif.Props.Stack
