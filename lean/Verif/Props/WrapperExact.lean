import Verif.Props.Wrapper
/-
C49: when the wrapper accepts, and what it remembers.
-/
namespace Verif.Props.Wrapper
open Verif Verif.Tokens Verif.Wrapper Verif.Spec.Wrapper Verif.Spec.Tokens Verif.Props.Tokens Verif.Props.Ledger

/-! ### The records -/

theorem create_cbs {e : Env} {o a : Addr} {d : Nat} {s s' : WS} (h : create e o d s = some (s', a)) :
    s'.cbs = s.cbs ∧ s'.cbId = s.cbId := by
  unfold create at h
  simp only at h
  split at h
  · cases h
  · cases h; exact ⟨rfl, rfl⟩

theorem ensure_cbs {e : Env} {t : Addr} {s s' : WS} (h : ensureWrapped e t s = some s') :
    s'.cbs = s.cbs ∧ s'.cbId = s.cbId := by
  unfold ensureWrapped at h
  split at h
  · cases h; exact ⟨rfl, rfl⟩
  · split at h
    · cases h
    · split at h
      · cases h
      · rename_i s1 w hc
        cases h
        have := create_cbs hc
        exact this

theorem wrap_cbs {e : Env} {u t : Addr} {n : Nat} {s s' : WS} (h : wrap e u t n s = some s') :
    s.cbId + 1 < 18446744073709551616 ∧ s'.cbId = s.cbId + 1 ∧
      ∃ w wa, s'.cbs = fun i => if i = s.cbId + 1 then some (u, w, wa) else s.cbs i := by
  unfold wrap at h
  split at h
  · cases h
  · rename_i s1 he
    obtain ⟨e1, e2⟩ := ensure_cbs he
    split at h
    · cases h
    · split at h
      · cases h
      · rename_i wa hwa
        split at h
        · cases h
        · rename_i w hw
          split at h
          · cases h
          · by_cases hl : s1.cbId + 1 < 18446744073709551616
            · rw [if_pos hl] at h
              cases h
              rw [← e1, ← e2]
              exact ⟨hl, rfl, w, wa, rfl⟩
            · rw [if_neg hl] at h; cases h

theorem unwrap_cbs {e : Env} {u w r : Addr} {n : Nat} {s s' : WS} (h : unwrap e u w r n s = some s') :
    s'.cbs = s.cbs ∧ s'.cbId = s.cbId := by
  unfold unwrap at h
  split at h
  · cases h
  · split at h
    · cases h
    · split at h
      · cases h
      · split at h
        · cases h
        · cases h; exact ⟨rfl, rfl⟩

theorem step_cbs {e : Env} {n : Bool} {s s' : WS} (h : Step e n s s') :
    (s'.cbs = s.cbs ∧ s'.cbId = s.cbId) ∨
    (s.cbId + 1 < 18446744073709551616 ∧ s'.cbId = s.cbId + 1 ∧
      ∃ r, s'.cbs = fun i => if i = s.cbId + 1 then some r else s.cbs i) := by
  cases h with
  | wrap u t a s' _ _ h =>
    obtain ⟨h1, h2, w, wa, h3⟩ := wrap_cbs h
    exact .inr ⟨h1, h2, _, h3⟩
  | unwrap u w r wa s' _ h => exact .inl (unwrap_cbs h)
  | failed u id s' h =>
    left
    unfold failedTransfer at h
    split at h
    · cases h
    · exact unwrap_cbs h
  | other c a call ts' _ _ _ => exact .inl ⟨rfl, rfl⟩
  | create o a d s' h => exact .inl (create_cbs h)

/-- **C49, records.** In every history, also with wrapped tokens wrapped again: the identifiers of recorded transfers are exactly
1, 2, ..., the number of transfers so far, which fits in 64 bits (the wrap that would exceed them is rejected). -/
theorem C49_records (e : Env) (n : Bool) (s0 s : WS) (hs : Start e s0) (h0 : s0.cbId = 0) (h : Reach e n s0 s) :
    s.cbId < 18446744073709551616 ∧ ∀ i, (s.cbs i).isSome = true ↔ 0 < i ∧ i ≤ s.cbId := by
  induction h with
  | init =>
    refine ⟨by rw [h0]; decide, fun i => ?_⟩
    rw [hs.cbs i, h0]
    simp
    omega
  | step s s' _ hst ih =>
    rcases step_cbs hst with ⟨e1, e2⟩ | ⟨hl, e2, r, e1⟩
    · rw [e1, e2]; exact ih
    · rw [e1, e2]
      refine ⟨hl, fun i => ?_⟩
      simp only
      by_cases hi : i = s.cbId + 1
      · rw [if_pos hi]; simp; omega
      · rw [if_neg hi, ih.2 i]; omega

/-- **C49, records stay.** A recorded transfer is never changed and never removed, whatever happens afterwards: not by another
wrap, and not by its own refund either, so that the same failed transfer can be refunded again (`C49_callback`). -/
theorem C49_records_stay (e : Env) (n : Bool) (s0 s s' : WS) (hs : Start e s0) (h0 : s0.cbId = 0) (h : Reach e n s0 s)
    (h' : Reach e n s s') (i : Nat) (r : Addr × Addr × Nat) (hi : s.cbs i = some r) :
    s'.cbs i = some r ∧ s.cbId ≤ s'.cbId := by
  have hle : i ≤ s.cbId := ((C49_records e n s0 s hs h0 h).2 i).1 (by rw [hi]; rfl) |>.2
  induction h' with
  | init => exact ⟨hi, Nat.le_refl _⟩
  | step t t' _ hst ih =>
    rcases step_cbs hst with ⟨e1, e2⟩ | ⟨_, e2, r', e1⟩
    · rw [e1, e2]; exact ih
    · rw [e1, e2]
      refine ⟨?_, Nat.le_succ_of_le ih.2⟩
      simp only
      rw [if_neg (by have := ih.2; omega)]
      exact ih.1

/-! ### When a wrap is accepted -/

theorem convert_lt {a d wa : Nat} (ha : a < 2 ^ 256) (h : convertDecimal a d 6 = some wa) : wa < 2 ^ 256 := by
  unfold convertDecimal at h
  split at h
  · cases h
  · rename_i v hv
    split at h
    · cases h
    · cases h
      unfold scale at hv
      split at hv
      · cases hp : pow10 (d - 6) with
        | none => rw [hp] at hv; cases hv
        | some f =>
          rw [hp] at hv
          cases hv
          exact Nat.lt_of_le_of_lt (Nat.div_le_self _ _) ha
      · split at hv
        · cases hp : pow10 (6 - d) with
          | none => rw [hp] at hv; cases hv
          | some f =>
            rw [hp] at hv
            simp only [mulU] at hv
            split at hv
            · cases hv; assumption
            · cases hv
        · cases hv; exact ha

theorem exec_transferFrom_iff (c : Chain) (b : Bool) (caller s r : Addr) (n : Nat) (t : Token) (ht : Sound t) :
    (∃ t', exec c b caller (.transferFrom s r n) t = some t') ↔
      c.blocked r = false ∧ n ≤ t.allow s caller ∧ n ≤ t.bal s := by
  simp only [exec]
  cases hb : c.blocked r with
  | true => simp
  | false =>
    simp only [Bool.false_eq_true, if_false, true_and]
    unfold spendAllowance subU
    by_cases ha : n ≤ t.allow s caller
    · rw [if_pos ha]
      simp only [ha, true_and]
      constructor
      · rintro ⟨t', h⟩
        by_cases hbal : n ≤ t.bal s
        · exact hbal
        · unfold doTransfer subU at h
          simp only [hbal, if_false] at h
          cases h
      · intro hbal
        exact doTransfer_accepts { t with allow := set2 t.allow s caller (t.allow s caller - n) } ht s r n hbal
    · rw [if_neg ha]
      simp [ha]

theorem exec_mint_iff (c : Chain) (b : Bool) (caller r : Addr) (n : Nat) (t : Token) (ht : Sound t) :
    (∃ t', exec c b caller (.mint r n) t = some t') ↔
      c.blocked r = false ∧ caller = t.owner ∧ t.supply + n < 2 ^ 256 := by
  have hle : t.bal r ≤ t.supply := (sumsTo_set ht.1 r 0).1
  simp only [exec]
  cases hb : c.blocked r with
  | true => simp
  | false =>
    simp only [Bool.false_eq_true, if_false, true_and]
    by_cases ho : caller = t.owner
    · rw [if_neg (fun h => h ho)]
      simp only [ho, true_and]
      unfold doMint addU
      by_cases hs : t.supply + n < 2 ^ 256
      · rw [if_pos hs, if_pos (by omega)]
        simp only [hs, iff_true]
        exact ⟨_, rfl⟩
      · rw [if_neg hs]
        simp [hs]
    · rw [if_pos ho]
      simp [ho]

theorem solCall_iff {c : Chain} {ts : Addr → Option (Bool × Token)} {caller a : Addr} {call : Call} :
    (∃ ts', solCall c ts caller a call = some ts') ↔
      ∃ b t, ts a = some (b, t) ∧ ∃ t', exec c b caller call t = some t' := by
  constructor
  · rintro ⟨ts', h⟩
    obtain ⟨b, t, t', h1, h2, _⟩ := solCall_some h
    exact ⟨b, t, h1, t', h2⟩
  · rintro ⟨b, t, h1, t', h2⟩
    exact ⟨upd ts a (b, t'), by unfold solCall; rw [h1]; simp only; rw [h2]⟩

/-- **C49, which wraps are accepted.** In every history without nested wraps: a wrap of a token that is no wrapped token itself
is accepted exactly if the token exists, its decimals and the amount convert to a nonzero number of wrapped units, the caller holds
the amount and has approved it to the wrapper, the wrapper may receive tokens, the wrapped supply stays within 256 bits (or, for
the first wrap, the factory's next address is free), and fewer than 2^64 - 1 transfers have been recorded. -/
theorem C49_wrap_iff (e : Env) (hchain : e.self ≠ e.chain.chainAddr) (s0 s : WS) (hs : Start e s0)
    (h : Reach e false s0 s) (user token : Addr) (amount : Nat) (hn : s.origin token = none) :
    (∃ s', wrap e user token amount s = some s') ↔
      ∃ b t wa, s.ts token = some (b, t) ∧ amount ≤ t.bal user ∧ amount ≤ t.allow user e.self ∧
        e.chain.blocked e.self = false ∧ convertDecimal amount (s.dec token) 6 = some wa ∧
        s.cbId + 1 < 18446744073709551616 ∧
        (s.wrapped token = none → s.ts (e.deployed s.nonce) = none) ∧
        (∀ w b2 t2, s.wrapped token = some w → s.ts w = some (b2, t2) → t2.supply + wa < 2 ^ 256) := by
  have hi := reach_inv hchain hs h
  -- the two calls, from the state with the wrapped token
  have key : ∀ (s1 : WS) (w : Addr), Inv e s1 → s1.wrapped token = some w → s1.cbId = s.cbId →
      ensureWrapped e token s = some s1 →
      ((∃ s', wrap e user token amount s = some s') ↔
        ∃ b t wa b2 t2, s1.ts token = some (b, t) ∧ s1.ts w = some (b2, t2) ∧ amount ≤ t.bal user ∧
          amount ≤ t.allow user e.self ∧ e.chain.blocked e.self = false ∧
          convertDecimal amount (s1.dec token) 6 = some wa ∧ s.cbId + 1 < 18446744073709551616 ∧
          t2.supply + wa < 2 ^ 256) := by
    intro s1 w i1 hw hid hen
    have hwo := i1.fwd _ _ hw
    obtain ⟨b2, t2, b1, t1, l1, l2, l3, _⟩ := i1.live w token hwo
    have hne : w ≠ token := by rintro rfl; have := i1.flat _ _ hwo; rw [hwo] at this; cases this
    have x1 := exec_transferFrom_iff e.chain b1 e.self user e.self amount t1 (i1.sound _ _ _ l2)
    constructor
    · rintro ⟨s', hh⟩
      unfold wrap at hh
      rw [hen] at hh
      simp only at hh
      split at hh
      · cases hh
      · rename_i ts2 hc1
        obtain ⟨b1', t1', t1'', k1, k2, rfl⟩ := solCall_some hc1
        rw [l2] at k1; cases k1
        have y1 := x1.1 ⟨_, k2⟩
        split at hh
        · cases hh
        · rename_i wa hwa
          rw [hw] at hh
          simp only at hh
          split at hh
          · cases hh
          · rename_i ts3 hc2
            obtain ⟨b2', t2', t2'', k3, k4, rfl⟩ := solCall_some hc2
            simp only [upd, if_neg hne] at k3
            rw [l1] at k3; cases k3
            have y2 := (exec_mint_iff e.chain b2 e.self e.self wa t2 (i1.sound _ _ _ l1)).1 ⟨_, k4⟩
            by_cases hl : s1.cbId + 1 < 18446744073709551616
            · exact ⟨b1, t1, wa, b2, t2, l2, l1, y1.2.2, y1.2.1, y1.1, hwa, by omega, y2.2.2⟩
            · rw [if_neg hl] at hh; cases hh
    · rintro ⟨b, t, wa, b2', t2', g1, g2, g3, g4, g5, g6, g7, g8⟩
      rw [l2] at g1; cases g1
      rw [l1] at g2; cases g2
      obtain ⟨t1', k1⟩ := x1.2 ⟨g5, g4, g3⟩
      obtain ⟨t2', k2⟩ := (exec_mint_iff e.chain b2 e.self e.self wa t2 (i1.sound _ _ _ l1)).2 ⟨g5, l3.symm, g8⟩
      have c1 : solCall e.chain s1.ts e.self token (.transferFrom user e.self amount) = some (upd s1.ts token (b1, t1')) := by
        unfold solCall; rw [l2]; simp only; rw [k1]
      have c2 : solCall e.chain (upd s1.ts token (b1, t1')) e.self w (.mint e.self wa) =
          some (upd (upd s1.ts token (b1, t1')) w (b2, t2')) := by
        have : upd s1.ts token (b1, t1') w = some (b2, t2) := by simp only [upd]; rw [if_neg hne]; exact l1
        unfold solCall; rw [this]; simp only; rw [k2]
      unfold wrap
      rw [hen]; simp only; rw [c1]; simp only; rw [g6]; simp only; rw [hw]; simp only; rw [c2]; simp only
      rw [if_pos (by omega)]
      exact ⟨_, rfl⟩
  cases hw : s.wrapped token with
  | some w =>
    have hen : ensureWrapped e token s = some s := by unfold ensureWrapped; rw [hw]
    rw [key s w hi hw rfl hen]
    have hwo := hi.fwd _ _ hw
    obtain ⟨b2, t2, b1, t1, l1, l2, l3, _⟩ := hi.live w token hwo
    constructor
    · rintro ⟨b, t, wa, b2', t2', g1, g2, g3, g4, g5, g6, g7, g8⟩
      refine ⟨b, t, wa, g1, g3, g4, g5, g6, g7, by simp, ?_⟩
      intro w' b3 t3 hw' ht3
      cases hw'
      rw [g2] at ht3; cases ht3; exact g8
    · rintro ⟨b, t, wa, g1, g3, g4, g5, g6, g7, _, g8⟩
      exact ⟨b, t, wa, b2, t2, g1, l1, g3, g4, g5, g6, g7, g8 w b2 t2 rfl l1⟩
  | none =>
    cases ht : s.ts token with
    | none =>
      have hen : ensureWrapped e token s = none := by unfold ensureWrapped; rw [hw]; simp [ht]
      constructor
      · rintro ⟨s', hh⟩; unfold wrap at hh; rw [hen] at hh; cases hh
      · rintro ⟨b, t, wa, g1, _⟩; cases g1
    | some bt =>
      obtain ⟨b, t⟩ := bt
      cases hd : s.ts (e.deployed s.nonce) with
      | some x =>
        have hen : ensureWrapped e token s = none := by
          unfold ensureWrapped create; rw [hw]; simp [ht, hd]
        constructor
        · rintro ⟨s', hh⟩; unfold wrap at hh; rw [hen] at hh; cases hh
        · rintro ⟨b, t, wa, _, _, _, _, _, _, g, _⟩; cases g rfl
      | none =>
        have hne : token ≠ e.deployed s.nonce := by rintro hc; rw [← hc, ht] at hd; cases hd
        have hen : ∃ s1, ensureWrapped e token s = some s1 ∧ s1.wrapped token = some (e.deployed s.nonce) ∧
            s1.ts token = some (b, t) ∧ s1.ts (e.deployed s.nonce) = some (true, Token.fresh e.self) ∧
            s1.dec token = s.dec token := by
          unfold ensureWrapped create; rw [hw]; simp only [ht, hd]
          refine ⟨_, rfl, ?_, ?_, ?_, ?_⟩
          · simp
          · simp only [upd]; rw [if_neg hne]; exact ht
          · simp [upd]
          · simp only; rw [if_neg hne]
        obtain ⟨s1, hen, q1, q2, q3, q4⟩ := hen
        rw [key s1 _ (inv_ensure hi hn hen).1 q1 (ensure_cbs hen).2 hen]
        constructor
        · rintro ⟨b', t', wa, b2', t2', g1, g2, g3, g4, g5, g6, g7, g8⟩
          rw [q2] at g1; cases g1
          rw [q4] at g6
          exact ⟨b, t, wa, rfl, g3, g4, g5, g6, g7, by simp, by simp⟩
        · rintro ⟨b', t', wa, g1, g3, g4, g5, g6, g7, _, _⟩
          cases g1
          have hsd := hi.sound token _ _ ht
          have hbal : t.bal user ≤ t.supply := (sumsTo_set hsd.1 user 0).1
          have hwa := convert_lt (Nat.lt_of_le_of_lt g3 (Nat.lt_of_le_of_lt hbal hsd.2)) g6
          refine ⟨b, t, wa, true, Token.fresh e.self, q2, q3, g3, g4, g5, by rw [q4]; exact g6, g7, ?_⟩
          have : (Token.fresh e.self).supply = 0 := rfl
          omega

theorem exec_burnFrom_iff (c : Chain) (b : Bool) (caller f : Addr) (n : Nat) (t : Token) (ht : Sound t) :
    (∃ t', exec c b caller (.burnFrom f n) t = some t') ↔
      c.isModule f = false ∧ n ≤ t.allow f caller ∧ n ≤ t.bal f := by
  have hle : t.bal f ≤ t.supply := (sumsTo_set ht.1 f 0).1
  simp only [exec]
  cases hb : c.isModule f with
  | true => simp
  | false =>
    simp only [Bool.false_eq_true, if_false, true_and]
    unfold spendAllowance subU
    by_cases ha : n ≤ t.allow f caller
    · rw [if_pos ha]
      simp only [ha, true_and]
      unfold doBurn subU
      by_cases hbal : n ≤ t.bal f
      · simp only [hbal, if_true, iff_true]
        rw [if_pos (by omega)]
        exact ⟨_, rfl⟩
      · simp [hbal]
    · rw [if_neg ha]
      simp [ha]

/-- **C49, which redemptions are accepted.** In every history without nested wraps: an unwrap of `wa` units is accepted exactly if
the token is a wrapped one, the caller is no module account, holds the units and has approved them to the wrapper, the units
convert to a nonzero amount of the origin token that fits in 256 bits, and the receiver may receive tokens. The locked funds never
are a reason to refuse. -/
theorem C49_unwrap_iff (e : Env) (hchain : e.self ≠ e.chain.chainAddr) (s0 s : WS) (hs : Start e s0)
    (h : Reach e false s0 s) (u w r : Addr) (wa : Nat) :
    (∃ s', unwrap e u w r wa s = some s') ↔
      ∃ o b t amount, s.origin w = some o ∧ s.ts w = some (b, t) ∧ e.chain.isModule u = false ∧ wa ≤ t.bal u ∧
        wa ≤ t.allow u e.self ∧ convertDecimal wa 6 (s.dec o) = some amount ∧ e.chain.blocked r = false := by
  have hi := reach_inv hchain hs h
  constructor
  · rintro ⟨s', hh⟩
    unfold unwrap at hh
    split at hh
    · cases hh
    · rename_i o ho
      split at hh
      · cases hh
      · rename_i ts1 hc1
        obtain ⟨b, t, t', k1, k2, rfl⟩ := solCall_some hc1
        have y := (exec_burnFrom_iff e.chain b e.self u wa t (hi.sound _ _ _ k1)).1 ⟨_, k2⟩
        split at hh
        · cases hh
        · rename_i amount ham
          split at hh
          · cases hh
          · rename_i ts2 hc2
            obtain ⟨b2, t2, t2', k3, k4, rfl⟩ := solCall_some hc2
            refine ⟨o, b, t, amount, ho, k1, y.1, y.2.2, y.2.1, ham, ?_⟩
            simp only [exec] at k4
            cases hb : e.chain.blocked r with
            | false => rfl
            | true => rw [hb] at k4; simp at k4
  · rintro ⟨o, b, t, amount, g1, g2, g3, g4, g5, g6, g7⟩
    obtain ⟨s', _, _, _, _, h1, _⟩ := C49_redeem e hchain s0 s hs h w o u r b t wa amount g1 g2 g4 g5 g3 g7 g6
    exact ⟨s', h1⟩

/-- Concrete: after alice's wrap (100 of a token with 6 decimals) there is one record, bob, who received the wrapped tokens and
approved them, can redeem 40 of them but not 101, and cannot wrap what he does not hold. -/
example : ws1.cbId = 1 ∧ (ws1.cbs 1).isSome = true ∧ (unwrap toyW bob (Addr.ofNat 30) bob 40 ws2).isSome = true ∧
    (unwrap toyW bob (Addr.ofNat 30) bob 101 ws2).isSome = false ∧
    (wrap toyW bob (Addr.ofNat 50) 1 ws2).isSome = false := by decide +kernel

end Verif.Props.Wrapper
