import Verif.Props.Bank
import Verif.Props.Value
/-
C44, C73: exactly who is credited, and exactly when a self-destruct aborts.
-/
namespace Verif.Props.Bank
open Verif Verif.Text Verif.Denom Verif.Tokens Verif.Identity Verif.Bank Verif.Spec.Bank Verif.Spec.Ledger
open Verif.Props.Ledger Verif.Props.Tokens

theorem convert_addr {m m' : Accts} {b : Bytes} {sg : Bool} {a : Addr} (h : convert m b sg = some (a, m')) : a = bytesToAddress b := by
  unfold convert at h
  split at h
  · injection h with h; injection h with h _; exact h.symm
  · simp only at h
    split at h
    · split at h <;> (injection h with h; injection h with h _; exact h.symm)
    · split at h
      · split at h <;> (injection h with h; injection h with h _; exact h.symm)
      · split at h
        · split at h
          · injection h with h; injection h with h _; exact h.symm
          · cases h
        · cases h

/-- **C44 (exactly who is credited).** After a `MsgSend` from `f`, for which the restrictions chose the recipient `r'`, exactly the
account of the last 20 bytes of `r'` has more than before, in exactly the tokens listed, unless it is the account of the last
20 bytes of `f` itself. -/
theorem C44_credited_iff (g : Cfg) (m : MsgSend) (s s' : State) (hd : Deployed s.w (natCoins m.amount)) (h : msgSend g m s = .ok s')
    (f r r' : Bytes) (hf : g.parseAddr m.from_ = some f) (hr : g.parseAddr m.to = some r)
    (ha : Bank.apply g.restr s f r (natCoins m.amount) = some r') (k a : Addr) :
    balanceOf s.w k a < balanceOf s'.w k a ↔
      a = bytesToAddress r' ∧ a ≠ bytesToAddress f ∧ 0 < listed s.w.maps (natCoins m.amount) k := by
  obtain ⟨f0, r0, r0', ef, er, m1, q1, q2, q3, q4, q5, q6, q7, ⟨m2, q8⟩, q9, _⟩ := C44_send_partial g m s s' hd h
  rw [hf] at q1; cases q1
  rw [hr] at q2; cases q2
  rw [ha] at q6; cases q6
  have e1 := convert_addr q7
  have e2 := convert_addr q8
  subst e1; subst e2
  have := q9 k a
  by_cases h1 : a = bytesToAddress r' <;> by_cases h2 : a = bytesToAddress f
  · rw [if_pos h1, if_pos h2] at this
    constructor
    · intro; omega
    · intro h; exact absurd h2 h.2.1
  · rw [if_pos h1, if_neg h2] at this
    constructor
    · intro; exact ⟨h1, h2, by omega⟩
    · intro h; omega
  · rw [if_neg h1, if_pos h2] at this
    constructor
    · intro; omega
    · intro h; exact absurd h.1 h1
  · rw [if_neg h1, if_neg h2] at this
    constructor
    · intro; omega
    · intro h; exact absurd h.1 h1

/-- **C44 (blocked accounts, exactly).** When a `MsgSend` credits a blocked account, the restrictions chose it instead of the
recipient of the message, or the recipient was written as an address of another length than 20 that ends with it, and that
account did not exist, was unused, or was created under that very address. -/
theorem C44_blocked_only (g : Cfg) (m : MsgSend) (s s' : State) (hd : Deployed s.w (natCoins m.amount)) (h : msgSend g m s = .ok s')
    (k a : Addr) (hb : g.blockedAddrs a.bytes = true) (hc : balanceOf s.w k a < balanceOf s'.w k a) :
    ∃ f r r', g.parseAddr m.from_ = some f ∧ g.parseAddr m.to = some r ∧
      Bank.apply g.restr s f r (natCoins m.amount) = some r' ∧ a = bytesToAddress r' ∧
      (r' ≠ r ∨ (r.length ≠ 20 ∧ ∃ m1 : Accts, (∃ ef, convert s.accts f true = some (ef, m1)) ∧
        (m1 a = none ∨ (∃ acc, m1 a = some acc ∧ isEmpty acc = true) ∨ ∃ n, m1 a = some (.shorthand r n)))) := by
  obtain ⟨f, r, r', ef, er, m1, q1, q2, q3, q4, q5, q6, q7, ⟨m2, q8⟩, q9, _⟩ := C44_send_partial g m s s' hd h
  have hi := (C44_credited_iff g m s s' hd h f r r' q1 q2 q6 k a).mp hc
  refine ⟨f, r, r', q1, q2, q6, hi.1, ?_⟩
  by_cases hne : r' = r
  · subst hne
    right
    have hl : r'.length ≠ 20 := by
      intro h20
      have : (bytesToAddress r').bytes = r' := fitBytes_eq 20 r' h20
      rw [hi.1, this, q5] at hb
      cases hb
    refine ⟨hl, m1, ⟨ef, q7⟩, ?_⟩
    rw [hi.1]
    unfold convert at q8
    rw [if_neg hl] at q8
    simp only at q8
    cases hm : m1 (bytesToAddress r') with
    | none => exact .inl rfl
    | some acc =>
      right
      by_cases he : isEmpty acc = true
      · exact .inl ⟨acc, rfl, he⟩
      · right
        rw [hm] at q8
        simp only [he] at q8
        cases acc with
        | shorthand o n =>
          simp only at q8
          by_cases ho : o = r'
          · exact ⟨n, by rw [ho]⟩
          · simp [ho] at q8
        | _ => simp at q8
  · exact .inl hne

/-- A blocked module is credited in both ways. -/
example : ((Res.toOption (msgSend toyCfg ⟨"alice".toList, "long".toList, [(uinit, 30)]⟩ toyState)).map show4) = some [70, 0, 30, 100] ∧
    ((Res.toOption (msgSend redirectCfg ⟨"alice".toList, "bob".toList, [(uinit, 30)]⟩ toyState)).map show4) = some [70, 0, 30, 100] := by
  decide +kernel

end Verif.Props.Bank

namespace Verif.Props.Value
open Verif Verif.Denom Verif.Tokens Verif.Value Verif.Props.Tokens Verif.Props.Ledger

/-- **C73 (exactly when it aborts).** A self-destruct aborts the transaction exactly if the fee token is somebody's own contract and
the contract holds some of it. Without a fee token, or with nothing of it, nothing moves. -/
theorem C73_aborts_iff (c : Chain) (fee : Addr) (w : World) (self ben : Addr) (created : Bool)
    (hs : ∀ s t, w.tokens fee = some (s, t) → Sound t) :
    (destruct c fee w self ben created = none ↔ ∃ t, w.tokens fee = some (false, t) ∧ t.bal self ≠ 0) ∧
    (balanceOf w fee self = 0 → destruct c fee w self ben created = some w) := by
  have h0 : balanceOf w fee self = 0 → destruct c fee w self ben created = some w := by
    intro h
    simp [destruct, getBalance, h, subBalance, addBalance]
  refine ⟨⟨?_, ?_⟩, h0⟩
  · intro h
    cases ht : w.tokens fee with
    | none =>
      rw [h0 (by simp [balanceOf, ht])] at h
      cases h
    | some p =>
      obtain ⟨sd, t⟩ := p
      cases sd with
      | true =>
        obtain ⟨w', _, h1, _⟩ := C73_destruct_partial c fee w t self ben created ht (hs _ _ ht)
        rw [h1] at h; cases h
      | false =>
        refine ⟨t, rfl, fun hb => ?_⟩
        rw [h0 (by simp [balanceOf, ht, hb])] at h
        cases h
  · rintro ⟨t, ht, hb⟩
    exact C73_custom_violated c fee w t self ben created ht hb

/-- **C73 (exactly whom it pays).** With a fee token the chain made, a self-destruct raises the balance of the beneficiary, blocked or
not, exactly if the contract holds some and names another account; of anyone else it raises no balance. -/
theorem C73_pays_iff (c : Chain) (fee : Addr) (w w' : World) (t : Token) (self ben : Addr) (created : Bool)
    (hf : w.tokens fee = some (true, t)) (ht : Sound t) (h : destruct c fee w self ben created = some w') (x : Addr) :
    balanceOf w fee x < balanceOf w' fee x ↔ x = ben ∧ self ≠ ben ∧ 0 < balanceOf w fee self := by
  obtain ⟨w2, t', h1, h2, _, _, _, _, h7⟩ := C73_destruct_partial c fee w t self ben created hf ht
  rw [h] at h1; cases h1
  have e1 : ∀ y, balanceOf w' fee y = t'.bal y := fun y => by simp [balanceOf, h2]
  have e2 : ∀ y, balanceOf w fee y = t.bal y := fun y => by simp [balanceOf, hf]
  rw [e1, e2, e2, h7 x]
  by_cases hx : x = self
  · rw [if_pos hx]
    subst hx
    constructor
    · intro hlt; split at hlt <;> omega
    · rintro ⟨a, b, _⟩; exact absurd a b
  · rw [if_neg hx]
    by_cases hb : x = ben
    · rw [if_pos hb, hb]
      have : self ≠ ben := fun e => hx (hb.trans e.symm)
      constructor
      · intro; exact ⟨rfl, this, by omega⟩
      · intro h; omega
    · rw [if_neg hb]
      constructor
      · intro h; omega
      · intro h; exact absurd h.1 hb

/-- Hypotheses are met: the fee token of the examples is sound, alice has 100 and names a blocked account. -/
example : toyWorld.tokens feeTok = some (true, toyTok) ∧ Sound toyTok ∧
    ((destruct toyChain feeTok toyWorld alice (Addr.ofNat 3) true).map fun w => balanceOf w feeTok (Addr.ofNat 3)) = some 100 :=
  ⟨rfl, toyTok_sound, by decide +kernel⟩

end Verif.Props.Value
