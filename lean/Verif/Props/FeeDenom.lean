import Verif.Model.FeeDenom
import Verif.Props.Value
import Verif.Props.Params
/-
C85: an accepted fee denom works.
-/
namespace Verif.Props.FeeDenom
open Verif Verif.Denom Verif.Tokens Verif.Value Verif.FeeDenom Verif.Spec.Value Verif.Spec.Tokens Verif.Props.Tokens
  Verif.Props.Ledger Verif.Props.Value

/-- A fee token on which the chain can mint and burn, with consistent books. -/
def Usable (w : World) (fee : Addr) : Prop := ∃ t, w.tokens fee = some (true, t) ∧ Sound t

/-- No call of the execution carries value to a blocked account. -/
def PaysNoBlocked (c : Chain) : Prog → Prop
  | .done => True
  | .token _ _ _ k => PaysNoBlocked c k
  | .call _ b v body _ k => (v ≠ 0 → c.blocked b = false) ∧ PaysNoBlocked c body ∧ PaysNoBlocked c k
  | .destruct _ _ _ k => PaysNoBlocked c k

/-- C85: the test accepts exactly the denoms of contracts the chain can mint and burn on (with room for one more unit) -
and the denom of the zero address. -/
theorem C85_test_partial (c : Chain) (w : World) (denom : Str) (hz : w.tokens c.zero = none)
    (hs : ∀ k s t, w.tokens k = some (s, t) → Sound t) :
    feeTest c w denom = true ↔ ∃ fee, denomToContract w.maps denom = some fee ∧
      (fee = c.zero ∨ ∃ t, w.tokens fee = some (true, t) ∧ t.supply + 1 < 2 ^ 256) := by
  unfold feeTest
  cases hd : denomToContract w.maps denom with
  | none => simp
  | some fee =>
    simp only [Option.some.injEq, Bool.and_eq_true, exists_eq_left']
    by_cases e : fee = c.zero
    · subst e
      simp [loadFee, addBalance, subBalance, callToken, hz]
    · rw [loadFee, if_neg e]
      cases ht : w.tokens fee with
      | none => simp [e]
      | some st =>
        obtain ⟨s, t⟩ := st
        have hsd := hs fee s t ht
        cases s with
        | false => simp [e, addBalance, callToken, ht, exec]
        | true =>
          by_cases hr : t.supply + 1 < 2 ^ 256
          · obtain ⟨w1, t1, a1, a2, a3, a4, a5, a6, a7, a8⟩ := add_step (c := c) ht hsd c.chainAddr 1 hr
            obtain ⟨w2, t2, b1, _⟩ := sub_step (c := c) a2 a3 c.chainAddr 1 (by rw [a7]; simp [setB])
            rw [a1, Option.bind_some, b1]
            simp [hr]
          · have : addBalance c fee w c.chainAddr 1 = none := by
              simp only [addBalance, callToken, ht, exec, doMint, addU, if_neg hr]
              simp only [Nat.one_ne_zero, if_false, not_true_eq_false, false_or, ne_eq]
              by_cases hb : t.bal c.chainAddr + 1 < 2 ^ 256
              · simp [hb]
              · simp [hb]
            rw [this]
            simp [hr, e]

theorem token_keeps {c : Chain} {fee caller k : Addr} {call : Call} {w w' : World} (hu : Usable w fee)
    (h : callToken c w caller k call = some w') : Usable w' fee := by
  obtain ⟨t, ht, hs⟩ := hu
  obtain ⟨_, _, _, h4, h5⟩ := callToken_spec h
  by_cases e : fee = k
  · subst e
    rcases h5 with ⟨_, rfl⟩ | ⟨s, t1, t', e1, e2, e3⟩
    · exact ⟨t, ht, hs⟩
    · rw [ht] at e1; cases e1
      exact ⟨t', e3, exec_sound c true caller call t t' e2 hs⟩
  · exact ⟨t, by rw [h4 fee e]; exact ht, hs⟩

theorem transfer_keeps {c : Chain} {fee a b : Addr} {v : Nat} {w w' : World} (hu : Usable w fee)
    (h : transfer c fee w a b v = some w') : Usable w' fee := by
  unfold transfer at h
  by_cases e : v = 0
  · rw [if_pos e] at h; cases h; exact hu
  · rw [if_neg e] at h; exact token_keeps hu h

theorem enter_keeps {c : Chain} {fee a b : Addr} {v : Nat} {w w' : World} (hu : Usable w fee)
    (h : enter c fee w a b v = .paid w') : Usable w' fee := by
  unfold enter at h
  split at h
  · cases h
  · split at h
    · cases h
    · rename_i w1 hw
      cases h
      exact transfer_keeps hu hw

theorem destruct_ok (c : Chain) {fee : Addr} {w : World} (hu : Usable w fee) (self ben : Addr) (created : Bool) :
    ∃ w', destruct c fee w self ben created = some w' ∧ Usable w' fee := by
  obtain ⟨t, ht, hs⟩ := hu
  have hgb : getBalance w fee self = t.bal self := by simp [getBalance, balanceOf, ht]
  obtain ⟨w1, t1, a1, a2, a3, a4, a5, a6, a7, a8, a9⟩ := sub_step (c := c) ht hs self (t.bal self) (Nat.le_refl _)
  have hsup := hs.2
  obtain ⟨w2, t2, b1, b2, b3, b4, b5, b6, b7, b8⟩ := add_step (c := c) a2 a3 ben (t.bal self) (by omega)
  unfold destruct
  simp only [hgb, a1, b1]
  cases created with
  | false => exact ⟨w2, by simp, t2, b2, b3⟩
  | true =>
    have hg2 : getBalance w2 fee self = t2.bal self := by simp [getBalance, balanceOf, b2]
    obtain ⟨w3, t3, d1, d2, d3, _⟩ := sub_step (c := c) b2 b3 self (t2.bal self) (Nat.le_refl _)
    exact ⟨w3, by simp [hg2, d1], t3, d2, d3⟩

theorem burn_ok (c : Chain) {fee : Addr} : ∀ (ds : List Addr) {w : World}, Usable w fee →
    ∃ w', burnDestroyed c fee ds w = some w' ∧ Usable w' fee
  | [], w, hu => ⟨w, rfl, hu⟩
  | a :: rest, w, hu => by
    obtain ⟨t, ht, hs⟩ := hu
    have hgb : getBalance w fee a = t.bal a := by simp [getBalance, balanceOf, ht]
    obtain ⟨w1, t1, a1, a2, a3, _⟩ := sub_step (c := c) ht hs a (t.bal a) (Nat.le_refl _)
    rw [burnDestroyed, hgb, a1]
    exact burn_ok c rest ⟨t1, a2, a3⟩

theorem run_keeps (c : Chain) (fee : Addr) : ∀ (p : Prog) {w w' : World}, Usable w fee → run c fee p w = some w' →
    Usable w' fee
  | .done, w, w', hu, h => by
    simp only [run, Option.some.injEq] at h; subst h; exact hu
  | .token caller k call rest, w, w', hu, h => by
    rw [run] at h
    refine run_keeps c fee rest ?_ h
    cases ht : callToken c w caller k call with
    | none => exact hu
    | some w1 => exact token_keeps hu ht
  | .call a b v body ok k, w, w', hu, h => by
    rw [run] at h
    cases he : enter c fee w a b v with
    | aborted => rw [he] at h; cases h
    | refused => rw [he] at h; exact run_keeps c fee k hu h
    | paid w1 =>
      rw [he] at h
      simp only at h
      cases hb : run c fee body w1 with
      | none => rw [hb] at h; cases h
      | some w2 =>
        rw [hb] at h
        simp only at h
        refine run_keeps c fee k ?_ h
        cases ok with
        | true => exact run_keeps c fee body (enter_keeps hu he) hb
        | false => exact hu
  | .destruct self ben created k, w, w', hu, h => by
    rw [run] at h
    obtain ⟨w1, h1, h2⟩ := destruct_ok c hu self ben created
    rw [h1] at h
    exact run_keeps c fee k h2 h

theorem run_ok (c : Chain) (fee : Addr) (hz : fee ≠ c.zero) : ∀ (p : Prog) {w : World}, Usable w fee →
    PaysNoBlocked c p → ∃ w', run c fee p w = some w' ∧ Usable w' fee
  | .done, w, hu, _ => ⟨w, rfl, hu⟩
  | .token caller k call rest, w, hu, hp => by
    rw [run]
    refine run_ok c fee hz rest ?_ hp
    cases ht : callToken c w caller k call with
    | none => exact hu
    | some w1 => exact token_keeps hu ht
  | .call a b v body ok k, w, hu, hp => by
    obtain ⟨p1, p2, p3⟩ := hp
    rw [run]
    cases he : enter c fee w a b v with
    | aborted =>
      by_cases hv : v = 0
      · subst hv; rw [C72_zero] at he; cases he
      · obtain ⟨t, ht, hs⟩ := hu
        have := ((C72_exact_partial c fee w true t a b v hz ht hs hv).2.1.1 he).2
        rw [p1 hv] at this; cases this
    | refused => exact run_ok c fee hz k hu p3
    | paid w1 =>
      obtain ⟨w2, h2, u2⟩ := run_ok c fee hz body (enter_keeps hu he) p2
      simp only [h2]
      refine run_ok c fee hz k ?_ p3
      cases ok with
      | true => exact u2
      | false => exact hu
  | .destruct self ben created k, w, hu, hp => by
    rw [run]
    obtain ⟨w1, h1, h2⟩ := destruct_ok c hu self ben created
    rw [h1]
    exact run_ok c fee hz k h2 hp

theorem message_keeps (c : Chain) (fee : Addr) {p : Prog} {ds : List Addr} {w w' : World} (hu : Usable w fee)
    (h : message c fee p ds w = some w') : Usable w' fee := by
  unfold message at h
  cases hr : run c fee p w with
  | none => rw [hr] at h; cases h
  | some w1 =>
    rw [hr] at h
    obtain ⟨w2, h2, u2⟩ := burn_ok c ds (run_keeps c fee p hu hr)
    simp only [h2] at h
    cases h; exact u2

theorem history_keeps (c : Chain) (fee : Addr) : ∀ (ms : List (Prog × List Addr)) {w : World}, Usable w fee →
    Usable (history c fee ms w) fee
  | [], _, hu => hu
  | (p, ds) :: rest, w, hu => by
    rw [history]
    refine history_keeps c fee rest ?_
    cases h : message c fee p ds w with
    | none => exact hu
    | some w1 => exact message_keeps c fee hu h

/-- C85: once an update to a fee denom (other than the zero address) is accepted, then after every further history of
messages by arbitrary contract code: an execution that sends no value to a blocked account is never aborted, whatever
it calls, transfers and destroys; whatever anybody holds can be taken, and given while the supply has room. -/
theorem C85_works_partial {K : Type} (c : Chain) (w : World) (e : TxUtils.Env K) (authority sender : Str)
    (new q : Params.Params) (fee : Addr) (hu : update c w e authority sender new = some q)
    (hd : denomToContract w.maps q.feeDenom = some fee) (hz : fee ≠ c.zero) (hzero : w.tokens c.zero = none)
    (hs : ∀ k s t, w.tokens k = some (s, t) → Sound t) (ms : List (Prog × List Addr)) :
    (∀ p ds, PaysNoBlocked c p → (message c fee p ds (history c fee ms w)).isSome) ∧
    (∀ a n, n ≤ balanceOf (history c fee ms w) fee a → (subBalance c fee (history c fee ms w) a n).isSome) ∧
    (∀ a n, supplyOf (history c fee ms w) fee + n < 2 ^ 256 → (addBalance c fee (history c fee ms w) a n).isSome) := by
  have hq := (Verif.Props.Params.C32_update e authority (fun p => feeTest c w p.feeDenom) sender new _ hu.symm)
  have hnew := hq.2 q rfl
  subst hnew
  have hft := (hq.1.1 rfl).2.1
  obtain ⟨fee', h1, h2⟩ := (C85_test_partial c w q.feeDenom hzero hs).1 hft
  rw [hd] at h1; cases h1
  have hus : Usable w fee := by
    rcases h2 with h2 | ⟨t, h2, _⟩
    · exact absurd h2 hz
    · exact ⟨t, h2, hs _ _ _ h2⟩
  have hh := history_keeps c fee ms hus
  refine ⟨fun p ds hp => ?_, fun a n hn => ?_, fun a n hn => ?_⟩
  · obtain ⟨w1, r1, u1⟩ := run_ok c fee hz p hh hp
    obtain ⟨w2, r2, _⟩ := burn_ok c ds u1
    simp [message, r1, r2]
  · obtain ⟨t, ht, hst⟩ := hh
    obtain ⟨w1, _, r, _⟩ := sub_step (c := c) ht hst a n (by simpa [balanceOf, ht] using hn)
    simp [r]
  · obtain ⟨t, ht, hst⟩ := hh
    obtain ⟨w1, _, r, _⟩ := add_step (c := c) ht hst a n (by simpa [supplyOf, ht] using hn)
    simp [r]

/-- C85: a denom of a token without `sudoMint`/`sudoBurn`, or of no contract at all, is refused. -/
theorem C85_refuses {K : Type} (c : Chain) (w : World) (e : TxUtils.Env K) (authority sender : Str) (new : Params.Params)
    (h : denomToContract w.maps new.feeDenom = none ∨ ∃ fee, denomToContract w.maps new.feeDenom = some fee ∧ fee ≠ c.zero ∧
      (w.tokens fee = none ∨ ∃ t, w.tokens fee = some (false, t))) :
    update c w e authority sender new = none := by
  have hf : feeTest c w new.feeDenom = false := by
    unfold feeTest
    rcases h with h | ⟨fee, h1, h2, h3 | ⟨t, h3⟩⟩
    · rw [h]
    · rw [h1]; simp [loadFee, h2, h3]
    · rw [h1]; simp [loadFee, h2, h3, addBalance, callToken, exec]
  simp [update, Params.updateParams, hf]

/-- The denom of the zero address. -/
def zeroDenom : Str := "evm/0000000000000000000000000000000000000000".toList

/-- C85 is false of the code as it is: the denom of the zero address passes the test, whatever the tokens of the chain
(minting at an account without code does nothing, successfully, and the decimals of the zero address are not asked).
With it every call that carries value is refused from then on. -/
theorem C85_zero_violated (c : Chain) (w : World) (hc : c.zero = Addr.zero) (hz : w.tokens c.zero = none) :
    denomToContract w.maps zeroDenom = some c.zero ∧ feeTest c w zeroDenom = true ∧
    ∀ a b v, v ≠ 0 → enter c c.zero w a b v = .refused := by
  have hd : denomToContract w.maps zeroDenom = some c.zero := by
    rw [hc]
    have h1 : isERC20Denom zeroDenom = true := by decide +kernel
    have h2 : Text.isHexAddress (zeroDenom.drop 4) = true := by decide +kernel
    have h3 : Text.hexToAddress (zeroDenom.drop 4) = Addr.zero := by decide +kernel
    simp only [denomToContract, h1, h2, h3, if_true]
  refine ⟨hd, ?_, fun a b v hv => C72_nofee c c.zero w a b v hv (.inl rfl)⟩
  unfold feeTest
  rw [hd]
  simp [loadFee, addBalance, subBalance, callToken, hz]

/-- Hypotheses are met: the update to the chain's own token is accepted, to somebody's own token refused, to the zero
address accepted. -/
theorem C85_case :
    update toyChain toyWorld (Verif.Props.TxUtils.toyEnv 18) ['g'] ['g'] { Verif.Props.Params.toyP with feeDenom := uinit } =
      some { Verif.Props.Params.toyP with feeDenom := uinit } ∧
    update toyChain toyWorld (Verif.Props.TxUtils.toyEnv 18) ['g'] ['g'] { Verif.Props.Params.toyP with feeDenom := evm60 } = none ∧
    update toyChain toyWorld (Verif.Props.TxUtils.toyEnv 18) ['g'] ['g'] { Verif.Props.Params.toyP with feeDenom := zeroDenom } =
      some { Verif.Props.Params.toyP with feeDenom := zeroDenom } ∧
    toyWorld.tokens toyChain.zero = none ∧ (∀ k s t, toyWorld.tokens k = some (s, t) → Sound t) := by
  refine ⟨by decide +kernel, by decide +kernel, by decide +kernel, by decide +kernel, fun k s t h => ?_⟩
  simp only [toyWorld] at h
  split at h
  · cases h; exact toyTok_sound
  · split at h
    · cases h; exact toyTok_sound
    · cases h

end Verif.Props.FeeDenom
