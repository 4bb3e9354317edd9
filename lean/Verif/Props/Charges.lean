import Verif.Spec.Charges
import Verif.Props.Safe
import Verif.Props.Pipeline
/-
C100: what a transaction can cost, on the token ledger.
-/
namespace Verif.Props.Charges
open Verif Verif.Text Verif.Denom Verif.Tokens Verif.Identity Verif.Bank Verif.Books Verif.Charges Verif.Fees
open Verif.Spec.Tokens Verif.Spec.Ledger Verif.Spec.Value Verif.Spec.Books Verif.Spec.Safe Verif.Spec.Charges
open Verif.Props.Tokens Verif.Props.Ledger Verif.Props.Registry Verif.Props.Value Verif.Props.Bank Verif.Props.Books
open Verif.Props.Safe

/-! ### Signing -/

theorem sign_holder {A : Bytes} {x : Addr} {m : Accts} (h : Holder A x m) (a : Bytes × Nat) : Holder A x (sign m a) := by
  unfold sign
  split
  · split
    · rename_i pk n hm
      obtain ⟨acc, h1, h2⟩ := h
      by_cases hx : x = bytesToAddress a.1
      · subst hx
        refine ⟨.plain true a.2, by simp [put], .inr ?_⟩
        rw [hm] at h1
        cases h1
        rcases h2 with ⟨_, _, h⟩ | ⟨hA, _, _⟩
        · cases h
        · exact ⟨hA, rfl, fun _ _ h => by cases h⟩
      · exact ⟨acc, by simp only [put, if_neg hx]; exact h1, h2⟩
    · exact h
  · exact h

theorem signs_holder {A : Bytes} {x : Addr} : ∀ (l : List (Bytes × Nat)) (m : Accts), Holder A x m →
    Holder A x (l.foldl sign m) := by
  intro l
  induction l with
  | nil => intro m h; exact h
  | cons a rest ih => intro m h; exact ih _ (sign_holder h a)

/-! ### One transaction -/

theorem run_cases (c : Conf) (t : CTx) (s : State) :
    (run c t s = (.rejected, s)) ∨
    (∃ s1, doTx c.g (feeActs c t) s = some s1 ∧ run c t s = (.failed, signAll t.signers s1) ∧ t.gas ≠ 0) ∨
    (∃ s1 s2, doTx c.g (feeActs c t) s = some s1 ∧ doTx c.g (t.acts ++ refundActs c t) (signAll t.signers s1) = some s2 ∧
      run c t s = (.ok, s2) ∧ t.used ≤ t.gas ∧ t.gas ≠ 0) := by
  unfold run
  by_cases h0 : (t.gas = 0 || !c.checks t s) = true
  · rw [if_pos h0]; exact .inl rfl
  · rw [if_neg h0]
    have hg : t.gas ≠ 0 := by simp at h0; exact h0.1
    cases h1 : doTx c.g (feeActs c t) s with
    | none => exact .inl rfl
    | some s1 =>
      right
      simp only
      by_cases hu : t.gas < t.used
      · rw [if_pos hu]; exact .inl ⟨s1, rfl, rfl, hg⟩
      · rw [if_neg hu]
        cases h2 : doTx c.g (t.acts ++ refundActs c t) (signAll t.signers s1) with
        | none => exact .inl ⟨s1, rfl, rfl, hg⟩
        | some s2 => exact .inr ⟨s1, s2, rfl, h2, rfl, by omega, hg⟩

theorem fee_foreign (c : Conf) (t : CTx) (A : Bytes) (x : Addr) : ∀ a ∈ feeActs c t, Foreign c.g A x a := by
  intro a ha
  unfold feeActs at ha
  split at ha
  · cases ha
  · simp only [List.mem_singleton] at ha; subst ha; exact trivial

theorem refund_foreign (c : Conf) (t : CTx) (A : Bytes) (x : Addr) : ∀ a ∈ refundActs c t, Foreign c.g A x a := by
  intro a ha
  unfold refundActs at ha
  split at ha
  · cases ha
  · split at ha
    · cases ha
    · simp only [List.mem_singleton] at ha; subst ha; exact trivial

theorem fee_quiet (c : Conf) (t : CTx) : ((feeActs c t).map creations).sum = 0 ∧
    (∀ d, issued d (feeActs c t) = 0 ∧ redeemed d (feeActs c t) = 0) ∧
    ∀ a ∈ feeActs c t, NoCode a := by
  unfold feeActs
  split
  · exact ⟨rfl, fun d => ⟨rfl, rfl⟩, fun _ h => by cases h⟩
  · refine ⟨rfl, fun d => ⟨rfl, rfl⟩, fun a h => ?_⟩
    simp only [List.mem_singleton] at h; subst h; exact trivial

theorem refund_quiet (c : Conf) (t : CTx) : ((refundActs c t).map creations).sum = 0 ∧
    (∀ d, issued d (refundActs c t) = 0 ∧ redeemed d (refundActs c t) = 0) ∧
    ∀ a ∈ refundActs c t, NoCode a := by
  unfold refundActs
  split
  · exact ⟨rfl, fun d => ⟨rfl, rfl⟩, fun _ h => by cases h⟩
  · split
    · exact ⟨rfl, fun d => ⟨rfl, rfl⟩, fun _ h => by cases h⟩
    · refine ⟨rfl, fun d => ⟨rfl, rfl⟩, fun a h => ?_⟩
      simp only [List.mem_singleton] at h; subst h; exact trivial

theorem listed_all_zero (m : Maps) : ∀ (l : Bank.Coins) (k : Addr), l.all (fun x => x.2 == 0) = true → listed m l k = 0 := by
  intro l
  induction l with
  | nil => intro k _; rfl
  | cons a rest ih =>
    intro k h
    simp only [List.all_cons, Bool.and_eq_true, beq_iff_eq] at h
    rw [listed_cons, ih k h.2, h.1]
    simp

/-- The account charged is the one that should bear the fee. -/
theorem charged (t : CTx) : t.feeFrom = bearer t := by
  unfold CTx.feeFrom bearer refundTo
  cases t.granter <;> rfl

/-- The fee act takes the fee from its payer. -/
theorem fee_takes (c : Conf) (t : CTx) (A : Bytes) (x : Addr) (m : Maps) (k : Addr) :
    listed m ((feeActs c t).flatMap (takes c.g A x)) k = listed m (if mine A x (bearer t) then t.fee else []) k := by
  unfold feeActs
  rw [charged]
  split
  · rename_i h
    split
    · rw [listed_all_zero m _ k h]; rfl
    · rfl
  · simp [takes]

theorem refund_takes (c : Conf) (t : CTx) (A : Bytes) (x : Addr) :
    (refundActs c t).flatMap (takes c.g A x) = if moduleIs c.g A x c.collector then refundOf c t else [] := by
  unfold refundActs moduleIs
  cases c.g.modules c.collector with
  | none => simp
  | some mo =>
    simp only
    by_cases h : (refundOf c t).isEmpty = true
    · rw [if_pos h]
      rw [List.isEmpty_iff] at h
      rw [h]; simp
    · rw [if_neg h]
      simp [takes]

theorem listed_congr {m : Maps} {a b : Bank.Coins} {ch x : Addr} {w w' : World} (h : Keeps ch x a w w')
    (e : ∀ k, listed w'.maps a k = listed w'.maps b k) : Keeps ch x b w w' :=
  ⟨h.maps, h.allow, fun ha k => by rw [← e k]; exact h.bal ha k⟩

theorem run_keeps {c : Conf} (hp : NoCollision c.g.tp) {A : Bytes} {x : Addr} {t : CTx} {s : State}
    (hh : Holder A x s.accts) (hw : Inv c.g s.w) (hl : s.w.factoryNonce + (t.acts.map creations).sum < 2 ^ 64)
    (ha : ∀ a ∈ t.acts, Foreign c.g A x a) :
    Holder A x (run c t s).2.accts ∧ Keeps c.g.chain.chainAddr x (bill c A x t (run c t s).1) s.w (run c t s).2.w := by
  have q1 := (fee_quiet c t).1
  have q2 := (refund_quiet c t).1
  rcases run_cases c t s with h | ⟨s1, h1, h, _⟩ | ⟨s1, s2, h1, h2, h, _⟩
  · rw [h]; exact ⟨hh, Keeps.refl _ _ _⟩
  · obtain ⟨a1, a2⟩ := tx_keeps hp _ s s1 hh hw (by rw [q1]; omega) (fee_foreign c t A x) h1
    rw [h]
    exact ⟨signs_holder _ _ a1, listed_congr (m := s.w.maps) a2 (fun k => fee_takes c t A x _ k)⟩
  · obtain ⟨a1, a2⟩ := tx_keeps hp _ s s1 hh hw (by rw [q1]; omega) (fee_foreign c t A x) h1
    obtain ⟨b1, b2, _⟩ := tx_step hp _ s s1 hw (by rw [q1]; omega) (fun a h => foreign_possible (fee_foreign c t A x a h)) h1
    have k1 : Keeps c.g.chain.chainAddr x (if mine A x (bearer t) then t.fee else []) s.w s1.w :=
      listed_congr (m := s.w.maps) a2 (fun k => fee_takes c t A x _ k)
    have hf : ∀ a ∈ t.acts ++ refundActs c t, Foreign c.g A x a := by
      intro a h
      rcases List.mem_append.1 h with h | h
      · exact ha a h
      · exact refund_foreign c t A x a h
    obtain ⟨d1, d2⟩ := tx_keeps hp _ (signAll t.signers s1) s2 (signs_holder _ _ a1) b1
      (by simp only [List.map_append, List.sum_append, q2]; rw [q1] at b2; simp only [signAll]; omega) hf h2
    rw [h]
    refine ⟨d1, ?_⟩
    rw [List.flatMap_append, refund_takes] at d2
    simp only [bill, List.append_assoc]
    exact keeps_trans k1 d2

theorem run_step {c : Conf} (hp : NoCollision c.g.tp) {t : CTx} {s : State} (hw : Inv c.g s.w)
    (hl : s.w.factoryNonce + (t.acts.map creations).sum < 2 ^ 64) (ha : ∀ a ∈ t.acts, Possible c.g a) :
    Inv c.g (run c t s).2.w ∧ (run c t s).2.w.factoryNonce ≤ s.w.factoryNonce + (t.acts.map creations).sum ∧
    Reach c.g.chain true s.w (run c t s).2.w ∧
    ∀ d, isERC20Denom d = false → ∃ x, book (run c t s).2.w d + redeemed d (did t (run c t s).1) + x =
      book s.w d + issued d (did t (run c t s).1) := by
  have q1 := fee_quiet c t
  have q2 := refund_quiet c t
  have pf : ∀ a ∈ feeActs c t, Possible c.g a := fun a h => foreign_possible (fee_foreign c t [] c.g.chain.zero a h)
  have pr : ∀ a ∈ refundActs c t, Possible c.g a := fun a h => foreign_possible (refund_foreign c t [] c.g.chain.zero a h)
  rcases run_cases c t s with h | ⟨s1, h1, h, _⟩ | ⟨s1, s2, h1, h2, h, _⟩
  · rw [h]; exact ⟨hw, Nat.le_add_right _ _, .refl, fun d _ => ⟨0, by simp [did, redeemed, issued]⟩⟩
  · obtain ⟨b1, b2, b3, b4⟩ := tx_step hp _ s s1 hw (by rw [q1.1]; omega) pf h1
    rw [h]
    refine ⟨b1, by rw [q1.1] at b2; simp only [signAll]; omega, b3, fun d hd => ?_⟩
    obtain ⟨x, hx, _⟩ := b4 d hd
    rw [(q1.2.1 d).1, (q1.2.1 d).2] at hx
    exact ⟨x, by simpa [did, redeemed, issued, signAll] using hx⟩
  · obtain ⟨b1, b2, b3, b4⟩ := tx_step hp _ s s1 hw (by rw [q1.1]; omega) pf h1
    obtain ⟨d1, d2, d3, d4⟩ := tx_step hp _ (signAll t.signers s1) s2 b1
      (by simp only [List.map_append, List.sum_append, q2.1]; rw [q1.1] at b2; simp only [signAll]; omega)
      (fun a h => (List.mem_append.1 h).elim (ha a) (pr a)) h2
    rw [h]
    refine ⟨d1, ?_, Paging.reach_trans b3 d3, fun d hd => ?_⟩
    · simp only [List.map_append, List.sum_append, q2.1] at d2
      rw [q1.1] at b2
      simp only [signAll] at d2
      simp only
      omega
    · obtain ⟨x, hx, _⟩ := b4 d hd
      obtain ⟨y, hy, _⟩ := d4 d hd
      rw [(q1.2.1 d).1, (q1.2.1 d).2] at hx
      have e1 : issued d (t.acts ++ refundActs c t) = issued d t.acts := by
        have := (q2.2.1 d).1
        simp only [issued, List.map_append, List.sum_append] at this ⊢
        omega
      have e2 : redeemed d (t.acts ++ refundActs c t) = redeemed d t.acts := by
        have := (q2.2.1 d).2
        simp only [redeemed, List.map_append, List.sum_append] at this ⊢
        omega
      rw [e1, e2] at hy
      simp only [did]
      simp only [signAll] at hy
      exact ⟨x + y, by omega⟩

/-! ### Histories -/

theorem all_step {c : Conf} (hp : NoCollision c.g.tp) : ∀ (ts : List CTx) (s : State), Inv c.g s.w →
    s.w.factoryNonce + contracts ts < 2 ^ 64 → (∀ t ∈ ts, ∀ a ∈ t.acts, Possible c.g a) →
    Inv c.g (runAll c ts s).w ∧ (runAll c ts s).w.factoryNonce ≤ s.w.factoryNonce + contracts ts ∧
    Reach c.g.chain true s.w (runAll c ts s).w ∧
    ∀ d, isERC20Denom d = false → ∃ x, book (runAll c ts s).w d + redeemed d (didAll c ts s) + x =
      book s.w d + issued d (didAll c ts s) := by
  intro ts
  induction ts with
  | nil => intro s hw _ _; exact ⟨hw, Nat.le_add_right _ _, .refl, fun d _ => ⟨0, rfl⟩⟩
  | cons t rest ih =>
    intro s hw hl ha
    simp only [contracts, allCreations, List.map_cons, List.flatten_cons, List.map_append, List.sum_append] at hl ⊢
    obtain ⟨a1, a2, a3, a4⟩ := run_step (c := c) (t := t) (s := s) hp hw (by omega) (ha t (List.mem_cons_self ..))
    obtain ⟨b1, b2, b3, b4⟩ := ih (run c t s).2 a1 (by simp only [contracts, allCreations]; omega)
      (fun u hu => ha u (List.mem_cons_of_mem _ hu))
    simp only [contracts, allCreations] at b2
    refine ⟨b1, by simp only [runAll]; omega, Paging.reach_trans a3 b3, fun d hd => ?_⟩
    obtain ⟨x, hx⟩ := a4 d hd
    obtain ⟨y, hy⟩ := b4 d hd
    refine ⟨x + y, ?_⟩
    simp only [runAll, didAll, redeemed, issued, List.map_append, List.sum_append] at hx hy ⊢
    omega

theorem all_keeps {c : Conf} (hp : NoCollision c.g.tp) {A : Bytes} {x : Addr} : ∀ (ts : List CTx) (s : State),
    Holder A x s.accts → Inv c.g s.w → s.w.factoryNonce + contracts ts < 2 ^ 64 →
    (∀ t ∈ ts, ∀ a ∈ t.acts, Foreign c.g A x a) →
    Holder A x (runAll c ts s).accts ∧ Keeps c.g.chain.chainAddr x (billAll c A x ts s) s.w (runAll c ts s).w := by
  intro ts
  induction ts with
  | nil => intro s hh _ _ _; exact ⟨hh, Keeps.refl _ _ _⟩
  | cons t rest ih =>
    intro s hh hw hl ha
    simp only [contracts, allCreations, List.map_cons, List.flatten_cons, List.map_append, List.sum_append] at hl
    have ha0 := ha t (List.mem_cons_self ..)
    obtain ⟨a1, a2⟩ := run_keeps (c := c) (t := t) (s := s) hp hh hw (by omega) ha0
    obtain ⟨b1, b2, _⟩ := run_step (c := c) (t := t) (s := s) hp hw (by omega) (fun a h => foreign_possible (ha0 a h))
    obtain ⟨d1, d2⟩ := ih (run c t s).2 a1 b1 (by simp only [contracts, allCreations]; omega)
      (fun u hu => ha u (List.mem_cons_of_mem _ hu))
    exact ⟨d1, keeps_trans a2 d2⟩

/-! ### Exactly what the ante handler and the refund do -/

theorem convert_to {m m' : Accts} {addr : Bytes} {a : Addr} {sgn : Bool} (h : convert m addr sgn = some (a, m')) :
    a = bytesToAddress addr := by
  unfold convert at h
  by_cases hl : addr.length = 20
  · rw [if_pos hl] at h; cases h; rfl
  · rw [if_neg hl] at h
    simp only at h
    split at h
    · cases sgn <;> simp at h <;> exact h.1.symm
    · split at h
      · cases sgn <;> simp at h <;> exact h.1.symm
      · split at h
        · split at h
          · simp at h; exact h.1.symm
          · cases h
        · cases h

theorem bsend_exact {g : Cfg} {f r : Bytes} {coins : Bank.Coins} {s s' : State} (h : sendCoinsB g f r coins s = .ok s') :
    ∃ r', Bank.apply g.restr s f r coins = some r' ∧
      sendCoins g.chain (bytesToAddress f) (bytesToAddress r') coins s.w = some s'.w := by
  unfold sendCoinsB at h
  split at h
  · cases h
  · rename_i r' hr
    split at h
    · cases h
    · rename_i s1 h1
      obtain ⟨ef, er, m1, k1, k2, k3, _⟩ := ekSend_spec h1
      rw [convert_to k1, convert_to k2] at k3
      refine ⟨r', hr, ?_⟩
      have e : ∀ r, (createAccount s1 r).w = s1.w := by intro r; unfold createAccount; split <;> rfl
      generalize hasAccount s1 _ = t at h
      cases t with
      | true => cases h; exact k3
      | false => cases h; rw [e]; exact k3

theorem own_deployed {g : Cfg} {w : World} (hw : Inv g w) {coins : Bank.Coins} (h : ∀ f ∈ coins, isERC20Denom f.1 = false) :
    Deployed w coins := by
  intro f hf a ha
  unfold denomToContract at ha
  rw [h f hf] at ha
  exact hw.con.denoms _ _ ha

theorem fee_exact {c : Conf} {t : CTx} {s s1 : State} (h : doTx c.g (feeActs c t) s = some s1)
    (hz : t.fee.all (fun x => x.2 == 0) = false) :
    ∃ mo r', c.g.modules c.collector = some mo ∧ Bank.apply c.g.restr s t.feeFrom mo.addr t.fee = some r' ∧
      sendCoins c.g.chain (bytesToAddress t.feeFrom) (bytesToAddress r') t.fee s.w = some s1.w := by
  unfold feeActs at h
  rw [hz] at h
  simp only [Bool.false_eq_true, if_false, doTx, doAct, accountToModule] at h
  cases hm : c.g.modules c.collector with
  | none => rw [hm] at h; cases h
  | some mo =>
    rw [hm] at h
    simp only at h
    cases hs : sendCoinsB c.g t.feeFrom mo.addr t.fee s with
    | err => rw [hs] at h; cases h
    | panic => rw [hs] at h; cases h
    | ok s2 =>
      rw [hs] at h
      simp only [Option.some.injEq] at h
      subst h
      obtain ⟨r', k1, k2⟩ := bsend_exact hs
      exact ⟨mo, r', rfl, k1, k2⟩

theorem doTx_append (g : Cfg) : ∀ (a b : List Act) (s s' : State), doTx g (a ++ b) s = some s' →
    ∃ s1, doTx g a s = some s1 ∧ doTx g b s1 = some s' := by
  intro a
  induction a with
  | nil => intro b s s' h; exact ⟨s, rfl, h⟩
  | cons x rest ih =>
    intro b s s' h
    simp only [List.cons_append, doTx] at h ⊢
    cases hd : doAct g x s with
    | err => rw [hd] at h; cases h
    | panic => rw [hd] at h; cases h
    | ok s1 => rw [hd] at h; simp only at h ⊢; exact ih b s1 s' h

theorem refund_exact {c : Conf} {t : CTx} {mo : Module} {s s1 : State} (h : doTx c.g (refundActs c t) s = some s1)
    (hm : c.g.modules c.collector = some mo) :
    sendCoins c.g.chain (bytesToAddress mo.addr) (bytesToAddress t.feeFrom) (refundOf c t) s.w = some s1.w := by
  unfold refundActs at h
  rw [hm] at h
  simp only at h
  by_cases he : (refundOf c t).isEmpty = true
  · rw [if_pos he] at h
    rw [List.isEmpty_iff] at he
    rw [he]
    simp only [doTx, Option.some.injEq] at h
    rw [h]; rfl
  · rw [if_neg he] at h
    simp only [doTx, doAct] at h
    cases hs : ekSend c.g mo.addr t.feeFrom (refundOf c t) s with
    | none => rw [hs] at h; cases h
    | some s2 =>
      rw [hs] at h
      simp only [Option.some.injEq] at h
      subst h
      obtain ⟨ef, er, m1, k1, k2, k3, _⟩ := ekSend_spec hs
      rw [convert_to k1, convert_to k2] at k3
      exact k3

theorem refund_own {c : Conf} {t : CTx} (h : OwnDenoms t) : ∀ f ∈ refundOf c t, isERC20Denom f.1 = false := by
  intro f hf
  unfold refundOf at hf
  split at hf
  · obtain ⟨a, ha, rfl⟩ := List.mem_map.1 (List.mem_filter.1 hf).1
    exact h a ha
  · cases hf

theorem listed_le_of (m : Maps) (k : Addr) (F : Nat → Nat) : ∀ (l : Bank.Coins), (∀ f ∈ l, F f.2 ≤ f.2) →
    listed m ((l.map fun f => (f.1, F f.2)).filter fun f => f.2 ≠ 0) k ≤ listed m l k := by
  intro l
  induction l with
  | nil => intro _; exact Nat.le_refl _
  | cons a rest ih =>
    intro h
    have h1 := ih (fun f hf => h f (List.mem_cons_of_mem _ hf))
    have h2 := h a (List.mem_cons_self ..)
    rw [List.map_cons, List.filter_cons, listed_cons m a.1 a.2]
    split
    · rw [listed_cons]; split <;> omega
    · split <;> omega

/-! ### C100 -/

theorem start {c : Conf} {past : List CTx} {s0 : State} (hp : NoCollision c.g.tp) (hs : s0.w = World.init)
    (hl : contracts past < 2 ^ 64) (hpast : ∀ t ∈ past, ∀ a ∈ t.acts, Possible c.g a) :
    Inv c.g (runAll c past s0).w ∧ (runAll c past s0).w.factoryNonce ≤ contracts past := by
  have h0 : Inv c.g s0.w := by rw [hs]; exact init_inv c.g
  have z : s0.w.factoryNonce = 0 := by rw [hs]; rfl
  obtain ⟨h1, h2, _⟩ := all_step hp past s0 h0 (by omega) hpast
  exact ⟨h1, by omega⟩

/-- **C100.** Whatever transactions are executed after any history: in every token the holder of `x` loses at most his
bill, i.e. the fees of the accepted transactions he pays for and what the messages of the successful ones say they take
from him. He is still the holder and, if he had approved nobody, still has. -/
theorem C100_bill (c : Conf) (past ts : List CTx) (s0 : State) (hp : NoCollision c.g.tp) (hs : s0.w = World.init)
    (hl : contracts past + contracts ts < 2 ^ 64) (hpast : ∀ t ∈ past, ∀ a ∈ t.acts, Possible c.g a)
    (A : Bytes) (x : Addr) (hh : Holder A x (runAll c past s0).accts)
    (hn : ApprovedNobody c.g.chain.chainAddr x (runAll c past s0).w)
    (ha : ∀ t ∈ ts, ∀ a ∈ t.acts, Foreign c.g A x a) :
    (∀ k, balanceOf (runAll c past s0).w k x ≤
      balanceOf (runAll c ts (runAll c past s0)).w k x +
      listed (runAll c ts (runAll c past s0)).w.maps (billAll c A x ts (runAll c past s0)) k) ∧
    Holder A x (runAll c ts (runAll c past s0)).accts ∧
    ApprovedNobody c.g.chain.chainAddr x (runAll c ts (runAll c past s0)).w := by
  obtain ⟨h1, h2⟩ := start hp hs (by omega) hpast
  obtain ⟨k1, k2⟩ := all_keeps hp ts _ hh h1 (by omega) ha
  exact ⟨fun k => k2.bal hn k, k1, k2.allow hn⟩

/-- **C100.** Who pays no fee and from whom no message takes anything loses nothing, whatever others' transactions do. -/
theorem C100_idle (c : Conf) (past ts : List CTx) (s0 : State) (hp : NoCollision c.g.tp) (hs : s0.w = World.init)
    (hl : contracts past + contracts ts < 2 ^ 64) (hpast : ∀ t ∈ past, ∀ a ∈ t.acts, Possible c.g a)
    (A : Bytes) (x : Addr) (hh : Holder A x (runAll c past s0).accts)
    (hn : ApprovedNobody c.g.chain.chainAddr x (runAll c past s0).w)
    (ha : ∀ t ∈ ts, (∀ a ∈ t.acts, Foreign c.g A x a) ∧ (∀ a ∈ t.acts, takes c.g A x a = []) ∧
      bearer t ≠ A ∧ bearer t ≠ x.bytes)
    (hc : ∀ mo, c.g.modules c.collector = some mo → mo.addr ≠ A ∧ mo.addr ≠ x.bytes) (k : Addr) :
    balanceOf (runAll c past s0).w k x ≤ balanceOf (runAll c ts (runAll c past s0)).w k x := by
  have h := (C100_bill c past ts s0 hp hs hl hpast A x hh hn (fun t ht => (ha t ht).1)).1 k
  have hm : moduleIs c.g A x c.collector = false := by
    unfold moduleIs
    cases hmo : c.g.modules c.collector with
    | none => rfl
    | some mo => simp [mine, hc mo hmo]
  have : ∀ (l : List CTx) (s : State), (∀ t ∈ l, t ∈ ts) → billAll c A x l s = [] := by
    intro l
    induction l with
    | nil => intro s _; rfl
    | cons t rest ih =>
      intro s hl
      have h1 := ha t (hl t (List.mem_cons_self ..))
      have hf : mine A x (bearer t) = false := by simp [mine, h1.2.2]
      have hb : ∀ o, bill c A x t o = [] := by
        intro o
        cases o <;> simp [bill, hf, hm]
        exact h1.2.1
      simp only [billAll, hb, ih _ (fun u hu => hl u (List.mem_cons_of_mem _ hu)), List.append_nil]
  rw [this ts _ (fun _ h => h), listed_nil] at h
  exact h

/-- The fee and nothing else. -/
theorem fee_only {c : Conf} {t : CTx} {s s1 : State} (h1 : Inv c.g s.w) (ho : OwnDenoms t)
    (hf : doTx c.g (feeActs c t) s = some s1) :
    (∃ r, Moved s.w s1.w t.fee (bytesToAddress (bearer t)) r ∧
      ∀ mo, c.g.modules c.collector = some mo → c.g.restr = none → r = bytesToAddress mo.addr) ∧
    (∀ k, others s1.w k = others s.w k) ∧ s1.w.maps = s.w.maps := by
  cases hz : t.fee.all (fun x => x.2 == 0) with
  | true =>
    have : s1 = s := by
      unfold feeActs at hf
      rw [if_pos hz] at hf
      simp only [doTx, Option.some.injEq] at hf
      exact hf.symm
    subst this
    have hz' := fun k => listed_all_zero s1.w.maps t.fee k hz
    refine ⟨⟨(c.g.modules c.collector).elim (bytesToAddress []) (fun mo => bytesToAddress mo.addr), fun k x => ?_, ?_⟩,
      fun _ => rfl, rfl⟩
    · rw [hz' k]; simp
    · intro mo hm _; rw [hm]; rfl
  | false =>
    obtain ⟨mo, r', k1, k2, k3⟩ := fee_exact hf hz
    rw [charged] at k2 k3
    obtain ⟨p1, p2, p3, _⟩ := C25_partial c.g.chain _ _ _ _ _ (own_deployed h1 ho) k3
    refine ⟨⟨_, p1, fun mo' hm hr => ?_⟩, p2, p3⟩
    rw [k1] at hm
    cases hm
    rw [hr] at k2
    simp only [Bank.apply, Option.some.injEq] at k2
    rw [k2]

/-- **C100.** A transaction that is rejected changes nothing. One that fails in execution costs its fee, exactly: from
the account that bears it to the fee collector's (when no send restriction diverts it), and nothing else of any token
moves, no supply, allowance or owner changes, and no denom is created. -/
theorem C100_failed (c : Conf) (past : List CTx) (s0 : State) (hp : NoCollision c.g.tp) (hs : s0.w = World.init)
    (hl : contracts past < 2 ^ 64) (hpast : ∀ t ∈ past, ∀ a ∈ t.acts, Possible c.g a) (t : CTx) (ho : OwnDenoms t) :
    ((run c t (runAll c past s0)).1 = .rejected → (run c t (runAll c past s0)).2 = runAll c past s0) ∧
    ((run c t (runAll c past s0)).1 = .failed →
      (∃ r, Moved (runAll c past s0).w (run c t (runAll c past s0)).2.w t.fee (bytesToAddress (bearer t)) r ∧
        ∀ mo, c.g.modules c.collector = some mo → c.g.restr = none → r = bytesToAddress mo.addr) ∧
      (∀ k, others (run c t (runAll c past s0)).2.w k = others (runAll c past s0).w k) ∧
      (run c t (runAll c past s0)).2.w.maps = (runAll c past s0).w.maps) := by
  obtain ⟨h1, _⟩ := start hp hs hl hpast
  rcases run_cases c t (runAll c past s0) with h | ⟨s1, hf, h, _⟩ | ⟨s1, s2, _, _, h, _⟩
  · rw [h]; exact ⟨fun _ => rfl, fun e => by cases e⟩
  · rw [h]
    exact ⟨fun e => (by cases e), fun _ => by simpa only [signAll] using fee_only h1 ho hf⟩
  · rw [h]; exact ⟨fun e => (by cases e), fun e => (by cases e)⟩

theorem b2a_inj {a b : Bytes} (ha : a.length = 20) (hb : b.length = 20) (h : bytesToAddress a = bytesToAddress b) : a = b := by
  have e : ∀ c : Bytes, c.length = 20 → (bytesToAddress c).bytes = c := by
    intro c hc
    exact fitBytes_eq 20 c hc
  rw [← e a ha, ← e b hb, h]

theorem signs_sets : ∀ (l : List (Bytes × Nat)) (m : Accts) (a : Bytes) (n : Nat), (l.map (·.1)).Nodup → (a, n) ∈ l → a.length = 20 →
    (∃ k q, m (bytesToAddress a) = some (.plain k q)) → (l.foldl sign m) (bytesToAddress a) = some (.plain true n) := by
  have other : ∀ (l : List (Bytes × Nat)) (m : Accts) (a : Bytes), a.length = 20 → (∀ p ∈ l, p.1 ≠ a) →
      (l.foldl sign m) (bytesToAddress a) = m (bytesToAddress a) := by
    intro l
    induction l with
    | nil => intro m a _ _; rfl
    | cons p r ih =>
      intro m a ha h
      rw [List.foldl_cons, ih _ a ha (fun q hq => h q (by simp [hq]))]
      unfold sign
      split
      · next h20 =>
        have hne : bytesToAddress a ≠ bytesToAddress p.1 := fun e => h p (by simp) (b2a_inj ha h20 e).symm
        have hp : put m (bytesToAddress p.1) (.plain true p.2) (bytesToAddress a) = m (bytesToAddress a) := by
          simp only [put, if_neg hne]
        cases hm : m (bytesToAddress p.1) with
        | none => rfl
        | some x => cases x <;> first | exact hp | rfl
      · rfl
  intro l
  induction l with
  | nil => intro m a n _ h; cases h
  | cons p r ih =>
    intro m a n hn h ha hm
    simp only [List.map_cons, List.nodup_cons] at hn
    rw [List.foldl_cons]
    rcases List.mem_cons.1 h with rfl | h
    · rw [other r _ a ha (fun q hq e => hn.1 (List.mem_map.2 ⟨q, hq, e⟩))]
      obtain ⟨k, q, hk⟩ := hm
      simp only [sign, ha, if_true, hk]
      simp only [put, if_true]
    · refine ih _ a n hn.2 h ha ?_
      obtain ⟨k, q, hk⟩ := hm
      have hne : p.1 ≠ a := fun e => hn.1 (List.mem_map.2 ⟨(a, n), h, e.symm⟩)
      refine ⟨k, q, ?_⟩
      have := other [p] m a ha (fun x hx => by rw [List.mem_singleton.1 hx]; exact hne)
      rw [List.foldl_cons, List.foldl_nil] at this
      rw [this]; exact hk

/-- **C100** (a failed transaction is used up): after a transaction that failed, every signer's account has its public key and the
sequence the ante handler gave it — whatever the messages did. -/
theorem C100_used_up (c : Conf) (t : CTx) (s : State) (hf : (run c t s).1 = .failed) (hn : (t.signers.map (·.1)).Nodup) (a : Bytes) (n : Nat)
    (h : (a, n) ∈ t.signers) (ha : a.length = 20)
    (hm : ∀ s1, doTx c.g (feeActs c t) s = some s1 → ∃ k q, s1.accts (bytesToAddress a) = some (.plain k q)) :
    (run c t s).2.accts (bytesToAddress a) = some (.plain true n) := by
  rcases run_cases c t s with h1 | h1 | h1
  · rw [h1] at hf; cases hf
  · obtain ⟨s1, h2, h3, _⟩ := h1
    rw [h3]
    exact signs_sets t.signers s1.accts a n hn h ha (hm s1 h2)
  · obtain ⟨s1, s2, _, _, h3, _⟩ := h1
    rw [h3] at hf; cases hf

/-- **C100.** A transaction that is not an Ethereum transaction gets nothing back: with messages that do nothing on the
ledger it costs its fee, exactly, whether it succeeds or fails. -/
theorem C100_cosmos (c : Conf) (past : List CTx) (s0 : State) (hp : NoCollision c.g.tp) (hs : s0.w = World.init)
    (hl : contracts past < 2 ^ 64) (hpast : ∀ t ∈ past, ∀ a ∈ t.acts, Possible c.g a) (t : CTx) (ho : OwnDenoms t)
    (he : t.isEth = false) (ha : t.acts = []) (hr : (run c t (runAll c past s0)).1 ≠ .rejected) :
    (∃ r, Moved (runAll c past s0).w (run c t (runAll c past s0)).2.w t.fee (bytesToAddress (bearer t)) r ∧
      ∀ mo, c.g.modules c.collector = some mo → c.g.restr = none → r = bytesToAddress mo.addr) ∧
    (∀ k, others (run c t (runAll c past s0)).2.w k = others (runAll c past s0).w k) := by
  obtain ⟨h1, _⟩ := start hp hs hl hpast
  rcases run_cases c t (runAll c past s0) with h | ⟨s1, hf, h, _⟩ | ⟨s1, s2, hf, h2, h, _⟩
  · rw [h] at hr; exact absurd rfl hr
  · rw [h]
    obtain ⟨a, b, _⟩ := fee_only h1 ho hf
    exact ⟨a, b⟩
  · rw [h]
    have hz : refundActs c t = [] := by
      unfold refundActs refundOf
      rw [he]
      cases c.g.modules c.collector <;> rfl
    rw [hz, ha] at h2
    simp only [List.append_nil, doTx, Option.some.injEq] at h2
    subst h2
    obtain ⟨a, b, _⟩ := fee_only h1 ho hf
    exact ⟨a, b⟩

/-- **C100.** A transaction that succeeds costs its payer at most the fee less the refund, besides what its messages take
from him. -/
theorem C100_cost (c : Conf) (past : List CTx) (s0 : State) (hp : NoCollision c.g.tp) (hs : s0.w = World.init)
    (t : CTx) (hl : contracts past + contracts [t] < 2 ^ 64) (hpast : ∀ t ∈ past, ∀ a ∈ t.acts, Possible c.g a)
    (ho : OwnDenoms t) (A : Bytes) (x : Addr) (hh : Holder A x (runAll c past s0).accts)
    (hn : ApprovedNobody c.g.chain.chainAddr x (runAll c past s0).w)
    (ha : ∀ a ∈ t.acts, Foreign c.g A x a) (mo : Module) (hm : c.g.modules c.collector = some mo)
    (hx : bytesToAddress (bearer t) = x) (hxc : bytesToAddress mo.addr ≠ x)
    (hok : (run c t (runAll c past s0)).1 = .ok) (k : Addr) :
    balanceOf (runAll c past s0).w k x + listed (run c t (runAll c past s0)).2.w.maps (refundOf c t) k ≤
      balanceOf (run c t (runAll c past s0)).2.w k x +
      listed (run c t (runAll c past s0)).2.w.maps t.fee k +
      listed (run c t (runAll c past s0)).2.w.maps (t.acts.flatMap (takes c.g A x)) k := by
  obtain ⟨h1, hnz⟩ := start hp hs (by omega) hpast
  have q1 := (fee_quiet c t).1
  have hcr : contracts [t] = (t.acts.map creations).sum := by simp [contracts, allCreations]
  rcases run_cases c t (runAll c past s0) with h | ⟨s1, _, h, _⟩ | ⟨s1, s2, hf, h2, h, _⟩
  · rw [h] at hok; cases hok
  · rw [h] at hok; cases hok
  · rw [h]
    simp only
    obtain ⟨a1, a2⟩ := tx_keeps hp _ _ s1 hh h1 (by rw [q1]; omega) (fee_foreign c t A x) hf
    obtain ⟨b1, b2, _⟩ := tx_step hp _ _ s1 h1 (by rw [q1]; omega)
      (fun a h => foreign_possible (fee_foreign c t A x a h)) hf
    obtain ⟨s3, e1, e2⟩ := doTx_append _ _ _ _ _ h2
    obtain ⟨d1, d2⟩ := tx_keeps hp _ (signAll t.signers s1) s3 (signs_holder _ _ a1) b1
      (by rw [q1] at b2; simp only [signAll]; omega) ha e1
    obtain ⟨f1, _⟩ := tx_step hp _ (signAll t.signers s1) s3 b1
      (by rw [q1] at b2; simp only [signAll]; omega) (fun a h => foreign_possible (ha a h)) e1
    obtain ⟨p1, _, p3, _⟩ := C25_partial c.g.chain _ _ _ _ _ (own_deployed f1 (refund_own ho)) (refund_exact e2 hm)
    rw [charged, hx] at p1
    have m1 := p1 k x
    rw [if_neg (fun e => hxc e.symm), if_pos rfl] at m1
    have k1 := a2.bal hn k
    rw [fee_takes] at k1
    have k2 := d2.bal (a2.allow hn) k
    have k3 : listed s1.w.maps (if mine A x (bearer t) then t.fee else []) k ≤ listed s3.w.maps t.fee k := by
      split
      · exact listed_mono d2.maps _ _
      · exact Nat.zero_le _
    simp only [signAll] at k2
    rw [p3]
    omega

/-- **C100.** The refund is at most the fee, in every token. -/
theorem C100_refund (c : Conf) (t : CTx) (hr : c.ratio ≤ decOne) (hg : t.gas ≠ 0) (m : Maps) (k : Addr) :
    listed m (refundOf c t) k ≤ listed m t.fee k := by
  unfold refundOf
  split
  · apply listed_le_of m k (fun n => n * decOne / t.gas * (c.ratio * (t.gas - t.used) / decOne) / decOne)
    intro f _
    have hone : 0 < decOne := Nat.pos_of_ne_zero (by decide)
    have hgl : c.ratio * (t.gas - t.used) / decOne ≤ t.gas := by
      have h1 : c.ratio * (t.gas - t.used) ≤ decOne * t.gas := Nat.mul_le_mul hr (Nat.sub_le _ _)
      have h2 : c.ratio * (t.gas - t.used) / decOne ≤ decOne * t.gas / decOne := Nat.div_le_div_right h1
      rw [Nat.mul_div_cancel_left _ hone] at h2
      exact h2
    have := Pipeline.refund_one f.2 t.gas _ t.gas (Nat.pos_of_ne_zero hg) hgl
    exact Nat.le_of_mul_le_mul_right this (Nat.pos_of_ne_zero hg)
  · exact Nat.zero_le _

/-- **C100.** Fees and refunds create nothing: after any history of transactions the supply of every denom of the chain
is at most what the messages of the successful transactions issued less what they took back. -/
theorem C100_no_inflation (c : Conf) (ts : List CTx) (s0 : State) (hp : NoCollision c.g.tp) (hs : s0.w = World.init)
    (hl : contracts ts < 2 ^ 64) (hts : ∀ t ∈ ts, ∀ a ∈ t.acts, Possible c.g a) (d : Str) (hd : isERC20Denom d = false) :
    book (runAll c ts s0).w d + redeemed d (didAll c ts s0) ≤ issued d (didAll c ts s0) := by
  have h0 : Inv c.g s0.w := by rw [hs]; exact init_inv c.g
  have z : s0.w.factoryNonce = 0 := by rw [hs]; rfl
  obtain ⟨_, _, _, h⟩ := all_step hp ts s0 h0 (by omega) hts
  obtain ⟨x, hx⟩ := h d hd
  have : book s0.w d = 0 := by rw [hs]; rfl
  omega

/-! A concrete chain: half of the unused gas is given back. -/

def toyConf : Conf := ⟨toyCfg, "fee".toList, decOne / 2, fun t _ => decide (t.signers ≠ [])⟩

/-- Genesis: alice has 100, bob 50 (no fee). -/
def toyGenesis : CTx :=
  ⟨[(aliceB, 3)], aliceB, none, [], 1, false, [.genesis aliceB [(uinit, 100)], .genesis bobB [(uinit, 50)]], 0⟩

/-- alice pays 10 for 100 units of gas, sends bob 30 and uses 40 of them: 30 units, i.e. 3, are given back. -/
def toyPay : CTx :=
  ⟨[(aliceB, 4)], aliceB, none, [(uinit, 10)], 100, true, [.send ⟨"alice".toList, "bob".toList, [(uinit, 30)]⟩], 40⟩

/-- the same, but she has not got 500 -/
def toyFail : CTx :=
  ⟨[(aliceB, 5)], aliceB, none, [(uinit, 5)], 100, true, [.send ⟨"alice".toList, "bob".toList, [(uinit, 500)]⟩], 40⟩

/-- she cannot pay the fee -/
def toyReject : CTx :=
  ⟨[(aliceB, 6)], aliceB, none, [(uinit, 1000)], 100, true, [], 40⟩

/-- bob pays alice's fee of 8 for a Cosmos transaction: nothing is given back -/
def toyGrant : CTx :=
  ⟨[(aliceB, 6)], aliceB, some bobB, [(uinit, 8)], 100, false, [.send ⟨"alice".toList, "bob".toList, [(uinit, 1)]⟩], 40⟩

def toyHistory : List CTx := [toyPay, toyFail, toyReject, toyGrant]

def afterGenesis : State := runAll toyConf [toyGenesis] toyStart

example : (run toyConf toyPay afterGenesis).1 = .ok ∧
    (run toyConf toyFail (runAll toyConf [toyPay] afterGenesis)).1 = .failed ∧
    (run toyConf toyReject (runAll toyConf [toyPay, toyFail] afterGenesis)).1 = .rejected ∧
    (run toyConf toyGrant (runAll toyConf [toyPay, toyFail, toyReject] afterGenesis)).1 = .ok := by decide +kernel

/-- alice: 100, 63 (100 - 10 - 30 + 3), 58 (the fee of the failed one), 58, 57. Her bill: 10 + 30 + 5 + 1. -/
example : [balanceOf afterGenesis.w tok0 alice, balanceOf (runAll toyConf [toyPay] afterGenesis).w tok0 alice,
      balanceOf (runAll toyConf [toyPay, toyFail] afterGenesis).w tok0 alice,
      balanceOf (runAll toyConf [toyPay, toyFail, toyReject] afterGenesis).w tok0 alice,
      balanceOf (runAll toyConf toyHistory afterGenesis).w tok0 alice,
      listed (runAll toyConf toyHistory afterGenesis).w.maps (billAll toyConf aliceB alice toyHistory afterGenesis) tok0] =
    [100, 63, 58, 58, 57, 46] := by decide +kernel

/-- bob: 50, 80, 80, 80, 73 (81 - 8); the collector keeps 7, 12, 12, 20; the supply stays 150. -/
example : balanceOf (runAll toyConf toyHistory afterGenesis).w tok0 bob = 73 ∧
    balanceOf (runAll toyConf toyHistory afterGenesis).w tok0 (bytesToAddress feeB) = 20 ∧
    supplyOf (runAll toyConf toyHistory afterGenesis).w tok0 = 150 ∧
    refundOf toyConf toyPay = [(uinit, 3)] ∧ refundOf toyConf toyGrant = [] := by decide +kernel

/-- alice pays 8 for a Cosmos transaction that does nothing on the ledger: 92 are left. -/
example : balanceOf (runAll toyConf [{ toyGrant with granter := none, acts := [] }] afterGenesis).w tok0 alice = 92 ∧
    (run toyConf { toyGrant with granter := none, acts := [] } afterGenesis).1 ≠ .rejected := by decide +kernel

/-- The failed transaction has given alice sequence 5. -/
example : (runAll toyConf [toyPay, toyFail] afterGenesis).accts alice = some (.plain true 5) := by decide +kernel

/-- The hypotheses of the theorems are met. -/
example : Holder aliceB alice afterGenesis.accts :=
  signs_holder _ _ ⟨.plain true 3, rfl, .inr ⟨rfl, rfl, fun _ _ h => by cases h⟩⟩

example : (∀ t ∈ toyHistory, ∀ a ∈ t.acts, Foreign toyConf.g aliceB alice a) ∧
    (∀ a ∈ toyGenesis.acts, Possible toyConf.g a) ∧ (∀ t ∈ toyHistory, OwnDenoms t) ∧
    contracts [toyGenesis] + contracts toyHistory < 2 ^ 64 ∧ bytesToAddress (bearer toyPay) = alice ∧
    bytesToAddress feeB ≠ alice ∧ toyConf.ratio ≤ decOne := by
  refine ⟨?_, ?_, ?_, by decide +kernel, by decide +kernel, by decide +kernel, by decide +kernel⟩
  · intro t ht a ha
    simp only [toyHistory, List.mem_cons, List.not_mem_nil, or_false] at ht
    rcases ht with rfl | rfl | rfl | rfl <;>
      simp only [toyPay, toyFail, toyReject, toyGrant, List.mem_cons, List.not_mem_nil, or_false] at ha
    all_goals subst ha; exact trivial
  · intro a ha
    simp only [toyGenesis, List.mem_cons, List.not_mem_nil, or_false] at ha
    rcases ha with rfl | rfl <;> exact trivial
  · have h : isERC20Denom uinit = false := by decide +kernel
    intro t ht f hf
    simp only [toyHistory, List.mem_cons, List.not_mem_nil, or_false] at ht
    rcases ht with rfl | rfl | rfl | rfl <;>
      simp only [toyPay, toyFail, toyReject, toyGrant, List.mem_singleton] at hf
    all_goals subst hf; exact h

end Verif.Props.Charges
