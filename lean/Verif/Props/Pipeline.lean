import Verif.Model.Pipeline
import Verif.Props.SigAnte
import Verif.Props.Fees
/-
C81: a whole transaction, from the ante handler to the refund, in any history.
-/
namespace Verif.Pipeline
open Verif Verif.SigAnte Verif.Fees Verif.Props.SigAnte

variable {A W : Type} [DecidableEq A]

/-- How much of denomination `d` there is in a list of coins. -/
def amt (l : List (Nat × Nat)) (d : Nat) : Nat :=
  match l with
  | [] => 0
  | c :: cs => (if c.1 = d then c.2 else 0) + amt cs d

/-- What it means that coins moved from `x` to `y` and nothing else changed. -/
def Moved (l : List (Nat × Nat)) (x y : A) (b b' : Bal A) : Prop :=
  ∀ d, amt l d ≤ b x d ∧ b' x d = b x d - amt l d ∧ b' y d = b y d + amt l d ∧ ∀ a, a ≠ x → a ≠ y → b' a d = b a d

theorem moveCoins_moved : ∀ (l : List (Nat × Nat)) (b b' : Bal A) (x y : A), x ≠ y → moveCoins b x y l = some b' → Moved l x y b b' := by
  intro l
  induction l with
  | nil =>
    intro b b' x y _ h d
    simp only [moveCoins, Option.some.injEq] at h
    subst h
    simp [amt]
  | cons c cs ih =>
    intro b b' x y hxy h d
    simp only [moveCoins, Option.bind_eq_some_iff] at h
    obtain ⟨b1, h1, h2⟩ := h
    unfold moveCoin at h1
    by_cases hlt : b x c.1 < c.2
    · rw [if_pos hlt] at h1; cases h1
    · rw [if_neg hlt] at h1
      simp only [Option.some.injEq] at h1
      have hm := ih b1 b' x y hxy h2 d
      subst h1
      obtain ⟨m1, m2, m3, m4⟩ := hm
      simp only [amt]
      by_cases hd : d = c.1
      · subst hd
        simp only [hxy, Ne.symm hxy, false_and, true_and, and_true, if_true, if_false] at m1 m2 m3
        simp only [if_true]
        refine ⟨by omega, by omega, by omega, ?_⟩
        intro a hax hay
        have := m4 a hax hay
        simpa [hax, hay] using this
      · simp only [hd, and_false, if_false] at m1 m2 m3 m4
        simp only [Ne.symm hd, if_false, Nat.zero_add]
        exact ⟨m1, m2, m3, m4⟩

theorem moveCoins_total : ∀ (l : List (Nat × Nat)) (b : Bal A) (x y : A), x ≠ y → (∀ d, amt l d ≤ b x d) → ∃ b', moveCoins b x y l = some b' := by
  intro l
  induction l with
  | nil => intro b x y _ _; exact ⟨b, rfl⟩
  | cons c cs ih =>
    intro b x y hxy h
    have hc := h c.1
    simp only [amt, if_true] at hc
    simp only [moveCoins, moveCoin]
    rw [if_neg (by omega)]
    simp only [Option.bind_some]
    apply ih _ x y hxy
    intro d
    have hd := h d
    simp only [amt] at hd
    by_cases hcd : d = c.1
    · subst hcd
      simp only [if_true] at hd
      simp [hxy]
      omega
    · simp only [Ne.symm hcd, if_false] at hd
      simp [hcd]
      omega

/-! ### What is given back -/

theorem amt_filter (l : List (Nat × Nat)) (d : Nat) : amt (l.filter fun p => p.2 ≠ 0) d = amt l d := by
  induction l with
  | nil => rfl
  | cons c cs ih =>
    by_cases hc : c.2 = 0
    · simp [hc, amt, ← ih]
    · simp [hc, amt, ← ih]

theorem refund_one (f gas g left : Nat) (hg : 0 < gas) (hgl : g ≤ left) : f * decOne / gas * g / decOne * gas ≤ f * left := by
  have hone : 0 < decOne := Nat.pos_of_ne_zero (by decide)
  have h1 : f * decOne / gas * g / decOne * decOne ≤ f * decOne / gas * g := Nat.div_mul_le_self _ _
  have h2 : f * decOne / gas * gas ≤ f * decOne := Nat.div_mul_le_self _ _
  generalize f * decOne / gas * g / decOne = r at *
  generalize f * decOne / gas = p at *
  apply Nat.le_of_mul_le_mul_right _ hone
  calc r * gas * decOne = r * decOne * gas := by rw [Nat.mul_assoc, Nat.mul_comm gas, ← Nat.mul_assoc]
    _ ≤ p * g * gas := Nat.mul_le_mul_right _ h1
    _ = p * gas * g := by rw [Nat.mul_assoc, Nat.mul_comm g, ← Nat.mul_assoc]
    _ ≤ f * decOne * g := Nat.mul_le_mul_right _ h2
    _ ≤ f * decOne * left := Nat.mul_le_mul_left _ hgl
    _ = f * left * decOne := by rw [Nat.mul_assoc, Nat.mul_comm decOne, ← Nat.mul_assoc]

theorem refund_amt (c : Chain A W) (t : Tx A) (used d : Nat) (hr : c.ratio ≤ decOne) (hg : 0 < t.gas) (hu : used ≤ t.gas) :
    amt (refund c t used) d * t.gas ≤ amt t.fee d * (t.gas - used) := by
  unfold refund refundCoins
  by_cases he : t.isEth = true
  · simp only [he, Bool.and_self, if_true]
    rw [amt_filter]
    have hleft : (⟨t.gas, used⟩ : Exec.Meter).limit - (⟨t.gas, used⟩ : Exec.Meter).consumedToLimit = t.gas - used := by
      simp only [Exec.Meter.consumedToLimit]; omega
    rw [hleft]
    generalize hl : t.gas - used = left
    have hgr : c.ratio * left / decOne ≤ left := Nat.div_le_of_le_mul (Nat.mul_le_mul_right _ hr)
    generalize c.ratio * left / decOne = g at hgr
    induction t.fee with
    | nil => simp [amt]
    | cons f fs ih =>
      simp only [List.map_cons, amt]
      rw [Nat.add_mul, Nat.add_mul]
      have h1 := refund_one f.2 t.gas g left hg hgr
      split
      · omega
      · omega
  · simp [he, amt]

/-- Whoever is given something back is given no more than it paid. -/
theorem refund_le_fee (c : Chain A W) (t : Tx A) (used d : Nat) (hr : c.ratio ≤ decOne) (hg : 0 < t.gas) (hu : used ≤ t.gas) :
    amt (refund c t used) d ≤ amt t.fee d := by
  have h := refund_amt c t used d hr hg hu
  have : amt t.fee d * (t.gas - used) ≤ amt t.fee d * t.gas := Nat.mul_le_mul_left _ (by omega)
  exact Nat.le_of_mul_le_mul_right (Nat.le_trans h this) hg

/-! ### One transaction -/

/-- C81: the account that pays (and is refunded) is the fee granter the transaction names, or, if it names none, the fee payer. -/
theorem C81_payer (t : Tx A) : (t.granter = none → t.feeFrom = t.payer) ∧ ∀ g, t.granter = some g → t.feeFrom = g := by
  unfold Tx.feeFrom refundTo
  exact ⟨fun h => by rw [h], fun g h => by rw [h]⟩

theorem ante_some {c : Chain A W} {t : Tx A} {s s1 : St A W} (h : ante c t s = some s1) :
    0 < t.gas ∧ (t.free = true ∨ c.feeOk t = true) ∧
      moveCoins s.bal t.feeFrom c.collector t.fee = some s1.bal ∧ (∀ p ∈ t.signed, s.seq p.1 = p.2) ∧
      incrementSequences c.dec true t.signers t.msgs s.seq = some s1.seq ∧
      (s1.world = s.world ∨ ∃ g, t.granter = some g ∧ g ≠ t.payer ∧ c.useGrant s.world g t.payer t.fee = some s1.world) := by
  unfold ante at h
  by_cases hg : t.gas = 0
  · rw [if_pos hg] at h; cases h
  rw [if_neg hg] at h
  rw [Option.bind_eq_some_iff] at h
  obtain ⟨s0, h0, h⟩ := h
  unfold deductFee at h0
  by_cases hf : (!t.free && !c.feeOk t) = true
  · rw [if_pos hf] at h0; cases h0
  rw [if_neg hf] at h0
  rw [Option.bind_eq_some_iff] at h0
  obtain ⟨w, hw, h0⟩ := h0
  rw [Option.map_eq_some_iff] at h0
  obtain ⟨b, hb, h0⟩ := h0
  subst h0
  by_cases hc : (!c.checks t { s with bal := b, world := w }) = true
  · rw [if_pos hc] at h; cases h
  rw [if_neg hc] at h
  split at h
  · next hs =>
    rw [Option.map_eq_some_iff] at h
    obtain ⟨q, hq, h⟩ := h
    subst h
    refine ⟨by omega, ?_, hb, ?_, hq, ?_⟩
    · cases h1 : t.free <;> cases h2 : c.feeOk t <;> simp [h1, h2] at hf ⊢
    · intro p hp
      have := List.all_eq_true.1 hs p hp
      simpa using this
    · cases hgr : t.granter with
      | none => rw [hgr] at hw; left; simpa using hw.symm
      | some g =>
        rw [hgr] at hw
        by_cases hgp : g = t.payer
        · simp only [hgp, if_true] at hw; left; simpa using hw.symm
        · right
          simp only [hgp, if_false] at hw
          exact ⟨g, rfl, hgp, hw⟩
  · cases h

/-- C81: a rejected transaction changes nothing at all. -/
theorem C81_rejected (c : Chain A W) (t : Tx A) (s : St A W) (h : (runTx c t s).1 = .rejected) : (runTx c t s).2 = s := by
  unfold runTx at h ⊢
  cases ha : ante c t s with
  | none => rfl
  | some s1 =>
    rw [ha] at h
    simp only at h
    cases hb : body c t s1 with
    | some p => rw [hb] at h; cases h
    | none =>
      rw [hb] at h
      simp only at h
      split at h <;> cases h

/-- C81: a transaction is included only with a fee the chain asked for (or in the free lane), with every signer's current sequence, and only
if whoever pays can pay. -/
theorem C81_included (c : Chain A W) (t : Tx A) (s : St A W) (hc : t.feeFrom ≠ c.collector) (h : (runTx c t s).1 ≠ .rejected) :
    0 < t.gas ∧ (t.free = true ∨ c.feeOk t = true) ∧ (∀ p ∈ t.signed, s.seq p.1 = p.2) ∧ ∀ d, amt t.fee d ≤ s.bal t.feeFrom d := by
  unfold runTx at h
  cases ha : ante c t s with
  | none => rw [ha] at h; exact absurd rfl h
  | some s1 =>
    obtain ⟨h1, h2, h3, h4, _⟩ := ante_some ha
    exact ⟨h1, h2, h4, fun d => (moveCoins_moved _ _ _ _ _ hc h3 d).1⟩

/-- C81: a failed transaction pays its whole fee, once, and changes nothing else: nothing of what its messages did remains (only the use of
the fee allowance and the sequences, for which see C20). -/
theorem C81_failed (c : Chain A W) (t : Tx A) (s : St A W) (hc : t.feeFrom ≠ c.collector) (h : (runTx c t s).1 = .failed) :
    Moved t.fee t.feeFrom c.collector s.bal (runTx c t s).2.bal ∧
      ((runTx c t s).2.world = s.world ∨
        ∃ g, t.granter = some g ∧ g ≠ t.payer ∧ c.useGrant s.world g t.payer t.fee = some (runTx c t s).2.world) := by
  unfold runTx at h ⊢
  cases ha : ante c t s with
  | none => rw [ha] at h; cases h
  | some s1 =>
    rw [ha] at h
    obtain ⟨_, _, h3, _, _, h6⟩ := ante_some ha
    have hm := moveCoins_moved _ _ _ _ _ hc h3
    simp only at h ⊢
    cases hb : body c t s1 with
    | some p => rw [hb] at h; cases h
    | none =>
      simp only
      split
      · exact ⟨hm, h6⟩
      · exact ⟨hm, h6⟩

/-- C81: a successful transaction pays its fee before anything else, then its messages run on what is left, and afterwards exactly the refund
is paid back to the account that paid; nothing else happens to balances and state. -/
theorem C81_succeeded (c : Chain A W) (t : Tx A) (s : St A W) (used : Nat) (hc : t.feeFrom ≠ c.collector)
    (h : (runTx c t s).1 = .ok used) :
    ∃ (b1 b2 : Bal A) (w1 : W), Moved t.fee t.feeFrom c.collector s.bal b1 ∧
      (w1 = s.world ∨ ∃ g, t.granter = some g ∧ g ≠ t.payer ∧ c.useGrant s.world g t.payer t.fee = some w1) ∧
      c.exec t b1 w1 = some (b2, (runTx c t s).2.world, used) ∧ used ≤ t.gas ∧
      Moved (refund c t used) c.collector t.feeFrom b2 (runTx c t s).2.bal := by
  unfold runTx at h ⊢
  cases ha : ante c t s with
  | none => rw [ha] at h; cases h
  | some s1 =>
    rw [ha] at h
    obtain ⟨_, _, h3, _, _, h6⟩ := ante_some ha
    have hm := moveCoins_moved _ _ _ _ _ hc h3
    simp only at h ⊢
    cases hb : body c t s1 with
    | none =>
      rw [hb] at h
      simp only at h
      split at h <;> cases h
    | some p =>
      obtain ⟨u, s2⟩ := p
      rw [hb] at h
      simp only [Outcome.ok.injEq] at h
      subst h
      unfold body at hb
      rw [Option.bind_eq_some_iff] at hb
      obtain ⟨r, hr, hb⟩ := hb
      rw [Option.bind_eq_some_iff] at hb
      obtain ⟨q, hq, hb⟩ := hb
      by_cases hlt : t.gas < r.2.2
      · rw [if_pos hlt] at hb; cases hb
      · rw [if_neg hlt, Option.map_eq_some_iff] at hb
        obtain ⟨b, hb, he⟩ := hb
        simp only [Prod.mk.injEq] at he
        obtain ⟨he1, he2⟩ := he
        subst he1
        subst he2
        exact ⟨s1.bal, r.1, s1.world, hm, h6, hr, by omega, moveCoins_moved _ _ _ _ _ (Ne.symm hc) hb⟩

/-- C81: in the end a successful transaction has paid, in every denomination of its fee, at least the share of the fee for the gas it used,
and at most the fee. -/
theorem C81_pays (c : Chain A W) (t : Tx A) (s : St A W) (used d : Nat) (hc : t.feeFrom ≠ c.collector) (hr : c.ratio ≤ decOne)
    (h : (runTx c t s).1 = .ok used) :
    amt (refund c t used) d ≤ amt t.fee d ∧ amt t.fee d * used ≤ (amt t.fee d - amt (refund c t used) d) * t.gas := by
  have hg := (C81_included c t s hc (by rw [h]; simp)).1
  obtain ⟨_, _, _, _, _, _, hu, _⟩ := C81_succeeded c t s used hc h
  have h1 := refund_amt c t used d hr hg hu
  have h2 := refund_le_fee c t used d hr hg hu
  refine ⟨h2, ?_⟩
  rw [Nat.sub_mul]
  rw [Nat.mul_sub] at h1
  have h3 : amt t.fee d * used ≤ amt t.fee d * t.gas := Nat.mul_le_mul_left _ hu
  omega

/-- C81: the refund never makes a transaction fail, as long as execution leaves the fee collector what was just paid. -/
theorem C81_refund_paid (c : Chain A W) (t : Tx A) (s1 : St A W) (r : Bal A × W × Nat) (q : A → Int) (hc : t.feeFrom ≠ c.collector)
    (hr : c.ratio ≤ decOne) (hg : 0 < t.gas) (he : c.exec t s1.bal s1.world = some r) (hq : runMsgs c.dec c.evmId t.msgs s1.seq = some q)
    (hu : r.2.2 ≤ t.gas) (hcol : ∀ d, amt t.fee d ≤ r.1 c.collector d) : ∃ s2, body c t s1 = some (r.2.2, s2) := by
  obtain ⟨b, hb⟩ := moveCoins_total (refund c t r.2.2) r.1 c.collector t.feeFrom (Ne.symm hc)
    (fun d => Nat.le_trans (refund_le_fee c t r.2.2 d hr hg hu) (hcol d))
  refine ⟨⟨q, b, r.2.1⟩, ?_⟩
  unfold body
  rw [he, hq]
  simp only [Option.bind_some]
  rw [if_neg (by omega), hb]
  rfl

/-! ### Histories -/

/-- What a transaction leaves with the fee collector. -/
def net (c : Chain A W) (t : Tx A) (d : Nat) : Outcome → Nat
  | .rejected => 0
  | .failed => amt t.fee d
  | .ok used => amt t.fee d - amt (refund c t used) d

/-- The sum of what all transactions of a history leave. -/
def collected (c : Chain A W) (d : Nat) : List (Tx A) → St A W → Nat
  | [], _ => 0
  | t :: ts, s => net c t d (runTx c t s).1 + collected c d ts (runTx c t s).2

/-- C81: over any history in which executions leave the fee collector's balance alone, the fee collector ends up with exactly the sum of the
fees less the refunds. -/
theorem C81_collected (c : Chain A W) (hr : c.ratio ≤ decOne) (d : Nat) : ∀ (ts : List (Tx A)) (s : St A W),
    (∀ t ∈ ts, t.feeFrom ≠ c.collector) →
    (∀ t ∈ ts, ∀ b w b' w' u, c.exec t b w = some (b', w', u) → b' c.collector d = b c.collector d) →
    (runAll c ts s).bal c.collector d = s.bal c.collector d + collected c d ts s := by
  intro ts
  induction ts with
  | nil => intro s _ _; simp [runAll, collected]
  | cons t ts ih =>
    intro s hne hex
    have ih' := ih (runTx c t s).2 (fun t' ht => hne t' (List.mem_cons_of_mem _ ht)) (fun t' ht => hex t' (List.mem_cons_of_mem _ ht))
    have hc := hne t List.mem_cons_self
    simp only [runAll, collected]
    rw [ih']
    cases ho : (runTx c t s).1 with
    | rejected => rw [C81_rejected c t s ho]; simp [net]
    | failed =>
      have := (C81_failed c t s hc ho).1 d
      simp only [net]
      omega
    | ok used =>
      have hp := C81_pays c t s used d hc hr ho
      obtain ⟨b1, b2, w1, m1, _, he, _, m2⟩ := C81_succeeded c t s used hc ho
      have h1 := m1 d
      have h2 := m2 d
      have h3 := hex t List.mem_cons_self _ _ _ _ _ he
      simp only [net]
      omega

/-- Transactions whose EVM messages name each of their senders in one way only, whose senders sign them (as the messages' definition
demands), and where account `a`'s EVM identity is its own. -/
structure Plain (c : Chain A W) (a : A) (t : Tx A) : Prop where
  nodup : t.signers.Nodup
  own : ∀ m ∈ t.msgs, ∀ n b, m.evmSender = some n → c.dec n = some b → (c.evmId b = a ↔ b = a)
  name : ∃ n0, ∀ m ∈ t.msgs, ∀ n, m.evmSender = some n → c.dec n = some a → n = n0
  signs : ∀ m ∈ t.msgs, ∀ n, m.evmSender = some n → c.dec n = some a → a ∈ t.signers

theorem names_zero (dec : Str → Option A) (a : A) (msgs : List (SMsg A)) (h : ∀ m ∈ msgs, ∀ n, m.evmSender = some n → dec n ≠ some a) :
    ∀ seen, names dec a msgs seen = 0 := by
  induction msgs with
  | nil => intro seen; rfl
  | cons m ms ih =>
    intro seen
    have ih' := ih (fun m' hm => h m' (List.mem_cons_of_mem _ hm))
    simp only [names]
    cases hm : m.evmSender with
    | none => exact ih' seen
    | some n =>
      simp only
      split
      · exact ih' seen
      · rw [if_neg (h m List.mem_cons_self n hm), ih']

/-- After the ante handler, a sequence is at least what it was. -/
theorem ante_ge {c : Chain A W} {a : A} {t : Tx A} (hp : Plain c a t) {s q : A → Int}
    (h : incrementSequences c.dec true t.signers t.msgs s = some q) : s a ≤ q a := by
  unfold incrementSequences at h
  rw [if_pos rfl] at h
  rw [perSender_eq c.dec (-1) t.msgs _ _ _ h a]
  by_cases ha : a ∈ t.signers
  · rw [foldl_bump_mem _ hp.nodup s a ha]
    obtain ⟨n0, hn0⟩ := hp.name
    rw [(names_one c.dec a t.msgs n0 hn0 []).2 (by simp)]
    split <;> omega
  · rw [foldl_bump_notin _ s a ha, names_zero c.dec a t.msgs (fun m hm n hn hd => ha (hp.signs m hm n hn hd))]
    omega

/-- And after a success it is greater for signers. -/
theorem success_gt {c : Chain A W} {a : A} {t : Tx A} (hp : Plain c a t) (ha : a ∈ t.signers) {s q q' : A → Int}
    (h : incrementSequences c.dec true t.signers t.msgs s = some q) (hr : runMsgs c.dec c.evmId t.msgs q = some q') : s a < q' a := by
  rw [runMsgs_eq c.dec c.evmId a t.msgs q q' hr hp.own]
  unfold incrementSequences at h
  rw [if_pos rfl] at h
  rw [perSender_eq c.dec (-1) t.msgs _ _ _ h a, foldl_bump_mem _ hp.nodup s a ha]
  have := names_le_sent c.dec a t.msgs []
  omega

theorem runTx_ge {c : Chain A W} {a : A} {t : Tx A} (hp : Plain c a t) (s : St A W) :
    s.seq a ≤ (runTx c t s).2.seq a ∧ (∀ u, (runTx c t s).1 = .ok u → a ∈ t.signers → s.seq a < (runTx c t s).2.seq a) := by
  unfold runTx
  cases ha : ante c t s with
  | none => exact ⟨Int.le_refl _, fun u h => by cases h⟩
  | some s1 =>
    obtain ⟨_, _, _, _, hi, _⟩ := ante_some ha
    have hge := ante_ge hp hi
    simp only
    cases hb : body c t s1 with
    | some p =>
      obtain ⟨u, s2⟩ := p
      unfold body at hb
      rw [Option.bind_eq_some_iff] at hb
      obtain ⟨r, hr, hb⟩ := hb
      rw [Option.bind_eq_some_iff] at hb
      obtain ⟨q, hq, hb⟩ := hb
      by_cases hlt : t.gas < r.2.2
      · rw [if_pos hlt] at hb; cases hb
      · rw [if_neg hlt, Option.map_eq_some_iff] at hb
        obtain ⟨b, hb, he⟩ := hb
        simp only [Prod.mk.injEq] at he
        obtain ⟨he1, he2⟩ := he
        subst he2
        simp only
        have h2 := runMsgs_eq c.dec c.evmId a t.msgs s1.seq q hq hp.own
        refine ⟨by omega, fun u _ hs => success_gt hp hs hi hq⟩
    | none =>
      simp only
      split
      · refine ⟨?_, fun u h => by cases h⟩
        simp only
        cases hps : perSender c.dec 1 t.msgs [] s1.seq with
        | none => exact hge
        | some q =>
          have := perSender_eq c.dec 1 t.msgs _ _ _ hps a
          simp only [Option.getD_some]
          omega
      · exact ⟨hge, fun u h => by cases h⟩

theorem runAll_ge {c : Chain A W} {a : A} : ∀ (ts : List (Tx A)) (s : St A W), (∀ t ∈ ts, Plain c a t) → s.seq a ≤ (runAll c ts s).seq a := by
  intro ts
  induction ts with
  | nil => intro s _; exact Int.le_refl _
  | cons t ts ih =>
    intro s h
    exact Int.le_trans (runTx_ge (h t List.mem_cons_self) s).1 (ih _ (fun t' ht => h t' (List.mem_cons_of_mem _ ht)))

/-- A transaction after which a signer's sequence is greater is never included again. -/
theorem never_again {c : Chain A W} {a : A} {t : Tx A} (ts : List (Tx A)) (s : St A W) (ha : a ∈ t.signers)
    (hps : ∀ t' ∈ ts, Plain c a t') (h : (runTx c t s).1 ≠ .rejected) (h1 : s.seq a < (runTx c t s).2.seq a) :
    (runTx c t (runAll c ts (runTx c t s).2)).1 = .rejected := by
  have hseq : ∃ n, (a, n) ∈ t.signed := by
    unfold Tx.signers at ha
    obtain ⟨p, hpm, hpe⟩ := List.mem_map.1 ha
    exact ⟨p.2, by rw [← hpe]; exact hpm⟩
  obtain ⟨n, hn⟩ := hseq
  have h0 : s.seq a = n := by
    unfold runTx at h
    cases ha' : ante c t s with
    | none => rw [ha'] at h; exact absurd rfl h
    | some s1 => exact (ante_some ha').2.2.2.1 _ hn
  have h2 := runAll_ge ts (runTx c t s).2 hps
  generalize runAll c ts (runTx c t s).2 = s' at h2
  unfold runTx
  cases ha' : ante c t s' with
  | none => rfl
  | some s1 =>
    have := (ante_some ha').2.2.2.1 _ hn
    simp only at this
    omega

/-- C81: once a transaction has succeeded it is never included again, whatever happens in between, if the transactions of the history name
their senders in one way and its signer's EVM identity is its own. (Missing for the full claim: the two cases excluded, and transactions
that failed; see `C81_violated_again` and `C81_violated_rewind`.) -/
theorem C81_once_partial (c : Chain A W) (a : A) (t : Tx A) (ts : List (Tx A)) (s : St A W) (used : Nat) (ha : a ∈ t.signers)
    (hp : Plain c a t) (hps : ∀ t' ∈ ts, Plain c a t') (h : (runTx c t s).1 = .ok used) :
    (runTx c t (runAll c ts (runTx c t s).2)).1 = .rejected := by
  exact never_again ts s ha hps (by rw [h]; intro e; cases e) ((runTx_ge hp s).2 used h ha)

/-- C81, if cosmos-sdk kept what the post handlers write when the messages fail (it does NOT, by contract; the post handler of
app/posthandler/sequence.go is written for that case): a transaction whose messages fail is not included again either. -/
theorem C81_once_kept (c : Chain A W) (a : A) (t : Tx A) (ts : List (Tx A)) (s : St A W) (hk : c.keepPost = true) (ha : a ∈ t.signers)
    (hp : Plain c a t) (hps : ∀ t' ∈ ts, Plain c a t') (h : (runTx c t s).1 = .failed)
    (hx : ∀ b w, c.exec t b w = none) :
    (runTx c t s).2.seq a = s.seq a + 1 ∧ (runTx c t (runAll c ts (runTx c t s).2)).1 = .rejected := by
  have h1 : (runTx c t s).2.seq a = s.seq a + 1 := by
    unfold runTx at h ⊢
    cases ha' : ante c t s with
    | none => rw [ha'] at h; cases h
    | some s1 =>
      obtain ⟨_, _, _, _, hi, _⟩ := ante_some ha'
      have hb : body c t s1 = none := by unfold body; rw [hx]; rfl
      have hm : msgsOk c t s1 = false := by unfold msgsOk; rw [hx]
      simp only [hb, hk, hm, Bool.not_false, Bool.and_self, if_true]
      unfold incrementSequences at hi
      rw [if_pos rfl] at hi
      have hsome := perSender_some_iff c.dec (-1) 1 t.msgs [] _ s1.seq (by rw [hi]; rfl)
      obtain ⟨q, hq⟩ := Option.isSome_iff_exists.1 hsome
      rw [hq, Option.getD_some, perSender_eq c.dec 1 t.msgs _ _ _ hq a, perSender_eq c.dec (-1) t.msgs _ _ _ hi a,
        foldl_bump_mem _ hp.nodup s.seq a ha]
      omega
  exact ⟨h1, never_again ts s ha hps (by rw [h]; intro e; cases e) (by omega)⟩

/-! ### Violations -/

/-- The same transaction `n` times. -/
def again (t : Tx A) (n : Nat) : List (Tx A) := List.replicate n t

theorem failed_again {c : Chain A W} {t : Tx A} {s : St A W} (hk : c.keepPost = false) (hc : t.feeFrom ≠ c.collector)
    (hnd : t.signers.Nodup) (hgr : t.granter = none)
    (hname : ∀ a ∈ t.signers, ∃ n0, ∀ m ∈ t.msgs, ∀ n, m.evmSender = some n → c.dec n = some a → n = n0)
    (hsend : ∀ a ∈ t.signers, sent c.dec a t.msgs ≠ 0)
    (hsigns : ∀ m ∈ t.msgs, ∀ n a, m.evmSender = some n → c.dec n = some a → a ∈ t.signers)
    (hdec : ∀ m ∈ t.msgs, ∀ n, m.evmSender = some n → c.dec n ≠ none)
    (hfee : t.free = true ∨ c.feeOk t = true) (hg : 0 < t.gas)
    (hchk : ∀ s', c.checks t s' = true) (hex : ∀ b w, c.exec t b w = none)
    (hseq : ∀ p ∈ t.signed, s.seq p.1 = p.2) (hbal : ∀ d, amt t.fee d ≤ s.bal t.feeFrom d) :
    (runTx c t s).1 = .failed ∧ (runTx c t s).2.seq = s.seq := by
  obtain ⟨b, hb⟩ := moveCoins_total t.fee s.bal t.feeFrom c.collector hc hbal
  have hall : t.signed.all (fun p => s.seq p.1 == p.2) = true := by
    rw [List.all_eq_true]
    intro p hp
    simpa using hseq p hp
  have hps : ∀ (msgs : List (SMsg A)), (∀ m ∈ msgs, ∀ n, m.evmSender = some n → c.dec n ≠ none) → ∀ seen q,
      ∃ q', perSender c.dec (-1) msgs seen q = some q' := by
    intro msgs
    induction msgs with
    | nil => intro _ seen q; exact ⟨q, rfl⟩
    | cons m ms ih =>
      intro hd seen q
      have ih' := ih (fun m' hm => hd m' (List.mem_cons_of_mem _ hm))
      simp only [perSender]
      cases hm : m.evmSender with
      | none => exact ih' seen q
      | some n =>
        simp only
        split
        · exact ih' seen q
        · cases hdn : c.dec n with
          | none => exact absurd hdn (hd m List.mem_cons_self n hm)
          | some a => exact ih' _ _
  obtain ⟨q, hq⟩ := hps t.msgs hdec [] (t.signers.foldl (fun s a => bump s a 1) s.seq)
  have hqe : q = s.seq := by
    funext a
    rw [perSender_eq c.dec (-1) t.msgs _ _ _ hq a]
    by_cases ha : a ∈ t.signers
    · rw [foldl_bump_mem _ hnd s.seq a ha]
      obtain ⟨n0, hn0⟩ := hname a ha
      rw [(names_one c.dec a t.msgs n0 hn0 []).2 (by simp), if_neg (hsend a ha)]
      omega
    · rw [foldl_bump_notin _ s.seq a ha, names_zero c.dec a t.msgs (fun m hm n hn hd => ha (hsigns m hm n a hn hd))]
      omega
  have hante : ante c t s = some ⟨s.seq, b, s.world⟩ := by
    unfold ante deductFee
    rw [if_neg (by omega), hgr]
    have hff : ¬ (!t.free && !c.feeOk t) = true := by
      rcases hfee with h | h <;> simp [h]
    rw [if_neg hff]
    simp only [Option.bind_some, hb, Option.map_some, hchk, Bool.not_true, Bool.false_eq_true, if_false, hall, if_true]
    unfold incrementSequences
    simp only [if_true, hq, Option.map_some, hqe]
  unfold runTx
  rw [hante]
  have hbody : body c t ⟨s.seq, b, s.world⟩ = none := by
    unfold body
    rw [hex]
    rfl
  simp only [hbody, hk, Bool.false_and, Bool.false_eq_true, if_false, and_self]

/-- C81 (violated by the code, as cosmos-sdk drops the post handler's writes with the messages'): a signed transaction whose EVM messages fail
can be included over and over, and the payer is charged its whole fee each time, as long as the balance lasts: signing once is enough to lose
everything. -/
theorem C81_violated_again (c : Chain A W) (t : Tx A) (hk : c.keepPost = false) (hc : t.feeFrom ≠ c.collector)
    (hnd : t.signers.Nodup) (hgr : t.granter = none)
    (hname : ∀ a ∈ t.signers, ∃ n0, ∀ m ∈ t.msgs, ∀ n, m.evmSender = some n → c.dec n = some a → n = n0)
    (hsend : ∀ a ∈ t.signers, sent c.dec a t.msgs ≠ 0)
    (hsigns : ∀ m ∈ t.msgs, ∀ n a, m.evmSender = some n → c.dec n = some a → a ∈ t.signers)
    (hdec : ∀ m ∈ t.msgs, ∀ n, m.evmSender = some n → c.dec n ≠ none)
    (hfee : t.free = true ∨ c.feeOk t = true) (hg : 0 < t.gas)
    (hchk : ∀ s', c.checks t s' = true) (hex : ∀ b w, c.exec t b w = none) :
    ∀ (n : Nat) (s : St A W), (∀ p ∈ t.signed, s.seq p.1 = p.2) → (∀ d, n * amt t.fee d ≤ s.bal t.feeFrom d) →
      ∀ d, (runAll c (again t n) s).bal t.feeFrom d = s.bal t.feeFrom d - n * amt t.fee d ∧
        (runAll c (again t n) s).seq = s.seq := by
  intro n
  induction n with
  | zero => intro s _ _ d; simp [again, runAll]
  | succ n ih =>
    intro s hseq hbal d
    have hb1 : ∀ d, amt t.fee d ≤ s.bal t.feeFrom d := by
      intro d
      have := hbal d
      rw [Nat.succ_mul] at this
      omega
    obtain ⟨h1, h2⟩ := failed_again hk hc hnd hgr hname hsend hsigns hdec hfee hg hchk hex hseq hb1
    have hm := (C81_failed c t s hc h1).1
    have ih' := ih (runTx c t s).2 (by rw [h2]; exact hseq)
      (fun d => by
        have h3 := (hm d).2.1
        have h4 := hbal d
        rw [Nat.succ_mul] at h4
        omega) d
    have h3 := (hm d).2.1
    have hrep : again t (n + 1) = t :: again t n := rfl
    rw [hrep]
    simp only [runAll]
    refine ⟨?_, by rw [ih'.2, h2]⟩
    rw [ih'.1, h3, Nat.succ_mul]
    omega

/-- C81 (violated by the code): a failed transaction whose EVM messages name a signer in `k` different ways (an address may be written in
lower or in upper case) sets the signer's sequence BACK by `k - 1`. -/
theorem C81_violated_back (c : Chain A W) (t : Tx A) (s : St A W) (a : A) (hk : c.keepPost = false) (hnd : t.signers.Nodup)
    (ha : a ∈ t.signers) (h : (runTx c t s).1 = .failed) :
    (runTx c t s).2.seq a = s.seq a + 1 - (names c.dec a t.msgs [] : Nat) := by
  unfold runTx at h ⊢
  cases hante : ante c t s with
  | none => rw [hante] at h; cases h
  | some s1 =>
    rw [hante] at h
    obtain ⟨_, _, _, _, hi, _⟩ := ante_some hante
    unfold incrementSequences at hi
    rw [if_pos rfl] at hi
    have h1 := perSender_eq c.dec (-1) t.msgs _ _ _ hi a
    rw [foldl_bump_mem _ hnd s.seq a ha] at h1
    simp only at h ⊢
    cases hb : body c t s1 with
    | some p => rw [hb] at h; cases h
    | none =>
      simp only [hk, Bool.false_and, Bool.false_eq_true, if_false]
      omega

/-! ### A concrete chain -/

/-- One user (account 1, balance 1000), the fee collector (account 0); the user's address may be written in two ways. The refund ratio is one
half. Transactions with more than 100 gas succeed and use 100; they pay 7 to account 2. Others fail. -/
def toy : Chain Nat Nat where
  dec n := if n = ['a'] ∨ n = ['A'] then some 1 else none
  evmId := id
  keepPost := false
  collector := 0
  ratio := 500000000000000000
  feeOk t := decide (t.gas ≤ amt t.fee 0)
  checks _ _ := true
  useGrant w _ _ _ := some w
  exec t b w := if 100 < t.gas then (moveCoins b 1 2 [(0, 7)]).map fun b' => (b', w + 1, 100) else none

def toySt : St Nat Nat := ⟨fun _ => 5, fun a d => if a = 1 ∧ d = 0 then 1000 else 0, 0⟩

/-- A call signed with sequence `n`, with a gas limit and fee of `g`. -/
def toyCall (n : Int) (g : Nat) : Tx Nat := ⟨[(1, n)], [.call ['a']], [(0, g)], g, 1, none, true, false⟩

/-- Two failing calls, the sender written in two ways. -/
def toyTwice (n : Int) : Tx Nat := ⟨[(1, n)], [.call ['a'], .call ['A']], [(0, 50)], 50, 1, none, true, false⟩

/-- A successful call: fee 300, half of the unused 200 gas comes back. -/
example : (runTx toy (toyCall 5 300) toySt).1 = .ok 100 ∧ (runTx toy (toyCall 5 300) toySt).2.bal 1 0 = 1000 - 300 - 7 + 100 ∧
    (runTx toy (toyCall 5 300) toySt).2.bal 0 0 = 200 ∧ (runTx toy (toyCall 5 300) toySt).2.bal 2 0 = 7 ∧
    (runTx toy (toyCall 5 300) toySt).2.seq 1 = 6 ∧ (runTx toy (toyCall 5 300) toySt).2.world = 1 := by decide +kernel

/-- A failed one pays its fee; a stale one, or one that cannot pay, is rejected. -/
example : (runTx toy (toyCall 5 50) toySt).1 = .failed ∧ (runTx toy (toyCall 5 50) toySt).2.bal 1 0 = 950 ∧
    (runTx toy (toyCall 4 300) toySt).1 = .rejected ∧ (runTx toy (toyCall 5 1001) toySt).1 = .rejected := by decide +kernel

/-- The hypotheses of `C81_once_partial` hold for these calls. -/
example (n : Int) (g : Nat) : Plain toy 1 (toyCall n g) := by
  refine ⟨by simp [Tx.signers, toyCall], ?_, ⟨['a'], ?_⟩, ?_⟩
  · intro m hm n b hn hd; exact Iff.rfl
  · intro m hm n hn _
    simp only [toyCall, List.mem_singleton] at hm
    subst hm
    simpa [SMsg.evmSender] using hn.symm
  · intro m hm n hn _
    simp [Tx.signers, toyCall]

/-- Those of `C81_violated_again` hold for the failing call: included twenty times it takes everything. -/
example : (runAll toy (again (toyCall 5 50) 20) toySt).bal 1 0 = 0 ∧ (runAll toy (again (toyCall 5 50) 20) toySt).seq 1 = 5 := by
  decide +kernel

/-- `C81_once_kept`: with kept post handlers the same failing call is included once. -/
example : (runTx { toy with keepPost := true, exec := fun _ _ _ => none } (toyCall 5 50) toySt).1 = .failed ∧
    (runTx { toy with keepPost := true, exec := fun _ _ _ => none } (toyCall 5 50) toySt).2.seq 1 = 6 ∧
    (runAll { toy with keepPost := true } (again (toyCall 5 50) 20) toySt).bal 1 0 = 950 := by decide +kernel

/-- C81 (violated by the code): a transaction that succeeded is executed a second time after a failed transaction that names its sender in
two ways. -/
theorem C81_violated_rewind : ∃ (c : Chain Nat Nat) (t t' : Tx Nat) (s : St Nat Nat),
    (runTx c t s).1 = .ok 100 ∧ (runTx c t (runTx c t s).2).1 = .rejected ∧
      (runTx c t' (runTx c t s).2).1 = .failed ∧ (runTx c t (runAll c [t, t'] s)).1 = .ok 100 ∧
      (runTx c t (runAll c [t, t'] s)).2.bal 2 0 = s.bal 2 0 + 7 + 7 :=
  ⟨toy, toyCall 5 300, toyTwice 6, toySt, by decide +kernel⟩

end Verif.Pipeline
