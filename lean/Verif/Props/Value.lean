import Verif.Spec.Value
import Verif.Props.Ledger
import Verif.Model.Fees
/-
C72 (value transfers), C73 (self-destructs), C74 (units), C75 (whose tokens contract code can spend).
-/
namespace Verif.Props.Value
open Verif Verif.Denom Verif.Tokens Verif.Value Verif.Spec.Value Verif.Spec.Tokens Verif.Props.Tokens Verif.Props.Ledger

/-- A token call, seen at the called token. -/
theorem call_token {c : Chain} {w : World} {k : Addr} {s : Bool} {t : Token} (hk : w.tokens k = some (s, t))
    (caller : Addr) (call : Call) :
    (exec c s caller call t = none ∧ callToken c w caller k call = none) ∨
    ∃ t' w', exec c s caller call t = some t' ∧ callToken c w caller k call = some w' ∧
      w'.tokens k = some (s, t') ∧ ∀ j, j ≠ k → w'.tokens j = w.tokens j := by
  cases he : exec c s caller call t with
  | none => left; refine ⟨rfl, ?_⟩; simp only [callToken, hk, he]
  | some t' =>
    right
    have : ∃ w', callToken c w caller k call = some w' := by simp only [callToken, hk, he]; exact ⟨_, rfl⟩
    obtain ⟨w', hw⟩ := this
    obtain ⟨_, _, _, h4, h5⟩ := callToken_spec hw
    rcases h5 with ⟨hn, _⟩ | ⟨s1, t1, t1', e1, e2, e3⟩
    · rw [hn] at hk; cases hk
    · rw [hk] at e1; cases e1
      rw [he] at e2; cases e2
      exact ⟨t', w', rfl, hw, e3, h4⟩

/-- **C72.** A call that carries value, in a chain whose fee token is a deployed token contract: it is refused, with
nothing changed, exactly if the payer has less than the value; it goes ahead, with exactly the value moved from
payer to payee, nothing else changed in any token, exactly if the payer has it and the payee is not blocked; and it
aborts the transaction in the remaining case. -/
theorem C72_exact_partial (c : Chain) (fee : Addr) (w : World) (s : Bool) (t : Token) (a b : Addr) (v : Nat)
    (hz : fee ≠ c.zero) (hf : w.tokens fee = some (s, t)) (ht : Sound t) (hv : v ≠ 0) :
    (enter c fee w a b v = .refused ↔ t.bal a < v) ∧
    (enter c fee w a b v = .aborted ↔ v ≤ t.bal a ∧ c.blocked b = true) ∧
    ((∃ w', enter c fee w a b v = .paid w') ↔ v ≤ t.bal a ∧ c.blocked b = false) ∧
    (∀ w', enter c fee w a b v = .paid w' → Paid fee a b v w w') := by
  have hcan : canTransfer c w fee a v = decide (v ≤ t.bal a) := by
    simp only [canTransfer, if_neg hv, if_neg hz, hf]
  by_cases hb : v ≤ t.bal a
  · have hcond : ¬ (canTransfer c w fee a v = false) := by rw [hcan]; simp [hb]
    have htr : transfer c fee w a b v = callToken c w a fee (.transfer b v) := by simp [transfer, hv]
    cases hbl : c.blocked b with
    | true =>
      have : callToken c w a fee (.transfer b v) = none := by simp [callToken, hf, exec, hbl]
      have he : enter c fee w a b v = .aborted := by simp only [enter, if_neg hcond, htr, this]
      rw [he]
      refine ⟨⟨nofun, fun h => absurd h (by omega)⟩, ⟨fun _ => ⟨hb, rfl⟩, fun _ => rfl⟩, ⟨?_, ?_⟩, ?_⟩
      · rintro ⟨_, h⟩; cases h
      · rintro ⟨_, h⟩; cases h
      · intro w' h; cases h
    | false =>
      obtain ⟨t', ht'⟩ := doTransfer_accepts t ht a b v hb
      have hex : exec c s a (.transfer b v) t = some t' := by simp [exec, hbl, ht']
      rcases call_token hf a (.transfer b v) with ⟨h, _⟩ | ⟨t1, w', h1, h2, h3, h4⟩
      · rw [hex] at h; cases h
      · rw [hex] at h1; cases h1
        have he : enter c fee w a b v = .paid w' := by simp only [enter, if_neg hcond, htr, h2]
        rw [he]
        refine ⟨⟨nofun, fun h => absurd h (by omega)⟩, ⟨nofun, fun h => absurd h.2 (by simp)⟩,
          ⟨fun _ => ⟨hb, rfl⟩, fun _ => ⟨w', rfl⟩⟩, ?_⟩
        intro w'' h
        cases h
        obtain ⟨_, g2, g3, g4, g5, _, _⟩ := doTransfer_spec ht'
        refine ⟨?_, ?_⟩
        · intro k
          by_cases hk : k = fee
          · subst hk; simp [hf, h3, g2, g3, g4]
          · rw [h4 k hk]
        · intro k x
          by_cases hk : k = fee
          · subst hk
            simp only [balanceOf, h3, hf, true_and]
            exact g5 x
          · simp [balanceOf, h4 k hk, hk]
  · have hcond : canTransfer c w fee a v = false := by rw [hcan]; simpa using hb
    have he : enter c fee w a b v = .refused := by simp only [enter, if_pos hcond]
    rw [he]
    refine ⟨⟨fun _ => by omega, fun _ => rfl⟩, ⟨nofun, fun h => absurd h.1 hb⟩, ⟨?_, fun h => absurd h.1 hb⟩, nofun⟩
    rintro ⟨_, h⟩; cases h

/-- **C72 (no value).** A call without value is always made and changes nothing. -/
theorem C72_zero (c : Chain) (fee : Addr) (w : World) (a b : Addr) : enter c fee w a b 0 = .paid w := by
  simp [enter, transfer, canTransfer]

/-- **C72 (no fee token).** Without a fee contract, or with one whose address has no code, every call with value is
refused and nothing changes. -/
theorem C72_nofee (c : Chain) (fee : Addr) (w : World) (a b : Addr) (v : Nat) (hv : v ≠ 0)
    (h : fee = c.zero ∨ w.tokens fee = none) : enter c fee w a b v = .refused := by
  have : canTransfer c w fee a v = false := by
    simp only [canTransfer, if_neg hv]
    rcases h with h | h
    · rw [if_pos h]
    · split
      · rfl
      · rw [h]
  simp [enter, this]

/-- The fee token of the examples. -/
def feeTok : Addr := Addr.ofNat 50

theorem toyTok_sound : Sound toyTok := by
  refine ⟨⟨[Addr.ofNat 100], by simp, ?_, ?_⟩, by decide +kernel⟩
  · intro a ha
    simp only [List.mem_singleton] at ha
    simp [toyTok, ha]
  · simp [toyTok]

/-- Hypotheses are met; the three outcomes occur. -/
example : feeTok ≠ toyChain.zero ∧ toyWorld.tokens feeTok = some (true, toyTok) ∧ Sound toyTok :=
  ⟨by decide +kernel, rfl, toyTok_sound⟩

/-- **C72 fails for blocked payees: the whole transaction is aborted.** A contract that pays a list of addresses and
handles the failure of each payment cannot do so: if one of them is a blocked module account, the transaction
aborts, with everything the contract did before. -/
theorem C72_blocked_violated : ¬ ∀ (c : Chain) (fee : Addr) (w : World) (a b : Addr) (v : Nat) (body k : Prog)
    (ok : Bool), run c fee (.call a b v body ok k) w = none → enter c fee w a b v = .refused ∨
      run c fee k w = none ∨ ∃ w', enter c fee w a b v = .paid w' ∧ run c fee body w' = none := by
  intro h
  have hf : toyWorld.tokens feeTok = some (true, toyTok) := rfl
  have ha : enter toyChain feeTok toyWorld alice (Addr.ofNat 3) 5 = .aborted :=
    ((C72_exact_partial toyChain feeTok toyWorld true toyTok alice (Addr.ofNat 3) 5 (by decide +kernel) hf toyTok_sound
      (by decide)).2.1).mpr ⟨by decide +kernel, by decide +kernel⟩
  rcases h toyChain feeTok toyWorld alice (Addr.ofNat 3) 5 .done .done true (by simp [run, ha]) with h | h | ⟨w', h, _⟩
  · rw [ha] at h; cases h
  · simp [run] at h
  · rw [ha] at h; cases h

/-! ### C73 -/

theorem sub_step {c : Chain} {fee : Addr} {w : World} {t : Token} (hf : w.tokens fee = some (true, t)) (ht : Sound t)
    (a : Addr) (n : Nat) (hn : n ≤ t.bal a) : ∃ w' t', subBalance c fee w a n = some w' ∧
      w'.tokens fee = some (true, t') ∧ Sound t' ∧ t'.supply = t.supply - n ∧ n ≤ t.supply ∧ t'.allow = t.allow ∧
      t'.owner = t.owner ∧ t'.bal = setB t.bal a (t.bal a - n) ∧ ∀ j, j ≠ fee → w'.tokens j = w.tokens j := by
  have hle : t.bal a ≤ t.supply := (sumsTo_set ht.1 a 0).1
  by_cases h0 : n = 0
  · refine ⟨w, t, by simp [subBalance, h0], hf, ht, by omega, by omega, rfl, rfl, ?_, fun _ _ => rfl⟩
    funext x; simp only [setB]; split
    · rename_i e; rw [e]; omega
    · rfl
  · have hex : ∃ t', exec c true c.chainAddr (.sudoBurn a n) t = some t' ∧ doBurn t a n = some t' := by
      have : doBurn t a n = some { t with bal := setB t.bal a (t.bal a - n), supply := t.supply - n } := by
        have h2 : n ≤ t.supply := by omega
        simp only [doBurn, subU, if_pos hn, if_pos h2]
      exact ⟨_, by simp [exec, this], this⟩
    obtain ⟨t', e1, e2⟩ := hex
    rcases call_token hf c.chainAddr (.sudoBurn a n) with ⟨h, _⟩ | ⟨t1, w', h1, h2, h3, h4⟩
    · rw [e1] at h; cases h
    · rw [e1] at h1; cases h1
      obtain ⟨_, g2, g3, g4, g5, g6⟩ := doBurn_spec e2
      exact ⟨w', t', by simp [subBalance, h0, h2], h3, doBurn_sound e2 ht, g3, g2, g4, g5, g6, h4⟩

theorem add_step {c : Chain} {fee : Addr} {w : World} {t : Token} (hf : w.tokens fee = some (true, t)) (ht : Sound t)
    (a : Addr) (n : Nat) (hn : t.supply + n < 2 ^ 256) : ∃ w' t', addBalance c fee w a n = some w' ∧
      w'.tokens fee = some (true, t') ∧ Sound t' ∧ t'.supply = t.supply + n ∧ t'.allow = t.allow ∧
      t'.owner = t.owner ∧ t'.bal = setB t.bal a (t.bal a + n) ∧ ∀ j, j ≠ fee → w'.tokens j = w.tokens j := by
  have hle : t.bal a ≤ t.supply := (sumsTo_set ht.1 a 0).1
  by_cases h0 : n = 0
  · refine ⟨w, t, by simp [addBalance, h0], hf, ht, by omega, rfl, rfl, ?_, fun _ _ => rfl⟩
    funext x; simp only [setB]; split
    · rename_i e; rw [e]; omega
    · rfl
  · have hex : ∃ t', exec c true c.chainAddr (.sudoMint a n) t = some t' ∧ doMint t a n = some t' := by
      have : doMint t a n = some { t with bal := setB t.bal a (t.bal a + n), supply := t.supply + n } := by
        have h2 : t.bal a + n < 2 ^ 256 := by omega
        simp only [doMint, addU, if_pos hn, if_pos h2]
      exact ⟨_, by simp [exec, this], this⟩
    obtain ⟨t', e1, e2⟩ := hex
    rcases call_token hf c.chainAddr (.sudoMint a n) with ⟨h, _⟩ | ⟨t1, w', h1, h2, h3, h4⟩
    · rw [e1] at h; cases h
    · rw [e1] at h1; cases h1
      obtain ⟨g1, _, g3, g4, g5⟩ := doMint_spec e2
      exact ⟨w', t', by simp [addBalance, h0, h2], h3, doMint_sound e2 ht, g1, g3, g4, g5, h4⟩

/-- **C73.** A self-destruct, in a chain whose fee token is one the chain made: it goes through; the whole balance
moves to the beneficiary and nothing else changes in any token; only if the contract names itself and was created
in this execution, its balance is destroyed, with the supply. -/
theorem C73_destruct_partial (c : Chain) (fee : Addr) (w : World) (t : Token) (self ben : Addr) (created : Bool)
    (hf : w.tokens fee = some (true, t)) (ht : Sound t) :
    ∃ w' t', destruct c fee w self ben created = some w' ∧ w'.tokens fee = some (true, t') ∧
      (∀ j, j ≠ fee → w'.tokens j = w.tokens j) ∧ t'.allow = t.allow ∧ t'.owner = t.owner ∧
      t'.supply + (if self = ben ∧ created = true then t.bal self else 0) = t.supply ∧
      ∀ x, t'.bal x = if x = self then (if self = ben ∧ created = false then t.bal self else 0)
        else if x = ben then t.bal ben + t.bal self else t.bal x := by
  have hgb : getBalance w fee self = t.bal self := by simp [getBalance, balanceOf, hf]
  obtain ⟨w1, t1, a1, a2, a3, a4, a5, a6, a7, a8, a9⟩ :=
    sub_step (c := c) hf ht self (t.bal self) (Nat.le_refl _)
  have hsup := ht.2
  obtain ⟨w2, t2, b1, b2, b3, b4, b5, b6, b7, b8⟩ :=
    add_step (c := c) a2 a3 ben (t.bal self) (by omega)
  have hbal2 : ∀ x, t2.bal x = if x = self then (if self = ben then t.bal self else 0)
      else if x = ben then t.bal ben + t.bal self else t.bal x := by
    intro x
    rw [b7, a8]
    simp only [setB]
    by_cases e1 : x = self
    · subst e1
      by_cases e2 : x = ben
      · subst e2; simp
      · simp [e2]
    · by_cases e2 : x = ben
      · subst e2; simp [e1]
      · simp [e1, e2]
  cases created with
  | false =>
    refine ⟨w2, t2, ?_, b2, fun j hj => by rw [b8 j hj, a9 j hj], by rw [b5, a6], by rw [b6, a7], ?_, ?_⟩
    · simp only [destruct, hgb, a1, b1, Bool.false_eq_true, if_false]
    · simp only [Bool.false_eq_true, and_false, if_false]; omega
    · intro x; rw [hbal2 x]; simp
  | true =>
    have hgb2 : getBalance w2 fee self = t2.bal self := by simp [getBalance, balanceOf, b2]
    obtain ⟨w3, t3, d1, d2, d3, d4, d5, d6, d7, d8, d9⟩ :=
      sub_step (c := c) b2 b3 self (t2.bal self) (Nat.le_refl _)
    refine ⟨w3, t3, ?_, d2, fun j hj => by rw [d9 j hj, b8 j hj, a9 j hj], by rw [d6, b5, a6], by rw [d7, b6, a7], ?_, ?_⟩
    · simp only [destruct, hgb, a1, b1, if_true, hgb2, d1]
    · have hs := hbal2 self
      rw [if_pos rfl] at hs
      by_cases e : self = ben
      · rw [if_pos e] at hs; simp only [e, true_and, if_true]; subst e; omega
      · rw [if_neg e] at hs; simp only [e, false_and, if_false]; omega
    · intro x
      rw [d8]
      simp only [setB]
      by_cases e1 : x = self
      · subst e1; simp
      · rw [if_neg e1, hbal2 x]; simp [e1]

/-- Hypotheses are met. -/
example : ((destruct toyChain feeTok toyWorld alice bob true).map fun w =>
    [balanceOf w feeTok alice, balanceOf w feeTok bob, supplyOf w feeTok]) = some [0, 100, 100] := by decide +kernel
example : ((destruct toyChain feeTok toyWorld alice alice true).map fun w =>
    [balanceOf w feeTok alice, supplyOf w feeTok]) = some [0, 0] := by decide +kernel

/-- **C73 fails: a self-destruct pays blocked accounts.** No transfer to a blocked account succeeds, but naming it as
beneficiary of a self-destruct credits it. -/
theorem C73_blocked_violated : ¬ ∀ (c : Chain) (fee : Addr) (w w' : World) (self ben : Addr) (created : Bool),
    destruct c fee w self ben created = some w' → c.blocked ben = true →
    balanceOf w' fee ben ≤ balanceOf w fee ben := by
  intro h
  obtain ⟨w', t', h1, h2, _, _, _, _, h7⟩ := C73_destruct_partial toyChain feeTok toyWorld toyTok alice (Addr.ofNat 3)
    true rfl toyTok_sound
  have := h _ _ _ _ _ _ _ h1 (by decide +kernel)
  have h8 := h7 (Addr.ofNat 3)
  rw [if_neg (by decide +kernel), if_pos rfl] at h8
  have e1 : balanceOf w' feeTok (Addr.ofNat 3) = t'.bal (Addr.ofNat 3) := by simp [balanceOf, h2]
  have e2 : balanceOf toyWorld feeTok (Addr.ofNat 3) = 0 := by decide +kernel
  have e3 : toyTok.bal alice = 100 := by decide +kernel
  rw [e1, e2] at this
  omega

/-- **C73 fails if the fee token is somebody's own token.** A genesis state may name any contract as fee denom (an update may not, C85); with one without
`sudoBurn`, a contract that holds any of it cannot be destroyed: the transaction aborts. -/
theorem C73_custom_violated (c : Chain) (fee : Addr) (w : World) (t : Token) (self ben : Addr) (created : Bool)
    (hf : w.tokens fee = some (false, t)) (hb : t.bal self ≠ 0) : destruct c fee w self ben created = none := by
  have hgb : getBalance w fee self = t.bal self := by simp [getBalance, balanceOf, hf]
  have : subBalance c fee w self (t.bal self) = none := by
    simp [subBalance, hb, callToken, hf, exec]
  simp only [destruct, hgb, this]

example : toyWorld.tokens (Addr.ofNat 60) = some (false, toyTok) ∧ toyTok.bal alice ≠ 0 := ⟨rfl, by decide +kernel⟩

/-! ### C75 -/

/-- What one call of a token contract by somebody of `P` can do to `x`, who is not of `P`. -/
theorem step_safe {c : Chain} {P : Addr → Prop} {x caller k : Addr} {call : Call} {w w' : World}
    (hx : ¬ P x) (hch : ¬ P c.chainAddr) (hp : P caller) (ha : NoAllowance x P w)
    (h : callToken c w caller k call = some w') :
    NoAllowance x P w' ∧ ∀ j, balanceOf w j x ≤ balanceOf w' j x := by
  obtain ⟨_, _, _, h4, h5⟩ := callToken_spec h
  rcases h5 with ⟨_, rfl⟩ | ⟨s, t, t', e1, e2, e3⟩
  · exact ⟨ha, fun _ => Nat.le_refl _⟩
  · refine ⟨?_, ?_⟩
    · intro j s1 t1 hj y hy
      by_cases hjk : j = k
      · subst hjk
        rw [e3] at hj; cases hj
        have h0 := ha j s t e1 y hy
        rcases Nat.lt_or_ge (t.allow x y) (t'.allow x y) with g | g
        · have := ((C24_grants c s caller call t t' e2).1 x y g).1
          subst this; exact absurd hp hx
        · omega
      · rw [h4 j hjk] at hj; exact ha j s1 t1 hj y hy
    · intro j
      by_cases hjk : j = k
      · subst hjk
        simp only [balanceOf, e1, e3]
        rcases Nat.lt_or_ge (t'.bal x) (t.bal x) with g | g
        · rcases C24_spend c s caller call t t' e2 x g with r | r | ⟨r, _⟩
          · subst r; exact absurd hp hx
          · subst r; exact absurd hp hch
          · have h0 := ha j s t e1 caller hp
            omega
        · exact g
      · simp [balanceOf, h4 j hjk]

/-- The chain's own minting and burning for somebody of `P`. -/
theorem add_safe {c : Chain} {P : Addr → Prop} {x a fee : Addr} {n : Nat} {w w' : World}
    (ha : NoAllowance x P w) (h : addBalance c fee w a n = some w') :
    NoAllowance x P w' ∧ ∀ j, balanceOf w j x ≤ balanceOf w' j x := by
  unfold addBalance at h
  split at h
  · cases h; exact ⟨ha, fun _ => Nat.le_refl _⟩
  · obtain ⟨_, _, _, h4, h5⟩ := callToken_spec h
    rcases h5 with ⟨_, rfl⟩ | ⟨s, t, t', e1, e2, e3⟩
    · exact ⟨ha, fun _ => Nat.le_refl _⟩
    · simp only [exec] at e2
      split at e2
      · cases e2
      · obtain ⟨g1, _, g3, _, g5⟩ := doMint_spec e2
        refine ⟨?_, ?_⟩
        · intro j s1 t1 hj y hy
          by_cases hjk : j = fee
          · subst hjk; rw [e3] at hj; cases hj; rw [g3]; exact ha j s t e1 y hy
          · rw [h4 j hjk] at hj; exact ha j s1 t1 hj y hy
        · intro j
          by_cases hjk : j = fee
          · subst hjk
            simp only [balanceOf, e1, e3, g5, setB]
            split
            · rename_i e; subst e; omega
            · exact Nat.le_refl _
          · simp [balanceOf, h4 j hjk]

theorem sub_safe {c : Chain} {P : Addr → Prop} {x a fee : Addr} {n : Nat} {w w' : World}
    (hxa : x ≠ a) (ha : NoAllowance x P w) (h : subBalance c fee w a n = some w') :
    NoAllowance x P w' ∧ ∀ j, balanceOf w j x ≤ balanceOf w' j x := by
  unfold subBalance at h
  split at h
  · cases h; exact ⟨ha, fun _ => Nat.le_refl _⟩
  · obtain ⟨_, _, _, h4, h5⟩ := callToken_spec h
    rcases h5 with ⟨_, rfl⟩ | ⟨s, t, t', e1, e2, e3⟩
    · exact ⟨ha, fun _ => Nat.le_refl _⟩
    · simp only [exec] at e2
      split at e2
      · cases e2
      · obtain ⟨_, _, _, g3, _, g5⟩ := doBurn_spec e2
        refine ⟨?_, ?_⟩
        · intro j s1 t1 hj y hy
          by_cases hjk : j = fee
          · subst hjk; rw [e3] at hj; cases hj; rw [g3]; exact ha j s t e1 y hy
          · rw [h4 j hjk] at hj; exact ha j s1 t1 hj y hy
        · intro j
          by_cases hjk : j = fee
          · subst hjk
            simp only [balanceOf, e1, e3, g5, setB, if_neg hxa]
            exact Nat.le_refl _
          · simp [balanceOf, h4 j hjk]

theorem destruct_safe {c : Chain} {P : Addr → Prop} {x fee self ben : Addr} {created : Bool} {w w' : World}
    (hxa : x ≠ self) (ha : NoAllowance x P w) (h : destruct c fee w self ben created = some w') :
    NoAllowance x P w' ∧ ∀ j, balanceOf w j x ≤ balanceOf w' j x := by
  unfold destruct at h
  simp only at h
  split at h
  · cases h
  · rename_i w1 h1
    obtain ⟨a1, b1⟩ := sub_safe hxa ha h1
    split at h
    · cases h
    · rename_i w2 h2
      obtain ⟨a2, b2⟩ := add_safe a1 h2
      split at h
      · obtain ⟨a3, b3⟩ := sub_safe hxa a2 h
        exact ⟨a3, fun j => Nat.le_trans (b1 j) (Nat.le_trans (b2 j) (b3 j))⟩
      · cases h
        exact ⟨a2, fun j => Nat.le_trans (b1 j) (b2 j)⟩

theorem enter_safe {c : Chain} {P : Addr → Prop} {x fee a b : Addr} {v : Nat} {w w' : World}
    (hx : ¬ P x) (hch : ¬ P c.chainAddr) (hp : P a) (ha : NoAllowance x P w) (h : enter c fee w a b v = .paid w') :
    NoAllowance x P w' ∧ ∀ j, balanceOf w j x ≤ balanceOf w' j x := by
  unfold enter at h
  split at h
  · cases h
  · split at h
    · cases h
    · rename_i w1 h1
      cases h
      unfold transfer at h1
      split at h1
      · cases h1; exact ⟨ha, fun _ => Nat.le_refl _⟩
      · exact step_safe hx hch hp ha h1

theorem run_safe (c : Chain) (fee : Addr) (P : Addr → Prop) (x : Addr) (hx : ¬ P x) (hch : ¬ P c.chainAddr) (p : Prog) :
    ∀ w w', CallersIn P p → NoAllowance x P w → run c fee p w = some w' →
      NoAllowance x P w' ∧ ∀ j, balanceOf w j x ≤ balanceOf w' j x := by
  induction p with
  | done => intro w w' _ ha h; cases h; exact ⟨ha, fun _ => Nat.le_refl _⟩
  | token caller contract call k ih =>
    intro w w' hc ha h
    simp only [run] at h
    cases hk : callToken c w caller contract call with
    | none => rw [hk] at h; exact ih w w' hc.2 ha h
    | some w1 =>
      rw [hk] at h
      obtain ⟨a1, b1⟩ := step_safe hx hch hc.1 ha hk
      obtain ⟨a2, b2⟩ := ih w1 w' hc.2 a1 h
      exact ⟨a2, fun j => Nat.le_trans (b1 j) (b2 j)⟩
  | call a b v body ok k ihb ihk =>
    intro w w' hc ha h
    simp only [run] at h
    cases he : enter c fee w a b v with
    | aborted => rw [he] at h; cases h
    | refused => rw [he] at h; exact ihk w w' hc.2.2 ha h
    | paid w1 =>
      rw [he] at h
      simp only at h
      obtain ⟨a1, b1⟩ := enter_safe hx hch hc.1 ha he
      cases hb : run c fee body w1 with
      | none => rw [hb] at h; cases h
      | some w2 =>
        rw [hb] at h
        obtain ⟨a2, b2⟩ := ihb w1 w2 hc.2.1 a1 hb
        cases ok with
        | false =>
          simp only [Bool.false_eq_true, if_false] at h
          exact ihk w w' hc.2.2 ha h
        | true =>
          simp only [if_true] at h
          obtain ⟨a3, b3⟩ := ihk w2 w' hc.2.2 a2 h
          exact ⟨a3, fun j => Nat.le_trans (b1 j) (Nat.le_trans (b2 j) (b3 j))⟩
  | destruct self ben created k ih =>
    intro w w' hc ha h
    simp only [run] at h
    cases hd : destruct c fee w self ben created with
    | none => rw [hd] at h; cases h
    | some w1 =>
      rw [hd] at h
      have hxs : x ≠ self := by intro e; subst e; exact hx hc.1
      obtain ⟨a1, b1⟩ := destruct_safe hxs ha hd
      obtain ⟨a2, b2⟩ := ih w1 w' hc.2 a1 h
      exact ⟨a2, fun j => Nat.le_trans (b1 j) (b2 j)⟩

theorem message_safe (c : Chain) (fee : Addr) (P : Addr → Prop) (x : Addr) (p : Prog) (destroyed : List Addr) (w w' : World)
    (hx : ¬ P x) (hch : ¬ P c.chainAddr) (hp : CallersIn P p) (hd : x ∉ destroyed) (ha : NoAllowance x P w)
    (h : message c fee p destroyed w = some w') : NoAllowance x P w' ∧ ∀ k, balanceOf w k x ≤ balanceOf w' k x := by
  unfold message at h
  cases hr : run c fee p w with
  | none => rw [hr] at h; cases h
  | some w1 =>
    rw [hr] at h
    simp only at h
    obtain ⟨a1, b1⟩ := run_safe c fee P x hx hch p w w1 hp ha hr
    have : ∀ (l : List Addr) (u u' : World), x ∉ l → NoAllowance x P u → burnDestroyed c fee l u = some u' →
        NoAllowance x P u' ∧ ∀ k, balanceOf u k x ≤ balanceOf u' k x := by
      intro l
      induction l with
      | nil => intro u u' _ ha hu; cases hu; exact ⟨ha, fun _ => Nat.le_refl _⟩
      | cons y ys ih =>
        intro u u' hl hu hb
        simp only [burnDestroyed] at hb
        cases hs : subBalance c fee u y (getBalance u fee y) with
        | none => rw [hs] at hb; cases hb
        | some u1 =>
          rw [hs] at hb
          have hxy : x ≠ y := by intro e; subst e; exact hl (List.mem_cons_self ..)
          obtain ⟨a2, b2⟩ := sub_safe hxy hu hs
          obtain ⟨a3, b3⟩ := ih u1 u' (fun h => hl (List.mem_cons_of_mem _ h)) a2 hb
          exact ⟨a3, fun k => Nat.le_trans (b2 k) (b3 k)⟩
    obtain ⟨a2, b2⟩ := this destroyed w1 w' hd a1 h
    exact ⟨a2, fun k => Nat.le_trans (b1 k) (b2 k)⟩

/-- **C75.** Whatever contract code does in a message — calls of tokens and of other contracts with and without value, to
any depth, reverts, self-destructs — an account in whose name nothing was done, and that approved nobody who acted,
loses nothing, in any token. (The chain's address 0x1 does not act in contract code.) -/
theorem C75_spend (c : Chain) (fee : Addr) (P : Addr → Prop) (x : Addr) (p : Prog) (destroyed : List Addr) (w w' : World)
    (hx : ¬ P x) (hch : ¬ P c.chainAddr) (hp : CallersIn P p) (hd : ∀ a ∈ destroyed, P a) (ha : NoAllowance x P w)
    (h : message c fee p destroyed w = some w') : ∀ k, balanceOf w k x ≤ balanceOf w' k x :=
  (message_safe c fee P x p destroyed w w' hx hch hp (fun hm => hx (hd x hm)) ha h).2

/-- Hypotheses are met: bob, destroyed by his own code after paying carol, cannot touch what alice has. -/
def toyProg : Prog :=
  .token bob feeTok (.transferFrom alice bob 100) (.call bob (Addr.ofNat 102) 0
    (.token (Addr.ofNat 102) (Addr.ofNat 60) (.burnFrom alice 1) .done) true (.destruct bob (Addr.ofNat 102) true .done))

def toyActors (a : Addr) : Prop := a = bob ∨ a = Addr.ofNat 102

example : ¬ toyActors alice ∧ ¬ toyActors toyChain.chainAddr ∧ CallersIn toyActors toyProg ∧
    NoAllowance alice toyActors toyWorld ∧
    (message toyChain feeTok toyProg [bob] toyWorld).isSome = true := by
  refine ⟨?_, ?_, ?_, ?_, by decide +kernel⟩
  · rintro (h | h)
    · exact absurd h (by decide +kernel)
    · exact absurd h (by decide +kernel)
  · rintro (h | h)
    · exact absurd h (by decide +kernel)
    · exact absurd h (by decide +kernel)
  · exact ⟨.inl rfl, .inl rfl, ⟨.inr rfl, trivial⟩, .inl rfl, trivial⟩
  · intro k s t h y _
    simp only [toyWorld] at h
    split at h
    · cases h; rfl
    · split at h
      · cases h; rfl
      · cases h

/-- With an allowance the code can spend: the hypothesis is needed. -/
example : ((message toyChain feeTok (.token alice feeTok (.approve bob 7) (.token bob feeTok
    (.transferFrom alice bob 7) .done)) [] toyWorld).map fun w => balanceOf w feeTok alice) = some 93 := by
  decide +kernel

/-- What a token call by somebody who does not own token `j` does to its owner and supply. -/
theorem step_supply {c : Chain} {P : Addr → Prop} {caller k j : Addr} {call : Call} {w w' : World}
    (hch : ¬ P c.chainAddr) (hp : P caller) (ho : NotOwner P j w) (h : callToken c w caller k call = some w') :
    SameOwner j w w' ∧ supplyOf w' j ≤ supplyOf w j := by
  obtain ⟨_, _, _, h4, h5⟩ := callToken_spec h
  rcases h5 with ⟨_, rfl⟩ | ⟨s, t, t', e1, e2, e3⟩
  · exact ⟨rfl, Nat.le_refl _⟩
  · by_cases hj : j = k
    case neg => exact ⟨by unfold SameOwner; rw [h4 j hj], by simp [supplyOf, h4 j hj]⟩
    subst hj
    have hown : ¬ P t.owner := ho s t e1
    have howner : t'.owner = t.owner := by
      cases call with
      | transferOwnership n =>
        simp only [exec] at e2
        split at e2
        · cases e2
        · rename_i g
          exact absurd (by simpa using g : caller = t.owner) (fun e => hown (e ▸ hp))
      | transfer to amt =>
        simp only [exec] at e2; split at e2
        · cases e2
        · exact (doTransfer_spec e2).2.2.2.1
      | approve sp amt => simp only [exec, Option.some.injEq] at e2; subst e2; rfl
      | transferFrom f r amt =>
        simp only [exec] at e2; split at e2
        · cases e2
        · split at e2
          · cases e2
          · rename_i t1 h1
            obtain ⟨_, e⟩ := spend_spec h1
            subst e
            exact (doTransfer_spec e2).2.2.2.1
      | mint to amt =>
        simp only [exec] at e2; split at e2
        · cases e2
        · split at e2
          · cases e2
          · exact (doMint_spec e2).2.2.2.1
      | burn amt =>
        simp only [exec] at e2; split at e2
        · cases e2
        · exact (doBurn_spec e2).2.2.2.2.1
      | burnFrom f amt =>
        simp only [exec] at e2; split at e2
        · cases e2
        · split at e2
          · cases e2
          · rename_i t1 h1
            obtain ⟨_, e⟩ := spend_spec h1
            subst e
            exact (doBurn_spec e2).2.2.2.2.1
      | sudoTransfer f r amt =>
        simp only [exec] at e2; split at e2
        · cases e2
        · exact (doTransfer_spec e2).2.2.2.1
      | sudoMint to amt =>
        simp only [exec] at e2; split at e2
        · cases e2
        · exact (doMint_spec e2).2.2.2.1
      | sudoBurn f amt =>
        simp only [exec] at e2; split at e2
        · cases e2
        · exact (doBurn_spec e2).2.2.2.2.1
    refine ⟨by simp [SameOwner, e1, e3, howner], ?_⟩
    simp only [supplyOf, e1, e3]
    rcases Nat.lt_or_ge t.supply t'.supply with g | g
    · rcases C24_mint c s caller call t t' e2 g with r | r
      · exact absurd (r ▸ hp) hown
      · exact absurd (r ▸ hp) hch
    · exact g

theorem add_supply {c : Chain} {a fee : Addr} {n : Nat} {w w' : World} (h : addBalance c fee w a n = some w') :
    SameOwners w w' ∧ ∀ j, supplyOf w' j ≤ supplyOf w j + (if j = fee then n else 0) := by
  unfold addBalance at h
  split at h
  · cases h; exact ⟨fun _ => rfl, fun _ => Nat.le_add_right _ _⟩
  · obtain ⟨_, _, _, h4, h5⟩ := callToken_spec h
    rcases h5 with ⟨_, rfl⟩ | ⟨s, t, t', e1, e2, e3⟩
    · exact ⟨fun _ => rfl, fun _ => Nat.le_add_right _ _⟩
    · simp only [exec] at e2
      split at e2
      · cases e2
      · obtain ⟨g1, _, _, g4, _⟩ := doMint_spec e2
        refine ⟨?_, ?_⟩
        · intro j
          by_cases hj : j = fee
          · subst hj; simp [e1, e3, g4]
          · rw [h4 j hj]
        · intro j
          by_cases hj : j = fee
          · subst hj; simp [supplyOf, e1, e3, g1]
          · simp [supplyOf, h4 j hj]

/-- Burning a balance that exists takes it off the supply. -/
theorem sub_supply {c : Chain} {a fee : Addr} {n : Nat} {w w' : World} (hn : n ≤ getBalance w fee a)
    (h : subBalance c fee w a n = some w') :
    SameOwners w w' ∧ ∀ j, supplyOf w' j + (if j = fee then n else 0) = supplyOf w j := by
  unfold subBalance at h
  split at h
  · rename_i h0
    cases h
    exact ⟨fun _ => rfl, fun j => by rw [h0]; split <;> rfl⟩
  · rename_i h0
    obtain ⟨_, _, _, h4, h5⟩ := callToken_spec h
    rcases h5 with ⟨e, rfl⟩ | ⟨s, t, t', e1, e2, e3⟩
    · simp only [getBalance, balanceOf, e] at hn; exact absurd (Nat.le_zero.mp hn) h0
    · simp only [exec] at e2
      split at e2
      · cases e2
      · obtain ⟨_, g2, g3, _, g5, _⟩ := doBurn_spec e2
        refine ⟨?_, ?_⟩
        · intro j
          by_cases hj : j = fee
          · subst hj; simp [e1, e3, g5]
          · rw [h4 j hj]
        · intro j
          by_cases hj : j = fee
          · subst hj; simp only [supplyOf, e1, e3, g3, if_true]; omega
          · simp [supplyOf, h4 j hj, hj]

theorem so_trans {u v w : World} (h : SameOwners u v) (h' : SameOwners v w) : SameOwners u w :=
  fun k => (h' k).trans (h k)

theorem so1_trans {j : Addr} {u v w : World} (h : SameOwner j u v) (h' : SameOwner j v w) : SameOwner j u w :=
  h'.trans h

theorem so_no {P : Addr → Prop} {j : Addr} {v w : World} (h : SameOwner j v w) (hv : NotOwner P j v) :
    NotOwner P j w := by
  intro s t hk
  unfold SameOwner at h
  rw [hk] at h
  cases hv' : v.tokens j with
  | none => rw [hv'] at h; cases h
  | some p =>
    obtain ⟨s1, t1⟩ := p
    rw [hv'] at h
    simp only [Option.map_some, Option.some.injEq, Prod.mk.injEq] at h
    rw [h.2]
    exact hv s1 t1 hv'

theorem destruct_supply {c : Chain} {fee self ben : Addr} {created : Bool} {w w' : World}
    (h : destruct c fee w self ben created = some w') : SameOwners w w' ∧ ∀ j, supplyOf w' j ≤ supplyOf w j := by
  unfold destruct at h
  simp only at h
  split at h
  · cases h
  · rename_i w1 h1
    obtain ⟨a1, b1⟩ := sub_supply (Nat.le_refl _) h1
    split at h
    · cases h
    · rename_i w2 h2
      obtain ⟨a2, b2⟩ := add_supply h2
      have h12 : ∀ j, supplyOf w2 j ≤ supplyOf w j := fun j => by have := b1 j; have := b2 j; omega
      split at h
      · obtain ⟨a3, b3⟩ := sub_supply (Nat.le_refl _) h
        exact ⟨so_trans (so_trans a1 a2) a3, fun j => by have := b3 j; have := h12 j; omega⟩
      · cases h
        exact ⟨so_trans a1 a2, h12⟩

theorem run_supply (c : Chain) (fee : Addr) (P : Addr → Prop) (hch : ¬ P c.chainAddr) (j : Addr) (p : Prog) :
    ∀ w w', CallersIn P p → NotOwner P j w → run c fee p w = some w' →
      SameOwner j w w' ∧ supplyOf w' j ≤ supplyOf w j := by
  induction p with
  | done => intro w w' _ _ h; cases h; exact ⟨rfl, Nat.le_refl _⟩
  | token caller contract call k ih =>
    intro w w' hc ho h
    simp only [run] at h
    cases hk : callToken c w caller contract call with
    | none => rw [hk] at h; exact ih w w' hc.2 ho h
    | some w1 =>
      rw [hk] at h
      obtain ⟨a1, b1⟩ := step_supply hch hc.1 ho hk
      obtain ⟨a2, b2⟩ := ih w1 w' hc.2 (so_no a1 ho) h
      exact ⟨so1_trans a1 a2, Nat.le_trans b2 b1⟩
  | call a b v body ok k ihb ihk =>
    intro w w' hc ho h
    simp only [run] at h
    cases he : enter c fee w a b v with
    | aborted => rw [he] at h; cases h
    | refused => rw [he] at h; exact ihk w w' hc.2.2 ho h
    | paid w1 =>
      rw [he] at h
      simp only at h
      have hpaid : SameOwner j w w1 ∧ supplyOf w1 j ≤ supplyOf w j := by
        unfold enter at he
        split at he
        · cases he
        · split at he
          · cases he
          · rename_i w2 h2
            cases he
            unfold transfer at h2
            split at h2
            · cases h2; exact ⟨rfl, Nat.le_refl _⟩
            · exact step_supply hch hc.1 ho h2
      obtain ⟨a1, b1⟩ := hpaid
      cases hb : run c fee body w1 with
      | none => rw [hb] at h; cases h
      | some w2 =>
        rw [hb] at h
        obtain ⟨a2, b2⟩ := ihb w1 w2 hc.2.1 (so_no a1 ho) hb
        cases ok with
        | false =>
          simp only [Bool.false_eq_true, if_false] at h
          exact ihk w w' hc.2.2 ho h
        | true =>
          simp only [if_true] at h
          obtain ⟨a3, b3⟩ := ihk w2 w' hc.2.2 (so_no (so1_trans a1 a2) ho) h
          exact ⟨so1_trans (so1_trans a1 a2) a3, Nat.le_trans b3 (Nat.le_trans b2 b1)⟩
  | destruct self ben created k ih =>
    intro w w' hc ho h
    simp only [run] at h
    cases hd : destruct c fee w self ben created with
    | none => rw [hd] at h; cases h
    | some w1 =>
      rw [hd] at h
      obtain ⟨a1, b1⟩ := destruct_supply hd
      obtain ⟨a2, b2⟩ := ih w1 w' hc.2 (so_no (a1 j) ho) h
      exact ⟨so1_trans (a1 j) a2, Nat.le_trans b2 (b1 j)⟩

/-- **C75 (no money out of nothing, token by token).** Whatever contract code does in a message (deploying and minting
tokens of its own included), the supply and the owner of a token do not grow or change unless that token's owner (or
the chain) acts: the minting the chain does for a self-destruct never exceeds what it burned. -/
theorem C75_token (c : Chain) (fee : Addr) (P : Addr → Prop) (p : Prog) (destroyed : List Addr) (w w' : World) (k : Addr)
    (hch : ¬ P c.chainAddr) (hp : CallersIn P p) (ho : NotOwner P k w)
    (h : message c fee p destroyed w = some w') : SameOwner k w w' ∧ supplyOf w' k ≤ supplyOf w k := by
  unfold message at h
  cases hr : run c fee p w with
  | none => rw [hr] at h; cases h
  | some w1 =>
    rw [hr] at h
    simp only at h
    obtain ⟨a1, b1⟩ := run_supply c fee P hch k p w w1 hp ho hr
    have : ∀ (l : List Addr) (u u' : World), burnDestroyed c fee l u = some u' →
        SameOwner k u u' ∧ supplyOf u' k ≤ supplyOf u k := by
      intro l
      induction l with
      | nil => intro u u' hu; cases hu; exact ⟨rfl, Nat.le_refl _⟩
      | cons y ys ih =>
        intro u u' hb
        simp only [burnDestroyed] at hb
        cases hs : subBalance c fee u y (getBalance u fee y) with
        | none => rw [hs] at hb; cases hb
        | some u1 =>
          rw [hs] at hb
          obtain ⟨a2, b2⟩ := sub_supply (Nat.le_refl _) hs
          obtain ⟨a3, b3⟩ := ih u1 u' hb
          exact ⟨so1_trans (a2 k) a3, by have := b2 k; omega⟩
    obtain ⟨a2, b2⟩ := this destroyed w1 w' h
    exact ⟨so1_trans a1 a2, Nat.le_trans b2 b1⟩

/-- **C75 (no money out of nothing).** Whatever contract code does in a message, unless the owner of some token (or the
chain) acts, no token's supply grows and no token changes its owner. -/
theorem C75_supply (c : Chain) (fee : Addr) (P : Addr → Prop) (p : Prog) (destroyed : List Addr) (w w' : World)
    (hch : ¬ P c.chainAddr) (hp : CallersIn P p) (ho : NoOwner P w)
    (h : message c fee p destroyed w = some w') : SameOwners w w' ∧ ∀ k, supplyOf w' k ≤ supplyOf w k :=
  ⟨fun k => (C75_token c fee P p destroyed w w' k hch hp (ho k) h).1,
   fun k => (C75_token c fee P p destroyed w w' k hch hp (ho k) h).2⟩

/-- Hypotheses are met (the owner of the toy tokens does not act). -/
example : NoOwner toyActors toyWorld := by
  intro k s t h
  have : t = toyTok := by
    simp only [toyWorld] at h
    split at h
    · cases h; rfl
    · split at h
      · cases h; rfl
      · cases h
  subst this
  rintro (h | h)
  · exact absurd h (by decide +kernel)
  · exact absurd h (by decide +kernel)

/-! ### C74 -/

open Verif.Fees in
/-- **C74 (affordability).** What a wallet sees is consistent in itself, for any decimals of the fee token: of a value `V`
(in wei) that a transaction can carry exactly, the account has enough exactly if `eth_getBalance` is at least `V`,
and after paying it `eth_getBalance` is lower by exactly `V`. -/
theorem C74_affordable (d n V : Nat) (hV : toEthers d (fromEthers d V) = V) :
    (fromEthers d V ≤ n ↔ V ≤ toEthers d n) ∧
    (fromEthers d V ≤ n → toEthers d (n - fromEthers d V) = toEthers d n - V) := by
  unfold toEthers fromEthers at *
  by_cases h18 : d = 18
  · simp [h18]
  · simp only [if_neg h18] at *
    by_cases hgt : d > 18
    · simp only [if_pos hgt] at *
      have hpos : 0 < 10 ^ (d - 18) := Nat.pow_pos (by decide)
      exact ⟨(Nat.le_div_iff_mul_le hpos).symm, fun _ => by
        rw [Nat.mul_comm, Nat.sub_mul_div]⟩
    · simp only [if_neg hgt] at *
      have hpos : 0 < 10 ^ (18 - d) := Nat.pow_pos (by decide)
      generalize 10 ^ (18 - d) = q at *
      refine ⟨⟨fun h => by rw [← hV]; exact Nat.mul_le_mul_right _ h, fun h => ?_⟩, fun _ => ?_⟩
      · rw [← hV] at h; exact Nat.le_of_mul_le_mul_right h hpos
      · rw [Nat.sub_mul, hV]

/-- Hypotheses are met: 3 wei cannot be carried with 6 decimals, 3·10¹² can. -/
example : Fees.toEthers 6 (Fees.fromEthers 6 3000000000000) = 3000000000000 ∧
    Fees.toEthers 6 (Fees.fromEthers 6 3) ≠ 3 := by decide +kernel

open Verif.Fees in
/-- **C74 (contracts).** A contract sees the balance (`address.balance`) and the value (`msg.value`) that wallets see
(`eth_getBalance`, the transaction's value) if the fee token has 18 decimals. -/
theorem C74_partial (w : World) (fee a : Addr) (V : Nat) :
    getBalance w fee a = toEthers 18 (balanceOf w fee a) ∧ fromEthers 18 V = V := by
  simp [getBalance, toEthers, fromEthers]

open Verif.Fees in
/-- **C74 fails for any other decimals.** With fewer than 18 decimals every account that has anything at all has a
different balance for contracts than for wallets, and every value a transaction carries is different. (With more than
18 the same holds for every value.) -/
theorem C74_violated (d : Nat) (hd : d ≠ 18) :
    (d < 18 → ∀ (w : World) (fee a : Addr), getBalance w fee a ≠ 0 →
      getBalance w fee a ≠ toEthers d (balanceOf w fee a)) ∧
    (∀ V, V ≠ 0 → fromEthers d V ≠ V) := by
  refine ⟨?_, ?_⟩
  · intro hlt w fee a h
    have hgt : ¬ d > 18 := by omega
    unfold getBalance at *
    simp only [toEthers, if_neg hd, if_neg hgt]
    generalize balanceOf w fee a = n at *
    have : 2 ≤ 10 ^ (18 - d) := by
      have : (10 : Nat) ^ 1 ≤ 10 ^ (18 - d) := Nat.pow_le_pow_right (by decide) (by omega)
      omega
    have : n * 2 ≤ n * 10 ^ (18 - d) := Nat.mul_le_mul_left _ this
    omega
  · intro V hV
    simp only [fromEthers, if_neg hd]
    split
    · rename_i hgt
      have : 2 ≤ 10 ^ (d - 18) := by
        have : (10 : Nat) ^ 1 ≤ 10 ^ (d - 18) := Nat.pow_le_pow_right (by decide) (by omega)
        omega
      have : V * 2 ≤ V * 10 ^ (d - 18) := Nat.mul_le_mul_left _ this
      omega
    · rename_i hgt
      have : 1 < 10 ^ (18 - d) := by
        have : (10 : Nat) ^ 1 ≤ 10 ^ (18 - d) := Nat.pow_le_pow_right (by decide) (by omega)
        omega
      have := Nat.div_lt_self (by omega : 0 < V) this
      omega

/-- The usual case: 6 decimals, as on Initia rollups; a contract asked to pay "1 ether" for 1 INIT never gets it. -/
example : Fees.toEthers 6 (balanceOf toyWorld feeTok alice) = 100000000000000 ∧ getBalance toyWorld feeTok alice = 100 :=
  by decide +kernel

end Verif.Props.Value
