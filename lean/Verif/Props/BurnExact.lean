import Verif.Props.Ledger
/-
C26: what burning any list of coins does, exactly.
-/
namespace Verif.Props.Ledger
open Verif Verif.Text Verif.Denom Verif.Tokens Verif.Spec.Tokens Verif.Spec.Ledger Verif.Props.Tokens

/-- The coins of a list that the chain itself made, and how many are third-party coins. -/
def ownCoins (coins : Coins) : Coins := coins.filter fun x => !isERC20Denom x.1
def thirdParty (coins : Coins) : Nat := (coins.filter fun x => isERC20Denom x.1).length

theorem supply_of_others {w w' : World} {k : Addr} (h : others w' k = others w k) : supplyOf w' k = supplyOf w k := by
  unfold others at h
  unfold supplyOf
  cases h1 : w'.tokens k with
  | none => cases h2 : w.tokens k with
    | none => rfl
    | some p => rw [h1, h2] at h; cases h
  | some p' => cases h2 : w.tokens k with
    | none => rw [h1, h2] at h; cases h
    | some p =>
      rw [h1, h2] at h
      simp only [Option.map_some, Option.some.injEq, Prod.mk.injEq] at h
      exact h.2.1

theorem isSome_of_others {w w' : World} {k : Addr} (h : others w' k = others w k) :
    (w'.tokens k).isSome = (w.tokens k).isSome := by
  have := congrArg Option.isSome h
  simpa [others] using this

/-- **C26: what a successful burn does, for every list.** Each third-party coin in the list sends the *whole* list to the community pool
again; the chain's own coins are destroyed once, on top. -/
theorem C26_exact (c : Chain) (p : Params) (f : Addr) (all coins : Coins) (w w' : World)
    (hda : Deployed w all) (hd : Deployed w coins) (h : burnCoins c p f all coins w = some w') :
    (∀ k x, balanceOf w' k x +
        (if x = f then listed w.maps (ownCoins coins) k + thirdParty coins * listed w.maps all k else 0) =
      balanceOf w k x + (if x = p.feeCollector then thirdParty coins * listed w.maps all k else 0)) ∧
    (∀ k, supplyOf w' k + listed w.maps (ownCoins coins) k = supplyOf w k) ∧ w'.maps = w.maps ∧ w'.erc20s = w.erc20s := by
  induction coins generalizing w with
  | nil =>
    simp only [burnCoins, Option.some.injEq] at h; subst h
    refine ⟨?_, ?_, rfl, rfl⟩
    · intro k x; simp [ownCoins, thirdParty, listed_nil]
    · intro k; simp [ownCoins, listed_nil]
  | cons x rest ih =>
    obtain ⟨d, amt⟩ := x
    simp only [burnCoins] at h
    split at h
    · rename_i he
      have ho : ownCoins ((d, amt) :: rest) = ownCoins rest := by simp [ownCoins, he]
      have ht : thirdParty ((d, amt) :: rest) = thirdParty rest + 1 := by simp [thirdParty, he]
      split at h
      · cases h
      · rename_i w1 h1
        obtain ⟨a1, a2, a3, a4, _⟩ := C25_partial c f p.feeCollector all w w1 hda h1
        have hd1 : ∀ l : Coins, Deployed w l → Deployed w1 l := by
          intro l hl y hy b hb
          rw [isSome_of_others (a2 b)]
          exact hl y hy b (by rw [← a3]; exact hb)
        obtain ⟨m1, m2, m3, m4⟩ := ih w1 (hd1 all hda) (hd1 rest fun y hy => hd y (List.mem_cons_of_mem _ hy)) h
        rw [ho, ht]
        refine ⟨?_, ?_, m3.trans a3, m4.trans a4⟩
        · intro k x
          have b1 := m1 k x
          have b2 := a1 k x
          rw [a3] at b1
          rw [Nat.succ_mul]
          generalize thirdParty rest * listed w.maps all k = T at *
          by_cases hf : x = f
          · rw [if_pos hf] at b1 b2 ⊢
            by_cases hp : x = p.feeCollector
            · rw [if_pos hp] at b1 b2 ⊢; omega
            · rw [if_neg hp] at b1 b2 ⊢; omega
          · rw [if_neg hf] at b1 b2 ⊢
            by_cases hp : x = p.feeCollector
            · rw [if_pos hp] at b1 b2 ⊢; omega
            · rw [if_neg hp] at b1 b2 ⊢; omega
        · intro k
          have b1 := m2 k
          rw [a3, supply_of_others (a2 k)] at b1
          exact b1
    · rename_i he
      have he' : isERC20Denom d = false := by simpa using he
      have ho : ownCoins ((d, amt) :: rest) = (d, amt) :: ownCoins rest := by simp [ownCoins, he']
      have ht : thirdParty ((d, amt) :: rest) = thirdParty rest := by simp [thirdParty, he']
      split at h
      · cases h
      · rename_i a ha
        split at h
        · cases h
        · rename_i w1 h1
          obtain ⟨e1, e2, e3, e4, e5, e6⟩ := sudoBurn_step h1 (hd (d, amt) (List.mem_cons_self ..) a ha)
          have hd1 : ∀ l : Coins, Deployed w l → Deployed w1 l := by
            intro l hl y hy b hb
            rw [e4]
            exact hl y hy b (by rw [← e1]; exact hb)
          obtain ⟨m1, m2, m3, m4⟩ := ih w1 (hd1 all hda) (hd1 rest fun y hy => hd y (List.mem_cons_of_mem _ hy)) h
          rw [ho, ht]
          refine ⟨?_, ?_, m3.trans e1, m4.trans e2⟩
          · intro k x
            have b1 := m1 k x
            have b2 := e6 k x
            rw [e1] at b1
            rw [listed_cons, ha]
            generalize thirdParty rest * listed w.maps all k = T at *
            generalize listed w.maps (ownCoins rest) k = O at *
            by_cases hk : k = a
            · subst hk
              simp only [true_and, if_true] at b2 ⊢
              by_cases hf : x = f
              · rw [if_pos hf] at b1 b2 ⊢; omega
              · rw [if_neg hf] at b1 b2 ⊢; omega
            · have hn : ¬ (some a = some k) := fun g => hk (by cases g; rfl)
              have hb : ¬ (k = a ∧ x = f) := fun g => hk g.1
              rw [if_neg hb] at b2
              rw [if_neg hn, Nat.zero_add]
              by_cases hf : x = f
              · rw [if_pos hf] at b1 ⊢; omega
              · rw [if_neg hf] at b1 ⊢; omega
          · intro k
            have b1 := m2 k
            have b2 := e5 k
            rw [e1] at b1
            rw [listed_cons, ha]
            by_cases hk : k = a
            · subst hk; simp only [if_true] at b2 ⊢; omega
            · have hn : ¬ (some a = some k) := fun g => hk (by cases g; rfl)
              rw [if_neg hk] at b2
              rw [if_neg hn]
              omega

theorem listed_own_none (m : Maps) (coins : Coins) (h : thirdParty coins = 0) : ownCoins coins = coins := by
  unfold thirdParty at h
  rw [List.length_eq_zero_iff, List.filter_eq_nil_iff] at h
  unfold ownCoins
  rw [List.filter_eq_self]
  intro x hx
  have := h x hx
  simpa using this

theorem own_le (m : Maps) (coins : Coins) (k : Addr) : listed m (ownCoins coins) k ≤ listed m coins k := by
  induction coins with
  | nil => exact Nat.le_refl _
  | cons x rest ih =>
    obtain ⟨d, amt⟩ := x
    by_cases he : isERC20Denom d = true
    · have ho : ownCoins ((d, amt) :: rest) = ownCoins rest := by simp [ownCoins, he]
      rw [ho, listed_cons]; omega
    · have he' : isERC20Denom d = false := by simpa using he
      have ho : ownCoins ((d, amt) :: rest) = (d, amt) :: ownCoins rest := by simp [ownCoins, he']
      rw [ho, listed_cons, listed_cons]; omega

/-- **C26: exactly when the right amounts leave the holder:** the list has no third-party coin, or it has one and (to speak of) no other
coin, or it names nothing at all. -/
theorem C26_iff (c : Chain) (p : Params) (f : Addr) (coins : Coins) (w w' : World) (hd : Deployed w coins)
    (hf : f ≠ p.feeCollector) (h : burnCoins c p f coins coins w = some w') :
    (∀ k, balanceOf w' k f + listed w.maps coins k = balanceOf w k f) ↔
      thirdParty coins = 0 ∨ (thirdParty coins = 1 ∧ ∀ k, listed w.maps (ownCoins coins) k = 0) ∨
        ∀ k, listed w.maps coins k = 0 := by
  obtain ⟨h1, _⟩ := C26_exact c p f coins coins w w' hd hd h
  have key : ∀ k, balanceOf w' k f + (listed w.maps (ownCoins coins) k + thirdParty coins * listed w.maps coins k) =
      balanceOf w k f := by
    intro k
    have := h1 k f
    rw [if_pos rfl, if_neg hf] at this
    exact this
  have sub := own_le w.maps coins
  constructor
  · intro hr
    cases hn : thirdParty coins with
    | zero => exact Or.inl rfl
    | succ n =>
      right
      cases n with
      | zero =>
        left
        refine ⟨rfl, fun k => ?_⟩
        have a := key k
        have b := hr k
        rw [hn] at a
        omega
      | succ n =>
        right
        intro k
        have a := key k
        have b := hr k
        rw [hn, Nat.succ_mul, Nat.succ_mul] at a
        omega
  · rintro (hn | ⟨hn, ho⟩ | hz) k
    · have a := key k
      rw [hn, listed_own_none w.maps coins hn] at a
      omega
    · have a := key k
      rw [hn, ho k] at a
      omega
    · have a := key k
      have b := sub k
      rw [hz k] at a b
      rw [hz k]
      omega

/-- instance: 7 of a third-party token and 30 uinit, of which alice loses 60 -/
example : thirdParty [(evm60, 7), (uinit, 30)] = 1 ∧ ownCoins [(evm60, 7), (uinit, 30)] = [(uinit, 30)] ∧
    listed toyWorld.maps [(uinit, 30)] (Addr.ofNat 50) = 30 ∧
    (burnCoins toyChain toyParams alice [(evm60, 7), (uinit, 30)] [(evm60, 7), (uinit, 30)] toyWorld).isSome = true := by
  decide +kernel

end Verif.Props.Ledger
