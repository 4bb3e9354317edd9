import Verif.Props.ModuleAcct
import Verif.Props.Bank
/-
C44 again, for the keepers with the accounts they create on the way (Model/ModuleAcct): what modules may do with coins.
-/
namespace Verif.Props.ModuleBank
open Verif Verif.Text Verif.Denom Verif.Tokens Verif.Identity Verif.Bank Verif.ModuleAcct
open Verif.Props.ModuleAcct Verif.Props.Bank Verif.Props.Ledger

theorem bankSendA_paid {g : Cfg} {f r : Bytes} {coins : Bank.Coins} {s s' : State} (h : bankSendA g f r coins s = .ok s') :
    ∃ r', Bank.apply g.restr s f r coins = some r' ∧ Paid s s' f r' coins := by
  unfold bankSendA at h
  split at h
  · cases h
  · rename_i r' hr'
    refine ⟨r', hr', ?_⟩
    split at h
    · cases h
    · rename_i s1 h1
      unfold ekSendA at h1
      split at h1
      · cases h1
      · rename_i ef m1 hc1
        split at h1
        · cases h1
        · rename_i er m2 hc2
          obtain ⟨p, hp, e⟩ := Option.map_eq_some_iff.1 h1
          have hw := sendLoop_fst g.chain ef er coins (s.w, m2)
          rw [hp] at hw
          simp only [Option.map_some] at hw
          refine ⟨ef, er, m1, m2, hc1, hc2, ?_⟩
          subst e
          by_cases hh : hasAccount (withPair s p) r' = true
          · rw [if_pos hh] at h
            cases h
            exact ⟨fun hd => (C25_partial g.chain ef er _ _ _ hd hw.symm).1, hh, rfl, rfl, rfl⟩
          · rw [if_neg hh] at h
            cases h
            refine ⟨fun hd => ?_, ?_, ?_, ?_, ?_⟩
            · have := (C25_partial g.chain ef er _ _ _ hd hw.symm).1
              unfold createAccount
              split <;> exact this
            · by_cases hl : r'.length = 20 <;> simp [hasAccount, createAccount, hl, put]
            all_goals (unfold createAccount; split <;> rfl)

theorem moduleAccount_ok {g : Cfg} {m : Str} {s : State} {mo : Module} {s1 : State} (h : moduleAccount g m s = some (mo, s1)) :
    g.modules m = some mo ∧ ∃ a, getModule s.accts (bytesToAddress mo.addr) = some a ∧ s1 = { s with accts := a } := by
  unfold moduleAccount at h
  split at h
  · cases h
  · rename_i mo' hm
    obtain ⟨a, ha, e⟩ := Option.map_eq_some_iff.1 h
    cases e
    exact ⟨hm, a, ha, rfl⟩

/-- **C44** (module transfers, with the accounts): a transfer by or to a module that succeeds was allowed by the restrictions in
force and paid exactly the coins from the payer to the recipient the restrictions chose — for a transfer to a module after that
module's account was made sure of, which moves nothing; payouts to blocked accounts are refused. -/
theorem C44_modules_accounts (g : Cfg) (fc mn mn' : Str) (f r : Bytes) (coins : Bank.Coins) (s s' : State) :
    (step g fc (.moduleToAccount mn r coins) s = .ok s' → ∃ mo r', g.modules mn = some mo ∧ g.blockedAddrs r = false ∧
      Bank.apply g.restr s mo.addr r coins = some r' ∧ Paid s s' mo.addr r' coins) ∧
    (step g fc (.moduleToModule mn mn' coins) s = .ok s' → ∃ mo mo' r' a, g.modules mn = some mo ∧ g.modules mn' = some mo' ∧
      getModule s.accts (bytesToAddress mo'.addr) = some a ∧
      Bank.apply g.restr { s with accts := a } mo.addr mo'.addr coins = some r' ∧ Paid { s with accts := a } s' mo.addr r' coins) ∧
    (step g fc (.accountToModule f mn' coins) s = .ok s' → ∃ mo' r' a, g.modules mn' = some mo' ∧
      getModule s.accts (bytesToAddress mo'.addr) = some a ∧
      Bank.apply g.restr { s with accts := a } f mo'.addr coins = some r' ∧ Paid { s with accts := a } s' f r' coins) := by
  refine ⟨?_, ?_, ?_⟩
  · intro h
    simp only [step, moduleToAccountA] at h
    cases hm : g.modules mn with
    | none => rw [hm] at h; cases h
    | some mo =>
      rw [hm] at h
      cases hb : g.blockedAddrs r with
      | true => simp [hb] at h
      | false =>
        simp only [hb, Bool.false_eq_true, if_false] at h
        obtain ⟨r', q1, q2⟩ := bankSendA_paid h
        exact ⟨mo, r', rfl, rfl, q1, q2⟩
  · intro h
    simp only [step, moduleToModuleA] at h
    cases hm : g.modules mn with
    | none => rw [hm] at h; cases h
    | some mo =>
      rw [hm] at h
      cases hm' : moduleAccount g mn' s with
      | none => rw [hm'] at h; cases h
      | some q =>
        obtain ⟨mo', s1⟩ := q
        rw [hm'] at h
        obtain ⟨k1, a, k2, rfl⟩ := moduleAccount_ok hm'
        obtain ⟨r', q1, q2⟩ := bankSendA_paid h
        exact ⟨mo, mo', r', a, rfl, k1, k2, q1, q2⟩
  · intro h
    simp only [step, accountToModuleA] at h
    cases hm' : moduleAccount g mn' s with
    | none => rw [hm'] at h; cases h
    | some q =>
      obtain ⟨mo', s1⟩ := q
      rw [hm'] at h
      obtain ⟨k1, a, k2, rfl⟩ := moduleAccount_ok hm'
      obtain ⟨r', q1, q2⟩ := bankSendA_paid h
      exact ⟨mo', r', a, k1, k2, q1, q2⟩

theorem mintLoop_fst (c : Chain) (tp : Tokens.Params) (r : Addr) : ∀ (coins : Bank.Coins) (p q : World × Accts),
    mintLoop c tp r coins p = some q → mintCoins c tp r coins p.1 = some q.1 := by
  intro coins
  induction coins with
  | nil => intro p q h; cases h; rfl
  | cons x rest ih =>
    intro p q h
    obtain ⟨d, amt⟩ := x
    unfold mintLoop at h
    unfold mintCoins
    by_cases hd : isERC20Denom d = true
    · rw [if_pos hd] at h; cases h
    · rw [if_neg hd] at h ⊢
      have key : ∀ (o : Option (World × Accts)) (w1 : World), (∀ p1, o = some p1 → p1.1 = w1) →
          (match o with
            | none => none
            | some p1 => match denomToContract p1.1.maps d with
              | none => none
              | some a => match callTokenA c c.chainAddr a (.sudoMint r amt) p1 with
                | none => none
                | some p2 => mintLoop c tp r rest p2) = some q →
          (match denomToContract w1.maps d with
            | none => none
            | some a => match callToken c w1 c.chainAddr a (.sudoMint r amt) with
              | none => none
              | some w' => mintCoins c tp r rest w') = some q.1 := by
        intro o w1 ho h
        cases o with
        | none => cases h
        | some p1 =>
          have e := ho p1 rfl
          subst e
          simp only at h
          cases hk : denomToContract p1.1.maps d with
          | none => rw [hk] at h; cases h
          | some a =>
            rw [hk] at h
            simp only at h ⊢
            have e := callTokenA_fst c c.chainAddr a (.sudoMint r amt) p1
            cases hq : callTokenA c c.chainAddr a (.sudoMint r amt) p1 with
            | none => rw [hq] at h; cases h
            | some p2 =>
              rw [hq] at h e
              simp only [Option.map_some] at e
              rw [← e]
              exact ih p2 q h
      refine key _ _ ?_ h
      intro p1 hp1
      cases ht : p.1.maps.toAddr d with
      | some a => rw [ht] at hp1; cases hp1; rfl
      | none =>
        rw [ht] at hp1
        simp only [newToken] at hp1
        split at hp1
        · cases hp1
        · cases hp1; rfl

theorem burnLoop_fst (g : Cfg) (fc : Str) (f : Addr) (all : Bank.Coins) : ∀ (coins : Bank.Coins) (s s' : State),
    (∀ x ∈ coins, isERC20Denom x.1 = false) → burnLoopA g fc f all coins s = .ok s' →
    burnCoins g.chain g.tp f all coins s.w = some s'.w ∧ s'.enabled = s.enabled ∧ s'.dflt = s.dflt := by
  intro coins
  induction coins with
  | nil => intro s s' _ h; cases h; exact ⟨rfl, rfl, rfl⟩
  | cons x rest ih =>
    intro s s' hx h
    obtain ⟨d, amt⟩ := x
    have hd := hx (d, amt) (by simp)
    unfold burnLoopA at h
    unfold burnCoins
    simp only [hd, Bool.false_eq_true, if_false] at h ⊢
    cases hk : denomToContract s.w.maps d with
    | none => rw [hk] at h; cases h
    | some a =>
      rw [hk] at h
      simp only at h ⊢
      have e := callTokenA_fst g.chain g.chain.chainAddr a (.sudoBurn f amt) (s.w, s.accts)
      cases hq : callTokenA g.chain g.chain.chainAddr a (.sudoBurn f amt) (s.w, s.accts) with
      | none => rw [hq] at h; cases h
      | some p =>
        rw [hq] at h e
        simp only [Option.map_some] at e
        rw [← e]
        exact ih (withPair s p) s' (fun y hy => hx y (by simp [hy])) h

/-- **C44** (minting and burning, with the accounts): only a module with the permission mints or burns — without it the call
panics —, and exactly the coins are created at, or destroyed at, the module's EVM address. -/
theorem C44_supply_accounts (g : Cfg) (hinj : NoCollision g.tp) (fc mn : Str) (coins : Bank.Coins) (s s' : State)
    (hw : Consistent g.tp s.w) (hlim : s.w.factoryNonce + coins.length < 2 ^ 64) :
    (step g fc (.mint mn coins) s = .ok s' → ∃ mo, g.modules mn = some mo ∧ mo.minter = true ∧ g.mintOk coins = true ∧
      ∃ a er m1, getModule s.accts (bytesToAddress mo.addr) = some a ∧ convert a mo.addr false = some (er, m1) ∧
        Created s.w s'.w coins er ∧ s'.enabled = s.enabled ∧ s'.dflt = s.dflt) ∧
    (step g fc (.burn mn coins) s = .ok s' → ∃ mo, g.modules mn = some mo ∧ mo.burner = true ∧
      ∃ a ef m1, getModule s.accts (bytesToAddress mo.addr) = some a ∧ convert a mo.addr false = some (ef, m1) ∧
        ((∀ x ∈ coins, isERC20Denom x.1 = false) → s'.enabled = s.enabled ∧ s'.dflt = s.dflt ∧
          (Deployed s.w coins → Destroyed s.w s'.w coins ef))) ∧
    (∀ mo, g.modules mn = some mo → mo.minter = false → g.mintOk coins = true → step g fc (.mint mn coins) s = .panic) ∧
    (∀ mo, g.modules mn = some mo → mo.burner = false → step g fc (.burn mn coins) s = .panic) := by
  refine ⟨?_, ?_, ?_, ?_⟩
  · intro h
    simp only [step, bankMintA] at h
    cases hk : g.mintOk coins with
    | false => simp [hk] at h
    | true =>
      simp only [hk, Bool.not_true, Bool.false_eq_true, if_false] at h
      cases hm' : moduleAccount g mn s with
      | none => rw [hm'] at h; cases h
      | some q =>
        obtain ⟨mo, s1⟩ := q
        rw [hm'] at h
        obtain ⟨k1, a, k2, rfl⟩ := moduleAccount_ok hm'
        refine ⟨mo, k1, ?_⟩
        cases hp : mo.minter with
        | false => simp [hp] at h
        | true =>
          simp only [hp, Bool.not_true, Bool.false_eq_true, if_false] at h
          split at h
          · cases h
          · cases hc : convert a mo.addr false with
            | none => rw [hc] at h; cases h
            | some q =>
              obtain ⟨er, m1⟩ := q
              rw [hc] at h
              simp only at h
              cases hl : mintLoop g.chain g.tp er coins (s.w, m1) with
              | none => rw [hl] at h; cases h
              | some p =>
                rw [hl] at h
                cases h
                have := mintLoop_fst _ _ _ _ _ _ hl
                obtain ⟨_, _, _, _, hcr, _⟩ := C27_mint g.chain g.tp hinj er coins s.w p.1 hw hlim this
                exact ⟨rfl, rfl, a, er, m1, k2, hc, hcr, rfl, rfl⟩
  · intro h
    simp only [step, bankBurnA] at h
    cases hm' : moduleAccount g mn s with
    | none => rw [hm'] at h; cases h
    | some q =>
      obtain ⟨mo, s1⟩ := q
      rw [hm'] at h
      obtain ⟨k1, a, k2, rfl⟩ := moduleAccount_ok hm'
      refine ⟨mo, k1, ?_⟩
      cases hp : mo.burner with
      | false => simp [hp] at h
      | true =>
        simp only [hp, Bool.not_true, Bool.false_eq_true, if_false] at h
        cases hc : convert a mo.addr false with
        | none => rw [hc] at h; cases h
        | some q =>
          obtain ⟨ef, m1⟩ := q
          rw [hc] at h
          refine ⟨rfl, a, ef, m1, k2, hc, fun hx => ?_⟩
          obtain ⟨h1, h2, h3⟩ := burnLoop_fst _ _ _ _ _ _ _ hx h
          exact ⟨h2, h3, fun hd => (C26_partial g.chain g.tp ef coins coins s.w s'.w hx hd h1).1⟩
  · intro mo hm hp hk
    simp only [step, bankMintA, hk, Bool.not_true, Bool.false_eq_true, if_false]
    cases hm' : moduleAccount g mn s with
    | none => rfl
    | some q =>
      obtain ⟨mo', s1⟩ := q
      obtain ⟨k1, _⟩ := moduleAccount_ok hm'
      rw [hm] at k1; cases k1
      simp [hp]
  · intro mo hm hp
    simp only [step, bankBurnA]
    cases hm' : moduleAccount g mn s with
    | none => rfl
    | some q =>
      obtain ⟨mo', s1⟩ := q
      obtain ⟨k1, _⟩ := moduleAccount_ok hm'
      rw [hm] at k1; cases k1
      simp [hp]

/-- Non-vacuity: all these operations succeed and move what they say. -/
example : ((Res.toOption (step toyCfg "fee".toList (.accountToModule aliceB "fee".toList [(uinit, 30)]) toyState)).map show4) =
      some [70, 0, 30, 100] ∧
    ((Res.toOption (step toyCfg "fee".toList (.mint "minter".toList [(uinit, 5)]) toyState)).map show4) = some [100, 5, 0, 105] ∧
    (((Res.toOption (step toyCfg "fee".toList (.mint "minter".toList [(uinit, 5)]) toyState)).bind fun s =>
      Res.toOption (step toyCfg "fee".toList (.moduleToModule "minter".toList "fee".toList [(uinit, 2)]) s)).map show4) =
      some [100, 3, 2, 105] ∧
    (((Res.toOption (step toyCfg "fee".toList (.mint "minter".toList [(uinit, 5)]) toyState)).bind fun s =>
      Res.toOption (step toyCfg "fee".toList (.burn "minter".toList [(uinit, 2)]) s)).map show4) = some [100, 3, 0, 103] := by
  decide +kernel

end Verif.Props.ModuleBank
