import Verif.Model.BankQuery
import Verif.Props.Paging
import Verif.Props.Denom
import Verif.Props.Bank
/-
C143, C144: bank queries about one denom.
-/
namespace Verif.Props.BankQuery
open Verif Verif.Text Verif.Denom Verif.Tokens Verif.Identity Verif.Bank Verif.BankQuery Verif.Spec.Tokens
open Verif.Spec.Ledger Verif.Props.Tokens Verif.Props.Ledger Verif.Props.Registry Verif.Props.Bank

/-! ### Specification -/

/-- Denom `d` stands for the token contract `k`. -/
def Stands (w : World) (d : Str) (k : Addr) : Prop := denomToContract w.maps d = some k ∧ (w.tokens k).isSome

/-- Denom `d` is not in use: no coin of that name was ever made (and it does not name a contract). -/
def Unused (w : World) (d : Str) : Prop := isERC20Denom d = false ∧ w.maps.toAddr d = none

/-- A question about a readable address in a valid denom; the address belongs to the EVM address `a`. -/
structure Asked (g : Cfg) (s : State) (addr d : Str) (a : Addr) : Prop where
  addrGiven : addr ≠ []
  denomGiven : d ≠ []
  valid : g.validDenom d = true
  who : ∃ b m, g.parseAddr addr = some b ∧ convert s.accts b false = some (a, m)

/-! ### Lemmas -/

theorem lookup_at {m : Maps} {d : Str} {k : Addr} : lookup m d = .at k ↔ denomToContract m d = some k := by
  unfold lookup denomToContract
  by_cases h : isERC20Denom d = true
  · simp only [h, if_true]
    by_cases h2 : isHexAddress (d.drop 4) = true
    · simp [h2]
    · simp [h2]
  · simp only [h, Bool.false_eq_true, if_false]
    cases m.toAddr d <;> simp

theorem lookup_missing {m : Maps} {d : Str} : lookup m d = .missing ↔ isERC20Denom d = false ∧ m.toAddr d = none := by
  unfold lookup
  by_cases h : isERC20Denom d = true
  · simp only [h, if_true]
    by_cases h2 : isHexAddress (d.drop 4) = true
    · simp [h2]
    · simp [h2]
  · simp only [h, Bool.false_eq_true, if_false]
    cases hm : m.toAddr d <;> simp

theorem askBalance_some {w : World} {k a : Addr} (h : (w.tokens k).isSome) : askBalance w k a = some (balanceOf w k a) := by
  obtain ⟨p, hp⟩ := Option.isSome_iff_exists.mp h
  simp [askBalance, balanceOf, hp]

theorem askSupply_some {w : World} {k : Addr} (h : (w.tokens k).isSome) : askSupply w k = some (supplyOf w k) := by
  obtain ⟨p, hp⟩ := Option.isSome_iff_exists.mp h
  simp [askSupply, supplyOf, hp]

/-! ### Names over whole histories -/

/-- The two maps are inverse to each other, name no `evm/` denom, and every contract that is named or listed exists. -/
structure Named (w : World) : Prop where
  both : ∀ d a, w.maps.toAddr d = some a ↔ w.maps.toDenom a = some d
  plain : ∀ d a, w.maps.toAddr d = some a → isERC20Denom d = false
  there : ∀ d a, w.maps.toAddr d = some a → (w.tokens a).isSome
  held : ∀ x k, k ∈ w.stores x → (w.tokens k).isSome

theorem named_same {w w' : World} (h : Named w) (hm : w'.maps = w.maps)
    (ht : ∀ k, (w.tokens k).isSome → (w'.tokens k).isSome)
    (hs : ∀ x k, k ∈ w'.stores x → k ∈ w.stores x ∨ (w'.tokens k).isSome) : Named w' := by
  refine ⟨?_, ?_, ?_, ?_⟩
  · rw [hm]; exact h.both
  · rw [hm]; exact h.plain
  · rw [hm]; intro d a hd; exact ht a (h.there d a hd)
  · intro x k hk
    rcases hs x k hk with h1 | h1
    · exact ht k (h.held x k h1)
    · exact h1

theorem call_named {c : Chain} {w w' : World} {caller k : Addr} {call : Call} (hn : Named w)
    (h : callToken c w caller k call = some w') : Named w' := by
  obtain ⟨e1, _, _, e4, h5⟩ := callToken_spec h
  refine named_same hn e1 ?_ ?_
  · intro x hx
    by_cases hk : x = k
    · subst hk
      rcases h5 with ⟨_, rfl⟩ | ⟨s, t, t', _, _, p3⟩
      · exact hx
      · rw [p3]; rfl
    · rw [e4 x hk]; exact hx
  · intro x y hy
    rcases callToken_form h with ⟨_, rfl⟩ | ⟨s, t, t', h1, h2, h3⟩
    · exact Or.inl hy
    · subst h3
      cases hr : regTarget call with
      | none => rw [hr] at hy; exact Or.inl hy
      | some b =>
        rw [hr] at hy
        rcases (registerStore_spec w b k).2.2.2.2.2.1 x y hy with g | ⟨_, g, _⟩
        · exact Or.inl g
        · right; simp [g]

theorem send_named {c : Chain} {f r : Addr} {coins : Bank.Coins} {w w' : World} (hn : Named w)
    (h : sendCoins c f r coins w = some w') : Named w' := by
  induction coins generalizing w with
  | nil => simp only [sendCoins, Option.some.injEq] at h; subst h; exact hn
  | cons y rest ih =>
    obtain ⟨d, amt⟩ := y
    simp only [sendCoins] at h
    split at h
    · cases h
    · split at h
      · cases h
      · rename_i w1 h1
        exact ih (call_named hn h1) h

theorem ensure_named {c : Chain} {p : Params} {w : World} (hn : Named w) (d : Str) (hd : isERC20Denom d = false)
    (hf : w.tokens (p.deployed w.factoryNonce) = none) : Named (ensure c p w d) := by
  unfold ensure
  split
  · exact hn
  · rename_i hnew
    have ha : w.maps.toDenom (p.deployed w.factoryNonce) = none := by
      cases hx : w.maps.toDenom (p.deployed w.factoryNonce) with
      | none => rfl
      | some d' =>
        have := hn.there d' _ ((hn.both _ _).mpr hx)
        rw [hf] at this; cases this
    refine ⟨?_, ?_, ?_, ?_⟩
    · exact Verif.Props.Denom.create_bij w.maps d _ hn.both hnew ha
    · intro d' a' h
      simp only [factoryCreate, createERC20] at h
      split at h
      · rename_i e; subst e; exact hd
      · exact hn.plain d' a' h
    · intro d' a' h
      simp only [factoryCreate, createERC20] at h ⊢
      split at h
      · cases h; simp
      · split
        · rfl
        · exact hn.there d' a' h
    · intro x k hk
      simp only [factoryCreate]
      split
      · rfl
      · exact hn.held x k hk

theorem mint_named {c : Chain} {p : Params} (hinj : NoCollision p) {r : Addr} {coins : Bank.Coins} {w w' : World}
    (hcon : Consistent p w) (hl : w.factoryNonce + coins.length < 2 ^ 64) (hw : Named w)
    (h : mintCoins c p r coins w = some w') : Named w' := by
  induction coins generalizing w with
  | nil => simp only [mintCoins, Option.some.injEq] at h; subst h; exact hw
  | cons x rest ih =>
    obtain ⟨d, amt⟩ := x
    rw [mintCoins_cons] at h
    simp only [List.length_cons] at hl
    split at h
    · cases h
    · rename_i hne
      have hne' : isERC20Denom d = false := by simpa using hne
      have hf := hcon.fresh w.factoryNonce (Nat.le_refl _) (by omega)
      obtain ⟨v1, v2, ⟨a0, v3⟩, v4, v5, v6, v7, v8⟩ := ensure_spec c p hinj w hcon (by omega) d
      have hcw := ensure_named (c := c) (p := p) hw d hne' hf
      generalize ensure c p w d = w1 at *
      have hda : ∀ m : Maps, denomToContract m d = m.toAddr d := by intro m; simp [denomToContract, hne']
      rw [hda, v3] at h
      simp only at h
      split at h
      · cases h
      · rename_i w2 h2
        obtain ⟨e1, e2, e3, e4, e4', _, e5, e6⟩ := sudoMint_step h2 (v1.denoms d a0 v3)
        have hlim2 : w2.factoryNonce + rest.length < 2 ^ 64 := by
          rw [e3, v8]; split <;> omega
        have hw2 : Consistent p w2 := by
          refine ⟨?_, ?_⟩
          · intro d' a' hd'; rw [e4]; rw [e1] at hd'; exact v1.denoms d' a' hd'
          · intro n hn hn2; rw [e3] at hn
            have := v1.fresh n hn hn2
            have g := e4 (p.deployed n)
            rw [this] at g
            simpa using g
        exact ih hw2 hlim2 (call_named hcw h2) h

theorem burn_named {c : Chain} {p : Params} {f : Addr} {all coins : Bank.Coins} {w w' : World} (hn : Named w)
    (h : burnCoins c p f all coins w = some w') : Named w' := by
  induction coins generalizing w with
  | nil => simp only [burnCoins, Option.some.injEq] at h; subst h; exact hn
  | cons x rest ih =>
    obtain ⟨d, amt⟩ := x
    simp only [burnCoins] at h
    split at h
    · split at h
      · cases h
      · rename_i w1 h1
        exact ih (send_named hn h1) h
    · split at h
      · cases h
      · split at h
        · cases h
        · rename_i w1 h1
          exact ih (call_named hn h1) h

theorem step_named {c : Chain} {late : Bool} {w w' : World} (h : Step c late w w') (hw : Named w) : Named w' := by
  cases h with
  | call caller k call w' h => exact call_named hw h
  | send f r coins w' h => exact send_named hw h
  | mint p r coins w' hp hcon hl h => exact mint_named hp hcon hl hw h
  | burn p f all coins w' h => exact burn_named hw h
  | create p caller hf =>
    refine named_same hw rfl ?_ fun _ _ hk => Or.inl hk
    intro k hk
    simp only [factoryCreate]
    split
    · rfl
    · exact hk
  | deploy a owner sudo hn =>
    refine named_same hw rfl ?_ fun _ _ hk => Or.inl hk
    intro k hk
    simp only
    split
    · rfl
    · exact hk
  | register p k w' h hl =>
    obtain ⟨_, ⟨_, rfl⟩ | ⟨_, _, rfl⟩⟩ := register_form h
    · exact hw
    · exact named_same hw rfl (fun _ hk => hk) fun _ _ hk => Or.inl hk

theorem reach_named {c : Chain} {late : Bool} {w : World} (h : Reach c late World.init w) : Named w := by
  induction h with
  | refl => 
    refine ⟨by intro d a; simp [World.init, Maps.empty], ?_, ?_, ?_⟩
    · intro d a h; cases h
    · intro d a h; cases h
    · intro x k h; cases h
  | step w w' _ hs ih => exact step_named hs ih

/-- The name the chain gives a contract leads back to it, after any history. -/
theorem name_resolves (mask : Str → List Bool) {w : World} (h : Named w) (a : Addr) :
    denomToContract w.maps (contractToDenom mask w.maps a) = some a := by
  cases ht : w.maps.toDenom a with
  | some d =>
    have h1 := (h.both d a).mpr ht
    have h2 := h.plain d a h1
    simp [contractToDenom, ht, denomToContract, h2, h1]
  | none =>
    simp only [contractToDenom, ht]
    exact Verif.Props.Denom.evm_resolves w.maps _ a
      (by rw [Verif.Props.Denom.strip_trimHex]; exact Verif.Props.Denom.trimHex_digits mask a)

/-! ### C143 -/

/-- **C144 (tokens).** For every readable address and valid denom that stands for a token, `Balance` and
`SpendableBalanceByDenom` answer the balance of the address in it, and `SupplyOf` its supply. -/
theorem C144_token (g : Cfg) (s : State) (addr d : Str) (a k : Addr) (h : Asked g s addr d a) (hk : Stands s.w d k) :
    qBalance g s addr d = .ok (d, balanceOf s.w k a) ∧ qSpendable g s addr d = .ok (d, balanceOf s.w k a) ∧
    qSupply g s d = .ok (d, supplyOf s.w k) := by
  obtain ⟨b, m, hb, hc⟩ := h.who
  have hl := lookup_at.mpr hk.1
  have hg : getBalance g s b d = .ok (d, balanceOf s.w k a) := by
    simp [getBalance, ekGetBalance, hc, hl, askBalance_some hk.2, newCoin, h.valid]
  refine ⟨?_, ?_, ?_⟩
  · simp [qBalance, h.addrGiven, h.denomGiven, hb, hg]
  · simp [qSpendable, hb, h.valid, spendableCoin, hg, locked, amountOf]
  · simp [qSupply, h.denomGiven, getSupply, ekGetSupply, hl, askSupply_some hk.2, newCoin, h.valid]

/-- **C144 (unused denoms).** In a denom that is not in use every address has, and can spend, nothing. -/
theorem C144_unused (g : Cfg) (s : State) (addr d : Str) (a : Addr) (h : Asked g s addr d a) (hk : Unused s.w d) :
    qBalance g s addr d = .ok (d, 0) ∧ qSpendable g s addr d = .ok (d, 0) := by
  obtain ⟨b, m, hb, hc⟩ := h.who
  have hl := lookup_missing.mpr hk
  have hg : getBalance g s b d = .ok (d, 0) := by
    simp [getBalance, ekGetBalance, hc, hl, newCoin, h.valid]
  constructor
  · simp [qBalance, h.addrGiven, h.denomGiven, hb, hg]
  · simp [qSpendable, hb, h.valid, spendableCoin, hg, locked, amountOf]

theorem balance_ok {g : Cfg} {s : State} {b : Bytes} {d : Str} {x : Str × Nat} (h : getBalance g s b d = .ok x) :
    x.1 = d ∧ g.validDenom d = true ∧ ∃ a m, convert s.accts b false = some (a, m) ∧
      ((∃ k, Stands s.w d k ∧ x.2 = balanceOf s.w k a) ∨ (Unused s.w d ∧ x.2 = 0)) := by
  unfold getBalance at h
  cases he : ekGetBalance s b d with
  | none => rw [he] at h; cases h
  | some n =>
    rw [he] at h
    simp only [newCoin] at h
    split at h
    · rename_i hv
      cases h
      refine ⟨rfl, hv, ?_⟩
      unfold ekGetBalance at he
      cases hc : convert s.accts b false with
      | none => rw [hc] at he; cases he
      | some am =>
        obtain ⟨a, m⟩ := am
        rw [hc] at he
        refine ⟨a, m, rfl, ?_⟩
        simp only at he
        cases hl : lookup s.w.maps d with
        | missing =>
          rw [hl] at he
          simp only [Option.some.injEq] at he
          exact Or.inr ⟨lookup_missing.mp hl, he.symm⟩
        | bad => rw [hl] at he; cases he
        | «at» k =>
          rw [hl] at he
          simp only at he
          left
          cases ht : s.w.tokens k with
          | none => simp [askBalance, ht] at he
          | some p =>
            rw [askBalance_some (by rw [ht]; rfl)] at he
            simp only [Option.some.injEq] at he
            exact ⟨k, ⟨lookup_at.mp hl, by rw [ht]; rfl⟩, he.symm⟩
    · cases h

/-- **C144 (never a wrong answer).** Whatever is asked, an answer of `Balance` names the denom asked for and is the
balance, in the token it stands for, of the EVM address of the address asked for — or zero if the denom is not in use; and
`SpendableBalanceByDenom` answers the same. An answer of `SupplyOf` is the supply of the token. -/
theorem C144_sound (g : Cfg) (s : State) (addr d : Str) :
    (∀ x, qBalance g s addr d = .ok x → x.1 = d ∧ ∃ b a m, g.parseAddr addr = some b ∧
      convert s.accts b false = some (a, m) ∧
      ((∃ k, Stands s.w d k ∧ x.2 = balanceOf s.w k a) ∨ (Unused s.w d ∧ x.2 = 0)) ∧ qSpendable g s addr d = .ok x) ∧
    (∀ x, qSpendable g s addr d = .ok x → addr ≠ [] → d ≠ [] → qBalance g s addr d = .ok x) ∧
    (∀ x, qSupply g s d = .ok x → x.1 = d ∧ ∃ k, Stands s.w d k ∧ x.2 = supplyOf s.w k) := by
  refine ⟨?_, ?_, ?_⟩
  · intro x h
    unfold qBalance at h
    by_cases h1 : addr = []
    · rw [if_pos h1] at h; cases h
    · rw [if_neg h1] at h
      by_cases h2 : d = []
      · rw [if_pos h2] at h; cases h
      · rw [if_neg h2] at h
        cases hp : g.parseAddr addr with
        | none => rw [hp] at h; cases h
        | some b =>
          rw [hp] at h
          simp only at h
          obtain ⟨e1, hv, a, m, hc, hr⟩ := balance_ok h
          refine ⟨e1, b, a, m, rfl, hc, hr, ?_⟩
          simp [qSpendable, hp, hv, spendableCoin, h, locked, amountOf]
  · intro x h h1 h2
    unfold qSpendable at h
    cases hp : g.parseAddr addr with
    | none => rw [hp] at h; cases h
    | some b =>
      rw [hp] at h
      simp only at h
      split at h
      · unfold spendableCoin at h
        cases hg : getBalance g s b d with
        | ok y =>
          rw [hg] at h
          simp only [locked, amountOf, List.map_nil, List.sum_nil, Nat.zero_le, if_true, Nat.sub_zero] at h
          simp [qBalance, h1, h2, hp, hg, ← h]
        | err => rw [hg] at h; cases h
        | panic => rw [hg] at h; cases h
      · cases h
  · intro x h
    unfold qSupply at h
    split at h
    · cases h
    · unfold getSupply ekGetSupply at h
      cases hl : lookup s.w.maps d with
      | missing => rw [hl] at h; cases h
      | bad => rw [hl] at h; cases h
      | «at» k =>
        rw [hl] at h
        simp only at h
        cases ht : s.w.tokens k with
        | none => simp [askSupply, ht] at h
        | some p =>
          rw [askSupply_some (by rw [ht]; rfl)] at h
          simp only [newCoin] at h
          split at h
          · cases h
            exact ⟨rfl, k, ⟨lookup_at.mp hl, by rw [ht]; rfl⟩, rfl⟩
          · cases h

/-- **C144 (the listings agree).** After any history, every coin that `AllBalances` lists for an address is what `Balance`
answers for it, and every coin of which `Balance` reports a positive amount in a registered token is listed, under the name
the chain gives the token, if tokens register before they are held. -/
theorem C144_listing (c : Chain) (g : Cfg) (mask : Str → List Bool) (s : State) :
    (Reach c true World.init s.w → ∀ (addr : Str) (a : Addr) (x : Str × Nat), x ∈ allBalances mask s a →
      Asked g s addr x.1 a → qBalance g s addr x.1 = .ok x) ∧
    (Reach c false World.init s.w → ∀ (addr d : Str) (a k : Addr) (n : Nat), Asked g s addr d a →
      Stands s.w d k → s.w.erc20s k = true → qBalance g s addr d = .ok (d, n) → n ≠ 0 →
      (contractToDenom mask s.w.maps k, n) ∈ accountCoins mask s a ∧
      (contractToDenom mask s.w.maps k, n) ∈ allBalances mask s a) := by
  constructor
  · intro hr addr a x hx ha
    unfold allBalances at hx
    obtain ⟨k, hk, rfl⟩ := List.mem_map.mp hx
    exact (C144_token g s addr _ a k ha ⟨name_resolves mask (reach_named hr) k, (reach_named hr).held a k hk⟩).1
  · intro hr addr d a k n ha hk he hq hn
    have hq' := (C144_token g s addr d a k ha hk).1
    rw [hq'] at hq
    simp only [Res.ok.injEq, Prod.mk.injEq, true_and] at hq
    have hm := (reach_complete hr init_complete).holders k a he (by omega)
    constructor
    · unfold accountCoins accountBalances
      refine List.mem_map.mpr ⟨(k, n), List.mem_filterMap.mpr ⟨k, hm, ?_⟩, rfl⟩
      rw [if_neg (by omega), hq]
    · unfold allBalances
      exact List.mem_map.mpr ⟨k, hm, by rw [hq]⟩

/-- **C144 (balances add up to the supply).** After any history the balances that would be answered for all addresses of
a token add up to what `SupplyOf` answers. -/
theorem C144_sum (c : Chain) (g : Cfg) (s : State) (hr : Reach c true World.init s.w) (d : Str) (x : Str × Nat)
    (h : qSupply g s d = .ok x) :
    ∃ bal : Addr → Nat, SumsTo bal x.2 ∧ ∀ addr a, Asked g s addr d a → qBalance g s addr d = .ok (d, bal a) := by
  obtain ⟨_, k, hk, e⟩ := (C144_sound g s [] d).2.2 x h
  obtain ⟨⟨b, t⟩, ht⟩ := Option.isSome_iff_exists.mp hk.2
  refine ⟨fun a => balanceOf s.w k a, ?_, fun addr a ha => (C144_token g s addr d a k ha hk).1⟩
  have := (C23_chain c s.w hr k b t ht).1
  rw [e]
  simpa [supplyOf, balanceOf, ht] using this

/-- **C144 (spendable is spendable).** After any history, what `Balance` answers is exactly what a bank send from the
address can move: that much and less goes through, and more does not. -/
theorem C144_spend (c : Chain) (g : Cfg) (s : State) (hr : Reach c true World.init s.w) (addr d : Str) (a k r : Addr)
    (h : Asked g s addr d a) (hk : Stands s.w d k) (n m : Nat) (hq : qSpendable g s addr d = .ok (d, n)) :
    (sendCoins c a r [(d, m)] s.w).isSome = true ↔ m ≤ n := by
  have hq' := (C144_token g s addr d a k h hk).2.1
  rw [hq'] at hq
  simp only [Res.ok.injEq, Prod.mk.injEq, true_and] at hq
  subst hq
  obtain ⟨⟨b, t⟩, ht⟩ := Option.isSome_iff_exists.mp hk.2
  have hbal : balanceOf s.w k a = t.bal a := by simp [balanceOf, ht]
  constructor
  · intro hs
    obtain ⟨w', hw⟩ := Option.isSome_iff_exists.mp hs
    simp only [sendCoins, hk.1, callToken, ht, exec] at hw
    by_cases hle : m ≤ t.bal a
    · rw [hbal]; exact hle
    · simp [doTransfer, subU, hle] at hw
  · intro hle
    obtain ⟨w', hw⟩ := C25_accepts c a r [(d, m)] s.w (fun k' b' t' h' => C23_chain c s.w hr k' b' t' h')
      (by intro x hx; simp only [List.mem_singleton] at hx; subst hx; exact ⟨k, hk⟩)
      (by
        intro k'
        rw [listed_cons, hk.1]
        by_cases hkk : k = k'
        · subst hkk; simp [listed]; omega
        · simp [hkk, listed])
    rw [hw]; rfl

/-! ### Examples and disagreements -/

/-- A state with the given ledger. -/
def at_ (w : World) : State := { toyState with w := w }

/-- Answers, for evaluation. -/
def shown {α : Type} : Res α → Option α
  | .ok a => some a
  | _ => none

/-- The other spelling of bob's token. -/
def denA' : Str := "evm/0x000000000000000000000000000000000000000a".toList
def bobT : Str := "bob".toList
def none1 : Str := "unone".toList

theorem shown_ok {α : Type} {r : Res α} {x : α} (h : shown r = some x) : r = .ok x := by
  cases r with
  | ok a => simp only [shown, Option.some.injEq] at h; rw [h]
  | err => cases h
  | panic => cases h

/-- The hypotheses of the theorems above are met: bob asks about the tokens he holds. -/
example : (Verif.Paging.acts Verif.Paging.two World.init).map (fun w =>
    [shown (qBalance toyCfg (at_ w) bobT Verif.Paging.denA), shown (qSpendable toyCfg (at_ w) bobT Verif.Paging.denA),
     shown (qSupply toyCfg (at_ w) Verif.Paging.denA), shown (qBalance toyCfg (at_ w) bobT none1)]) =
    some [some (Verif.Paging.denA, 5), some (Verif.Paging.denA, 5), some (Verif.Paging.denA, 5), some (none1, 0)] := by
  decide +kernel

example (w : World) : Asked toyCfg (at_ w) bobT Verif.Paging.denA bob :=
  ⟨by decide, by decide, by decide, ⟨bobB, _, by decide, rfl⟩⟩

/-- **C143 fails: the supply of a denom that is not in use.** `Balance` answers zero for it, but `SupplyOf` panics (and the
caller gets an internal error). -/
theorem C143_supply_violated : ¬ ∀ (g : Cfg) (s : State) (d : Str), g.validDenom d = true → Unused s.w d →
    qSupply g s d = .ok (d, 0) := by
  intro h
  have := h toyCfg (at_ World.init) none1 (by decide) ⟨by decide, rfl⟩
  have e : shown (qSupply toyCfg (at_ World.init) none1) = none := by decide +kernel
  rw [this] at e
  cases e

/-- **C143 fails: balances in denoms that name no token.** `Balance` validates neither the denom nor the contract it names:
asked for the balance in `evm/` followed by an address without code, or by something else, it does not answer zero, and does
not refuse: it panics. -/
theorem C143_balance_violated : ¬ ∀ (g : Cfg) (s : State) (addr d : Str) (a : Addr), Asked g s addr d a →
    (¬ ∃ k, Stands s.w d k) → qBalance g s addr d = .ok (d, 0) ∨ qBalance g s addr d = .err := by
  intro h
  have := h toyCfg (at_ World.init) bobT Verif.Paging.denA bob ⟨by decide, by decide, by decide, ⟨bobB, _, by decide, rfl⟩⟩
    (by rintro ⟨k, _, hk⟩; cases hk)
  have e : qBalance toyCfg (at_ World.init) bobT Verif.Paging.denA = .panic := rfl
  rw [e] at this
  rcases this with h | h <;> cases h

/-- **C143 fails: different denoms, one coin.** Two valid denoms can be answered with balances that are the same coins:
sending all of one away takes the other with it. -/
theorem C143_spelling_violated : ¬ ∀ (c : Chain) (g : Cfg) (s : State), Reach c true World.init s.w →
    ∀ (addr d d' : Str) (a r : Addr) (n n' : Nat), d ≠ d' → Asked g s addr d a → Asked g s addr d' a →
    qBalance g s addr d = .ok (d, n) → qBalance g s addr d' = .ok (d', n') →
    ∀ w', sendCoins c a r [(d, n)] s.w = some w' → qBalance g { s with w := w' } addr d' = .ok (d', n') := by
  intro h
  obtain ⟨w, hr, hf⟩ := Verif.Paging.reached (l := Verif.Paging.two)
    (fun w => [shown (qBalance toyCfg (at_ w) bobT Verif.Paging.denA), shown (qBalance toyCfg (at_ w) bobT denA'),
      (sendCoins toyChain bob alice [(Verif.Paging.denA, 5)] w).bind fun w' => shown (qBalance toyCfg (at_ w') bobT denA')])
    [some (Verif.Paging.denA, 5), some (denA', 5), some (denA', 0)] (by decide +kernel)
  simp only [List.cons.injEq, and_true] at hf
  obtain ⟨h1, h2, h3⟩ := hf
  obtain ⟨w', hw, h4⟩ := Option.bind_eq_some_iff.mp h3
  have := h toyChain toyCfg (at_ w) hr bobT Verif.Paging.denA denA' bob alice 5 5 (by decide)
    ⟨by decide, by decide, by decide, ⟨bobB, _, by decide, rfl⟩⟩ ⟨by decide, by decide, by decide, ⟨bobB, _, by decide, rfl⟩⟩
    (shown_ok h1) (shown_ok h2) w' hw
  have e : qBalance toyCfg (at_ w') bobT denA' = .ok (denA', 5) := this
  rw [e] at h4
  simp [shown] at h4

/-- **C143 fails: supplies that are and are not.** `HasSupply` asks whether a token is registered, `SupplyOf` asks the
contract: of a token that is not registered there is a supply, but it has none. -/
theorem C143_has_violated : ¬ ∀ (c : Chain) (g : Cfg) (s : State), Reach c true World.init s.w →
    ∀ (d : Str) (n : Nat), qSupply g s d = .ok (d, n) → n ≠ 0 → hasSupply s d = some true := by
  intro h
  obtain ⟨w, hr, hf⟩ := Verif.Paging.reached (l := [.deploy Verif.Paging.tokA, .mint Verif.Paging.tokA bob 5])
    (fun w => (shown (qSupply toyCfg (at_ w) Verif.Paging.denA), hasSupply (at_ w) Verif.Paging.denA))
    (some (Verif.Paging.denA, 5), some false) (by decide +kernel)
  simp only [Prod.mk.injEq] at hf
  have := h toyChain toyCfg (at_ w) hr Verif.Paging.denA 5 (shown_ok hf.1) (by decide)
  rw [hf.2] at this
  cases this

/-- **C144 (`HasBalance`).** What modules are told: an address has an amount exactly if `Balance` reports at least that. -/
theorem C144_has (g : Cfg) (s : State) (addr d : Str) (b : Bytes) (n m : Nat) (hp : g.parseAddr addr = some b)
    (hq : qBalance g s addr d = .ok (d, n)) : hasBalance g s b (d, m) = some (decide (m ≤ n)) := by
  unfold qBalance at hq
  by_cases h1 : addr = []
  · rw [if_pos h1] at hq; cases hq
  · rw [if_neg h1] at hq
    by_cases h2 : d = []
    · rw [if_pos h2] at hq; cases hq
    · rw [if_neg h2, hp] at hq
      simp only at hq
      simp [hasBalance, hq]

/-- **C144 (`SupplyOf` and `HasSupply`, unused denoms).** `SupplyOf` never answers for a denom that is not in use: it
panics. Modules are told that it has no supply. -/
theorem C144_no_supply (g : Cfg) (s : State) (d : Str) (hd : d ≠ []) (hu : Unused s.w d) :
    qSupply g s d = .panic ∧ hasSupply s d = some false := by
  obtain ⟨h1, h2⟩ := hu
  have hl : lookup s.w.maps d = .missing := by
    unfold lookup
    rw [h1, h2]
    rfl
  unfold qSupply getSupply ekGetSupply hasSupply
  rw [hl, if_neg hd]
  exact ⟨rfl, rfl⟩

example : qSupply toyCfg (at_ World.init) none1 = .panic ∧ hasSupply (at_ World.init) none1 = some false :=
  C144_no_supply _ _ _ (by decide) ⟨by decide, rfl⟩

/-- **C144 (refusals).** Without an address or a denom, or with an address that cannot be read, `Balance` is refused;
`SpendableBalanceByDenom` is refused for a denom that is not valid too; `SupplyOf` without a denom. -/
theorem C144_refused (g : Cfg) (s : State) (addr d : Str) :
    (addr = [] ∨ d = [] ∨ g.parseAddr addr = none → qBalance g s addr d = .err) ∧
    (g.parseAddr addr = none ∨ g.validDenom d = false → qSpendable g s addr d = .err) ∧
    (d = [] → qSupply g s d = .err) := by
  refine ⟨?_, ?_, ?_⟩
  · intro h
    unfold qBalance
    by_cases h1 : addr = []
    · rw [if_pos h1]
    · rw [if_neg h1]
      by_cases h2 : d = []
      · rw [if_pos h2]
      · rw [if_neg h2]
        rcases h with h | h | h
        · exact absurd h h1
        · exact absurd h h2
        · rw [h]
  · intro h
    unfold qSpendable
    cases hp : g.parseAddr addr with
    | none => rfl
    | some b =>
      rcases h with h | h
      · rw [hp] at h; cases h
      · simp [h]
  · intro h
    simp [qSupply, h]

end Verif.Props.BankQuery
