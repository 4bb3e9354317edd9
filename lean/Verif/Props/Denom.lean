import Verif.Model.Denom
/-
C21 (denom ↔ contract) and C22 (derived denoms).
-/
namespace Verif.Props.Denom
open Verif Verif.Text Verif.Denom

/-- States reachable from genesis: the fee token is created first (x/evm/keeper/genesis.go:39, a fee denom that is
not itself an `evm/` denom), then coins are minted. A new contract's address never has a denom yet (contract
addresses are not reused, C10). -/
inductive Reachable : Maps → Prop where
  | genesis (d : Str) (a : Addr) (hd : isERC20Denom d = false) : Reachable (createERC20 Maps.empty d a)
  | mint (m m' : Maps) (d : Str) (a : Addr) : Reachable m → m.toDenom a = none → mintMaps m d a = some m' →
      Reachable m'

theorem create_bij (m : Maps) (d : Str) (a : Addr) (hb : ∀ d a, m.toAddr d = some a ↔ m.toDenom a = some d)
    (hd : m.toAddr d = none) (ha : m.toDenom a = none) :
    ∀ d' a', (createERC20 m d a).toAddr d' = some a' ↔ (createERC20 m d a).toDenom a' = some d' := by
  intro d' a'
  simp only [createERC20]
  by_cases h1 : d' = d
  · subst h1
    by_cases h2 : a' = a
    · subst h2; simp
    · simp only [if_true, h2, if_false, Option.some.injEq]
      constructor
      · intro h; exact absurd h.symm h2
      · intro h
        have := (hb d' a').mpr h
        rw [hd] at this; cases this
  · by_cases h2 : a' = a
    · subst h2
      simp only [h1, if_false, if_true, Option.some.injEq]
      constructor
      · intro h
        have := (hb d' a').mp h
        rw [ha] at this; cases this
      · intro h; exact absurd h.symm h1
    · simp only [h1, h2, if_false]; exact hb d' a'

theorem reachable_inv (m : Maps) (h : Reachable m) :
    (∀ d a, m.toAddr d = some a ↔ m.toDenom a = some d) ∧
    (∀ d a, m.toAddr d = some a → isERC20Denom d = false) := by
  induction h with
  | genesis d a hd =>
    refine ⟨create_bij Maps.empty d a (by intro d a; simp [Maps.empty]) rfl rfl, ?_⟩
    intro d' a' h
    simp only [createERC20, Maps.empty] at h
    split at h
    · rename_i g; subst g; exact hd
    · cases h
  | mint m m' d a hr ha hm ih =>
    unfold mintMaps at hm
    split at hm
    · cases hm
    · rename_i hp
      split at hm
      · cases hm; exact ih
      · rename_i hn
        cases hm
        refine ⟨create_bij m d a ih.1 hn ha, ?_⟩
        intro d' a' h
        simp only [createERC20] at h
        split at h
        · rename_i g; subst g; simpa using hp
        · exact ih.2 d' a' h

/-- **C21 (the registered part).** In every reachable state, among denoms that are not of the `evm/…` form, a denom
resolves to a contract iff the contract is named by that denom: no two such denoms share a contract, no two
contracts share such a denom. Missing: the `evm/…` spellings, refuted below. -/
theorem C21_partial (mask : Str → List Bool) (m : Maps) (h : Reachable m) :
    (∀ d a, isERC20Denom d = false → (denomToContract m d = some a ↔ contractToDenom mask m a = d)) ∧
    (∀ d1 d2 a, isERC20Denom d1 = false → isERC20Denom d2 = false →
      denomToContract m d1 = some a → denomToContract m d2 = some a → d1 = d2) := by
  obtain ⟨hb, hp⟩ := reachable_inv m h
  have key : ∀ d a, isERC20Denom d = false → (denomToContract m d = some a ↔ contractToDenom mask m a = d) := by
    intro d a hd
    unfold denomToContract contractToDenom
    rw [hd]
    simp only [Bool.false_eq_true, if_false]
    rw [hb d a]
    cases ht : m.toDenom a with
    | some d' => simp
    | none =>
      simp only [reduceCtorEq, false_iff]
      intro g
      rw [← g] at hd
      simp [isERC20Denom, evmPrefix, List.isPrefixOf] at hd
  refine ⟨key, ?_⟩
  intro d1 d2 a h1 h2 e1 e2
  rw [key d1 a h1] at e1
  rw [key d2 a h2] at e2
  rw [← e1, ← e2]

theorem trimHex_digits (mask : Str → List Bool) (a : Addr) : SameDigits (trimHex mask a) (hexEnc a.bytes) :=
  applyCase_same _ _ (hexEnc_digits _)

theorem strip_trimHex (mask : Str → List Bool) (a : Addr) : strip0x (trimHex mask a) = trimHex mask a := by
  apply strip0x_of_ne
  intro c hc
  have := sameDigits_all (trimHex_digits mask a) c (List.mem_of_mem_drop hc)
  intro h; rw [h] at this; cases this

theorem evm_resolves (m : Maps) (s : Str) (a : Addr) (hs : SameDigits (strip0x s) (hexEnc a.bytes)) :
    denomToContract m (evmPrefix ++ s) = some a := by
  have h1 : isERC20Denom (evmPrefix ++ s) = true := by simp [isERC20Denom, evmPrefix, List.isPrefixOf]
  have h2 : (evmPrefix ++ s).drop 4 = s := by simp [evmPrefix]
  unfold denomToContract
  rw [if_pos h1]
  simp only [h2]
  rw [if_pos (isHexAddress_same a s hs)]
  unfold hexToAddress
  rw [fromHex_same a.bytes s hs, bytesToAddress_bytes]

/-- **C21/C22 (names resolve).** In every reachable state, the denom given to any contract — registered or derived —
resolves back to that contract. -/
theorem C22_name_resolves (mask : Str → List Bool) (m : Maps) (h : Reachable m) (a : Addr) :
    denomToContract m (contractToDenom mask m a) = some a := by
  obtain ⟨hb, hp⟩ := reachable_inv m h
  cases ht : m.toDenom a with
  | some d =>
    have h1 := (hb d a).mpr ht
    have h2 := hp d a h1
    simp [contractToDenom, ht, denomToContract, h2, h1]
  | none =>
    simp only [contractToDenom, ht]
    exact evm_resolves m _ a (by rw [strip_trimHex]; exact trimHex_digits mask a)

/-- **C21 is violated:** in every reachable state, every registered token (denom `d`, contract `a`) also answers to
`evm/` followed by its address: two different denoms for one contract. -/
theorem C21_violated (mask : Str → List Bool) (m : Maps) (h : Reachable m) (d : Str) (a : Addr)
    (hd : m.toAddr d = some a) :
    denomToContract m d = some a ∧ denomToContract m (evmPrefix ++ trimHex mask a) = some a ∧
    d ≠ evmPrefix ++ trimHex mask a := by
  obtain ⟨hb, hp⟩ := reachable_inv m h
  have h2 := hp d a hd
  refine ⟨by simp [denomToContract, h2, hd], evm_resolves m _ a (by rw [strip_trimHex]; exact trimHex_digits mask a), ?_⟩
  intro e
  rw [e] at h2
  simp [isERC20Denom, evmPrefix, List.isPrefixOf] at h2

/-- **C22 (canonical denoms).** Resolving the derived denom of a contract that has no registered denom and naming the
contract again gives the same string. Missing: other spellings, refuted below. -/
theorem C22_partial (mask : Str → List Bool) (m : Maps) (a b : Addr) (ht : m.toDenom a = none)
    (h : denomToContract m (evmPrefix ++ trimHex mask a) = some b) :
    contractToDenom mask m b = evmPrefix ++ trimHex mask a := by
  rw [evm_resolves m _ a (by rw [strip_trimHex]; exact trimHex_digits mask a)] at h
  cases h
  simp [contractToDenom, ht]

/-- **C22 is violated:** for every contract, the spelling with a `0x` after `evm/` is accepted and denotes the same
contract, but is never the name the chain gives it (other letter case behaves the same). -/
theorem C22_violated (mask : Str → List Bool) (m : Maps) (h : Reachable m) (a : Addr) :
    denomToContract m (evmPrefix ++ addrHex mask a) = some a ∧
    contractToDenom mask m a ≠ evmPrefix ++ addrHex mask a := by
  obtain ⟨hb, hp⟩ := reachable_inv m h
  refine ⟨evm_resolves m _ a (trimHex_digits mask a), ?_⟩
  cases ht : m.toDenom a with
  | some d =>
    have h2 := hp d a ((hb d a).mpr ht)
    simp only [contractToDenom, ht]
    intro e
    rw [e] at h2
    simp [isERC20Denom, evmPrefix, List.isPrefixOf] at h2
  | none =>
    simp only [contractToDenom, ht]
    intro e
    have e2 := List.append_cancel_left e
    have l1 := congrArg List.length e2
    simp [trimHex, addrHex, strip0x] at l1
    omega

/-- A two-token state: the fee token and one minted afterwards. -/
example : ∃ m, Reachable m ∧ m.toAddr ['u'] = some (Addr.ofNat 9) ∧ m.toAddr ['x'] = some (Addr.ofNat 10) ∧
    m.toDenom (Addr.ofNat 11) = none := by
  refine ⟨_, Reachable.mint (createERC20 Maps.empty ['u'] (Addr.ofNat 9)) _ ['x'] (Addr.ofNat 10)
    (Reachable.genesis ['u'] (Addr.ofNat 9) (by decide)) (by decide +kernel) rfl, ?_, ?_, ?_⟩ <;> decide +kernel

end Verif.Props.Denom
