import Verif.Props.Denom
/-!
C21, C22: exactly which denoms denote a contract, and which of them the chain would itself use.
-/
namespace Verif.Props.Denom
open Verif Verif.Text Verif.Denom

/-- **C21 (exact).** In every reachable state the denoms that denote a contract are: the one it is registered under, if
it is; and every text of `evm/`, an optional `0x` or `0X`, and the forty digits of its address, each in either case.
(`SameDigits`: the same digits, whatever their case; `hexEnc`: the digits of the address.) -/
theorem C21_exact (m : Maps) (h : Reachable m) (d : Str) (a : Addr) :
    denomToContract m d = some a ↔
      m.toDenom a = some d ∨ ∃ s, d = evmPrefix ++ s ∧ SameDigits (strip0x s) (hexEnc a.bytes) := by
  obtain ⟨hb, hp⟩ := reachable_inv m h
  constructor
  · intro e
    unfold denomToContract at e
    by_cases hd : isERC20Denom d = true
    · rw [if_pos hd] at e
      simp only at e
      split at e
      · rename_i hx
        right
        refine ⟨d.drop 4, ?_, ?_⟩
        · unfold isERC20Denom at hd
          obtain ⟨t, rfl⟩ := List.isPrefixOf_iff_prefix.mp hd
          simp [evmPrefix]
        · rw [← Option.some.inj e]; exact isHexAddress_digits _ hx
      · cases e
    · rw [if_neg hd] at e
      exact .inl ((hb d a).mp e)
  · rintro (e | ⟨s, rfl, hs⟩)
    · have h1 := (hb d a).mpr e
      simp [denomToContract, hp d a h1, h1]
    · exact evm_resolves m s a hs

/-- **C21 (exact, pairs).** Two denoms of the `evm/…` form that denote contracts denote the same one exactly if they
have the same digits: the letter case and a `0x` are all that can differ. -/
theorem C21_alias (m : Maps) (h : Reachable m) (d1 d2 : Str) (a b : Addr) (h1 : denomToContract m d1 = some a)
    (h2 : denomToContract m d2 = some b) (n1 : isERC20Denom d1 = true) (n2 : isERC20Denom d2 = true) :
    a = b ↔ SameDigits (strip0x (d1.drop 4)) (strip0x (d2.drop 4)) := by
  obtain ⟨hb, hp⟩ := reachable_inv m h
  have spell : ∀ d x, isERC20Denom d = true → denomToContract m d = some x →
      SameDigits (strip0x (d.drop 4)) (hexEnc x.bytes) := by
    intro d x hn hx
    rcases (C21_exact m h d x).mp hx with e | ⟨s, rfl, hs⟩
    · have := hp d x ((hb d x).mpr e)
      rw [hn] at this; cases this
    · simpa [evmPrefix] using hs
  have s1 := spell d1 a n1 h1
  have s2 := spell d2 b n2 h2
  unfold SameDigits at s1 s2 ⊢
  constructor
  · intro e; rw [s1, s2, e]
  · intro e
    have g : SameDigits (hexEnc a.bytes) (hexEnc b.bytes) := by
      unfold SameDigits; rw [← s1, ← s2, e]
    have e1 := hexDecPartial_same b.bytes (hexEnc a.bytes) g
    have e2 := hexDecPartial_same a.bytes (hexEnc a.bytes) rfl
    rw [e1] at e2
    have : b.bytes = a.bytes := congrArg Prod.fst e2
    have q : bytesToAddress a.bytes = bytesToAddress b.bytes := by rw [this]
    rwa [bytesToAddress_bytes, bytesToAddress_bytes] at q

/-- **C22 (exact).** Of the denoms that denote a contract, naming the contract gives back the one that was written
exactly in two cases: it is the registered denom; or there is none and the address is written as the chain writes it
(the checksum's letter case, no `0x`). Every other spelling is accepted and comes back as another text. -/
theorem C22_exact (mask : Str → List Bool) (m : Maps) (h : Reachable m) (d : Str) (a : Addr)
    (hd : denomToContract m d = some a) :
    contractToDenom mask m a = d ↔
      (isERC20Denom d = false ∨ (m.toDenom a = none ∧ d.drop 4 = applyCase (mask (hexEnc a.bytes)) (hexEnc a.bytes))) := by
  obtain ⟨hb, hp⟩ := reachable_inv m h
  have e0 : applyCase (mask (hexEnc a.bytes)) (hexEnc a.bytes) = trimHex mask a := by
    simp [trimHex, addrHex, strip0x]
  rw [e0]
  rcases (C21_exact m h d a).mp hd with e | ⟨s, rfl, hs⟩
  · have h2 := hp d a ((hb d a).mpr e)
    simp [contractToDenom, e, h2]
  · have h1 : isERC20Denom (evmPrefix ++ s) = true := by simp [isERC20Denom, evmPrefix, List.isPrefixOf]
    have h3 : (evmPrefix ++ s).drop 4 = s := by simp [evmPrefix]
    rw [h1, h3]
    cases ht : m.toDenom a with
    | some d' =>
      simp only [contractToDenom, ht]
      constructor
      · intro e
        have := hp d' a ((hb d' a).mpr ht)
        rw [e, h1] at this; cases this
      · simp
    | none =>
      simp only [contractToDenom, ht]
      constructor
      · intro e; exact .inr ⟨trivial, (List.append_cancel_left e).symm⟩
      · rintro (e | ⟨_, e⟩)
        · cases e
        · rw [e]

/-! ### The hypotheses are met -/

/-- A chain with the fee token `u` at address 9 and another token `x` at address 10. -/
def demo : Maps := createERC20 (createERC20 Maps.empty ['u'] (Addr.ofNat 9)) ['x'] (Addr.ofNat 10)

theorem demo_reachable : Reachable demo :=
  Reachable.mint (createERC20 Maps.empty ['u'] (Addr.ofNat 9)) _ ['x'] (Addr.ofNat 10)
    (Reachable.genesis ['u'] (Addr.ofNat 9) (by decide)) (by decide +kernel) rfl

/-- The digits of address 0xab, in small letters and with capitals. -/
def small : Str := "00000000000000000000000000000000000000ab".toList
def large : Str := "00000000000000000000000000000000000000AB".toList

/-- A registered token by its name and by its address; an unregistered one by two spellings of its address, one of which the chain
uses itself (here: no capitals). -/
example : denomToContract demo ['x'] = some (Addr.ofNat 10) ∧
    denomToContract demo (evmPrefix ++ "0x000000000000000000000000000000000000000a".toList) = some (Addr.ofNat 10) ∧
    contractToDenom (fun _ => []) demo (Addr.ofNat 10) = ['x'] ∧
    denomToContract demo (evmPrefix ++ small) = some (Addr.ofNat 0xab) ∧
    denomToContract demo (evmPrefix ++ large) = some (Addr.ofNat 0xab) ∧
    contractToDenom (fun _ => []) demo (Addr.ofNat 0xab) = evmPrefix ++ small ∧
    isERC20Denom (evmPrefix ++ small) = true ∧ isERC20Denom (evmPrefix ++ large) = true := by
  refine ⟨?_, ?_, ?_, ?_, ?_, ?_, ?_, ?_⟩ <;> decide +kernel

end Verif.Props.Denom
