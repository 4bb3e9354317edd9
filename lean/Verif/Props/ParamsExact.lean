import Verif.Props.Params
/-
C33: publishers are accounts, the list is text.
-/
namespace Verif.Props.Params
open Verif Verif.Text Verif.TxUtils Verif.Params

/-- The account is on the list, in some spelling. -/
def Listed {K : Type} (e : Env K) (p : Params) (raw : Bytes) : Prop := ∃ s ∈ p.allowedPublishers, e.unbech s = some raw

/-- **C33 (accounts).** With a list that is not empty, an account that is on it in no spelling deploys nothing, however it spells its
address. -/
theorem C33_account {K S R : Type} (e : Env K) (convert : S → Bytes → Option (Addr × S))
    (evm : S → Addr → Bytes → Nat → Option (R × S)) (p : Params) (sender code : Str) (raw : Bytes) (value : Int) (s : S)
    (hne : p.allowedPublishers ≠ []) (hs : e.unbech sender = some raw) (hl : ¬ Listed e p raw) :
    createMsg e convert evm p sender code value s = none :=
  C33_refused e convert evm p sender code value s hne fun h => hl ⟨sender, h, hs⟩

/-- **C33 is violated** (an address has several spellings: Bech32 is valid in lower and in upper case). The list is compared as text: a
list that names a publisher in one spelling passes validation, and refuses every creation by that publisher in any other. -/
theorem C33_spelling_violated {K S R : Type} (e : Env K) (convert : S → Bytes → Option (Addr × S))
    (evm : S → Addr → Bytes → Nat → Option (R × S)) (p : Params) (listed sender code : Str) (raw : Bytes) (value : Int) (s : S)
    (hv : validate e p = true) (h1 : e.unbech listed = some raw) (h2 : e.unbech sender = some raw) (hne : listed ≠ sender) :
    let q := { p with allowedPublishers := [listed] }
    validate e q = true ∧ Listed e q raw ∧ createMsg e convert evm q sender code value s = none := by
  refine ⟨?_, ⟨listed, List.mem_singleton.mpr rfl, h1⟩, ?_⟩
  · simp only [validate, Bool.and_eq_true] at hv ⊢
    refine ⟨⟨⟨?_, hv.1.1.2⟩, hv.1.2⟩, hv.2⟩
    simp [h1]
  · refine C33_refused e convert evm _ sender code value s (by simp) ?_
    simp only [List.mem_singleton]
    exact fun h => hne h.symm

/-- With the check on accounts instead of texts the English claim would hold: a creation that would go through without a list goes
through with it exactly if the account is listed. The text check agrees with it exactly if the sender uses the spelling of the list. -/
theorem C33_exact {K S R : Type} (e : Env K) (convert : S → Bytes → Option (Addr × S))
    (evm : S → Addr → Bytes → Nat → Option (R × S)) (p : Params) (sender code : Str) (value : Int) (s : S) (r : R × S)
    (hne : p.allowedPublishers ≠ [])
    (h0 : createMsg e convert evm { p with allowedPublishers := [] } sender code value s = some r) :
    (createMsg e convert evm p sender code value s = some r ↔ sender ∈ p.allowedPublishers) ∧
    (createMsg e convert evm p sender code value s = none ↔ sender ∉ p.allowedPublishers) := by
  by_cases hm : sender ∈ p.allowedPublishers
  · have hp : publisherAllowed p sender = true := by
      simp only [publisherAllowed, Bool.or_eq_true, List.any_eq_true, beq_iff_eq]
      exact .inr ⟨sender, hm, rfl⟩
    have hq : publisherAllowed { p with allowedPublishers := [] } sender = true := rfl
    have : createMsg e convert evm p sender code value s =
        createMsg e convert evm { p with allowedPublishers := [] } sender code value s := by
      unfold createMsg
      rw [hp, hq]
    rw [this, h0]
    simp [hm]
  · rw [C33_refused e convert evm p sender code value s hne hm]
    simp [hm]

/-- Bech32 in upper case, on the toy codec. -/
def anyCase : Env Unit := { Verif.Props.TxUtils.toyEnv 18 with
  unbech := fun s => (Verif.Props.TxUtils.toyEnv 18).unbech (s.map Char.toLower) }

example : anyCase.unbech "i07".toList = anyCase.unbech "I07".toList ∧ (anyCase.unbech "i07".toList).isSome = true ∧
    validate anyCase { toyP with allowedPublishers := ["I07".toList] } = true ∧
  createMsg (S := Nat) (R := Nat) anyCase (fun s b => some (bytesToAddress b, s))
    (fun s _ bz _ => some (bz.length, s + 1)) { toyP with allowedPublishers := ["I07".toList] } "i07".toList
    "0x6001".toList 0 0 = none ∧
  createMsg (S := Nat) (R := Nat) anyCase (fun s b => some (bytesToAddress b, s))
    (fun s _ bz _ => some (bz.length, s + 1)) { toyP with allowedPublishers := ["I07".toList] } "I07".toList
    "0x6001".toList 0 0 = some (2, 1) := by decide +kernel

end Verif.Props.Params
