import Verif.Model.Text
/-
How numbers are read from text outside this repository, reproduced from the documented behaviour of Go's `math/big` and
`cosmossdk.io/math` (`math.NewIntFromString` and `Int.UnmarshalJSON` use base 0): used by the transfer application for the
amount of a packet and by the JSON decoder for the amount of a coin. The repository itself reads amounts in base 10
(app/ibc-hooks/receive.go:80).
-/
namespace Verif.Text
open Verif

/-- The value of a digit in base `b` (at most 16). -/
def digitIn (b : Nat) (c : Char) : Option Nat := (hexVal c).bind fun d => if d < b then some d else none

/-- The digits of a number in base `b`, with `_` allowed after a digit or the prefix (`prev`), not at the end; the value and
whether there was a digit. -/
def digits0 (b : Nat) : Bool → Nat → Bool → Str → Option (Nat × Bool)
  | prev, acc, any, [] => if prev then some (acc, any) else none
  | prev, acc, any, c :: cs =>
    if c = '_' then if prev then digits0 b false acc any cs else none
    else match digitIn b c with
      | some d => digits0 b true (acc * b + d) true cs
      | none => none

/-- the value, if there was a digit -/
def some0 : Option (Nat × Bool) → Option Nat
  | some (n, true) => some n
  | _ => none

/-- `nat.scan` of `math/big` with base 0, to the end of the text: `0x`, `0o`, `0b` select a base, a leading zero selects base 8,
otherwise base 10. (`0_` and the like are read as 0.) -/
def parseNat0 (s : Str) : Option Nat :=
  match s with
  | ['0'] => some 0
  | '0' :: c :: cs =>
    if c = 'b' ∨ c = 'B' then some0 (digits0 2 true 0 false cs)
    else if c = 'o' ∨ c = 'O' then some0 (digits0 8 true 0 false cs)
    else if c = 'x' ∨ c = 'X' then some0 (digits0 16 true 0 false cs)
    else if (c :: cs).all (· == '_') then some 0
    else some0 (digits0 8 true 0 false (c :: cs))
  | s => some0 (digits0 10 false 0 false s)

/-- `math.NewIntFromString`, `Int.UnmarshalJSON` on the decoded text: an optional sign, the number in base 0, at most 256 bits. -/
def parseInt0 (s : Str) : Option Int :=
  let nat (r : Str) := (parseNat0 r).bind fun n => if n < 2 ^ 256 then some n else none
  match s with
  | '-' :: r => (nat r).map fun n => - Int.ofNat n
  | '+' :: r => (nat r).map Int.ofNat
  | s => (nat s).map Int.ofNat

/-! ### Facts -/

theorem natStr_first (n : Nat) (h : n ≠ 0) : ∀ c cs, natStr n = c :: cs → c ≠ '0' := by
  induction n using Nat.strongRecOn with
  | ind n ih =>
    intro c cs e
    rw [natStr] at e
    split at e
    · next h10 =>
      injection e with e1 _
      rw [← e1]
      have : ∀ k, k < 10 → k ≠ 0 → decDigit k ≠ '0' := by decide
      exact this n h10 h
    · next h10 =>
      cases hd : natStr (n / 10) with
      | nil => exact absurd hd (natStr_ne _)
      | cons a as =>
        rw [hd, List.cons_append] at e
        injection e with e1 _
        rw [← e1]
        exact ih (n / 10) (by omega) (by omega) a as hd

theorem digits0_append (b : Nat) : ∀ (s : Str) (prev any : Bool) (acc n : Nat) (c : Char) (d : Nat),
    (∀ x ∈ s, x ≠ '_') → c ≠ '_' → digits0 b prev acc any s = some (n, true) → digitIn b c = some d →
    digits0 b prev acc any (s ++ [c]) = some (n * b + d, true)
  | [], prev, any, acc, n, c, d, _, hc, h, hd => by
    simp only [digits0] at h
    split at h
    · simp only [Option.some.injEq, Prod.mk.injEq] at h
      simp only [List.nil_append, digits0, if_neg hc, hd]
      simp [h.1]
    · cases h
  | x :: xs, prev, any, acc, n, c, d, hs, hc, h, hd => by
    have hx : x ≠ '_' := hs x (by simp)
    simp only [List.cons_append, digits0, if_neg hx] at h ⊢
    cases hdx : digitIn b x with
    | none => rw [hdx] at h; cases h
    | some k =>
      rw [hdx] at h
      exact digits0_append b xs true true _ n c d (fun y hy => hs y (by simp [hy])) hc h hd

theorem digitIn_dec : ∀ n, n < 10 → digitIn 10 (decDigit n) = some n := by decide

theorem decDigit_under : ∀ n, n < 10 → decDigit n ≠ '_' := by decide

theorem natStr_under (n : Nat) : ∀ x ∈ natStr n, x ≠ '_' := by
  intro x hx
  obtain ⟨d, hd, e⟩ := natStr_head n x hx
  rw [e]; exact decDigit_under d hd

theorem digits0_natStr (n : Nat) : digits0 10 false 0 false (natStr n) = some (n, true) := by
  induction n using Nat.strongRecOn with
  | ind n ih =>
    rw [natStr]
    split
    · next h => simp [digits0, decDigit_under n h, digitIn_dec n h]
    · next h =>
      have hm : n % 10 < 10 := Nat.mod_lt _ (by decide)
      rw [digits0_append 10 _ _ _ _ _ _ _ (natStr_under _) (decDigit_under _ hm) (ih (n / 10) (by omega)) (digitIn_dec _ hm)]
      congr 2
      omega

theorem parseNat0_natStr (n : Nat) : parseNat0 (natStr n) = some n := by
  by_cases h : n = 0
  · subst h; decide +kernel
  · have := digits0_natStr n
    unfold parseNat0
    split
    · next e => exact absurd rfl (natStr_first n h _ _ e)
    · next e => exact absurd rfl (natStr_first n h _ _ e)
    · rw [this]; rfl

theorem parseInt0_natStr (n : Nat) (hn : n < 2 ^ 256) : parseInt0 (natStr n) = some (Int.ofNat n) := by
  have hp := parseNat0_natStr n
  cases e : natStr n with
  | nil => exact absurd e (natStr_ne n)
  | cons c cs =>
    obtain ⟨d, hd, hc⟩ := natStr_head n c (by rw [e]; simp)
    rw [e] at hp
    have h1 : c ≠ '-' := by subst hc; clear e hp; revert d; decide
    have h2 : c ≠ '+' := by subst hc; clear e hp h1; revert d; decide
    unfold parseInt0
    simp only
    split
    · rename_i heq; simp at heq; exact absurd heq.1 h1
    · rename_i heq; simp at heq; exact absurd heq.1 h2
    · rw [hp, Option.bind_some, if_pos hn]; rfl

end Verif.Text
