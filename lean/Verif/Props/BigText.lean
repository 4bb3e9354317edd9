import Verif.Model.BigText
/-
C58, C83: exactly which texts the transfer application and the JSON decoder read as which amounts.
-/
namespace Verif.Text.Spec
open Verif Verif.Text

/-- `c` is the digit `d` of base `b`, in either letter case. -/
def Digit (b : Nat) (c : Char) (d : Nat) : Prop := d < b ∧ d < 16 ∧ (c = hexDigit d ∨ c = upHex (hexDigit d))

/-- Numerals of base `b`: digits, with single underscores between them allowed; and their values. -/
inductive Numeral (b : Nat) : Str → Nat → Prop
  | one {c d} : Digit b c d → Numeral b [c] d
  | more {s n c d} : Numeral b s n → Digit b c d → Numeral b (s ++ [c]) (n * b + d)
  | gap {s n c d} : Numeral b s n → Digit b c d → Numeral b (s ++ ['_', c]) (n * b + d)

/-- A numeral after a prefix may be separated from it by an underscore. -/
def After (b : Nat) (s : Str) (n : Nat) : Prop := Numeral b s n ∨ ∃ r, s = '_' :: r ∧ Numeral b r n

/-- What an amount may look like: decimal, or `0b`, `0o`, `0x` and a numeral of base 2, 8, 16, or `0` and a numeral of base 8, or zero. -/
inductive Amount : Str → Nat → Prop
  | zero {s} : (∀ c ∈ s, c = '_') → Amount ('0' :: s) 0
  | bin {c s n} : c = 'b' ∨ c = 'B' → After 2 s n → Amount ('0' :: c :: s) n
  | oct {c s n} : c = 'o' ∨ c = 'O' → After 8 s n → Amount ('0' :: c :: s) n
  | hex {c s n} : c = 'x' ∨ c = 'X' → After 16 s n → Amount ('0' :: c :: s) n
  | old {s n} : After 8 s n → Amount ('0' :: s) n
  | dec {s n} : s.head? ≠ some '0' → Numeral 10 s n → Amount s n

/-- An amount with an optional sign, of at most 256 bits. -/
inductive Signed : Str → Int → Prop
  | plain {s n} : Amount s n → n < 2 ^ 256 → Signed s n
  | plus {s n} : Amount s n → n < 2 ^ 256 → Signed ('+' :: s) n
  | minus {s n} : Amount s n → n < 2 ^ 256 → Signed ('-' :: s) (-n)

end Verif.Text.Spec

namespace Verif.Text
open Verif Verif.Text.Spec

theorem char_of_nat {c : Char} {k : Nat} (h : c.toNat = k) : c = Char.ofNat k := by rw [← h, Char.ofNat_toNat]

theorem hexVal_iff (c : Char) (d : Nat) : hexVal c = some d ↔ d < 16 ∧ (c = hexDigit d ∨ c = upHex (hexDigit d)) := by
  constructor
  · intro h
    refine ⟨hexVal_lt h, ?_⟩
    have key : ∀ k, (∀ e, hexVal (Char.ofNat k) = some e → Char.ofNat k = hexDigit e ∨ Char.ofNat k = upHex (hexDigit e)) → c.toNat = k →
        c = hexDigit d ∨ c = upHex (hexDigit d) := by
      intro k hk hc
      have := char_of_nat hc
      subst this
      exact hk d h
    have tab : ∀ k, (48 ≤ k ∧ k ≤ 57) ∨ (97 ≤ k ∧ k ≤ 102) ∨ (65 ≤ k ∧ k ≤ 70) →
        ∀ e, hexVal (Char.ofNat k) = some e → Char.ofNat k = hexDigit e ∨ Char.ofNat k = upHex (hexDigit e) := by
      intro k hk e he
      have all : ∀ k, k < 128 → ((48 ≤ k ∧ k ≤ 57) ∨ (97 ≤ k ∧ k ≤ 102) ∨ (65 ≤ k ∧ k ≤ 70)) →
          Char.ofNat k = hexDigit ((hexVal (Char.ofNat k)).getD 0) ∨ Char.ofNat k = upHex (hexDigit ((hexVal (Char.ofNat k)).getD 0)) := by
        decide +kernel
      have := all k (by omega) hk
      rw [he] at this
      exact this
    unfold hexVal at h
    have le : ∀ a b : Char, a ≤ b ↔ a.toNat ≤ b.toNat := fun a b => by
      rw [Char.le_def, UInt32.le_iff_toNat_le]; rfl
    split at h
    · next hc => exact key _ (tab _ (.inl ⟨(le _ _).1 hc.1, (le _ _).1 hc.2⟩)) rfl
    · split at h
      · next hc => exact key _ (tab _ (.inr (.inl ⟨(le _ _).1 hc.1, (le _ _).1 hc.2⟩))) rfl
      · split at h
        · next hc => exact key _ (tab _ (.inr (.inr ⟨(le _ _).1 hc.1, (le _ _).1 hc.2⟩))) rfl
        · cases h
  · rintro ⟨h, rfl | rfl⟩
    · exact hexVal_hexDigit d h
    · exact hexVal_upHex_digit d h

theorem digitIn_iff (b : Nat) (c : Char) (d : Nat) : digitIn b c = some d ↔ Digit b c d := by
  unfold digitIn Digit
  rw [Option.bind_eq_some_iff]
  constructor
  · rintro ⟨e, he, h⟩
    split at h
    · injection h with h; subst h
      next hb => exact ⟨hb, (hexVal_iff c e).1 he⟩
    · cases h
  · rintro ⟨h1, h2⟩
    exact ⟨d, (hexVal_iff c d).2 h2, by rw [if_pos h1]⟩

theorem digit_ne {b : Nat} {c : Char} {d : Nat} (h : Digit b c d) : c ≠ '_' := by
  rintro rfl
  have := (hexVal_iff '_' d).2 h.2
  rw [show hexVal '_' = none from by decide +kernel] at this
  cases this

/-- The states on the way. -/
def go (b : Nat) : Bool × Nat × Bool → Str → Option (Bool × Nat × Bool)
  | st, [] => some st
  | st, c :: cs =>
    if c = '_' then if st.1 then go b (false, st.2.1, st.2.2) cs else none
    else (digitIn b c).bind fun d => go b (true, st.2.1 * b + d, true) cs

theorem go_append (b : Nat) : ∀ (s : Str) (st : Bool × Nat × Bool) (t : Str), go b st (s ++ t) = (go b st s).bind fun st' => go b st' t
  | [], st, t => rfl
  | c :: s, st, t => by
    simp only [List.cons_append, go]
    split
    · split
      · exact go_append b s _ t
      · rfl
    · cases digitIn b c with
      | none => rfl
      | some d => exact go_append b s _ t

theorem digits0_go (b : Nat) : ∀ (s : Str) (p : Bool) (a : Nat) (y : Bool),
    digits0 b p a y s = (go b (p, a, y) s).bind fun st => if st.1 then some (st.2.1, st.2.2) else none
  | [], p, a, y => by simp only [digits0, go]; cases p <;> rfl
  | c :: s, p, a, y => by
    simp only [digits0, go]
    split
    · split
      · exact digits0_go b s _ _ _
      · rfl
    · cases digitIn b c with
      | none => rfl
      | some d => exact digits0_go b s _ _ _

theorem go_digit {b : Nat} {c : Char} {d : Nat} (h : Digit b c d) (st : Bool × Nat × Bool) : go b st [c] = some (true, st.2.1 * b + d, true) := by
  simp only [go, if_neg (digit_ne h), (digitIn_iff b c d).2 h, Option.bind_some]

theorem go_numeral {b : Nat} {s : Str} {n : Nat} (h : Numeral b s n) (p : Bool) : go b (p, 0, false) s = some (true, n, true) := by
  induction h with
  | one hd => rw [go_digit hd]; simp
  | more _ hd ih => rw [go_append, ih, Option.bind_some, go_digit hd]
  | @gap s n c d _ hd ih =>
    rw [go_append, ih, Option.bind_some]
    rw [show go b (true, n, true) ['_', c] = go b (false, n, true) [c] from rfl, go_digit hd]

/-- What has been read in each state. -/
def Desc (b : Nat) (p : Bool) (s : Str) : Bool × Nat × Bool → Prop
  | (true, n, true) => Numeral b s n ∨ (p = true ∧ ∃ r, s = '_' :: r ∧ Numeral b r n)
  | (false, n, true) => ∃ t, s = t ++ ['_'] ∧ (Numeral b t n ∨ (p = true ∧ ∃ r, t = '_' :: r ∧ Numeral b r n))
  | (true, n, false) => s = [] ∧ n = 0
  | (false, n, false) => n = 0 ∧ (s = [] ∨ (p = true ∧ s = ['_']))

theorem go_desc (b : Nat) (p : Bool) : ∀ (k : Nat) (s : Str) (st : Bool × Nat × Bool), s.length = k → go b (p, 0, false) s = some st → Desc b p s st
  | 0, s, st, hk, h => by
    have : s = [] := List.length_eq_zero_iff.1 hk
    subst this
    simp only [go, Option.some.injEq] at h
    subst h
    cases p with
    | true => exact ⟨rfl, rfl⟩
    | false => exact ⟨rfl, .inl rfl⟩
  | k + 1, s, st, hk, h => by
    have hne : s ≠ [] := by intro e; rw [e] at hk; simp at hk
    have hs := (List.dropLast_concat_getLast hne).symm
    generalize s.getLast hne = c at hs
    generalize ht : s.dropLast = t at hs
    subst hs
    rw [go_append, Option.bind_eq_some_iff] at h
    obtain ⟨⟨q, m, y⟩, h1, h2⟩ := h
    have ih := go_desc b p k t (q, m, y) (by simp at hk; exact hk) h1
    by_cases hc : c = '_'
    · subst hc
      simp only [go, if_true] at h2
      cases q with
      | false => cases h2
      | true =>
        simp only [if_true, Option.some.injEq] at h2
        subst h2
        cases y with
        | true => exact ⟨t, rfl, ih⟩
        | false =>
          obtain ⟨e1, e2⟩ := ih
          subst e1
          refine ⟨e2, .inr ⟨?_, rfl⟩⟩
          simp only [go, Option.some.injEq, Prod.mk.injEq] at h1
          exact h1.1
    · simp only [go, if_neg hc, Option.bind_eq_some_iff, Option.some.injEq] at h2
      obtain ⟨d, hd, h2⟩ := h2
      subst h2
      have hd := (digitIn_iff b c d).1 hd
      cases y with
      | true =>
        cases q with
        | true =>
          rcases ih with h | ⟨hp, r, e, h⟩
          · exact .inl (.more h hd)
          · exact .inr ⟨hp, r ++ [c], by rw [e]; rfl, .more h hd⟩
        | false =>
          obtain ⟨u, e, h | ⟨hp, r, e', h⟩⟩ := ih
          · subst e
            refine .inl ?_
            have := Numeral.gap h hd
            simpa using this
          · subst e e'
            refine .inr ⟨hp, r ++ ['_', c], by simp, .gap h hd⟩
      | false =>
        cases q with
        | true =>
          obtain ⟨e1, e2⟩ := ih
          subst e1 e2
          have := Numeral.one hd
          exact .inl (by simpa using this)
        | false =>
          obtain ⟨e2, e | ⟨hp, e⟩⟩ := ih
          · subst e e2
            have := Numeral.one hd
            exact .inl (by simpa using this)
          · subst e e2
            have := Numeral.one hd
            exact .inr ⟨hp, [c], rfl, by simpa using this⟩

theorem some0_iff (b : Nat) (p : Bool) (s : Str) (n : Nat) : some0 (digits0 b p 0 false s) = some n ↔
    Numeral b s n ∨ (p = true ∧ ∃ r, s = '_' :: r ∧ Numeral b r n) := by
  constructor
  · intro h
    rw [digits0_go] at h
    cases hg : go b (p, 0, false) s with
    | none => rw [hg] at h; cases h
    | some st =>
      rw [hg] at h
      obtain ⟨q, m, y⟩ := st
      have hd := go_desc b p s.length s _ rfl hg
      simp only [Option.bind_some] at h
      cases q with
      | false => cases h
      | true =>
        cases y with
        | false => cases h
        | true =>
          simp only [if_true, some0, Option.some.injEq] at h
          subst h
          exact hd
  · rintro (h | ⟨hp, r, rfl, h⟩)
    · rw [digits0_go, go_numeral h]; rfl
    · subst hp
      rw [digits0_go, show go b (true, 0, false) ('_' :: r) = go b (false, 0, false) r from rfl, go_numeral h]; rfl

theorem numeral_head {b : Nat} {s : Str} {n : Nat} (h : Numeral b s n) : ∃ c r d, s = c :: r ∧ Digit b c d := by
  induction h with
  | one hd => exact ⟨_, [], _, rfl, hd⟩
  | more _ _ ih => obtain ⟨c, r, d, e, h⟩ := ih; exact ⟨c, _, d, by rw [e]; rfl, h⟩
  | gap _ _ ih => obtain ⟨c, r, d, e, h⟩ := ih; exact ⟨c, _, d, by rw [e]; rfl, h⟩

theorem after_iff (b : Nat) (s : Str) (n : Nat) : some0 (digits0 b true 0 false s) = some n ↔ After b s n := by
  rw [some0_iff]; simp [After]

theorem digit_small {c : Char} {d : Nat} (h : Digit 8 c d) : c ∉ ['b', 'B', 'o', 'O', 'x', 'X'] := by
  intro hc
  have := (digitIn_iff 8 c d).2 h
  simp only [List.mem_cons, List.not_mem_nil, or_false] at hc
  rcases hc with rfl | rfl | rfl | rfl | rfl | rfl <;> · revert this; simp [digitIn, hexVal]

theorem after_head {s : Str} {n : Nat} (h : After 8 s n) : ∃ c r, s = c :: r ∧ c ∉ ['b', 'B', 'o', 'O', 'x', 'X'] ∧ ¬ (∀ x ∈ s, x = '_') := by
  rcases h with h | ⟨r, rfl, h⟩
  · obtain ⟨c, r, d, rfl, hd⟩ := numeral_head h
    exact ⟨c, r, rfl, digit_small hd, fun hx => digit_ne hd (hx c (by simp))⟩
  · obtain ⟨c, r', d, rfl, hd⟩ := numeral_head h
    exact ⟨'_', _, rfl, by decide, fun hx => digit_ne hd (hx c (by simp))⟩

theorem zero_head {s : Str} (h : ∀ c ∈ s, c = '_') : s = [] ∨ ∃ r, s = '_' :: r ∧ ∀ c ∈ r, c = '_' := by
  cases s with
  | nil => exact .inl rfl
  | cons c r =>
    have := h c (by simp); subst this
    exact .inr ⟨r, rfl, fun c hc => h c (by simp [hc])⟩

/-- **C58, C83** (amounts): exactly these texts are read as amounts, with these values. -/
theorem C58_amount_texts (s : Str) (n : Nat) : parseNat0 s = some n ↔ Amount s n := by
  have gen : ∀ c cs, parseNat0 ('0' :: c :: cs) =
      if c = 'b' ∨ c = 'B' then some0 (digits0 2 true 0 false cs)
      else if c = 'o' ∨ c = 'O' then some0 (digits0 8 true 0 false cs)
      else if c = 'x' ∨ c = 'X' then some0 (digits0 16 true 0 false cs)
      else if (c :: cs).all (· == '_') then some 0
      else some0 (digits0 8 true 0 false (c :: cs)) := fun _ _ => rfl
  have all_iff : ∀ s : Str, s.all (· == '_') = true ↔ ∀ c ∈ s, c = '_' := fun s => by simp
  constructor
  · intro h
    by_cases h0 : s.head? = some '0'
    · cases s with
      | nil => cases h0
      | cons a t =>
        simp only [List.head?_cons, Option.some.injEq] at h0
        subst h0
        cases t with
        | nil =>
          have : n = 0 := by
            have : parseNat0 ['0'] = some 0 := rfl
            rw [this] at h; injection h with h; exact h.symm
          subst this
          exact .zero (by simp)
        | cons c cs =>
          rw [gen] at h
          split at h
          · next hc => exact .bin hc ((after_iff 2 cs n).1 h)
          · split at h
            · next hc => exact .oct hc ((after_iff 8 cs n).1 h)
            · split at h
              · next hc => exact .hex hc ((after_iff 16 cs n).1 h)
              · split at h
                · next hc =>
                  injection h with h; subst h
                  exact .zero ((all_iff _).1 hc)
                · exact .old ((after_iff 8 _ n).1 h)
    · have e : parseNat0 s = some0 (digits0 10 false 0 false s) := by
        unfold parseNat0
        split
        · exact absurd rfl h0
        · exact absurd rfl h0
        · rfl
      rw [e, some0_iff] at h
      simp only [Bool.false_eq_true, false_and, or_false] at h
      exact .dec h0 h
  · intro h
    cases h with
    | @zero t ht =>
      rcases zero_head ht with rfl | ⟨r, rfl, hr⟩
      · rfl
      · rw [gen, if_neg (by decide), if_neg (by decide), if_neg (by decide), if_pos ((all_iff _).2 ht)]
    | bin hc ha => rw [gen, if_pos hc, (after_iff 2 _ n).2 ha]
    | oct hc ha =>
      rw [gen, if_neg (by rcases hc with rfl | rfl <;> decide), if_pos hc, (after_iff 8 _ n).2 ha]
    | hex hc ha =>
      rw [gen, if_neg (by rcases hc with rfl | rfl <;> decide), if_neg (by rcases hc with rfl | rfl <;> decide), if_pos hc, (after_iff 16 _ n).2 ha]
    | @old t n ha =>
      obtain ⟨c, r, rfl, hc, hne⟩ := after_head ha
      simp only [List.mem_cons, List.not_mem_nil, or_false, not_or] at hc
      rw [gen, if_neg (fun h => h.elim hc.1 hc.2.1), if_neg (fun h => h.elim hc.2.2.1 hc.2.2.2.1),
        if_neg (fun h => h.elim hc.2.2.2.2.1 hc.2.2.2.2.2), if_neg (by rw [all_iff]; exact hne), (after_iff 8 _ n).2 ha]
    | dec h0 hn =>
      have e : parseNat0 s = some0 (digits0 10 false 0 false s) := by
        unfold parseNat0
        split
        · exact absurd rfl h0
        · exact absurd rfl h0
        · rfl
      rw [e, some0_iff]
      exact .inl hn

theorem amount_head {s : Str} {n : Nat} (h : Amount s n) : s.head? ≠ some '-' ∧ s.head? ≠ some '+' := by
  cases h with
  | dec h0 hn =>
    obtain ⟨c, r, d, rfl, hd⟩ := numeral_head hn
    have := (hexVal_iff c d).2 hd.2
    constructor
    · simp only [List.head?_cons, ne_eq, Option.some.injEq]
      rintro rfl
      rw [show hexVal '-' = none from by decide +kernel] at this
      cases this
    · simp only [List.head?_cons, ne_eq, Option.some.injEq]
      rintro rfl
      rw [show hexVal '+' = none from by decide +kernel] at this
      cases this
  | _ => exact ⟨by simp, by simp⟩

/-- **C58, C83** (amounts with a sign): exactly these texts are accepted by the transfer application and the JSON decoder. -/
theorem C58_signed_texts (s : Str) (x : Int) : parseInt0 s = some x ↔ Signed s x := by
  have nat : ∀ (r : Str) (n : Nat), ((parseNat0 r).bind fun n => if n < 2 ^ 256 then some n else none) = some n ↔ Amount r n ∧ n < 2 ^ 256 := by
    intro r n
    rw [Option.bind_eq_some_iff]
    constructor
    · rintro ⟨m, h1, h2⟩
      split at h2
      · next hm => injection h2 with h2; subst h2; exact ⟨(C58_amount_texts r m).1 h1, hm⟩
      · cases h2
    · rintro ⟨h1, h2⟩
      exact ⟨n, (C58_amount_texts r n).2 h1, by rw [if_pos h2]⟩
  constructor
  · intro h
    unfold parseInt0 at h
    simp only at h
    split at h
    · obtain ⟨n, h1, h2⟩ := Option.map_eq_some_iff.1 h
      subst h2
      have := (nat _ n).1 h1
      exact .minus this.1 this.2
    · obtain ⟨n, h1, h2⟩ := Option.map_eq_some_iff.1 h
      subst h2
      have := (nat _ n).1 h1
      exact .plus this.1 this.2
    · obtain ⟨n, h1, h2⟩ := Option.map_eq_some_iff.1 h
      subst h2
      have := (nat _ n).1 h1
      exact .plain this.1 this.2
  · intro h
    cases h with
    | @plain s n ha hn =>
      have hh := amount_head ha
      unfold parseInt0
      simp only
      split
      · exact absurd rfl hh.1
      · exact absurd rfl hh.2
      · rw [(nat _ n).2 ⟨ha, hn⟩]; rfl
    | @plus s n ha hn =>
      show Option.map Int.ofNat ((parseNat0 s).bind fun n => if n < 2 ^ 256 then some n else none) = _
      rw [(nat _ n).2 ⟨ha, hn⟩]; rfl
    | @minus s n ha hn =>
      show Option.map (fun n => - Int.ofNat n) ((parseNat0 s).bind fun n => if n < 2 ^ 256 then some n else none) = _
      rw [(nat _ n).2 ⟨ha, hn⟩]; rfl

/-- `1_000`, `0x1F`, `0b10_1` and `017`. -/
example : Amount "1_000".toList 1000 ∧ Amount "0x1F".toList 31 ∧ Amount "0b10_1".toList 5 ∧ Amount "017".toList 15 ∧
    ¬ (∃ n, Amount "1__0".toList n) ∧ ¬ (∃ n, Amount "08".toList n) := by
  refine ⟨(C58_amount_texts _ _).1 rfl, (C58_amount_texts _ _).1 rfl, (C58_amount_texts _ _).1 rfl, (C58_amount_texts _ _).1 rfl, ?_, ?_⟩ <;>
  · rintro ⟨n, h⟩
    have := (C58_amount_texts _ _).2 h
    revert this
    exact fun h => by cases h

end Verif.Text
