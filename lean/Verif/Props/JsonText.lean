import Verif.Model.Memo
/-
The JSON reader used by C83 and C86 against an independent grammar (RFC 8259): the reader accepts exactly the texts of the
grammar, and returns the value they denote. The grammar is in two layers: how a sequence of tokens is spelt (with white space
between them), and the sequence of tokens of a value. UTF-16 surrogate escapes are not modelled (`Char.ofNat`).
-/
namespace Verif.WrapMsg
open Verif Verif.Text

/-! ### Specification: characters, tokens, values -/

/-- White space. -/
def Blank (c : Char) : Prop := c = ' ' ∨ c = '\n' ∨ c = '\t' ∨ c = '\r'

/-- A character of a word: letters, digits, `+`, `-`, `.`. -/
def Glue (c : Char) : Prop := c.isAlphanum = true ∨ c ∈ ['+', '-', '.']

/-- How a character may be written inside a string. -/
inductive Spelt : Char → Str → Prop where
  | plain (c : Char) : c ≠ '"' → c ≠ '\\' → 32 ≤ c.toNat → Spelt c [c]
  | quote : Spelt '"' ['\\', '"']
  | backslash : Spelt '\\' ['\\', '\\']
  | slash : Spelt '/' ['\\', '/']
  | b : Spelt (Char.ofNat 8) ['\\', 'b']
  | f : Spelt (Char.ofNat 12) ['\\', 'f']
  | n : Spelt (Char.ofNat 10) ['\\', 'n']
  | r : Spelt (Char.ofNat 13) ['\\', 'r']
  | t : Spelt (Char.ofNat 9) ['\\', 't']
  | uni (c1 c2 c3 c4 : Char) (d1 d2 d3 d4 : Nat) : hexVal c1 = some d1 → hexVal c2 = some d2 → hexVal c3 = some d3 →
      hexVal c4 = some d4 → Spelt (Char.ofNat (((d1 * 16 + d2) * 16 + d3) * 16 + d4)) ['\\', 'u', c1, c2, c3, c4]

/-- How a string is written, between the quotes. -/
inductive Written : Str → Str → Prop where
  | nil : Written [] []
  | snoc {s u : Str} {c : Char} {t : Str} : Written s u → Spelt c t → Written (s ++ [c]) (u ++ t)

/-- Punctuation. -/
inductive Punct : Tok → Char → Prop where
  | lbrace : Punct .lbrace '{'
  | rbrace : Punct .rbrace '}'
  | lbrack : Punct .lbrack '['
  | rbrack : Punct .rbrack ']'
  | colon : Punct .colon ':'
  | comma : Punct .comma ','

/-- The text spells the tokens. -/
inductive Spells : List Tok → Str → Prop where
  | nil : Spells [] []
  | blank {ts : List Tok} {q : Str} {c : Char} : Spells ts q → Blank c → Spells ts (q ++ [c])
  | punct {ts : List Tok} {q : Str} {t : Tok} {c : Char} : Spells ts q → Punct t c → Spells (ts ++ [t]) (q ++ [c])
  | str {ts : List Tok} {q s u : Str} : Spells ts q → Written s u → Spells (ts ++ [.str s]) (q ++ ('"' :: u ++ ['"']))
  | word {ts : List Tok} {q w : Str} : Spells ts q → w ≠ [] → (∀ c ∈ w, Glue c) → (∀ c, q.getLast? = some c → ¬ Glue c) →
      Spells (ts ++ [.word w]) (q ++ w)

mutual
/-- The tokens of a value. -/
def toks : Json → List Tok
  | .str s => [.str s]
  | .lit w => [.word w]
  | .obj ms => .lbrace :: (toksM ms ++ [.rbrace])
  | .arr vs => .lbrack :: (toksV vs ++ [.rbrack])
/-- The members of an object, with commas between them. -/
def toksM : List (Str × Json) → List Tok
  | [] => []
  | (k, v) :: ms => .str k :: .colon :: (toks v ++ match ms with
    | [] => []
    | m :: ms' => .comma :: toksM (m :: ms'))
/-- The elements of an array, with commas between them. -/
def toksV : List Json → List Tok
  | [] => []
  | v :: vs => toks v ++ match vs with
    | [] => []
    | x :: vs' => .comma :: toksV (x :: vs')
end

/-- Digits. -/
def Digits (s : Str) : Prop := ∀ c ∈ s, c.isDigit = true

/-- A JSON number: sign, integer part without leading zeros, fraction, exponent. -/
def IsNumber (w : Str) : Prop :=
  ∃ sign int frac exp, w = sign ++ (int ++ (frac ++ exp)) ∧
    (sign = [] ∨ sign = ['-']) ∧
    (int = ['0'] ∨ ∃ d ds, int = d :: ds ∧ d.isDigit = true ∧ d ≠ '0' ∧ Digits ds) ∧
    (frac = [] ∨ ∃ ds, frac = '.' :: ds ∧ ds ≠ [] ∧ Digits ds) ∧
    (exp = [] ∨ ∃ e s ds, exp = e :: (s ++ ds) ∧ (e = 'e' ∨ e = 'E') ∧ (s = [] ∨ s = ['+'] ∨ s = ['-']) ∧ ds ≠ [] ∧ Digits ds)

/-- A literal: `true`, `false`, `null` or a number. -/
def IsLiteral (w : Str) : Prop := w = "true".toList ∨ w = "false".toList ∨ w = "null".toList ∨ IsNumber w

mutual
/-- Every literal of the value is one. -/
def Proper : Json → Prop
  | .str _ => True
  | .lit w => IsLiteral w
  | .obj ms => ProperM ms
  | .arr vs => ProperV vs
def ProperM : List (Str × Json) → Prop
  | [] => True
  | (_, v) :: ms => Proper v ∧ ProperM ms
def ProperV : List Json → Prop
  | [] => True
  | v :: vs => Proper v ∧ ProperV vs
end

/-- The text is JSON for the value. -/
def JsonText (v : Json) (t : Str) : Prop := Spells (toks v) t ∧ Proper v

/-! ### Numbers -/

/-- The automaton accepts from a state. -/
def acc (q : Nat) (w : Str) : Bool := [2, 3, 5, 8].contains (w.foldl numStep q)

theorem acc_nil (q : Nat) : acc q [] = [2, 3, 5, 8].contains q := rfl
theorem acc_cons (q : Nat) (c : Char) (w : Str) : acc q (c :: w) = acc (numStep q c) w := rfl

theorem acc_dead (w : Str) : acc 9 w = false := by
  induction w with
  | nil => rfl
  | cons c w ih => rw [acc_cons]; exact ih

theorem digits_cons {c : Char} {w : Str} : Digits (c :: w) ↔ c.isDigit = true ∧ Digits w := by
  simp [Digits]

theorem acc8 (w : Str) : acc 8 w = true ↔ Digits w := by
  induction w with
  | nil => simp [acc_nil, Digits]
  | cons c w ih =>
    rw [acc_cons, digits_cons]
    by_cases h : c.isDigit
    · simp [numStep, h, ih]
    · simp [numStep, h, acc_dead]

theorem acc7 (w : Str) : acc 7 w = true ↔ w ≠ [] ∧ Digits w := by
  cases w with
  | nil => simp [acc_nil]
  | cons c w =>
    rw [acc_cons, digits_cons]
    by_cases h : c.isDigit
    · simp [numStep, h, acc8]
    · simp [numStep, h, acc_dead]

theorem acc6 (w : Str) : acc 6 w = true ↔
    ∃ s ds, w = s ++ ds ∧ (s = [] ∨ s = ['+'] ∨ s = ['-']) ∧ ds ≠ [] ∧ Digits ds := by
  cases w with
  | nil => simp [acc_nil]
  | cons c w =>
    rw [acc_cons]
    have np : ∀ x : Char, x = '+' ∨ x = '-' → ¬ x.isDigit = true := by rintro x (rfl | rfl) <;> decide
    by_cases h : c.isDigit
    · rw [show numStep 6 c = 8 by simp [numStep, h], acc8]
      constructor
      · intro hw; exact ⟨[], c :: w, rfl, Or.inl rfl, by simp, digits_cons.mpr ⟨h, hw⟩⟩
      · rintro ⟨s, ds, he, hs, hn, hd⟩
        rcases hs with rfl | rfl | rfl
        · simp only [List.nil_append] at he; subst he; exact (digits_cons.mp hd).2
        · simp only [List.singleton_append, List.cons.injEq] at he; exact absurd h (np _ (Or.inl he.1))
        · simp only [List.singleton_append, List.cons.injEq] at he; exact absurd h (np _ (Or.inr he.1))
    · by_cases h2 : c = '+' ∨ c = '-'
      · rw [show numStep 6 c = 7 by simp [numStep, h, h2], acc7]
        constructor
        · rintro ⟨hn, hd⟩
          refine ⟨[c], w, rfl, ?_, hn, hd⟩
          rcases h2 with rfl | rfl <;> simp
        · rintro ⟨s, ds, he, hs, hn, hd⟩
          rcases hs with rfl | rfl | rfl
          · simp only [List.nil_append] at he; subst he; exact absurd (digits_cons.mp hd).1 h
          · simp only [List.singleton_append, List.cons.injEq] at he; rw [he.2]; exact ⟨hn, hd⟩
          · simp only [List.singleton_append, List.cons.injEq] at he; rw [he.2]; exact ⟨hn, hd⟩
      · rw [show numStep 6 c = 9 by simp [numStep, h, h2]]
        constructor
        · intro hw; rw [acc_dead] at hw; cases hw
        · rintro ⟨s, ds, he, hs, hn, hd⟩
          rcases hs with rfl | rfl | rfl
          · simp only [List.nil_append] at he; subst he; exact absurd (digits_cons.mp hd).1 h
          · simp only [List.singleton_append, List.cons.injEq] at he; exact absurd (Or.inl he.1) h2
          · simp only [List.singleton_append, List.cons.injEq] at he; exact absurd (Or.inr he.1) h2

/-- An exponent, or none. -/
def Exp (w : Str) : Prop :=
  w = [] ∨ ∃ e s ds, w = e :: (s ++ ds) ∧ (e = 'e' ∨ e = 'E') ∧ (s = [] ∨ s = ['+'] ∨ s = ['-']) ∧ ds ≠ [] ∧ Digits ds

/-- A fraction, or none. -/
def Frac (w : Str) : Prop := w = [] ∨ ∃ ds, w = '.' :: ds ∧ ds ≠ [] ∧ Digits ds

theorem exp_cons (c : Char) (w : Str) : Exp (c :: w) ↔ (c = 'e' ∨ c = 'E') ∧ acc 6 w = true := by
  rw [acc6]
  constructor
  · rintro (h | ⟨e, s, ds, h, he, hs, hn, hd⟩)
    · cases h
    · simp only [List.cons.injEq] at h; exact ⟨h.1 ▸ he, s, ds, h.2, hs, hn, hd⟩
  · rintro ⟨he, s, ds, h, hs, hn, hd⟩; exact Or.inr ⟨c, s, ds, by rw [h], he, hs, hn, hd⟩

theorem e_not_digit {c : Char} (h : c = 'e' ∨ c = 'E') : c.isDigit = false := by rcases h with rfl | rfl <;> decide

theorem acc5 (w : Str) : acc 5 w = true ↔ ∃ ds x, w = ds ++ x ∧ Digits ds ∧ Exp x := by
  induction w with
  | nil => exact ⟨fun _ => ⟨[], [], rfl, by simp [Digits], Or.inl rfl⟩, fun _ => rfl⟩
  | cons c w ih =>
    rw [acc_cons]
    by_cases h : c.isDigit
    · rw [show numStep 5 c = 5 by simp [numStep, h], ih]
      constructor
      · rintro ⟨ds, x, rfl, hd, hx⟩; exact ⟨c :: ds, x, rfl, digits_cons.mpr ⟨h, hd⟩, hx⟩
      · rintro ⟨ds, x, he, hd, hx⟩
        cases ds with
        | nil =>
          simp only [List.nil_append] at he; subst he
          have := e_not_digit ((exp_cons c w).mp hx).1
          rw [this] at h; cases h
        | cons d ds => simp only [List.cons_append, List.cons.injEq] at he; exact ⟨ds, x, he.2, (digits_cons.mp hd).2, hx⟩
    · have other : ∀ ds x, c :: w = ds ++ x → Digits ds → Exp x → Exp (c :: w) := by
        intro ds x he hd hx
        cases ds with
        | nil => simp only [List.nil_append] at he; rw [he]; exact hx
        | cons d ds =>
          simp only [List.cons_append, List.cons.injEq] at he
          exact absurd (he.1 ▸ (digits_cons.mp hd).1) h
      by_cases h2 : c = 'e' ∨ c = 'E'
      · rw [show numStep 5 c = 6 by simp [numStep, h, h2]]
        constructor
        · intro hw; exact ⟨[], c :: w, rfl, by simp [Digits], (exp_cons c w).mpr ⟨h2, hw⟩⟩
        · rintro ⟨ds, x, he, hd, hx⟩; exact ((exp_cons c w).mp (other ds x he hd hx)).2
      · rw [show numStep 5 c = 9 by simp [numStep, h, h2]]
        constructor
        · intro hw; rw [acc_dead] at hw; cases hw
        · rintro ⟨ds, x, he, hd, hx⟩; exact absurd ((exp_cons c w).mp (other ds x he hd hx)).1 h2

theorem acc4 (w : Str) : acc 4 w = true ↔ ∃ ds x, w = ds ++ x ∧ ds ≠ [] ∧ Digits ds ∧ Exp x := by
  cases w with
  | nil => simp [acc_nil]
  | cons c w =>
    rw [acc_cons]
    by_cases h : c.isDigit
    · rw [show numStep 4 c = 5 by simp [numStep, h], acc5]
      constructor
      · rintro ⟨ds, x, rfl, hd, hx⟩; exact ⟨c :: ds, x, rfl, by simp, digits_cons.mpr ⟨h, hd⟩, hx⟩
      · rintro ⟨ds, x, he, hn, hd, hx⟩
        cases ds with
        | nil => exact absurd rfl hn
        | cons d ds => simp only [List.cons_append, List.cons.injEq] at he; exact ⟨ds, x, he.2, (digits_cons.mp hd).2, hx⟩
    · rw [show numStep 4 c = 9 by simp [numStep, h]]
      constructor
      · intro hw; rw [acc_dead] at hw; cases hw
      · rintro ⟨ds, x, he, hn, hd, hx⟩
        cases ds with
        | nil => exact absurd rfl hn
        | cons d ds =>
          simp only [List.cons_append, List.cons.injEq] at he
          exact absurd (he.1 ▸ (digits_cons.mp hd).1) h

theorem tail_iff (c : Char) (w : Str) : (∃ f x, c :: w = f ++ x ∧ Frac f ∧ Exp x) ↔
    (c = '.' ∧ acc 4 w = true) ∨ ((c = 'e' ∨ c = 'E') ∧ acc 6 w = true) := by
  rw [← exp_cons, acc4]
  constructor
  · rintro ⟨f, x, he, hf | ⟨ds, rfl, hn, hd⟩, hx⟩
    · subst hf; simp only [List.nil_append] at he; rw [he]; exact Or.inr hx
    · simp only [List.cons_append, List.cons.injEq] at he
      exact Or.inl ⟨he.1, ds, x, he.2, hn, hd, hx⟩
  · rintro (⟨rfl, ds, x, rfl, hn, hd, hx⟩ | hx)
    · exact ⟨'.' :: ds, x, rfl, Or.inr ⟨ds, rfl, hn, hd⟩, hx⟩
    · exact ⟨[], c :: w, rfl, Or.inl rfl, hx⟩

theorem acc2 (w : Str) : acc 2 w = true ↔ ∃ f x, w = f ++ x ∧ Frac f ∧ Exp x := by
  cases w with
  | nil => exact ⟨fun _ => ⟨[], [], rfl, Or.inl rfl, Or.inl rfl⟩, fun _ => rfl⟩
  | cons c w =>
    rw [acc_cons, tail_iff]
    by_cases h1 : c = '.'
    · subst h1
      rw [show numStep 2 '.' = 4 by decide]
      simp
    · by_cases h2 : c = 'e' ∨ c = 'E'
      · rw [show numStep 2 c = 6 by simp [numStep, h1, h2]]; simp [h1, h2]
      · rw [show numStep 2 c = 9 by simp [numStep, h1, h2]]; simp [h1, h2, acc_dead]

theorem acc3 (w : Str) : acc 3 w = true ↔ ∃ ds f x, w = ds ++ (f ++ x) ∧ Digits ds ∧ Frac f ∧ Exp x := by
  induction w with
  | nil => exact ⟨fun _ => ⟨[], [], [], rfl, by simp [Digits], Or.inl rfl, Or.inl rfl⟩, fun _ => rfl⟩
  | cons c w ih =>
    rw [acc_cons]
    by_cases h : c.isDigit
    · rw [show numStep 3 c = 3 by simp [numStep, h], ih]
      constructor
      · rintro ⟨ds, f, x, rfl, hd, hf, hx⟩; exact ⟨c :: ds, f, x, rfl, digits_cons.mpr ⟨h, hd⟩, hf, hx⟩
      · rintro ⟨ds, f, x, he, hd, hf, hx⟩
        cases ds with
        | nil =>
          rcases (tail_iff c w).mp ⟨f, x, he, hf, hx⟩ with ⟨rfl, _⟩ | ⟨h2, _⟩
          · exact absurd h (by decide)
          · rw [e_not_digit h2] at h; cases h
        | cons d ds =>
          simp only [List.cons_append, List.cons.injEq] at he
          exact ⟨ds, f, x, he.2, (digits_cons.mp hd).2, hf, hx⟩
    · have key : (∃ ds f x, c :: w = ds ++ (f ++ x) ∧ Digits ds ∧ Frac f ∧ Exp x) ↔
          (∃ f x, c :: w = f ++ x ∧ Frac f ∧ Exp x) := by
        constructor
        · rintro ⟨ds, f, x, he, hd, hf, hx⟩
          cases ds with
          | nil => exact ⟨f, x, he, hf, hx⟩
          | cons d ds =>
            simp only [List.cons_append, List.cons.injEq] at he
            exact absurd (he.1 ▸ (digits_cons.mp hd).1) h
        · rintro ⟨f, x, he, hf, hx⟩; exact ⟨[], f, x, he, by simp [Digits], hf, hx⟩
      rw [key, tail_iff]
      by_cases h1 : c = '.'
      · subst h1
        rw [show numStep 3 '.' = 4 by decide]
        simp
      · by_cases h2 : c = 'e' ∨ c = 'E'
        · rw [show numStep 3 c = 6 by simp [numStep, h, h1, h2]]; simp [h1, h2]
        · rw [show numStep 3 c = 9 by simp [numStep, h, h1, h2]]; simp [h1, h2, acc_dead]

/-- A number without sign. -/
def Unsigned (w : Str) : Prop :=
  ∃ int f x, w = int ++ (f ++ x) ∧ (int = ['0'] ∨ ∃ d ds, int = d :: ds ∧ d.isDigit = true ∧ d ≠ '0' ∧ Digits ds) ∧ Frac f ∧ Exp x

theorem unsigned_cons (c : Char) (w : Str) : Unsigned (c :: w) ↔
    (c = '0' ∧ acc 2 w = true) ∨ (c.isDigit = true ∧ c ≠ '0' ∧ acc 3 w = true) := by
  rw [acc2, acc3]
  constructor
  · rintro ⟨int, f, x, he, rfl | ⟨d, ds, rfl, h1, h2, h3⟩, hf, hx⟩
    · simp only [List.singleton_append, List.cons.injEq] at he
      exact Or.inl ⟨he.1, f, x, he.2, hf, hx⟩
    · simp only [List.cons_append, List.cons.injEq] at he
      exact Or.inr ⟨he.1 ▸ h1, he.1 ▸ h2, ds, f, x, he.2, h3, hf, hx⟩
  · rintro (⟨rfl, f, x, rfl, hf, hx⟩ | ⟨h1, h2, ds, f, x, rfl, h3, hf, hx⟩)
    · exact ⟨['0'], f, x, rfl, Or.inl rfl, hf, hx⟩
    · exact ⟨c :: ds, f, x, rfl, Or.inr ⟨c, ds, rfl, h1, h2, h3⟩, hf, hx⟩

theorem unsigned_nil : ¬ Unsigned [] := by
  rintro ⟨int, f, x, he, h, _⟩
  have : int = [] := by
    cases int with
    | nil => rfl
    | cons d ds => cases he
  subst this
  rcases h with h | ⟨d, ds, h, _⟩ <;> cases h

theorem acc1 (w : Str) : acc 1 w = true ↔ Unsigned w := by
  cases w with
  | nil => simp [acc_nil, unsigned_nil]
  | cons c w =>
    rw [acc_cons, unsigned_cons]
    by_cases h1 : c = '0'
    · subst h1; rw [show numStep 1 '0' = 2 by decide]; simp
    · by_cases h2 : c.isDigit
      · rw [show numStep 1 c = 3 by simp [numStep, h1, h2]]; simp [h1, h2]
      · rw [show numStep 1 c = 9 by simp [numStep, h1, h2]]; simp [h1, h2, acc_dead]

theorem isNumber_iff (w : Str) : IsNumber w ↔ Unsigned w ∨ ∃ u, w = '-' :: u ∧ Unsigned u := by
  constructor
  · rintro ⟨sign, int, frac, exp, rfl, rfl | rfl, h1, h2, h3⟩
    · exact Or.inl ⟨int, frac, exp, rfl, h1, h2, h3⟩
    · exact Or.inr ⟨_, rfl, int, frac, exp, rfl, h1, h2, h3⟩
  · rintro (⟨int, frac, exp, rfl, h1, h2, h3⟩ | ⟨_, rfl, int, frac, exp, rfl, h1, h2, h3⟩)
    · exact ⟨[], int, frac, exp, rfl, Or.inl rfl, h1, h2, h3⟩
    · exact ⟨['-'], int, frac, exp, rfl, Or.inr rfl, h1, h2, h3⟩

theorem acc0 (w : Str) : acc 0 w = true ↔ IsNumber w := by
  rw [isNumber_iff]
  cases w with
  | nil => simp [acc_nil, unsigned_nil]
  | cons c w =>
    rw [acc_cons, unsigned_cons]
    by_cases h0 : c = '-'
    · subst h0
      rw [show numStep 0 '-' = 1 by decide, acc1]
      constructor
      · intro h; exact Or.inr ⟨w, rfl, h⟩
      · rintro ((⟨h, _⟩ | ⟨h, _⟩) | ⟨u, h, hu⟩)
        · exact absurd h (by decide)
        · exact absurd h (by decide)
        · simp only [List.cons.injEq, true_and] at h; rw [h]; exact hu
    · have no : ¬ ∃ u, c :: w = '-' :: u ∧ Unsigned u := by
        rintro ⟨u, h, _⟩; simp only [List.cons.injEq] at h; exact h0 h.1
      simp only [no, or_false]
      by_cases h1 : c = '0'
      · subst h1; rw [show numStep 0 '0' = 2 by decide]; simp
      · by_cases h2 : c.isDigit
        · rw [show numStep 0 c = 3 by simp [numStep, h0, h1, h2]]; simp [h1, h2]
        · rw [show numStep 0 c = 9 by simp [numStep, h0, h1, h2]]; simp [h1, h2, acc_dead]

theorem isLit_iff (w : Str) : isLit w = true ↔ IsLiteral w := by
  have h := acc0 w
  unfold acc at h
  simp only [isLit, IsLiteral, Bool.or_eq_true, beq_iff_eq, h, or_assoc]

/-! ### The scanner -/

theorem wordChar_iff (c : Char) : wordChar c = true ↔ Glue c := by
  simp [wordChar, Glue, or_assoc]

/-- The scanner over a text: the mode it ends in and the tokens it has completed. -/
def run : Mode → Str → Option (Mode × List Tok)
  | m, [] => some (m, [])
  | m, c :: cs => (scan m c).bind fun r => (run r.1 cs).map fun r' => (r'.1, r.2 ++ r'.2)

theorem run_append (m : Mode) (a b : Str) : run m (a ++ b) =
    (run m a).bind fun r => (run r.1 b).map fun r' => (r'.1, r.2 ++ r'.2) := by
  induction a generalizing m with
  | nil => simp [run]
  | cons c cs ih =>
    simp only [List.cons_append, run]
    cases scan m c with
    | none => rfl
    | some r =>
      simp only [Option.bind_some, ih]
      cases run r.1 cs with
      | none => rfl
      | some r' =>
        simp only [Option.bind_some, Option.map_some]
        cases run r'.1 b with
        | none => rfl
        | some r'' => simp [List.append_assoc]

theorem run_spelt {c : Char} {t : Str} (h : Spelt c t) (a : Str) : run (.str a) t = some (.str (a ++ [c]), []) := by
  cases h with
  | plain c h1 h2 h3 => simp [run, scan, h1, h2, Nat.not_lt.mpr h3]
  | quote => rfl
  | backslash => rfl
  | slash => rfl
  | b => rfl
  | f => rfl
  | n => rfl
  | r => rfl
  | t => rfl
  | uni c1 c2 c3 c4 d1 d2 d3 d4 h1 h2 h3 h4 =>
    simp [run, scan, h1, h2, h3, h4]

theorem run_written {s u : Str} (h : Written s u) (a : Str) : run (.str a) u = some (.str (a ++ s), []) := by
  induction h with
  | nil => simp [run]
  | snoc _ hc ih =>
    rw [run_append, ih]
    simp [run_spelt hc]

theorem run_word (w a : Str) (h : ∀ c ∈ w, Glue c) : run (.word a) w = some (.word (a ++ w), []) := by
  induction w generalizing a with
  | nil => simp [run]
  | cons c w ih =>
    have hc : wordChar c = true := (wordChar_iff c).mpr (h c (by simp))
    simp only [run, scan, hc, if_true, Option.bind_some]
    rw [ih _ (fun x hx => h x (by simp [hx]))]
    simp

theorem blank_not_glue {c : Char} (h : Blank c) : ¬ Glue c := by
  rw [← wordChar_iff]
  rcases h with rfl | rfl | rfl | rfl <;> decide

theorem punct_not_glue {t : Tok} {c : Char} (h : Punct t c) : ¬ Glue c := by
  rw [← wordChar_iff]
  cases h <;> decide

theorem scanOut_blank {c : Char} (h : Blank c) : scanOut c = some (.out, []) := by
  rcases h with rfl | rfl | rfl | rfl <;> rfl

theorem scanOut_punct {t : Tok} {c : Char} (h : Punct t c) : scanOut c = some (.out, [t]) := by
  cases h <;> rfl

theorem scanOut_word {c : Char} (h : Glue c) : scanOut c = some (.word [c], []) := by
  have hw := (wordChar_iff c).mpr h
  have hn : ∀ d : Char, wordChar d = false → c ≠ d := by intro d hd he; rw [he, hd] at hw; cases hw
  have n1 := hn ' ' rfl
  have n2 := hn '\n' rfl
  have n3 := hn '\t' rfl
  have n4 := hn '\r' rfl
  have n5 := hn '"' rfl
  have n6 := hn '{' rfl
  have n7 := hn '}' rfl
  have n8 := hn '[' rfl
  have n9 := hn ']' rfl
  have n10 := hn ':' rfl
  have n11 := hn ',' rfl
  simp [scanOut, *]

/-- What the scanner is in the middle of, after the complete tokens `ts`. -/
def Pending (ts : List Tok) (q : Str) : Prop :=
  (run .out q = some (.out, ts) ∧ ∀ c, q.getLast? = some c → ¬ Glue c) ∨
  ∃ ts' w, ts = ts' ++ [.word w] ∧ run .out q = some (.word w, ts') ∧ ∃ c, q.getLast? = some c ∧ Glue c

theorem pending_out {ts : List Tok} {q : Str} (h : Pending ts q) {c : Char} {m : Mode} {ts1 : List Tok}
    (hs : scanOut c = some (m, ts1)) (hw : ¬ Glue c) : run .out (q ++ [c]) = some (m, ts ++ ts1) := by
  rw [run_append]
  rcases h with ⟨h, _⟩ | ⟨ts', w, rfl, h, _⟩
  · rw [h]; simp [run, scan, hs]
  · rw [h]
    have : wordChar c = false := by
      cases hx : wordChar c with
      | false => rfl
      | true => exact absurd ((wordChar_iff c).mp hx) hw
    simp [run, scan, this, hs]

theorem spells_run {ts : List Tok} {q : Str} (h : Spells ts q) : Pending ts q := by
  induction h with
  | nil => exact Or.inl ⟨rfl, by simp⟩
  | blank _ hc ih =>
    refine Or.inl ⟨by simpa using pending_out ih (scanOut_blank hc) (blank_not_glue hc), ?_⟩
    intro c hl
    simp only [List.getLast?_append, List.getLast?_singleton, Option.some_or, Option.some.injEq] at hl
    exact hl ▸ blank_not_glue hc
  | punct _ hc ih =>
    refine Or.inl ⟨pending_out ih (scanOut_punct hc) (punct_not_glue hc), ?_⟩
    intro c hl
    simp only [List.getLast?_append, List.getLast?_singleton, Option.some_or, Option.some.injEq] at hl
    exact hl ▸ punct_not_glue hc
  | @str ts q s u _ hu ih =>
    have hq : ¬ Glue '"' := by rw [← wordChar_iff]; decide
    have h1 : run .out (q ++ ['"']) = some (.str [], ts) := by
      simpa using pending_out (c := '"') (m := .str []) (ts1 := []) ih rfl hq
    refine Or.inl ⟨?_, ?_⟩
    · have : q ++ ('"' :: u ++ ['"']) = (q ++ ['"']) ++ (u ++ ['"']) := by simp
      rw [this, run_append, h1]
      simp only [Option.bind_some]
      rw [run_append, run_written hu]
      simp [run, scan]
    · intro c hl
      have : (q ++ ('"' :: u ++ ['"'])).getLast? = some '"' := by
        have e : q ++ ('"' :: u ++ ['"']) = (q ++ '"' :: u) ++ ['"'] := by simp
        rw [e, List.getLast?_append]
        simp
      rw [this, Option.some.injEq] at hl
      exact hl ▸ hq
  | @word ts q w _ hne hg hlast ih =>
    cases w with
    | nil => exact absurd rfl hne
    | cons c w =>
      have h0 : run .out q = some (.out, ts) := by
        rcases ih with ⟨h, _⟩ | ⟨_, _, _, _, d, hd, hgd⟩
        · exact h
        · exact absurd hgd (hlast d hd)
      refine Or.inr ⟨ts, c :: w, rfl, ?_, ?_⟩
      · rw [run_append, h0]
        simp only [Option.bind_some, run, scan, scanOut_word (hg c (by simp))]
        rw [run_word w [c] (fun x hx => hg x (by simp [hx]))]
        simp
      · have hx : ∃ d, (c :: w).getLast? = some d := by
          cases hl : (c :: w).getLast? with
          | none => simp at hl
          | some d => exact ⟨d, rfl⟩
        obtain ⟨d, hd⟩ := hx
        refine ⟨d, by simp [List.getLast?_append, hd], hg d (List.mem_of_getLast? hd)⟩

/-- What the text read so far is, in each mode. -/
def Lexed (ts : List Tok) (q : Str) : Mode → Prop
  | .out => Spells ts q ∧ ∀ c, q.getLast? = some c → ¬ Glue c
  | .word w => ∃ q0, q = q0 ++ w ∧ Spells ts q0 ∧ w ≠ [] ∧ (∀ c ∈ w, Glue c) ∧ ∀ c, q0.getLast? = some c → ¬ Glue c
  | .str s => ∃ q0 u, q = q0 ++ '"' :: u ∧ Spells ts q0 ∧ Written s u
  | .esc s => ∃ q0 u, q = q0 ++ '"' :: (u ++ ['\\']) ∧ Spells ts q0 ∧ Written s u
  | .uni s n v => ∃ q0 u ds, q = q0 ++ '"' :: (u ++ '\\' :: 'u' :: ds) ∧ Spells ts q0 ∧ Written s u ∧
      ((n = 0 ∧ ds = [] ∧ v = 0) ∨
       (n = 1 ∧ ∃ c1 d1, ds = [c1] ∧ hexVal c1 = some d1 ∧ v = d1) ∨
       (n = 2 ∧ ∃ c1 d1 c2 d2, ds = [c1, c2] ∧ hexVal c1 = some d1 ∧ hexVal c2 = some d2 ∧ v = d1 * 16 + d2) ∨
       (n = 3 ∧ ∃ c1 d1 c2 d2 c3 d3, ds = [c1, c2, c3] ∧ hexVal c1 = some d1 ∧ hexVal c2 = some d2 ∧ hexVal c3 = some d3 ∧
          v = (d1 * 16 + d2) * 16 + d3))

theorem last_ne {q : Str} {x : Char} (h : ¬ Glue x) : ∀ c, (q ++ [x]).getLast? = some c → ¬ Glue c := by
  intro c hl
  simp only [List.getLast?_append, List.getLast?_singleton, Option.some_or, Option.some.injEq] at hl
  exact hl ▸ h

theorem lexed_scanOut {ts : List Tok} {q : Str} {c : Char} {m : Mode} {ts1 : List Tok} (h : Spells ts q)
    (hl : Glue c → ∀ c, q.getLast? = some c → ¬ Glue c) (hs : scanOut c = some (m, ts1)) : Lexed (ts ++ ts1) (q ++ [c]) m := by
  by_cases hb : Blank c
  · rw [scanOut_blank hb] at hs
    simp only [Option.some.injEq, Prod.mk.injEq] at hs
    obtain ⟨rfl, rfl⟩ := hs
    exact ⟨by simpa using Spells.blank h hb, last_ne (blank_not_glue hb)⟩
  · by_cases hp : ∃ t, Punct t c
    · obtain ⟨t, hp⟩ := hp
      rw [scanOut_punct hp] at hs
      simp only [Option.some.injEq, Prod.mk.injEq] at hs
      obtain ⟨rfl, rfl⟩ := hs
      exact ⟨Spells.punct h hp, last_ne (punct_not_glue hp)⟩
    · by_cases hq : c = '"'
      · subst hq
        have : scanOut '"' = some (.str [], []) := rfl
        rw [this] at hs
        simp only [Option.some.injEq, Prod.mk.injEq] at hs
        obtain ⟨rfl, rfl⟩ := hs
        exact ⟨q, [], rfl, by simpa using h, .nil⟩
      · by_cases hg : Glue c
        · rw [scanOut_word hg] at hs
          simp only [Option.some.injEq, Prod.mk.injEq] at hs
          obtain ⟨rfl, rfl⟩ := hs
          exact ⟨q, rfl, by simpa using h, by simp, by simpa using hg, hl hg⟩
        · exfalso
          have hp' : ∀ t d, Punct t d → c ≠ d := fun t d h1 h2 => hp ⟨t, h2 ▸ h1⟩
          have n1 := hp' _ _ Punct.lbrace
          have n2 := hp' _ _ Punct.rbrace
          have n3 := hp' _ _ Punct.lbrack
          have n4 := hp' _ _ Punct.rbrack
          have n5 := hp' _ _ Punct.colon
          have n6 := hp' _ _ Punct.comma
          have n7 : ¬ (c = ' ' ∨ c = '\n' ∨ c = '\t' ∨ c = '\r') := hb
          have n8 : wordChar c = false := by
            cases hx : wordChar c with
            | false => rfl
            | true => exact absurd ((wordChar_iff c).mp hx) hg
          simp [scanOut, n1, n2, n3, n4, n5, n6, n7, n8, hq] at hs

theorem lexed_scan {ts : List Tok} {q : Str} {m m' : Mode} {c : Char} {ts1 : List Tok} (h : Lexed ts q m)
    (hs : scan m c = some (m', ts1)) : Lexed (ts ++ ts1) (q ++ [c]) m' := by
  cases m with
  | out => exact lexed_scanOut h.1 (fun _ => h.2) hs
  | word w =>
    obtain ⟨q0, rfl, h1, h2, h3, h4⟩ := h
    simp only [scan] at hs
    by_cases hc : wordChar c
    · simp only [hc, if_true, Option.some.injEq, Prod.mk.injEq] at hs
      obtain ⟨rfl, rfl⟩ := hs
      refine ⟨q0, by simp, by simpa using h1, by simp, ?_, h4⟩
      intro x hx
      rcases List.mem_append.mp hx with hx | hx
      · exact h3 x hx
      · simp only [List.mem_singleton] at hx; exact hx ▸ (wordChar_iff c).mp hc
    · simp only [hc, Bool.false_eq_true, if_false, Option.map_eq_some_iff] at hs
      obtain ⟨r, hr, he⟩ := hs
      simp only [Prod.mk.injEq] at he
      obtain ⟨rfl, rfl⟩ := he
      have := lexed_scanOut (Spells.word h1 h2 h3 h4) (fun hg => absurd ((wordChar_iff c).mpr hg) hc) (hs := hr)
      simpa using this
  | str s =>
    obtain ⟨q0, u, rfl, h1, h2⟩ := h
    simp only [scan] at hs
    by_cases e1 : c = '"'
    · subst e1
      simp only [if_true, Option.some.injEq, Prod.mk.injEq] at hs
      obtain ⟨rfl, rfl⟩ := hs
      have : q0 ++ '"' :: u ++ ['"'] = q0 ++ ('"' :: u ++ ['"']) := by simp
      exact ⟨by rw [this]; exact Spells.str h1 h2, last_ne (by rw [← wordChar_iff]; decide)⟩
    · rw [if_neg e1] at hs
      by_cases e2 : c = '\\'
      · subst e2
        simp only [if_true, Option.some.injEq, Prod.mk.injEq] at hs
        obtain ⟨rfl, rfl⟩ := hs
        exact ⟨q0, u, by simp, by simpa using h1, h2⟩
      · rw [if_neg e2] at hs
        by_cases e3 : c.toNat < 32
        · rw [if_pos e3] at hs; cases hs
        · rw [if_neg e3] at hs
          simp only [Option.some.injEq, Prod.mk.injEq] at hs
          obtain ⟨rfl, rfl⟩ := hs
          exact ⟨q0, u ++ [c], by simp, by simpa using h1, .snoc h2 (.plain c e1 e2 (by omega))⟩
  | esc s =>
    obtain ⟨q0, u, rfl, h1, h2⟩ := h
    simp only [scan] at hs
    by_cases e1 : c = 'u'
    · subst e1
      simp only [if_true, Option.some.injEq, Prod.mk.injEq] at hs
      obtain ⟨rfl, rfl⟩ := hs
      exact ⟨q0, u, [], by simp, by simpa using h1, h2, Or.inl ⟨rfl, rfl, rfl⟩⟩
    · rw [if_neg e1, Option.map_eq_some_iff] at hs
      obtain ⟨d, hd, he⟩ := hs
      simp only [Prod.mk.injEq] at he
      obtain ⟨rfl, rfl⟩ := he
      have hsp : Spelt d ['\\', c] := by
        simp only [escChar] at hd
        split at hd
        · rename_i hc
          simp only [Option.some.injEq] at hd
          subst hd
          rcases hc with rfl | rfl | rfl
          · exact .quote
          · exact .backslash
          · exact .slash
        · repeat' split at hd
          all_goals first
            | cases hd; done
            | (simp only [Option.some.injEq] at hd; subst hd; rename_i hc; subst hc; first | exact .b | exact .f | exact .n | exact .r | exact .t)
      exact ⟨q0, u ++ ['\\', c], by simp, by simpa using h1, .snoc h2 hsp⟩
  | uni s n v =>
    obtain ⟨q0, u, ds, rfl, h1, h2, h3⟩ := h
    simp only [scan, Option.map_eq_some_iff] at hs
    obtain ⟨d, hd, he⟩ := hs
    rcases h3 with ⟨rfl, rfl, rfl⟩ | ⟨rfl, c1, d1, rfl, k1, rfl⟩ | ⟨rfl, c1, d1, c2, d2, rfl, k1, k2, rfl⟩ |
      ⟨rfl, c1, d1, c2, d2, c3, d3, rfl, k1, k2, k3, rfl⟩
    · simp at he; obtain ⟨rfl, rfl⟩ := he
      exact ⟨q0, u, [c], by simp, by simpa using h1, h2, Or.inr (Or.inl ⟨rfl, c, d, rfl, hd, rfl⟩)⟩
    · simp at he; obtain ⟨rfl, rfl⟩ := he
      exact ⟨q0, u, [c1, c], by simp, by simpa using h1, h2, Or.inr (Or.inr (Or.inl ⟨rfl, c1, _, c, d, rfl, k1, hd, rfl⟩))⟩
    · simp at he; obtain ⟨rfl, rfl⟩ := he
      exact ⟨q0, u, [c1, c2, c], by simp, by simpa using h1, h2,
        Or.inr (Or.inr (Or.inr ⟨rfl, c1, d1, c2, d2, c, d, rfl, k1, k2, hd, rfl⟩))⟩
    · simp at he; obtain ⟨rfl, rfl⟩ := he
      exact ⟨q0, u ++ ['\\', 'u', c1, c2, c3, c], by simp, by simpa using h1, .snoc h2 (.uni c1 c2 c3 c d1 d2 d3 d k1 k2 k3 hd)⟩

/-! ### The parser -/

/-- A comma, if something stands before it. -/
def sep {α : Type} : List α → List Tok
  | [] => []
  | _ :: _ => [.comma]

theorem toksM_two (k : Str) (v : Json) (m : Str × Json) (ms : List (Str × Json)) :
    toksM ((k, v) :: m :: ms) = .str k :: .colon :: (toks v ++ .comma :: toksM (m :: ms)) := by
  conv => lhs; rw [toksM]

theorem toksV_two (v x : Json) (vs : List Json) : toksV (v :: x :: vs) = toks v ++ .comma :: toksV (x :: vs) := by
  conv => lhs; rw [toksV]

theorem toksM_snoc (ms : List (Str × Json)) (k : Str) (v : Json) :
    toksM (ms ++ [(k, v)]) = toksM ms ++ (sep ms ++ (.str k :: .colon :: toks v)) := by
  induction ms with
  | nil => simp [toksM, sep]
  | cons m ms ih =>
    obtain ⟨k', v'⟩ := m
    cases ms with
    | nil => simp [toksM, sep]
    | cons m2 ms =>
      simp only [List.cons_append] at ih ⊢
      rw [toksM_two, toksM_two, ih]
      simp [sep]

theorem toksV_snoc (vs : List Json) (v : Json) : toksV (vs ++ [v]) = toksV vs ++ (sep vs ++ toks v) := by
  induction vs with
  | nil => simp [toksV, sep]
  | cons x vs ih =>
    cases vs with
    | nil => simp [toksV, sep]
    | cons x2 vs =>
      simp only [List.cons_append] at ih ⊢
      rw [toksV_two, toksV_two, ih]
      simp [sep]

/-- What has been read of a container that waits for a value. -/
def waiting : Frame → List Tok
  | .obj ms k => .lbrace :: (toksM ms ++ (sep ms ++ [.str k, .colon]))
  | .arr vs => .lbrack :: (toksV vs ++ sep vs)

/-- … of all open containers, the innermost first. -/
def below : List Frame → List Tok
  | [] => []
  | f :: st => below st ++ waiting f

/-- What has been read when the parser is in a state: a function of the state. The second part: the state is one the parser
can be in. -/
def seen : List Frame × Expect → List Tok
  | (st, .value) => below st
  | (st, .done v) => below st ++ toks v
  | ([], _) => []
  | (_ :: st, .valueOrClose) => below st ++ [.lbrack]
  | (_ :: st, .keyOrClose) => below st ++ [.lbrace]
  | (.obj ms _ :: st, .key) => below st ++ (.lbrace :: (toksM ms ++ [.comma]))
  | (.obj ms k :: st, .colon) => below st ++ (.lbrace :: (toksM ms ++ (sep ms ++ [.str k])))
  | (.obj ms _ :: st, .commaOrClose) => below st ++ (.lbrace :: toksM ms)
  | (.arr vs :: st, .commaOrClose) => below st ++ (.lbrack :: toksV vs)
  | (_ :: st, _) => below st

/-- The states the parser can be in. -/
def Fit : List Frame × Expect → Prop
  | (_, .value) => True
  | (st, .done _) => st = []
  | (.arr vs :: _, .valueOrClose) => vs = []
  | (.obj ms _ :: _, .keyOrClose) => ms = []
  | (.obj ms _ :: _, .key) => ms ≠ []
  | (.obj _ _ :: _, .colon) => True
  | (.obj ms _ :: _, .commaOrClose) => ms ≠ []
  | (.arr vs :: _, .commaOrClose) => vs ≠ []
  | _ => False

theorem give_seen (v : Json) (st : List Frame) : seen (give v st) = below st ++ toks v ∧ Fit (give v st) := by
  cases st with
  | nil => exact ⟨by simp [give, seen, below], rfl⟩
  | cons f st =>
    cases f with
    | obj ms k => exact ⟨by simp [give, seen, below, waiting, toksM_snoc], by simp [give, Fit]⟩
    | arr vs => exact ⟨by simp [give, seen, below, waiting, toksV_snoc], by simp [give, Fit]⟩

theorem sep_ne {α : Type} {l : List α} (h : l ≠ []) : sep l = [.comma] := by
  cases l with
  | nil => exact absurd rfl h
  | cons => rfl

theorem start_seen {st : List Frame} {t : Tok} {q : List Frame × Expect} (h : startValue st t = some q) :
    seen q = below st ++ [t] ∧ Fit q := by
  cases t with
  | str s => simp only [startValue, Option.some.injEq] at h; subst h; simpa [toks] using give_seen (.str s) st
  | word w =>
    simp only [startValue] at h
    split at h
    · simp only [Option.some.injEq] at h; subst h; simpa [toks] using give_seen (.lit w) st
    · cases h
  | lbrace => simp only [startValue, Option.some.injEq] at h; subst h; exact ⟨rfl, rfl⟩
  | lbrack => simp only [startValue, Option.some.injEq] at h; subst h; exact ⟨rfl, rfl⟩
  | _ => cases h

theorem step_seen {p q : List Frame × Expect} {t : Tok} (hf : Fit p) (h : step p t = some q) :
    seen q = seen p ++ [t] ∧ Fit q := by
  obtain ⟨st, ex⟩ := p
  cases ex with
  | value => exact start_seen h
  | done v => simp [step] at h
  | valueOrClose =>
    cases st with
    | nil => cases hf
    | cons f st =>
      cases f with
      | obj ms k => cases hf
      | arr vs =>
        have hv : vs = [] := hf
        subst hv
        simp only [step] at h
        split at h
        · rename_i ht; subst ht
          simp only [close, Option.some.injEq] at h
          subst h
          simpa [seen, toks, toksV] using give_seen (.arr []) st
        · simpa [seen, below, waiting, toksV, sep] using start_seen h
  | keyOrClose =>
    cases st with
    | nil => cases hf
    | cons f st =>
      cases f with
      | arr vs => cases hf
      | obj ms k =>
        have hv : ms = [] := hf
        subst hv
        cases t with
        | str k' =>
          simp only [step, readKey, Option.some.injEq] at h; subst h
          exact ⟨by simp [seen, toksM, sep], trivial⟩
        | rbrace =>
          simp only [step, close, Option.some.injEq] at h; subst h
          simpa [seen, toks, toksM] using give_seen (.obj []) st
        | _ => cases h
  | key =>
    cases st with
    | nil => cases hf
    | cons f st =>
      cases f with
      | arr vs => cases hf
      | obj ms k =>
        have hv : ms ≠ [] := hf
        cases t with
        | str k' =>
          simp only [step, readKey, Option.some.injEq] at h; subst h
          exact ⟨by simp [seen, sep_ne hv], trivial⟩
        | _ => cases h
  | colon =>
    cases st with
    | nil => cases hf
    | cons f st =>
      cases f with
      | arr vs => cases hf
      | obj ms k =>
        simp only [step] at h
        split at h
        · rename_i ht; subst ht
          simp only [Option.some.injEq] at h; subst h
          exact ⟨by simp [seen, below, waiting], trivial⟩
        · cases h
  | commaOrClose =>
    cases st with
    | nil => cases hf
    | cons f st =>
      cases f with
      | obj ms k =>
        have hv : ms ≠ [] := hf
        simp only [step] at h
        split at h
        · rename_i ht; subst ht
          simp only [next, Option.some.injEq] at h; subst h
          exact ⟨by simp [seen], hv⟩
        · cases t <;> simp only [close] at h <;> try cases h
          simpa [seen, toks] using give_seen (.obj ms) st
      | arr vs =>
        have hv : vs ≠ [] := hf
        simp only [step] at h
        split at h
        · rename_i ht; subst ht
          simp only [next, Option.some.injEq] at h; subst h
          exact ⟨by simp [seen, below, waiting, sep_ne hv], trivial⟩
        · cases t <;> simp only [close] at h <;> try cases h
          simpa [seen, toks] using give_seen (.arr vs) st

theorem steps_seen {ts : List Tok} {p q : List Frame × Expect} (hf : Fit p) (h : steps p ts = some q) :
    seen q = seen p ++ ts ∧ Fit q := by
  induction ts generalizing p with
  | nil => simp only [steps, Option.some.injEq] at h; subst h; exact ⟨by simp, hf⟩
  | cons t ts ih =>
    simp only [steps, Option.bind_eq_some_iff] at h
    obtain ⟨r, h1, h2⟩ := h
    obtain ⟨e1, f1⟩ := step_seen hf h1
    obtain ⟨e2, f2⟩ := ih f1 h2
    exact ⟨by rw [e2, e1]; simp, f2⟩

theorem steps_append (p : List Frame × Expect) (a b : List Tok) : steps p (a ++ b) = (steps p a).bind fun q => steps q b := by
  induction a generalizing p with
  | nil => rfl
  | cons t a ih =>
    simp only [List.cons_append, steps, Option.bind_assoc]
    cases step p t with
    | none => rfl
    | some q => simp only [Option.bind_some]; exact ih q

mutual
theorem steps_toks : ∀ (v : Json), Proper v → ∀ (st : List Frame) (ts : List Tok),
    steps (st, .value) (toks v ++ ts) = steps (give v st) ts
  | .str s, _, st, ts => by simp [toks, steps, step, startValue]
  | .lit w, h, st, ts => by
    have : isLit w = true := (isLit_iff w).mpr (by simpa [Proper] using h)
    simp [toks, steps, step, startValue, this]
  | .obj ms, h, st, ts => by
    rw [Proper] at h
    simp only [toks, List.cons_append, List.append_assoc, steps, step, startValue, Option.bind_some]
    cases ms with
    | nil => simp [toksM, steps, step, close]
    | cons m ms =>
      rw [steps_toksM (m :: ms) h (by simp) [] [] st .keyOrClose (Or.inl rfl)]
      simp [steps, step, close]
  | .arr vs, h, st, ts => by
    rw [Proper] at h
    simp only [toks, List.cons_append, List.append_assoc, steps, step, startValue, Option.bind_some]
    cases vs with
    | nil => simp [toksV, steps, step, close]
    | cons x vs =>
      have e : ∀ rest, steps (Frame.arr [] :: st, .valueOrClose) (toksV (x :: vs) ++ rest) =
          steps (Frame.arr [] :: st, .value) (toksV (x :: vs) ++ rest) := by
        intro rest
        have hne : ∃ t r, toksV (x :: vs) ++ rest = t :: r ∧ t ≠ .rbrack := by
          cases vs with
          | nil => cases x <;> simp [toks, toksV]
          | cons y vs => rw [toksV_two]; cases x <;> simp [toks]
        obtain ⟨t, r, ht, hr⟩ := hne
        rw [ht]
        simp [steps, step, hr]
      rw [e, steps_toksV (x :: vs) h (by simp) [] st]
      simp [steps, step, close]
theorem steps_toksM : ∀ (ms : List (Str × Json)), ProperM ms → ms ≠ [] →
    ∀ (done : List (Str × Json)) (k0 : Str) (st : List Frame) (ex : Expect) (_ : ex = .keyOrClose ∨ ex = .key) (ts : List Tok),
    steps (.obj done k0 :: st, ex) (toksM ms ++ ts) = steps (.obj (done ++ ms) [] :: st, .commaOrClose) ts
  | [], _, hn, _, _, _, _, _, _ => absurd rfl hn
  | [(k, v)], h, _, done, k0, st, ex, hex, ts => by
    rw [ProperM] at h
    have e : steps (.obj done k0 :: st, ex) (toksM [(k, v)] ++ ts) = steps (.obj done k :: st, .value) (toks v ++ ts) := by
      rcases hex with rfl | rfl <;> simp [toksM, steps, step, readKey]
    rw [e, steps_toks v h.1]
    rfl
  | (k, v) :: m :: ms, h, _, done, k0, st, ex, hex, ts => by
    rw [ProperM] at h
    have e : steps (.obj done k0 :: st, ex) (toksM ((k, v) :: m :: ms) ++ ts) =
        steps (.obj done k :: st, .value) (toks v ++ (.comma :: (toksM (m :: ms) ++ ts))) := by
      rw [toksM_two]
      rcases hex with rfl | rfl <;> simp [steps, step, readKey]
    rw [e, steps_toks v h.1]
    have e2 : steps (give v (.obj done k :: st)) (.comma :: (toksM (m :: ms) ++ ts)) =
        steps (.obj (done ++ [(k, v)]) [] :: st, .key) (toksM (m :: ms) ++ ts) := by
      simp [give, steps, step, next]
    rw [e2, steps_toksM (m :: ms) h.2 (by simp) _ _ _ _ (Or.inr rfl)]
    simp
theorem steps_toksV : ∀ (vs : List Json), ProperV vs → vs ≠ [] →
    ∀ (done : List Json) (st : List Frame) (ts : List Tok),
    steps (.arr done :: st, .value) (toksV vs ++ ts) = steps (.arr (done ++ vs) :: st, .commaOrClose) ts
  | [], _, hn, _, _, _ => absurd rfl hn
  | [v], h, _, done, st, ts => by
    rw [ProperV] at h
    have e : toksV [v] = toks v := by simp [toksV]
    rw [e, steps_toks v h.1]
    rfl
  | v :: x :: vs, h, _, done, st, ts => by
    rw [ProperV] at h
    rw [toksV_two, List.append_assoc, steps_toks v h.1]
    have e2 : steps (give v (.arr done :: st)) (.comma :: toksV (x :: vs) ++ ts) =
        steps (.arr (done ++ [v]) :: st, .value) (toksV (x :: vs) ++ ts) := by
      simp [give, steps, step, next]
    rw [e2, steps_toksV (x :: vs) h.2 (by simp)]
    simp
end

theorem properM_snoc (ms : List (Str × Json)) (k : Str) (v : Json) : ProperM (ms ++ [(k, v)]) ↔ ProperM ms ∧ Proper v := by
  induction ms with
  | nil => simp [ProperM]
  | cons m ms ih => obtain ⟨a, b⟩ := m; simp [ProperM, ih, and_assoc]

theorem properV_snoc (vs : List Json) (v : Json) : ProperV (vs ++ [v]) ↔ ProperV vs ∧ Proper v := by
  induction vs with
  | nil => simp [ProperV]
  | cons x vs ih => simp [ProperV, ih, and_assoc]

/-- The values in a parser state have proper literals. -/
def ProperF : Frame → Prop
  | .obj ms _ => ProperM ms
  | .arr vs => ProperV vs

def ProperS (p : List Frame × Expect) : Prop := (∀ f ∈ p.1, ProperF f) ∧ ∀ v, p.2 = .done v → Proper v

theorem give_proper {v : Json} {st : List Frame} (h : Proper v) (hs : ∀ f ∈ st, ProperF f) : ProperS (give v st) := by
  cases st with
  | nil => exact ⟨by simp [give], by intro x hx; simp [give] at hx; exact hx ▸ h⟩
  | cons f st =>
    have hf := hs f (by simp)
    have hr : ∀ f ∈ st, ProperF f := fun f hf => hs f (by simp [hf])
    cases f with
    | obj ms k =>
      refine ⟨?_, by intro x hx; simp [give] at hx⟩
      intro g hg
      simp only [give, List.mem_cons] at hg
      rcases hg with rfl | hg
      · exact (properM_snoc ms k v).mpr ⟨hf, h⟩
      · exact hr g hg
    | arr vs =>
      refine ⟨?_, by intro x hx; simp [give] at hx⟩
      intro g hg
      simp only [give, List.mem_cons] at hg
      rcases hg with rfl | hg
      · exact (properV_snoc vs v).mpr ⟨hf, h⟩
      · exact hr g hg

theorem start_proper {st : List Frame} {t : Tok} {q : List Frame × Expect} (h : startValue st t = some q)
    (hs : ∀ f ∈ st, ProperF f) : ProperS q := by
  cases t with
  | str s => simp only [startValue, Option.some.injEq] at h; subst h; exact give_proper (by simp [Proper]) hs
  | word w =>
    simp only [startValue] at h
    split at h
    · rename_i hl
      simp only [Option.some.injEq] at h; subst h
      exact give_proper (by simpa [Proper] using (isLit_iff w).mp hl) hs
    · cases h
  | lbrace =>
    simp only [startValue, Option.some.injEq] at h; subst h
    refine ⟨?_, by simp⟩
    intro f hf
    simp only [List.mem_cons] at hf
    rcases hf with rfl | hf
    · simp [ProperF, ProperM]
    · exact hs f hf
  | lbrack =>
    simp only [startValue, Option.some.injEq] at h; subst h
    refine ⟨?_, by simp⟩
    intro f hf
    simp only [List.mem_cons] at hf
    rcases hf with rfl | hf
    · simp [ProperF, ProperV]
    · exact hs f hf
  | _ => cases h

theorem close_proper {st : List Frame} {t : Tok} {q : List Frame × Expect} (h : close st t = some q)
    (hs : ∀ f ∈ st, ProperF f) : ProperS q := by
  cases t <;> simp only [close] at h <;> try cases h
  all_goals
    split at h
    · rename_i ms r _ 
      simp only [Option.some.injEq] at h; subst h
      exact give_proper (by simpa [Proper, ProperF] using hs _ (List.mem_cons_self ..)) (fun f hf => hs f (by simp [hf]))
    · cases h

theorem readKey_proper {st : List Frame} {k : Str} {q : List Frame × Expect} (h : readKey st k = some q)
    (hs : ∀ f ∈ st, ProperF f) : ProperS q := by
  unfold readKey at h
  split at h
  · rename_i ms k0 r
    simp only [Option.some.injEq] at h; subst h
    refine ⟨?_, by simp⟩
    intro f hf
    simp only [List.mem_cons] at hf
    rcases hf with rfl | hf
    · exact hs (.obj ms k0) (by simp)
    · exact hs f (by simp [hf])
  · cases h

theorem step_proper {p q : List Frame × Expect} {t : Tok} (hp : ProperS p) (h : step p t = some q) : ProperS q := by
  obtain ⟨st, ex⟩ := p
  have hs := hp.1
  cases ex with
  | value => exact start_proper h hs
  | done v => simp [step] at h
  | valueOrClose =>
    simp only [step] at h
    split at h
    · exact close_proper h hs
    · exact start_proper h hs
  | keyOrClose =>
    cases t <;> simp only [step] at h <;> try cases h
    · exact close_proper h hs
    · exact readKey_proper h hs
  | key =>
    cases t <;> simp only [step] at h <;> try cases h
    exact readKey_proper h hs
  | colon =>
    simp only [step] at h
    split at h
    · simp only [Option.some.injEq] at h; subst h; exact ⟨hs, by simp⟩
    · cases h
  | commaOrClose =>
    simp only [step] at h
    split at h
    · unfold next at h
      split at h <;> first | cases h; done | (simp only [Option.some.injEq] at h; subst h; exact ⟨hs, by simp⟩)
    · exact close_proper h hs

theorem steps_proper {ts : List Tok} {p q : List Frame × Expect} (hp : ProperS p) (h : steps p ts = some q) : ProperS q := by
  induction ts generalizing p with
  | nil => simp only [steps, Option.some.injEq] at h; exact h ▸ hp
  | cons t ts ih =>
    simp only [steps, Option.bind_eq_some_iff] at h
    obtain ⟨r, h1, h2⟩ := h
    exact ih (step_proper hp h1) h2

/-- The parser reads exactly the tokens of proper values. -/
theorem steps_iff (ts : List Tok) (v : Json) : steps ([], .value) ts = some ([], .done v) ↔ ts = toks v ∧ Proper v := by
  constructor
  · intro h
    have h1 := (steps_seen (p := ([], .value)) trivial h).1
    have h2 := steps_proper (p := ([], .value)) ⟨by simp, by simp⟩ h
    simp only [seen, below, List.nil_append] at h1
    exact ⟨h1.symm, h2.2 v rfl⟩
  · rintro ⟨rfl, h⟩
    have := steps_toks v h [] []
    simpa [steps, give] using this

/-! ### The reader -/

open Memo

theorem wholeFrom_run {q : Str} {m m' : Mode} {ts : List Tok} {p r : List Frame × Expect} (h : run m q = some (m', ts))
    (hs : steps p ts = some r) : wholeFrom m p q = wholeFrom m' r [] := by
  induction q generalizing m p ts with
  | nil =>
    simp only [run, Option.some.injEq, Prod.mk.injEq] at h
    obtain ⟨rfl, rfl⟩ := h
    simp only [steps, Option.some.injEq] at hs
    rw [hs]
  | cons c cs ih =>
    simp only [run, Option.bind_eq_some_iff, Option.map_eq_some_iff] at h
    obtain ⟨⟨m1, ts1⟩, h1, ⟨m2, ts2⟩, h2, he⟩ := h
    simp only [Prod.mk.injEq] at he
    obtain ⟨rfl, rfl⟩ := he
    rw [steps_append, Option.bind_eq_some_iff] at hs
    obtain ⟨p1, h3, h4⟩ := hs
    have : wholeFrom m p (c :: cs) = wholeFrom m1 p1 cs := by
      cases m <;> simp [wholeFrom, h1, h3]
    rw [this, ih h2 h4]

theorem whole_complete {v : Json} {t : Str} (h : JsonText v t) : whole t = some v := by
  obtain ⟨h1, h2⟩ := h
  have hst := (steps_iff (toks v) v).mpr ⟨rfl, h2⟩
  unfold whole
  rcases spells_run h1 with ⟨hr, _⟩ | ⟨ts', w, he, hr, _⟩
  · rw [wholeFrom_run hr hst]; rfl
  · rw [he, steps_append, Option.bind_eq_some_iff] at hst
    obtain ⟨p1, h3, h4⟩ := hst
    rw [wholeFrom_run hr h3]
    simp only [steps, Option.bind_eq_some_iff, Option.some.injEq] at h4
    obtain ⟨q, h5, rfl⟩ := h4
    simp [wholeFrom, h5, finished]

theorem lexed_word {ts : List Tok} {q w : Str} (h : Lexed ts q (.word w)) : Spells (ts ++ [.word w]) q := by
  obtain ⟨q0, rfl, h1, h2, h3, h4⟩ := h
  exact .word h1 h2 h3 h4

theorem finished_eq {p : List Frame × Expect} {v : Json} (h : finished p = some v) : p = ([], .done v) := by
  unfold finished at h
  split at h
  · simp only [Option.some.injEq] at h; rw [h]
  · cases h

theorem whole_sound {t q : Str} {m : Mode} {ts : List Tok} {p : List Frame × Expect} {v : Json}
    (hl : Lexed ts q m) (hs : steps ([], .value) ts = some p) (h : wholeFrom m p t = some v) : JsonText v (q ++ t) := by
  induction t generalizing q m ts p with
  | nil =>
    rw [List.append_nil]
    cases m with
    | out =>
      simp only [wholeFrom] at h
      rw [finished_eq h] at hs
      obtain ⟨rfl, hp⟩ := (steps_iff _ _).mp hs
      exact ⟨hl.1, hp⟩
    | word w =>
      simp only [wholeFrom, Option.bind_eq_some_iff] at h
      obtain ⟨r, h1, h2⟩ := h
      rw [finished_eq h2] at h1
      have hs' : steps ([], .value) (ts ++ [.word w]) = some ([], .done v) := by
        rw [steps_append, hs]; simp [steps, h1]
      obtain ⟨he, hp⟩ := (steps_iff _ _).mp hs'
      exact ⟨he ▸ lexed_word hl, hp⟩
    | _ => simp [wholeFrom] at h
  | cons c cs ih =>
    have h' : ∃ r, scan m c = some r ∧ ∃ p1, steps p r.2 = some p1 ∧ wholeFrom r.1 p1 cs = some v := by
      have : wholeFrom m p (c :: cs) = (scan m c).bind fun r => (steps p r.2).bind fun q => wholeFrom r.1 q cs := by
        cases m <;> rfl
      rw [this] at h
      simpa only [Option.bind_eq_some_iff] using h
    obtain ⟨⟨m1, ts1⟩, h1, p1, h2, h3⟩ := h'
    have := ih (lexed_scan hl h1) (by rw [steps_append, hs]; exact h2) h3
    simpa using this

theorem lexed_start : Lexed [] [] .out := ⟨.nil, by simp⟩

/-- **C86 (the reader of a memo).** `json.Unmarshal` accepts exactly the JSON texts, and returns the value they denote: every
spelling — white space between tokens, escapes in strings, exponents in numbers — and nothing else. -/
theorem C86_json (t : Str) (v : Json) : whole t = some v ↔ JsonText v t :=
  ⟨fun h => by simpa using whole_sound lexed_start rfl h, whole_complete⟩

/-- C86: a text denotes one value. -/
theorem C86_json_unique {t : Str} {v w : Json} (h : JsonText v t) (g : JsonText w t) : v = w := by
  have := whole_complete h
  rw [whole_complete g, Option.some.injEq] at this
  exact this.symm

theorem lexed_prefix {ts : List Tok} {q : Str} {m : Mode} (h : Lexed ts q m) : ∃ a b, q = a ++ b ∧ Spells ts a := by
  cases m with
  | out => exact ⟨q, [], by simp, h.1⟩
  | word w => obtain ⟨q0, rfl, h1, _⟩ := h; exact ⟨q0, w, rfl, h1⟩
  | str s => obtain ⟨q0, u, rfl, h1, _⟩ := h; exact ⟨q0, _, rfl, h1⟩
  | esc s => obtain ⟨q0, u, rfl, h1, _⟩ := h; exact ⟨q0, _, rfl, h1⟩
  | uni s n v => obtain ⟨q0, u, ds, rfl, h1, _⟩ := h; exact ⟨q0, _, rfl, h1⟩

theorem first_sound {t q : Str} {m : Mode} {ts : List Tok} {p : List Frame × Expect} {v : Json}
    (hl : Lexed ts q m) (hs : steps ([], .value) ts = some p) (h : firstFrom m p t = some v) :
    ∃ a b, q ++ t = a ++ b ∧ JsonText v a := by
  induction t generalizing q m ts p with
  | nil => simp [firstFrom] at h
  | cons c cs ih =>
    rw [firstFrom] at h
    cases h1 : scan m c with
    | none => simp [h1] at h
    | some r =>
      obtain ⟨m1, ts1⟩ := r
      simp only [h1] at h
      have hl1 := lexed_scan hl h1
      cases h2 : steps p ts1 with
      | none => simp [h2] at h
      | some p1 =>
        have hs1 : steps ([], .value) (ts ++ ts1) = some p1 := by rw [steps_append, hs]; exact h2
        have next : firstFrom m1 p1 cs = some v → ∃ a b, q ++ c :: cs = a ++ b ∧ JsonText v a := by
          intro h3
          obtain ⟨a, b, e, hj⟩ := ih hl1 hs1 h3
          exact ⟨a, b, by rw [← e]; simp, hj⟩
        obtain ⟨st, ex⟩ := p1
        cases ex with
        | done x =>
          simp only [h2] at h
          cases st with
          | cons f st => simp at h
          | nil =>
            simp only [List.isEmpty_nil, if_true, Option.some.injEq] at h
            subst h
            obtain ⟨he, hp⟩ := (steps_iff _ _).mp hs1
            obtain ⟨a, b, e, ha⟩ := lexed_prefix hl1
            refine ⟨a, b ++ cs, ?_, he ▸ ha, hp⟩
            rw [← List.append_assoc, ← e]; simp
        | value => exact next (by simpa [h2] using h)
        | valueOrClose => exact next (by simpa [h2] using h)
        | keyOrClose => exact next (by simpa [h2] using h)
        | key => exact next (by simpa [h2] using h)
        | colon => exact next (by simpa [h2] using h)
        | commaOrClose => exact next (by simpa [h2] using h)

theorem steps_done (v : Json) {ts : List Tok} {r : List Frame × Expect} (h : steps ([], .done v) ts = some r) : ts = [] := by
  cases ts with
  | nil => rfl
  | cons t ts => simp [steps, step] at h

theorem firstFrom_run {q b : Str} {m m' : Mode} {ts : List Tok} {p : List Frame × Expect} {v : Json}
    (h : run m q = some (m', ts)) (hs : steps p ts = some ([], .done v)) (hf : Fit p) (hp : ∀ x, p.2 ≠ .done x) :
    firstFrom m p (q ++ b) = some v := by
  induction q generalizing m p ts with
  | nil =>
    simp only [run, Option.some.injEq, Prod.mk.injEq] at h
    obtain ⟨rfl, rfl⟩ := h
    simp only [steps, Option.some.injEq] at hs
    exact absurd (by rw [hs]) (hp v)
  | cons c cs ih =>
    simp only [run, Option.bind_eq_some_iff, Option.map_eq_some_iff] at h
    obtain ⟨⟨m1, ts1⟩, h1, ⟨m2, ts2⟩, h2, he⟩ := h
    simp only [Prod.mk.injEq] at he
    obtain ⟨rfl, rfl⟩ := he
    rw [steps_append, Option.bind_eq_some_iff] at hs
    obtain ⟨p1, h3, h4⟩ := hs
    have hf1 := (steps_seen hf h3).2
    rw [List.cons_append, firstFrom]
    simp only [h1, h3]
    obtain ⟨st, ex⟩ := p1
    cases ex with
    | done x =>
      have : st = [] := hf1
      subst this
      have := steps_done x h4
      subst this
      simp only [steps, Option.some.injEq, Prod.mk.injEq, Expect.done.injEq, true_and] at h4
      simp [h4]
    | value => exact ih h2 h4 hf1 (by simp)
    | valueOrClose => exact ih h2 h4 hf1 (by simp)
    | keyOrClose => exact ih h2 h4 hf1 (by simp)
    | key => exact ih h2 h4 hf1 (by simp)
    | colon => exact ih h2 h4 hf1 (by simp)
    | commaOrClose => exact ih h2 h4 hf1 (by simp)

/-- **C83 (the reader of a message).** The decoder reads from the front of a text the object that a JSON text there denotes,
whatever stands behind it; and what it reads is always denoted by the front of the text. -/
theorem C83_json (t : Str) (ms : List (Str × Json)) :
    first t = some (.obj ms) ↔ ∃ a b, t = a ++ b ∧ JsonText (.obj ms) a := by
  constructor
  · intro h; simpa using first_sound lexed_start rfl h
  · rintro ⟨a, b, rfl, h1, h2⟩
    rcases spells_run h1 with ⟨hr, _⟩ | ⟨ts', w, he, _⟩
    · exact firstFrom_run hr ((steps_iff _ _).mpr ⟨rfl, h2⟩) trivial (by simp)
    · exfalso
      simp only [toks] at he
      rw [← List.cons_append] at he
      have := (List.append_inj' he rfl).2
      simp at this

/-- White space, escapes, an exponent, nesting: one text, and what it denotes. -/
example : whole "{ \"a\\u0041\" :[-1.5e+3,null , {}] }".toList = some (.obj [("aA".toList, .arr [.lit "-1.5e+3".toList, .lit "null".toList, .obj []])]) := by
  rfl

end Verif.WrapMsg
