import Verif.Model.TokenMeta
/-
C96: the metadata of a token tells a wallet how to show amounts.
-/
namespace Verif.TokenMeta
open Verif Verif.Text

/-! ### Specification -/

def isLetter (c : Char) : Bool := ('a' ≤ c && c ≤ 'z') || ('A' ≤ c && c ≤ 'Z')
def isDigit (c : Char) : Bool := '0' ≤ c && c ≤ '9'

/-- cosmos-sdk `ValidateDenom`: a letter, then 2 to 127 letters, digits or `/ : . _ -`. -/
def ValidDenom (d : Str) : Prop :=
  ∃ c rest, d = c :: rest ∧ isLetter c = true ∧ 2 ≤ rest.length ∧ rest.length ≤ 127 ∧
    ∀ x ∈ rest, isLetter x = true ∨ isDigit x = true ∨ x ∈ ['/', ':', '.', '_', '-']

/-- Not empty and not only spaces. -/
def NotBlank (s : Str) : Prop := ∃ c ∈ s, c ≠ ' '

/-- cosmos-sdk `Metadata.Validate`: what governance may set as metadata. -/
structure Valid (m : Meta) : Prop where
  name : NotBlank m.name
  symbol : NotBlank m.symbol
  base : ValidDenom m.base
  display : ValidDenom m.display
  first : m.units.head? = some ⟨m.base, 0⟩
  units : ∀ u ∈ m.units, ValidDenom u.denom
  ascending : m.units.Pairwise fun x y => x.exponent < y.exponent
  distinct : (m.units.map Unit.denom).Nodup
  shown : ∃ u ∈ m.units, u.denom = m.display

/-- One display unit is `10 ^ e` base units. -/
def Scale (m : Meta) (e : Nat) : Prop := ⟨m.display, e⟩ ∈ m.units

/-! ### Theorems -/

theorem form (c : Contract) (d : Str) (m : Meta) (h : getMetadata c d = some m) :
    ∃ n s dec, c.name = some n ∧ c.symbol = some s ∧ c.decimals = some dec ∧ m.name = n ∧ m.symbol = s ∧ m.base = d ∧
      ((∃ u, displayUnit d dec = some u ∧ m.display = u.denom ∧ m.units = [⟨d, 0⟩, u]) ∨
       (displayUnit d dec = none ∧ m.display = d ∧ m.units = [⟨d, 0⟩])) := by
  unfold getMetadata at h
  obtain ⟨n, h1, h⟩ := Option.bind_eq_some_iff.mp h
  obtain ⟨s, h2, h⟩ := Option.bind_eq_some_iff.mp h
  obtain ⟨dec, h3, h⟩ := Option.bind_eq_some_iff.mp h
  refine ⟨n, s, dec, h1, h2, h3, ?_⟩
  cases hu : displayUnit d dec with
  | some u =>
    rw [hu] at h
    cases h
    exact ⟨rfl, rfl, rfl, Or.inl ⟨u, rfl, rfl, rfl⟩⟩
  | none =>
    rw [hu] at h
    cases h
    exact ⟨rfl, rfl, rfl, Or.inr ⟨rfl, rfl, rfl⟩⟩

theorem displayUnit_spec (d : Str) (dec : UInt8) (u : Unit) (h : displayUnit d dec = some u) :
    dec = 0 ∧ '/' ∉ d ∧ ((∃ rest, d = 'u' :: rest ∧ u = ⟨rest, 6⟩) ∨ (∃ rest, d = 'm' :: rest ∧ u = ⟨rest, 3⟩)) := by
  unfold displayUnit at h
  by_cases h0 : dec = 0
  · rw [if_pos h0] at h
    refine ⟨h0, ?_⟩
    by_cases h1 : (!d.contains '/' && decide (d.head? = some 'u')) = true
    · rw [if_pos h1] at h
      simp only [Bool.and_eq_true, Bool.not_eq_true', decide_eq_true_eq] at h1
      refine ⟨by simpa using h1.1, Or.inl ?_⟩
      cases d with
      | nil => cases h1.2
      | cons c rest =>
        simp only [List.head?_cons, Option.some.injEq] at h1
        cases h
        exact ⟨rest, by rw [h1.2], rfl⟩
    · rw [if_neg h1] at h
      by_cases h2 : (!d.contains '/' && decide (d.head? = some 'm')) = true
      · rw [if_pos h2] at h
        simp only [Bool.and_eq_true, Bool.not_eq_true', decide_eq_true_eq] at h2
        refine ⟨by simpa using h2.1, Or.inr ?_⟩
        cases d with
        | nil => cases h2.2
        | cons c rest =>
          simp only [List.head?_cons, Option.some.injEq] at h2
          cases h
          exact ⟨rest, by rw [h2.2], rfl⟩
      · rw [if_neg h2] at h
        cases h
  · rw [if_neg h0] at h
    cases h

/-- **C96 (what is asked is what is described).** The metadata describe the denom asked about, carry the contract's name
and symbol, and count amounts in the denom itself: its unit comes first, with exponent 0. They exist exactly if the contract
answers. -/
theorem C96_base (c : Contract) (d : Str) :
    ((getMetadata c d).isSome ↔ c.name.isSome ∧ c.symbol.isSome ∧ c.decimals.isSome) ∧
    ∀ m, getMetadata c d = some m → m.base = d ∧ c.name = some m.name ∧ c.symbol = some m.symbol ∧
      m.units.head? = some ⟨d, 0⟩ := by
  constructor
  · unfold getMetadata
    cases c.name with
    | none => simp
    | some n =>
      cases c.symbol with
      | none => simp
      | some s =>
        cases c.decimals with
        | none => simp
        | some dec =>
          simp only [Option.bind_some, Option.isSome_some, and_self, iff_true]
          cases displayUnit d dec <;> rfl
  · intro m h
    obtain ⟨n, s, dec, h1, h2, h3, e1, e2, e3, h4⟩ := form c d m h
    refine ⟨e3, by rw [h1, e1], by rw [h2, e2], ?_⟩
    rcases h4 with ⟨u, _, _, h4⟩ | ⟨_, _, h4⟩ <;> rw [h4] <;> rfl

/-- **C96 (valid metadata, partial: what remains of the denom is a denom).** The metadata of a valid denom, with a name and
a symbol, pass the validation that metadata set by governance have to pass, unless the denom is shown under its name without
the first letter and that is no denom. -/
theorem C96_valid_partial (c : Contract) (d : Str) (m : Meta) (h : getMetadata c d = some m) (hd : ValidDenom d)
    (hn : NotBlank m.name) (hs : NotBlank m.symbol)
    (hr : ∀ rest, d = 'u' :: rest ∨ d = 'm' :: rest → c.decimals = some 0 → '/' ∉ d → ValidDenom rest) : Valid m := by
  obtain ⟨n, s, dec, h1, h2, h3, e1, e2, e3, h4⟩ := form c d m h
  rcases h4 with ⟨u, hu, h4, h5⟩ | ⟨hu, h4, h5⟩
  · obtain ⟨g1, g2, g3⟩ := displayUnit_spec d dec u hu
    have hv : ValidDenom u.denom := by
      rcases g3 with ⟨rest, g3, g4⟩ | ⟨rest, g3, g4⟩
      · rw [g4]; exact hr rest (Or.inl g3) (g1 ▸ h3) g2
      · rw [g4]; exact hr rest (Or.inr g3) (g1 ▸ h3) g2
    have hpos : 0 < u.exponent := by
      rcases g3 with ⟨rest, _, g4⟩ | ⟨rest, _, g4⟩ <;> rw [g4] <;> exact Nat.succ_pos _
    have hne : d ≠ u.denom := by
      intro e
      rcases g3 with ⟨rest, g3, g4⟩ | ⟨rest, g3, g4⟩
      · rw [g4] at e
        simp only at e
        have := congrArg List.length (g3.symm.trans e)
        simp at this
      · rw [g4] at e
        simp only at e
        have := congrArg List.length (g3.symm.trans e)
        simp at this
    refine ⟨hn, hs, e3 ▸ hd, h4 ▸ hv, by rw [h5, e3]; rfl, ?_, ?_, ?_, ⟨u, by rw [h5]; simp, h4.symm⟩⟩
    · rw [h5]
      intro x hx
      simp only [List.mem_cons, List.not_mem_nil, or_false] at hx
      rcases hx with rfl | rfl
      · exact hd
      · exact hv
    · rw [h5]; simpa using hpos
    · rw [h5]; simpa using hne
  · refine ⟨hn, hs, e3 ▸ hd, h4 ▸ hd, by rw [h5, e3]; rfl, ?_, ?_, ?_, ⟨⟨d, 0⟩, by rw [h5]; simp, h4.symm⟩⟩
    · rw [h5]; simpa using hd
    · rw [h5]; simp
    · rw [h5]; simp

def uinit : Str := "uinit".toList
/-- A contract as the chain makes it for a bank denom: named after it, without decimals (erc20.go:329-370). -/
def made (d : Str) : Contract := ⟨some d, some d, some 0⟩

example : getMetadata (made uinit) uinit =
    some ⟨uinit, uinit, uinit, "init".toList, [⟨uinit, 0⟩, ⟨"init".toList, 6⟩]⟩ := by decide +kernel

example : Valid ⟨uinit, uinit, uinit, "init".toList, [⟨uinit, 0⟩, ⟨"init".toList, 6⟩]⟩ := by
  have hi : ValidDenom ['i', 'n', 'i', 't'] := ⟨'i', ['n', 'i', 't'], rfl, by decide, by decide, by decide, by decide⟩
  refine C96_valid_partial (made uinit) uinit _ (by decide +kernel)
    ⟨'u', ['i', 'n', 'i', 't'], rfl, by decide, by decide, by decide, by decide⟩ ⟨'u', by decide, by decide⟩
    ⟨'u', by decide, by decide⟩ ?_
  intro rest h _ _
  rcases h with h | h
  · have e : uinit = 'u' :: ['i', 'n', 'i', 't'] := rfl
    rw [e] at h
    cases h
    exact hi
  · have e : uinit = 'u' :: ['i', 'n', 'i', 't'] := rfl
    rw [e] at h
    cases h

/-- **C96 fails: invalid metadata.** For the valid denom `u1x` the chain serves metadata it would itself refuse: they say
that amounts are displayed in `1x`, which is no denom. -/
theorem C96_valid_violated : ¬ ∀ (d : Str) (m : Meta), ValidDenom d → getMetadata (made d) d = some m → Valid m := by
  intro h
  have hd : ValidDenom "u1x".toList := ⟨'u', ['1', 'x'], rfl, by decide, by decide, by decide, by decide⟩
  have := (h "u1x".toList ⟨"u1x".toList, "u1x".toList, "u1x".toList, ['1', 'x'], [⟨"u1x".toList, 0⟩, ⟨['1', 'x'], 6⟩]⟩ hd
    (by decide +kernel)).display
  obtain ⟨c, rest, e, hl, _⟩ := this
  simp only [List.cons.injEq] at e
  rw [← e.1] at hl
  revert hl
  decide

theorem scale_plain (c : Contract) (d : Str) (m : Meta) (dec : UInt8) (h : getMetadata c d = some m)
    (hd : c.decimals = some dec) (hu : '/' ∈ d ∨ (d.head? ≠ some 'u' ∧ d.head? ≠ some 'm')) (e : Nat) :
    Scale m e ↔ e = 0 := by
  obtain ⟨n, s, dec, h1, h2, h3, e1, e2, e3, h4⟩ := form c d m h
  clear hd
  rcases h4 with ⟨u, hu', _⟩ | ⟨_, h4, h5⟩
  · exfalso
    obtain ⟨_, g2, g3⟩ := displayUnit_spec d dec u hu'
    rcases hu with hu | hu
    · exact g2 hu
    · rcases g3 with ⟨rest, g3, _⟩ | ⟨rest, g3, _⟩
      · exact hu.1 (by rw [g3]; rfl)
      · exact hu.2 (by rw [g3]; rfl)
  · unfold Scale
    rw [h4, h5]
    simp

/-- **C96 (scale, partial: tokens without decimals).** One displayed unit is 10^decimals base units if the token has no
decimals and its denom is not a micro or milli denom; for those it is 10^6 and 10^3. -/
theorem C96_scale_partial (c : Contract) (d : Str) (m : Meta) (dec : UInt8) (h : getMetadata c d = some m)
    (hd : c.decimals = some dec) (h0 : dec = 0) (e : Nat) :
    (('/' ∈ d ∨ (d.head? ≠ some 'u' ∧ d.head? ≠ some 'm')) → (Scale m e ↔ e = dec.toNat)) ∧
    ('/' ∉ d → d.head? = some 'u' → (Scale m e ↔ e = 6)) ∧ ('/' ∉ d → d.head? = some 'm' → (Scale m e ↔ e = 3)) := by
  obtain ⟨n, s, dec', h1, h2, h3, e1, e2, e3, h4⟩ := form c d m h
  rw [hd] at h3
  cases h3
  subst h0
  have hunit : ∀ rest (k : Nat), d.length = rest.length + 1 → m.display = rest → m.units = [⟨d, 0⟩, ⟨rest, k⟩] →
      (Scale m e ↔ e = k) := by
    intro rest k hl g1 g2
    unfold Scale
    rw [g1, g2]
    simp only [List.mem_cons, Unit.mk.injEq, List.not_mem_nil, or_false]
    constructor
    · rintro (⟨rfl, _⟩ | ⟨_, g⟩)
      · omega
      · exact g
    · intro g; exact Or.inr ⟨trivial, g⟩
  refine ⟨fun hu => scale_plain c d m 0 h hd hu e, ?_, ?_⟩
  · intro hs hu
    rcases h4 with ⟨u, hu', h4, h5⟩ | ⟨hu', _⟩
    · obtain ⟨_, _, g⟩ := displayUnit_spec d 0 u hu'
      rcases g with ⟨rest, g1, g2⟩ | ⟨rest, g1, _⟩
      · exact hunit rest 6 (by rw [g1]; simp) (by rw [h4, g2]) (by rw [h5, g2])
      · rw [g1] at hu; cases hu
    · exfalso
      have e : (!d.contains '/' && decide (d.head? = some 'u')) = true := by simp [hs, hu]
      unfold displayUnit at hu'
      rw [if_pos rfl, if_pos e] at hu'
      cases hu'
  · intro hs hu
    rcases h4 with ⟨u, hu', h4, h5⟩ | ⟨hu', _⟩
    · obtain ⟨_, _, g⟩ := displayUnit_spec d 0 u hu'
      rcases g with ⟨rest, g1, _⟩ | ⟨rest, g1, g2⟩
      · rw [g1] at hu; cases hu
      · exact hunit rest 3 (by rw [g1]; simp) (by rw [h4, g2]) (by rw [h5, g2])
    · exfalso
      have e : (!d.contains '/' && decide (d.head? = some 'm')) = true := by simp [hs, hu]
      have e' : ¬ (!d.contains '/' && decide (d.head? = some 'u')) = true := by simp [hu]
      unfold displayUnit at hu'
      rw [if_pos rfl, if_neg e', if_pos e] at hu'
      cases hu'


example : getMetadata (made "foo".toList) "foo".toList =
    some ⟨"foo".toList, "foo".toList, "foo".toList, "foo".toList, [⟨"foo".toList, 0⟩]⟩ := by decide +kernel

/-- **C96 fails: decimals are ignored.** For every contract that says it has decimals, whatever its denom, the metadata say
that one displayed unit is one base unit, and no unit has the contract's exponent: a token with 18 decimals is displayed 10^18
times too large. -/
theorem C96_decimals_violated (c : Contract) (d : Str) (m : Meta) (dec : UInt8) (h : getMetadata c d = some m)
    (hd : c.decimals = some dec) (h0 : dec ≠ 0) :
    m.display = d ∧ (∀ e, Scale m e ↔ e = 0) ∧ ∀ u ∈ m.units, u.exponent ≠ dec.toNat := by
  obtain ⟨n, s, dec', h1, h2, h3, e1, e2, e3, h4⟩ := form c d m h
  rw [hd] at h3
  cases h3
  rcases h4 with ⟨u, hu, _⟩ | ⟨_, h4, h5⟩
  · exact absurd (displayUnit_spec d dec u hu).1 h0
  · refine ⟨h4, ?_, ?_⟩
    · intro e; unfold Scale; rw [h4, h5]; simp
    · intro u hu
      rw [h5, List.mem_singleton] at hu
      rw [hu]
      simp only
      intro e
      apply h0
      apply UInt8.toNat.inj
      rw [← e]
      rfl

example : getMetadata ⟨some "Wrapped".toList, some "W".toList, some 18⟩ "evm/ab".toList =
    some ⟨"Wrapped".toList, "W".toList, "evm/ab".toList, "evm/ab".toList, [⟨"evm/ab".toList, 0⟩]⟩ := by decide +kernel

/-- **C96 fails: one name for two units.** Amounts of `uinit` and of `minit`, two different tokens, are both displayed in
`init`: once it is a million base units, once a thousand. -/
theorem C96_display_violated : ¬ ∀ (d d' : Str) (m m' : Meta), getMetadata (made d) d = some m →
    getMetadata (made d') d' = some m' → m.display = m'.display → d = d' := by
  intro h
  have := h uinit "minit".toList
    ⟨uinit, uinit, uinit, "init".toList, [⟨uinit, 0⟩, ⟨"init".toList, 6⟩]⟩
    ⟨"minit".toList, "minit".toList, "minit".toList, "init".toList, [⟨"minit".toList, 0⟩, ⟨"init".toList, 3⟩]⟩
    (by decide +kernel) (by decide +kernel) rfl
  revert this
  decide +kernel

/-- **C96 (display names, partial: the same prefix).** Apart from that, display names are unambiguous: denoms with the same
display name that begin with the same letter are the same. -/
theorem C96_display_partial (c c' : Contract) (d d' : Str) (m m' : Meta) (h : getMetadata c d = some m)
    (h' : getMetadata c' d' = some m') (hl : d.length = d'.length) (hf : d.head? = d'.head?) (he : m.display = m'.display) :
    d = d' := by
  obtain ⟨n, s, dec, _, _, _, _, _, _, h4⟩ := form c d m h
  obtain ⟨n', s', dec', _, _, _, _, _, _, h4'⟩ := form c' d' m' h'
  rcases h4 with ⟨u, hu, h4, h5⟩ | ⟨_, h4, h5⟩ <;> rcases h4' with ⟨u', hu', h4', h5'⟩ | ⟨_, h4', h5'⟩
  · obtain ⟨_, _, g⟩ := displayUnit_spec d dec u hu
    obtain ⟨_, _, g'⟩ := displayUnit_spec d' dec' u' hu'
    have hdu : u.denom = u'.denom := by rw [← h4, ← h4', he]
    rcases g with ⟨r, g1, g2⟩ | ⟨r, g1, g2⟩ <;> rcases g' with ⟨r', g1', g2'⟩ | ⟨r', g1', g2'⟩ <;>
      rw [g1, g1'] at hf <;> rw [g2, g2'] at hdu <;> simp only [List.head?_cons, Option.some.injEq] at hf hdu
    · rw [g1, g1', hdu]
    · exact absurd hf (by decide)
    · exact absurd hf (by decide)
    · rw [g1, g1', hdu]
  · exfalso
    obtain ⟨_, _, g⟩ := displayUnit_spec d dec u hu
    have : u.denom = d' := by rw [← h4, ← h4', he]
    rcases g with ⟨r, g1, g2⟩ | ⟨r, g1, g2⟩ <;> rw [g2] at this <;> rw [g1, ← this] at hl <;> simp at hl
  · exfalso
    obtain ⟨_, _, g⟩ := displayUnit_spec d' dec' u' hu'
    have : u'.denom = d := by rw [← h4, ← h4', he]
    rcases g with ⟨r, g1, g2⟩ | ⟨r, g1, g2⟩ <;> rw [g2] at this <;> rw [g1, ← this] at hl <;> simp at hl
  · rw [← h4, ← h4', he]

end Verif.TokenMeta
