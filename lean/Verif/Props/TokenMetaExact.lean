import Verif.Props.TokenMeta
/-
C96: exactly which metadata are valid and which have the right scale.
-/
namespace Verif.TokenMeta
open Verif Verif.Text

/-- A micro or milli denom: without a slash, beginning with u or m. -/
def Prefixed (d : Str) : Prop := '/' ∉ d ∧ (d.head? = some 'u' ∨ d.head? = some 'm')

/-- **C96 (scale, exactly when).** One displayed unit is 10^decimals base units exactly if the token has no decimals and its denom is no
micro or milli denom. -/
theorem C96_scale_iff (c : Contract) (d : Str) (m : Meta) (dec : UInt8) (h : getMetadata c d = some m) (hd : c.decimals = some dec) :
    Scale m dec.toNat ↔ dec = 0 ∧ ¬ Prefixed d := by
  by_cases hp : Prefixed d
  · by_cases h0 : dec = 0
    · obtain ⟨_, hu, hm⟩ := C96_scale_partial c d m dec h hd h0 dec.toNat
      subst h0
      rcases hp.2 with hh | hh
      · rw [hu hp.1 hh]; simp [hp]
      · rw [hm hp.1 hh]; simp [hp]
    · have hz : Scale m dec.toNat ↔ dec.toNat = 0 := by
        obtain ⟨n, s, dec', h1, h2, h3, e1, e2, e3, h4⟩ := form c d m h
        rw [hd] at h3
        cases h3
        rcases h4 with ⟨u, hu', _⟩ | ⟨_, h4, h5⟩
        · exact absurd (displayUnit_spec d dec u hu').1 h0
        · unfold Scale; rw [h4, h5]; simp
      rw [hz]
      refine ⟨fun e => absurd (UInt8.toNat_inj.1 (e.trans rfl)) h0, fun e => absurd e.1 h0⟩
  · have hu : '/' ∈ d ∨ (d.head? ≠ some 'u' ∧ d.head? ≠ some 'm') := by
      by_cases hs : '/' ∈ d
      · exact .inl hs
      · exact .inr ⟨fun e => hp ⟨hs, .inl e⟩, fun e => hp ⟨hs, .inr e⟩⟩
    rw [scale_plain c d m dec h hd hu]
    refine ⟨fun e => ⟨UInt8.toNat_inj.1 (e.trans rfl), hp⟩, fun e => by rw [e.1]; rfl⟩

/-- **C96 (valid metadata, exactly when).** The metadata of a valid denom pass the chain's own validation exactly if name and symbol are
not blank and, should the denom be shown without its first letter, the rest is a denom. -/
theorem C96_valid_iff (c : Contract) (d : Str) (m : Meta) (h : getMetadata c d = some m) (hd : ValidDenom d) :
    Valid m ↔ NotBlank m.name ∧ NotBlank m.symbol ∧ (c.decimals = some 0 → Prefixed d → ValidDenom (d.drop 1)) := by
  constructor
  · intro hv
    refine ⟨hv.name, hv.symbol, fun h0 hp => ?_⟩
    obtain ⟨n, s, dec, h1, h2, h3, e1, e2, e3, h4⟩ := form c d m h
    rw [h0] at h3
    cases h3
    rcases h4 with ⟨u, hu, h4, h5⟩ | ⟨hu, _⟩
    · obtain ⟨_, _, g⟩ := displayUnit_spec d 0 u hu
      have := hv.display
      rw [h4] at this
      rcases g with ⟨r, g1, g2⟩ | ⟨r, g1, g2⟩ <;> rw [g2] at this <;> rw [g1] <;> exact this
    · exfalso
      unfold displayUnit at hu
      rw [if_pos rfl] at hu
      rcases hp.2 with hh | hh
      · rw [if_pos (by simp [hp.1, hh])] at hu; cases hu
      · rw [if_neg (by simp [hh]), if_pos (by simp [hp.1, hh])] at hu; cases hu
  · rintro ⟨hn, hs, hr⟩
    refine C96_valid_partial c d m h hd hn hs (fun rest e h0 hsl => ?_)
    have := hr h0 ⟨hsl, by rcases e with e | e <;> rw [e] <;> simp⟩
    rcases e with e | e <;> rw [e] at this <;> exact this

/-- `uinit` without decimals has metadata of the wrong scale, `init` of the right one. -/
example : Prefixed uinit ∧ ¬ Prefixed "init".toList ∧ (getMetadata (made uinit) uinit).isSome = true := by
  refine ⟨⟨by decide, .inl (by decide)⟩, fun h => ?_, by decide +kernel⟩
  rcases h.2 with e | e <;> revert e <;> decide

end Verif.TokenMeta
