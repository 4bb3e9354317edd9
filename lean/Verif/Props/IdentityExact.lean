import Verif.Props.Identity
/-!
C30: exactly which addresses can come to share an EVM identity, and who is safe from that.
-/
namespace Verif.Props.Identity
open Verif Verif.Identity

/-- The EVM address of whoever has signed is the last 20 bytes of the Cosmos address (padded if shorter). -/
theorem signed_addr (m0 m : Accts) (l : List (Bytes × Addr)) (h : Reach m0 m l) (A : Bytes) (a : Addr)
    (hA : (A, a) ∈ l) : a = bytesToAddress A := by
  by_cases hl : A.length = 20
  · have h1 := C30_stable m0 m l h A a hA false
    simp only [convert, if_pos hl, Option.some.injEq, Prod.mk.injEq] at h1
    exact h1.1.symm
  · exact (signed_inv m0 m l h A a hA hl).1

/-- **C30 (exact).** In every history, two different addresses that have both signed have the same EVM address exactly
if one of them is 20 bytes long, the other is not, and the first one is the last 20 bytes of the other (`fitBytes`:
the last 20 bytes, with zeros in front of a shorter address). -/
theorem C30_exact (m0 m : Accts) (l : List (Bytes × Addr)) (h : Reach m0 m l) (A B : Bytes) (a b : Addr)
    (hA : (A, a) ∈ l) (hB : (B, b) ∈ l) (hne : A ≠ B) :
    a = b ↔ (A.length = 20 ∧ B.length ≠ 20 ∧ A = fitBytes 20 B) ∨ (B.length = 20 ∧ A.length ≠ 20 ∧ B = fitBytes 20 A) := by
  have ea := signed_addr m0 m l h A a hA
  have eb := signed_addr m0 m l h B b hB
  constructor
  · intro e
    have eq : fitBytes 20 A = fitBytes 20 B := by
      have : bytesToAddress A = bytesToAddress B := by rw [← ea, ← eb, e]
      exact congrArg Addr.bytes this
    by_cases lA : A.length = 20
    · by_cases lB : B.length = 20
      · rw [fitBytes_eq 20 A lA, fitBytes_eq 20 B lB] at eq
        exact absurd eq hne
      · exact .inl ⟨lA, lB, by rw [← eq, fitBytes_eq 20 A lA]⟩
    · by_cases lB : B.length = 20
      · exact .inr ⟨lB, lA, by rw [eq, fitBytes_eq 20 B lB]⟩
      · exact absurd e (C30_partial m0 m l h A B a b hA hB lA lB hne)
  · have key : ∀ X Y : Bytes, X.length = 20 → X = fitBytes 20 Y → bytesToAddress X = bytesToAddress Y := by
      intro X Y lX e
      show Addr.mk (fitBytes 20 X) _ = Addr.mk (fitBytes 20 Y) _
      have : fitBytes 20 X = fitBytes 20 Y := by rw [fitBytes_eq 20 X lX]; exact e
      simp only [this]
    rintro (⟨lA, _, e⟩ | ⟨lB, _, e⟩)
    · rw [ea, eb, key A B lA e]
    · rw [ea, eb, key B A lB e]

/-- What can happen to accounts on a chain where public keys are never taken away again: anybody signs or is named
(`convert`), and everything else of `Other` except that a key vanishes. -/
inductive Later : Accts → Accts → Prop where
  | refl (m : Accts) : Later m m
  | named (m m1 m2 : Accts) (addr : Bytes) (a : Addr) (sgn : Bool) :
      Later m m1 → convert m1 addr sgn = some (a, m2) → Later m m2
  | other (m m1 m2 : Accts) : Later m m1 → Other m1 m2 →
      (∀ a n, m1 a = some (.plain true n) → m2 a = some .contract ∨ ∃ n', m2 a = some (.plain true n')) → Later m m2

/-- **C30 (who is safe).** Once an account has a public key — its owner has sent a transaction — then whatever happens
later, no longer or shorter address is ever given its EVM address: not as signer, not as recipient, not in a query. -/
theorem C30_keyed (m m' : Accts) (h : Later m m') (a : Addr) (n : Nat) (hm : m a = some (.plain true n)) (B : Bytes)
    (lB : B.length ≠ 20) (sgn : Bool) (x : Addr × Accts) (hx : convert m' B sgn = some x) : x.1 ≠ a := by
  have inv : m' a = some .contract ∨ ∃ n', m' a = some (.plain true n') := by
    clear hx
    induction h with
    | refl => exact .inr ⟨n, hm⟩
    | named m1 m2 addr b s _ hc ih =>
      by_cases hb : m2 a = m1 a
      · rw [hb]; exact ih
      · obtain ⟨_, _, _, h2, _⟩ := C30_frame m1 m2 addr b a s hc hb
        rcases ih with e | ⟨n', e⟩ <;> rw [e] at h2 <;> simp at h2
    | other m1 m2 _ ho hk ih =>
      rcases ih with e | ⟨n', e⟩
      · left
        cases ho with
        | create b y hb _ =>
          have : a ≠ b := by intro e'; subst e'; rw [e] at hb; cases hb
          simp [put, this, e]
        | plain b pk pk' k k' hb =>
          have : a ≠ b := by intro e'; subst e'; rw [e] at hb; cases hb
          simp [put, this, e]
        | bump b o k k' hb =>
          have : a ≠ b := by intro e'; subst e'; rw [e] at hb; cases hb
          simp [put, this, e]
        | deploy b pk k hb =>
          have : a ≠ b := by intro e'; subst e'; rw [e] at hb; cases hb
          simp [put, this, e]
      · exact hk a n' e
  intro e
  have hs : x.1 = bytesToAddress B := by
    by_cases hsg : sgn = true
    · subst hsg; obtain ⟨y, w⟩ := x; exact (convert_signer lB hx).1
    · simp only [Bool.not_eq_true] at hsg; subst hsg
      have := hx
      simp only [convert, if_neg lB, Bool.false_eq_true, if_false] at this
      split at this
      · cases this; rfl
      · split at this
        · cases this; rfl
        · split at this
          · split at this
            · cases this; rfl
            · cases this
          · cases this
  have hu : ∃ y, m' (bytesToAddress B) = some y ∧ Used B y := by
    rw [← hs, e]
    rcases inv with i | ⟨n', i⟩
    · exact ⟨_, i, trivial⟩
    · exact ⟨_, i, .inl rfl⟩
  obtain ⟨y, y1, y2⟩ := hu
  rw [C30_used m' B sgn y lB y1 y2] at hx
  cases hx

/-- A later history with a transfer to, and a message by, a longer address. -/
example : ∃ m', Later (put (fun _ => none) (bytesToAddress short7) (.plain true 3)) m' ∧ convert m' longA true = none := by
  refine ⟨_, .refl _, ?_⟩
  decide +kernel

end Verif.Props.Identity
