import Verif.Model.Identity
/-
C30: Cosmos addresses and their EVM identities.
-/
namespace Verif.Props.Identity
open Verif Verif.Identity

/-- Histories: `signed` are the (Cosmos address, EVM address) pairs of successful conversions of signers so far. -/
inductive Reach (m0 : Accts) : Accts → List (Bytes × Addr) → Prop where
  | start : Reach m0 m0 []
  | signer (m m' : Accts) (l : List (Bytes × Addr)) (addr : Bytes) (a : Addr) :
      Reach m0 m l → convert m addr true = some (a, m') → Reach m0 m' ((addr, a) :: l)
  /-- conversion of a non-signer (recipient, queried address) -/
  | reader (m m' : Accts) (l : List (Bytes × Addr)) (addr : Bytes) (a : Addr) :
      Reach m0 m l → convert m addr false = some (a, m') → Reach m0 m' l
  | other (m m' : Accts) (l : List (Bytes × Addr)) : Reach m0 m l → Other m m' → Reach m0 m' l

/-- A successful conversion of a long signer leaves its shorthand account in place. -/
theorem convert_signer {m m' : Accts} {addr : Bytes} {a : Addr} (hl : addr.length ≠ 20)
    (h : convert m addr true = some (a, m')) :
    a = bytesToAddress addr ∧ (∃ n, m' a = some (.shorthand addr n)) ∧ (∀ b, b ≠ a → m' b = m b) ∧
    (∀ o n, m a = some (.shorthand o n) → o = addr) := by
  simp only [convert, if_neg hl, if_true] at h
  split at h
  · rename_i hn
    simp only [Option.some.injEq, Prod.mk.injEq] at h
    obtain ⟨rfl, rfl⟩ := h
    refine ⟨rfl, ⟨0, by simp [put]⟩, fun b hb => by simp [put, hb], ?_⟩
    intro o n ho; rw [hn] at ho; cases ho
  · rename_i acc hacc
    split at h
    · rename_i he
      simp only [Option.some.injEq, Prod.mk.injEq] at h
      obtain ⟨rfl, rfl⟩ := h
      refine ⟨rfl, ⟨0, by simp [put]⟩, fun b hb => by simp [put, hb], ?_⟩
      intro o n ho; rw [hacc] at ho; cases ho; cases he
    · split at h
      · rename_i orig n _
        split at h
        · rename_i e
          simp only [Option.some.injEq, Prod.mk.injEq] at h
          obtain ⟨rfl, rfl⟩ := h
          subst e
          refine ⟨rfl, ⟨n, hacc⟩, fun _ _ => rfl, ?_⟩
          intro o n' ho; rw [hacc] at ho; cases ho; rfl
        · cases h
      · cases h

theorem convert_reader {m m' : Accts} {addr : Bytes} {a : Addr} (h : convert m addr false = some (a, m')) :
    m' = m := by
  unfold convert at h
  split at h
  · cases h; rfl
  · simp only [Bool.false_eq_true, if_false] at h
    split at h
    · cases h; rfl
    · split at h
      · cases h; rfl
      · split at h
        · split at h
          · cases h; rfl
          · cases h
        · cases h

/-- Once a long address has acted as signer, its shorthand account stays its own. -/
theorem signed_inv (m0 m : Accts) (l : List (Bytes × Addr)) (h : Reach m0 m l) :
    ∀ addr a, (addr, a) ∈ l → addr.length ≠ 20 → a = bytesToAddress addr ∧ ∃ n, m a = some (.shorthand addr n) := by
  induction h with
  | start => intro addr a h; cases h
  | signer m m' l addr0 a0 _ hc ih =>
    intro addr a hmem hl
    by_cases hl0 : addr0.length = 20
    · simp only [convert, if_pos hl0, Option.some.injEq, Prod.mk.injEq] at hc
      obtain ⟨h1, rfl⟩ := hc
      rcases List.mem_cons.mp hmem with h | h
      · cases h; exact absurd hl0 hl
      · exact ih addr a h hl
    · obtain ⟨e1, ⟨n0, e2⟩, e3, e4⟩ := convert_signer hl0 hc
      rcases List.mem_cons.mp hmem with h | h
      · cases h; exact ⟨e1, n0, e2⟩
      · obtain ⟨g1, n, g2⟩ := ih addr a h hl
        refine ⟨g1, ?_⟩
        by_cases hab : a = a0
        · subst hab
          have := e4 addr n g2
          subst this; exact ⟨n0, e2⟩
        · exact ⟨n, by rw [e3 a hab]; exact g2⟩
  | reader m m' l addr0 a0 _ hc ih => rw [convert_reader hc]; exact ih
  | other m m' l _ ho ih =>
    intro addr a hmem hl
    obtain ⟨g1, n, g2⟩ := ih addr a hmem hl
    refine ⟨g1, ?_⟩
    cases ho with
    | create b x hb _ =>
      have : a ≠ b := by intro e; subst e; rw [g2] at hb; cases hb
      exact ⟨n, by simp [put, this, g2]⟩
    | plain b pk pk' k k' hb =>
      have : a ≠ b := by intro e; subst e; rw [g2] at hb; cases hb
      exact ⟨n, by simp [put, this, g2]⟩
    | bump b o k k' hb =>
      by_cases e : a = b
      · subst e; rw [g2] at hb; cases hb; exact ⟨k', by simp [put]⟩
      · exact ⟨n, by simp [put, e, g2]⟩
    | deploy b pk k hb =>
      have : a ≠ b := by intro e; subst e; rw [g2] at hb; cases hb
      exact ⟨n, by simp [put, this, g2]⟩

/-- **C30 (partial: among addresses that are not 20 bytes long).** In every history two different such addresses that
both acted as signers have different EVM addresses. -/
theorem C30_partial (m0 m : Accts) (l : List (Bytes × Addr)) (h : Reach m0 m l) (A B : Bytes) (a b : Addr)
    (hA : (A, a) ∈ l) (hB : (B, b) ∈ l) (lA : A.length ≠ 20) (lB : B.length ≠ 20) (hne : A ≠ B) : a ≠ b := by
  intro e
  subst e
  obtain ⟨_, n, g⟩ := signed_inv m0 m l h A a hA lA
  obtain ⟨_, n', g'⟩ := signed_inv m0 m l h B a hB lB
  rw [g] at g'; cases g'; exact hne rfl

/-- **C30 (20-byte addresses).** They are always their own EVM address, hence pairwise different. -/
theorem C30_short (m : Accts) (A : Bytes) (sgn : Bool) (hA : A.length = 20) :
    ∃ a, convert m A sgn = some (a, m) ∧ a.bytes = A := by
  refine ⟨bytesToAddress A, by simp [convert, hA], ?_⟩
  simp [bytesToAddress, fitBytes_eq 20 A hA]

/-- **C30 (stability).** Once an address has acted as signer, every later conversion of it, for whatever purpose and
after whatever happened, succeeds with the same EVM address and changes nothing. -/
theorem C30_stable (m0 m : Accts) (l : List (Bytes × Addr)) (h : Reach m0 m l) (A : Bytes) (a : Addr)
    (hA : (A, a) ∈ l) (sgn : Bool) : convert m A sgn = some (a, m) := by
  by_cases hl : A.length = 20
  · have : a = bytesToAddress A := by
      clear sgn
      induction h with
      | start => cases hA
      | signer m m' l addr0 a0 _ hc ih =>
        rcases List.mem_cons.mp hA with h | h
        · cases h
          simp only [convert, if_pos hl, Option.some.injEq, Prod.mk.injEq] at hc
          exact hc.1.symm
        · exact ih h
      | reader m m' l addr0 a0 _ hc ih => exact ih hA
      | other m m' l _ ho ih => exact ih hA
    subst this
    simp [convert, hl]
  · obtain ⟨g1, n, g2⟩ := signed_inv m0 m l h A a hA hl
    subst g1
    simp only [convert, if_neg hl, g2, isEmpty]
    simp

/-- **C30 (conflicts are rejected).** If a long address owns an EVM address, every other long address with that
shorthand is refused, as signer and as recipient. -/
theorem C30_rejects (m0 m : Accts) (l : List (Bytes × Addr)) (h : Reach m0 m l) (A B : Bytes) (a : Addr)
    (hA : (A, a) ∈ l) (lA : A.length ≠ 20) (lB : B.length ≠ 20) (hne : A ≠ B) (hs : bytesToAddress B = a)
    (sgn : Bool) : convert m B sgn = none := by
  obtain ⟨_, n, g2⟩ := signed_inv m0 m l h A a hA lA
  simp only [convert, if_neg lB, hs, g2, isEmpty]
  simp [hne]

/-- An account somebody or something uses: a module's, a contract's, one of another long address, or one with a public
key or a sequence. -/
def Used (A : Bytes) : Acct → Prop
  | .plain pk n => pk = true ∨ n ≠ 0
  | .module => True
  | .contract => True
  | .shorthand o _ => o ≠ A

/-- **C30 (accounts in use are not taken over).** A long address whose last 20 bytes are those of an account in use is
refused, as signer and as recipient. -/
theorem C30_used (m : Accts) (A : Bytes) (sgn : Bool) (x : Acct) (lA : A.length ≠ 20)
    (hm : m (bytesToAddress A) = some x) (hu : Used A x) : convert m A sgn = none := by
  simp only [convert, if_neg lA, hm]
  cases x with
  | plain pk n =>
    have : isEmpty (.plain pk n) = false := by
      rcases hu with h | h <;> simp [isEmpty, h]
    simp [this]
  | module => simp [isEmpty]
  | contract => simp [isEmpty]
  | shorthand o n => simp [isEmpty, show o ≠ A from hu]

/-- **C30 (frame).** A conversion changes at most the account at the address it answers, and that only if it did not
exist or was a plain one without key and sequence. -/
theorem C30_frame (m m' : Accts) (A : Bytes) (a b : Addr) (sgn : Bool) (h : convert m A sgn = some (a, m'))
    (hb : m' b ≠ m b) : b = a ∧ sgn = true ∧ A.length ≠ 20 ∧ (m b = none ∨ m b = some (.plain false 0)) ∧
    m' b = some (.shorthand A 0) := by
  by_cases hl : A.length = 20
  · simp only [convert, if_pos hl, Option.some.injEq, Prod.mk.injEq] at h
    rw [h.2] at hb; exact absurd rfl hb
  cases sgn with
  | false => rw [convert_reader h] at hb; exact absurd rfl hb
  | true =>
    simp only [convert, if_neg hl, if_true] at h
    cases hm : m (bytesToAddress A) with
    | none =>
      simp only [hm, Option.some.injEq, Prod.mk.injEq] at h
      obtain ⟨rfl, rfl⟩ := h
      by_cases e : b = bytesToAddress A
      · subst e; exact ⟨rfl, rfl, hl, .inl hm, by simp [put]⟩
      · exact absurd (by simp [put, e]) hb
    | some acc =>
      simp only [hm] at h
      by_cases he : isEmpty acc = true
      · rw [if_pos he] at h
        simp only [Option.some.injEq, Prod.mk.injEq] at h
        obtain ⟨rfl, rfl⟩ := h
        by_cases e : b = bytesToAddress A
        · subst e
          refine ⟨rfl, rfl, hl, .inr ?_, by simp [put]⟩
          cases acc with
          | plain pk n =>
            simp only [isEmpty, Bool.and_eq_true, Bool.not_eq_true', beq_iff_eq] at he
            rw [hm, he.1, he.2]
          | _ => simp [isEmpty] at he
        · exact absurd (by simp [put, e]) hb
      · rw [if_neg he] at h
        split at h
        · split at h
          · simp only [Option.some.injEq, Prod.mk.injEq] at h
            rw [h.2] at hb; exact absurd rfl hb
          · cases h
        · cases h

/-- Two different 32-byte addresses with the same last 20 bytes, and the 20-byte address they end with. -/
def longA : Bytes := List.replicate 12 1 ++ List.replicate 20 7
def longB : Bytes := List.replicate 12 2 ++ List.replicate 20 7
def longC : Bytes := List.replicate 32 9
def short7 : Bytes := List.replicate 20 7

/-- Hypotheses are met: two long signers, and a conflicting third one. -/
example : ∃ m l, Reach (fun _ => none) m l ∧ (longA, bytesToAddress longA) ∈ l ∧
    (longC, bytesToAddress longC) ∈ l ∧ bytesToAddress longB = bytesToAddress longA ∧ longA ≠ longB := by
  have hl : longC.length ≠ 20 := by decide
  have h : (put (fun _ => none) (bytesToAddress longA) (.shorthand longA 0)) (bytesToAddress longC) = none := by
    decide +kernel
  have hc : convert (put (fun _ => none) (bytesToAddress longA) (.shorthand longA 0)) longC true =
      some (bytesToAddress longC, put (put (fun _ => none) (bytesToAddress longA) (.shorthand longA 0))
        (bytesToAddress longC) (.shorthand longC 0)) := by
    simp only [convert, if_neg hl, h, if_true]
  exact ⟨_, _, .signer _ _ _ longC (bytesToAddress longC)
    (.signer _ _ _ longA (bytesToAddress longA) .start rfl) hc, by simp, by simp, by decide +kernel, by decide⟩

/-- Hypotheses of `C30_used` and of `C30_frame` are met. -/
example : convert (put (fun _ => none) (bytesToAddress longA) (.plain true 0)) longA true = none :=
  C30_used _ _ _ (.plain true 0) (by decide) (by simp [put]) (.inl rfl)
example : ∃ m', convert (fun _ => none) longA true = some (bytesToAddress longA, m') ∧
    m' (bytesToAddress longA) ≠ none := ⟨_, rfl, by simp [put]⟩

/-- **C30 fails** between a 20-byte address and a longer one: a 20-byte address whose account has no public key and
sequence zero (an interchain account, an account acting through an authorization) acts as signer and afterwards a
longer address with these last 20 bytes is accepted as signer: both have the same EVM address, and the account is
replaced. -/
theorem C30_violated : ¬ ∀ (m0 m : Accts) (l : List (Bytes × Addr)), Reach m0 m l → ∀ A B a b, (A, a) ∈ l →
    (B, b) ∈ l → A ≠ B → a ≠ b := by
  intro h
  let m0 : Accts := fun x => if x = bytesToAddress short7 then some (.plain false 0) else none
  have e : bytesToAddress longA = bytesToAddress short7 := by decide +kernel
  have h1 : convert m0 short7 true = some (bytesToAddress short7, m0) := by simp [convert, short7]
  have h2 : convert m0 longA true =
      some (bytesToAddress longA, put m0 (bytesToAddress longA) (.shorthand longA 0)) := by
    have hl : longA.length ≠ 20 := by decide
    have hm : m0 (bytesToAddress longA) = some (.plain false 0) := by simp [m0, e]
    simp only [convert, if_neg hl, hm, if_true]
    rfl
  have hr : Reach m0 _ _ := .signer _ _ _ longA _ (.signer _ _ _ short7 _ .start h1) h2
  exact h _ _ _ hr longA short7 _ _ (List.mem_cons_self ..) (List.mem_cons_of_mem _ (List.mem_cons_self ..))
    (by decide) e

end Verif.Props.Identity
