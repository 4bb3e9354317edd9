import Verif.Props.Messages
/-
C79, the access list of a creation message (x/evm/types/txutils.go:8-24): storage keys and addresses are written as text, and
read by go-ethereum's `HexToHash` and `HexToAddress`, which never refuse.
-/
namespace Verif.Messages
open Verif Verif.Text Verif.TxUtils Verif.Identity

/-- The number a run of hexadecimal digits (either case) denotes; `none` if a character is not one. -/
def hexNum : Nat → Str → Option Nat
  | acc, [] => some acc
  | acc, c :: cs => match hexVal c with
    | some d => hexNum (acc * 16 + d) cs
    | none => none

theorem foldl_from (b : Bytes) (a : Nat) : b.foldl (fun acc x => acc * 256 + x.toNat) a = a * 256 ^ b.length + fromBE b := by
  induction b generalizing a with
  | nil => simp [fromBE]
  | cons y ys ih =>
    simp only [List.foldl_cons, fromBE, List.length_cons]
    rw [ih, ih (0 * 256 + y.toNat), Nat.pow_succ, Nat.add_mul, Nat.zero_mul, Nat.zero_add]
    have : a * 256 * 256 ^ ys.length = a * (256 ^ ys.length * 256) := by rw [Nat.mul_assoc, Nat.mul_comm 256]
    omega

theorem fromBE_zeros (k : Nat) (b : Bytes) : fromBE (List.replicate k 0 ++ b) = fromBE b := by
  induction k with
  | zero => simp
  | succ k ih =>
    rw [List.replicate_succ, List.cons_append]
    simp only [fromBE, List.foldl_cons] at ih ⊢
    simpa using ih

theorem hexNum_dec : ∀ (s : Str) (acc n : Nat), s.length % 2 = 0 → hexNum acc s = some n →
    (hexDecPartial s).1.length = s.length / 2 ∧ n = acc * 256 ^ (s.length / 2) + fromBE (hexDecPartial s).1
  | [], acc, n, _, h => by
    simp only [hexNum, Option.some.injEq] at h
    simp [hexDecPartial, fromBE, h]
  | [c], acc, n, hl, _ => by simp at hl
  | a :: b :: r, acc, n, hl, h => by
    simp only [hexNum] at h
    cases hx : hexVal a with
    | none => simp [hx] at h
    | some x =>
      simp only [hx] at h
      cases hy : hexVal b with
      | none => simp [hy] at h
      | some y =>
        simp only [hy] at h
        have lx := hexVal_lt hx
        have ly := hexVal_lt hy
        obtain ⟨h1, h2⟩ := hexNum_dec r _ n (by simp at hl; omega) h
        have hb : (UInt8.ofNat (x * 16 + y)).toNat = x * 16 + y := by
          rw [UInt8.toNat_ofNat']; exact Nat.mod_eq_of_lt (by omega)
        have hlen : (a :: b :: r).length / 2 = r.length / 2 + 1 := by simp only [List.length_cons]; omega
        simp only [hexDecPartial, hx, hy]
        refine ⟨by rw [hlen, List.length_cons, h1], ?_⟩
        have hc : fromBE (UInt8.ofNat (x * 16 + y) :: (hexDecPartial r).1) =
            (x * 16 + y) * 256 ^ (r.length / 2) + fromBE (hexDecPartial r).1 := by
          show List.foldl _ _ _ = _
          rw [List.foldl_cons, foldl_from, h1, hb]; simp
        rw [hlen, h2, hc, Nat.pow_succ]
        generalize 256 ^ (r.length / 2) = P
        generalize fromBE (hexDecPartial r).1 = Q
        have e1 : ((acc * 16 + x) * 16 + y) = acc * 256 + (x * 16 + y) := by omega
        rw [e1, Nat.add_mul, Nat.mul_assoc, Nat.mul_comm 256 P]
        omega

theorem hexNum_fromHex (s : Str) (n : Nat) (h : hexNum 0 (strip0x s) = some n) :
    (fromHex s).length = ((strip0x s).length + 1) / 2 ∧ fromBE (fromHex s) = n := by
  unfold fromHex
  by_cases ho : (strip0x s).length % 2 = 1
  · simp only [ho, if_true]
    have h0 : hexNum 0 ('0' :: strip0x s) = some n := by
      have : hexVal '0' = some 0 := by decide
      simp only [hexNum, this]
      exact h
    obtain ⟨h1, h2⟩ := hexNum_dec _ 0 n (by simp only [List.length_cons]; omega) h0
    rw [h1]
    exact ⟨by simp, by rw [h2]; simp⟩
  · simp only [ho, if_false]
    obtain ⟨h1, h2⟩ := hexNum_dec _ 0 n (by omega) h
    rw [h1]
    exact ⟨by omega, by rw [h2]; simp⟩

theorem fit_value (k : Nat) (b : Bytes) (h : b.length ≤ k) : fromBE (fitBytes k b) = fromBE b := by
  simp only [fitBytes, Nat.sub_eq_zero_of_le h, List.drop_zero]
  exact fromBE_zeros _ _

/-- **C79 (access lists, numbers).** However a storage key is written as a number — with or without `0x`, in either case, with
or without leading zeros, odd or even number of digits, up to 64 — the creation runs with that storage key; and so for
addresses up to 40 digits. -/
theorem C79_access (s : Str) (n : Nat) (h : hexNum 0 (strip0x s) = some n) :
    ((strip0x s).length ≤ 64 → fromBE (hexToHash s).bytes = n) ∧
    ((strip0x s).length ≤ 40 → fromBE (hexToAddress s).bytes = n) := by
  obtain ⟨h1, h2⟩ := hexNum_fromHex s n h
  constructor
  · intro hl
    rw [← h2]
    exact fit_value 32 (fromHex s) (by omega)
  · intro hl
    rw [← h2]
    exact fit_value 20 (fromHex s) (by omega)

/-- … for the list as a whole: every tuple of the message becomes one tuple, in order, with as many keys. -/
theorem C79_access_shape (al : CosAccess) :
    (toEthAccess al).map (fun t => (t.1, t.2.length)) = al.map fun t => (hexToAddress t.1, t.2.length) := by
  simp [toEthAccess]

/-- A key written with seven digits, without `0x`, in mixed case. -/
example : fromBE (hexToHash "aBc0001".toList).bytes = 180092929 :=
  (C79_access _ _ (by decide)).1 (by decide)

/-- **C79, defect: a storage key that is not a number is not refused.** What stands before the first bad pair of digits is taken
as the key, so that a typing error warms a different slot: `0x01zz…` is slot 1; and of a key with too many digits the first
are dropped. -/
theorem C79_access_violated :
    (∀ r, hexToHash ("0x01zz".toList ++ r) = if r.length % 2 = 0 then Hash.ofNat 1 else Hash.zero) ∧
    (∀ s t : Str, hexNum 0 (s ++ t) ≠ none → strip0x (s ++ t) = s ++ t → strip0x t = t → s.length % 2 = 0 → t.length = 64 →
      hexToHash (s ++ t) = hexToHash t) := by
  constructor
  · intro r
    unfold hexToHash fromHex
    have hs : strip0x ("0x01zz".toList ++ r) = '0' :: '1' :: 'z' :: 'z' :: r := rfl
    rw [hs]
    by_cases hr : r.length % 2 = 0
    · have : ¬ (('0' :: '1' :: 'z' :: 'z' :: r).length % 2 = 1) := by simp only [List.length_cons]; omega
      simp only [this, if_false, hr, if_true]
      have : hexVal '0' = some 0 ∧ hexVal '1' = some 1 ∧ hexVal 'z' = none := by decide
      simp only [hexDecPartial, this.1, this.2.1, this.2.2]
      decide
    · have : ('0' :: '1' :: 'z' :: 'z' :: r).length % 2 = 1 := by simp only [List.length_cons]; omega
      simp only [this, if_true, hr, if_false]
      have hv : hexVal '0' = some 0 ∧ hexVal '1' = some 1 ∧ hexVal 'z' = none := by decide
      simp only [hexDecPartial, hv.1, hv.2.1, hv.2.2]
      decide
  · intro s t hn h1 h2 hs ht
    have split : ∀ (s : Str), s.length % 2 = 0 → hexNum 0 (s ++ t) ≠ none →
        ∃ b : Bytes, (hexDecPartial (s ++ t)).1 = b ++ (hexDecPartial t).1 := by
      intro s
      have gen : ∀ (s : Str) (acc : Nat), s.length % 2 = 0 → hexNum acc (s ++ t) ≠ none →
          ∃ b : Bytes, (hexDecPartial (s ++ t)).1 = b ++ (hexDecPartial t).1 := by
        intro s
        induction s using hexDecPartial.induct with
        | case1 => intro acc _ _; exact ⟨[], rfl⟩
        | case2 c => intro acc h _; simp at h
        | case3 a b rest x y hx hy ih =>
          intro acc hl hne
          simp only [List.cons_append, hexNum, hx, hy] at hne
          obtain ⟨q, hq⟩ := ih _ (by simp at hl; omega) hne
          exact ⟨UInt8.ofNat (x * 16 + y) :: q, by simp only [List.cons_append, hexDecPartial, hx, hy, hq]⟩
        | case4 a b rest hno =>
          intro acc hl hne
          simp only [List.cons_append, hexNum] at hne
          cases hx : hexVal a with
          | none => simp [hx] at hne
          | some x =>
            simp only [hx] at hne
            cases hy : hexVal b with
            | none => simp [hy] at hne
            | some y => exact absurd hy (hno x y hx)
      exact gen s 0
    obtain ⟨b, hb⟩ := split s hs hn
    unfold hexToHash fromHex
    rw [h1, h2]
    have e1 : ¬ ((s ++ t).length % 2 = 1) := by simp only [List.length_append]; omega
    have e2 : ¬ (t.length % 2 = 1) := by omega
    simp only [e1, e2, if_false, hb]
    have hlen : (hexDecPartial t).1.length = 32 := by
      have hex : ∃ m, hexNum 0 t = some m := by
        have gen : ∀ (s : Str) (acc : Nat), hexNum acc (s ++ t) ≠ none → ∃ a m, hexNum a t = some m := by
          intro s
          induction s with
          | nil => intro acc h; exact ⟨acc, Option.ne_none_iff_exists'.mp h⟩
          | cons c cs ih =>
            intro acc h
            simp only [List.cons_append, hexNum] at h
            cases hc : hexVal c with
            | none => simp [hc] at h
            | some d => simp only [hc] at h; exact ih _ h
        obtain ⟨a, m, hm⟩ := gen s 0 hn
        have sh : ∀ (t : Str) (a a' m : Nat), hexNum a t = some m → ∃ m', hexNum a' t = some m' := by
          intro t
          induction t with
          | nil => intro a a' m _; exact ⟨a', rfl⟩
          | cons c cs ih =>
            intro a a' m h
            simp only [hexNum] at h ⊢
            cases hc : hexVal c with
            | none => simp [hc] at h
            | some d => simp only [hc] at h ⊢; exact ih _ _ _ h
        exact sh t a 0 m hm
      obtain ⟨m, hm⟩ := hex
      rw [(hexNum_dec t 0 m (by omega) hm).1, ht]
    apply Hash.ext
    show fitBytes 32 _ = fitBytes 32 _
    rw [fitBytes_eq 32 _ hlen]
    unfold fitBytes
    have : (b ++ (hexDecPartial t).1).length - 32 = b.length := by rw [List.length_append, hlen]; omega
    simp only [this, List.drop_left, hlen, Nat.sub_self, List.replicate_zero, List.nil_append]

end Verif.Messages
