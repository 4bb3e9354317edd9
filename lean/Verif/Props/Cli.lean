import Verif.Props.Messages
import Verif.Model.Cli
/-
C150: what a command line says is what is executed.
-/
namespace Verif.Props.Cli
open Verif Verif.Text Verif.TxUtils Verif.Identity Verif.Messages Verif.Cli

/-! ### Specification -/

/-- The number written by decimal digits, most significant first. -/
def valueOf (ds : Str) : Nat := ds.foldl (fun a c => a * 10 + (c.toNat - 48)) 0

/-- `ds` are decimal digits, at least one, that write `n`. -/
def Digits (ds : Str) (n : Nat) : Prop := ds ≠ [] ∧ (∀ c ∈ ds, '0' ≤ c ∧ c ≤ '9') ∧ valueOf ds = n

/-- `t` writes the number `n` in decimal, perhaps after a plus sign. -/
def Decimal (t : Str) (n : Nat) : Prop := Digits t n ∨ ∃ ds, t = '+' :: ds ∧ Digits ds n

/-- The file's text is `b` in hex and nothing else. -/
def FileWrites (file : Option Str) (b : Bytes) : Prop := ∃ t, file = some t ∧ SameDigits t (hexEnc b)

/-! ### Reading -/

theorem digitsVal_iff (s : Str) : ∀ (acc n : Nat), digitsVal acc s = some n ↔
    (∀ c ∈ s, '0' ≤ c ∧ c ≤ '9') ∧ s.foldl (fun a c => a * 10 + (c.toNat - 48)) acc = n := by
  induction s with
  | nil => intro acc n; simp [digitsVal]
  | cons c s ih =>
    intro acc n
    rw [digitsVal]
    by_cases hc : '0' ≤ c ∧ c ≤ '9'
    · have : decVal c = some (c.toNat - 48) := by unfold decVal; rw [if_pos hc]
      rw [this]
      simp only [ih, List.mem_cons, forall_eq_or_imp, List.foldl_cons, hc, true_and]
    · have : decVal c = none := by unfold decVal; rw [if_neg hc]
      rw [this]
      simp only [List.mem_cons, forall_eq_or_imp, reduceCtorEq, false_iff, not_and]
      intro h; exact absurd h.1 hc

theorem parseNat_iff (s : Str) (n : Nat) : parseNat s = some n ↔ Digits s n := by
  unfold parseNat Digits
  by_cases h : s = []
  · simp [h]
  · rw [if_neg h]; simp only [digitsVal_iff, ne_eq, h, not_false_eq_true, true_and, valueOf]

theorem parseInt_iff (t : Str) (hs : t.head? ≠ some '-') (n : Nat) : parseInt t = some (n : Int) ↔ Decimal t n := by
  unfold Decimal
  cases t with
  | nil => simp [parseInt, parseNat, Digits]
  | cons c r =>
    have h1 : c ≠ '-' := by simpa using hs
    by_cases h2 : c = '+'
    · subst h2
      have hp : parseInt ('+' :: r) = Option.map Int.ofNat (parseNat r) := rfl
      rw [hp]
      constructor
      · intro h
        obtain ⟨m, h3, h4⟩ := Option.map_eq_some_iff.1 h
        have : m = n := Int.ofNat.inj h4
        subst this
        exact .inr ⟨r, rfl, (parseNat_iff r m).1 h3⟩
      · rintro (h | ⟨ds, h3, h4⟩)
        · have := h.2.1 '+' (by simp)
          exact absurd this (by decide)
        · cases h3
          rw [(parseNat_iff r n).2 h4]; rfl
    · have hp : parseInt (c :: r) = Option.map Int.ofNat (parseNat (c :: r)) := by
        unfold parseInt
        split
        · next h => cases h; exact absurd rfl h1
        · next h => cases h; exact absurd rfl h2
        · rfl
      rw [hp]
      constructor
      · intro h
        obtain ⟨m, h3, h4⟩ := Option.map_eq_some_iff.1 h
        have : m = n := Int.ofNat.inj h4
        subst this
        exact .inl ((parseNat_iff _ m).1 h3)
      · rintro (h | ⟨ds, h3, h4⟩)
        · rw [(parseNat_iff _ n).2 h]; rfl
        · cases h3; exact absurd rfl h2

theorem parseInt_nat {t : Str} (hs : t.head? ≠ some '-') {v : Int} (h : parseInt t = some v) : ∃ n : Nat, v = n := by
  unfold parseInt at h
  split at h
  · simp at hs
  · obtain ⟨m, _, h2⟩ := Option.map_eq_some_iff.1 h; exact ⟨m, h2.symm⟩
  · obtain ⟨m, _, h2⟩ := Option.map_eq_some_iff.1 h; exact ⟨m, h2.symm⟩

theorem newInt_iff (v w : Int) : newInt v = some w ↔ w = v ∧ v.natAbs < 2 ^ 256 := by
  unfold newInt
  split
  · next h => simp only [Option.some.injEq]; exact ⟨fun e => ⟨e.symm, h⟩, fun e => e.1.symm⟩
  · next h => simp only [reduceCtorEq, false_iff, not_and]; intro _; exact h

theorem hexDec_iff (r : Str) (b : Bytes) : hexDec r = some b ↔ SameDigits r (hexEnc b) := by
  have h := decode0x_iff ('0' :: 'x' :: r) b
  have e : decode0x ('0' :: 'x' :: r) = hexDec r := rfl
  rw [e] at h
  rw [h]
  unfold Writes
  constructor
  · rintro (⟨r', h1, h2⟩ | ⟨r', h1, _⟩)
    · simp only [List.cons.injEq, true_and] at h1; rw [h1]; exact h2
    · simp only [List.cons.injEq, true_and] at h1; exact absurd h1.1 (by decide)
  · intro h; exact .inl ⟨r, rfl, h⟩

theorem writes_unique {t : Str} {a b : Bytes} (h1 : Writes t a) (h2 : Writes t b) : a = b := by
  have e1 := (decode0x_iff t a).2 h1
  have e2 := (decode0x_iff t b).2 h2
  rw [e1] at e2; exact Option.some.inj e2

theorem writes_encode (b : Bytes) : Writes (encode0x b) b := .inl ⟨_, rfl, rfl⟩

/-- What the options of a creation stand for. -/
theorem creation_iff (file : Option Str) (input value : Str) (hs : value.head? ≠ some '-') (b : Bytes) (v : Int) :
    prepareContractCreation file input value = some (b, v) ↔
      ∃ code arg n, FileWrites file code ∧ Writes input arg ∧ Decimal value n ∧ n < 2 ^ 256 ∧ b = code ++ arg ∧ v = (n : Nat) := by
  unfold prepareContractCreation readContractBinFile
  simp only [Option.bind_eq_some_iff, Option.map_eq_some_iff, decode0x_iff, newInt_iff, hexDec_iff, Prod.mk.injEq]
  constructor
  · rintro ⟨code, ⟨t, h1, h2⟩, arg, h3, w, h4, w', ⟨rfl, h5⟩, rfl, rfl⟩
    obtain ⟨n, rfl⟩ := parseInt_nat hs h4
    exact ⟨code, arg, n, ⟨t, h1, h2⟩, h3, (parseInt_iff value hs n).1 h4, by simpa using h5, rfl, rfl⟩
  · rintro ⟨code, arg, n, ⟨t, h1, h2⟩, h3, h4, h5, rfl, rfl⟩
    exact ⟨code, ⟨t, h1, h2⟩, arg, h3, n, (parseInt_iff value hs n).2 h4, n, ⟨rfl, by simpa using h5⟩, rfl, rfl⟩

/-! ### C150 -/

/-- **C150, creations (all but negative values).** What `create FILE --input ARG --value V` by `sender` makes the chain
execute, if it executes anything: the creation, by the sender, of the contract whose code is the bytes of the file followed by the
bytes of the argument, with the value written. It does so exactly if file, argument and value can be read so and the sender may
deploy. -/
theorem C150_create_partial {K : Type} (e : Env K) (p : Params.Params) (m m' : Accts) (sender : Bytes)
    (hb : e.unbech (e.bech sender) = some sender) (file : Option Str) (input value : Str) (hs : value.head? ≠ some '-') (act : Act) :
    ((createMsg e sender file input value).bind (prepare e p m)) = some (act, m') ↔
      ∃ caller code arg n, FileWrites file code ∧ Writes input arg ∧ Decimal value n ∧ n < 2 ^ 256 ∧ MayDeploy p (e.bech sender) ∧
        convert m sender true = some (caller, m') ∧ ActsAs sender m m' caller ∧ act = .create caller (code ++ arg) n [] := by
  unfold createMsg
  simp only [Option.bind_eq_some_iff, Option.map_eq_some_iff]
  constructor
  · rintro ⟨msg, ⟨⟨b, v⟩, h1, rfl⟩, h2⟩
    obtain ⟨code, arg, n, f1, f2, f3, f4, rfl, rfl⟩ := (creation_iff file input value hs b v).1 h1
    obtain ⟨raw, caller, data, n', g1, g2, g3, g4, g5, g6, g7, rfl⟩ :=
      (C79_create_partial e p m m' _ _ _ _ act (Int.natCast_nonneg n)).1 h2
    rw [hb] at g1
    cases g1
    have : n = n' := Int.ofNat.inj g5
    subst this
    rw [writes_unique g4 (writes_encode _)]
    exact ⟨caller, code, arg, n, f1, f2, f3, f4, g7, g2, g3, rfl⟩
  · rintro ⟨caller, code, arg, n, f1, f2, f3, f4, g7, g2, g3, rfl⟩
    refine ⟨_, ⟨(code ++ arg, (n : Int)), (creation_iff file input value hs _ _).2 ⟨code, arg, n, f1, f2, f3, f4, rfl, rfl⟩, rfl⟩, ?_⟩
    exact (C79_create_partial e p m m' _ _ _ _ _ (Int.natCast_nonneg n)).2
      ⟨sender, caller, code ++ arg, n, hb, g2, g3, writes_encode _, rfl, f4, g7, rfl⟩

/-- **C150, creations at a chosen address (all but negative values).** As above, with the salt. -/
theorem C150_create2_partial {K : Type} (e : Env K) (p : Params.Params) (m m' : Accts) (sender : Bytes)
    (hb : e.unbech (e.bech sender) = some sender) (salt : Str) (file : Option Str) (input value : Str)
    (hs : value.head? ≠ some '-') (act : Act) :
    ((create2Msg e sender salt file input value).bind (prepare e p m)) = some (act, m') ↔
      ∃ caller code arg n k, FileWrites file code ∧ Writes input arg ∧ Decimal value n ∧ n < 2 ^ 256 ∧
        Digits salt k ∧ k < 18446744073709551616 ∧ MayDeploy p (e.bech sender) ∧
        convert m sender true = some (caller, m') ∧ ActsAs sender m m' caller ∧ act = .create2 caller (code ++ arg) n k [] := by
  have hu : ∀ k, parseUint salt = some k ↔ Digits salt k ∧ k < 18446744073709551616 := by
    intro k
    unfold parseUint
    simp only [Option.bind_eq_some_iff, parseNat_iff]
    constructor
    · rintro ⟨n, h1, h2⟩
      split at h2
      · next h => cases h2; exact ⟨h1, h⟩
      · cases h2
    · rintro ⟨h1, h2⟩; exact ⟨k, h1, by rw [if_pos h2]⟩
  unfold create2Msg
  simp only [Option.bind_eq_some_iff, Option.map_eq_some_iff]
  constructor
  · rintro ⟨msg, ⟨k, h0, ⟨b, v⟩, h1, rfl⟩, h2⟩
    obtain ⟨code, arg, n, f1, f2, f3, f4, rfl, rfl⟩ := (creation_iff file input value hs b v).1 h1
    obtain ⟨raw, caller, data, n', g1, g2, g3, g4, g5, g6, g7, rfl⟩ :=
      (C79_create2_partial e p m m' _ _ _ _ _ act (Int.natCast_nonneg n)).1 h2
    rw [hb] at g1
    cases g1
    have : n = n' := Int.ofNat.inj g5
    subst this
    rw [writes_unique g4 (writes_encode _)]
    exact ⟨caller, code, arg, n, k, f1, f2, f3, f4, ((hu k).1 h0).1, ((hu k).1 h0).2, g7, g2, g3, rfl⟩
  · rintro ⟨caller, code, arg, n, k, f1, f2, f3, f4, k1, k2, g7, g2, g3, rfl⟩
    refine ⟨_, ⟨k, (hu k).2 ⟨k1, k2⟩, (code ++ arg, (n : Int)),
      (creation_iff file input value hs _ _).2 ⟨code, arg, n, f1, f2, f3, f4, rfl, rfl⟩, rfl⟩, ?_⟩
    exact (C79_create2_partial e p m m' _ _ _ _ _ _ (Int.natCast_nonneg n)).2
      ⟨sender, caller, code ++ arg, n, hb, g2, g3, writes_encode _, rfl, f4, g7, rfl⟩

/-- **C150, calls (all but negative values).** `call ADDR INPUT --value V` by `sender` makes the chain call the contract the
address names, as the sender, with the bytes and the value written, exactly if they can be read so. -/
theorem C150_call_partial {K : Type} (e : Env K) (p : Params.Params) (m m' : Accts) (sender : Bytes)
    (hb : e.unbech (e.bech sender) = some sender) (contract input value : Str) (hs : value.head? ≠ some '-') (act : Act) :
    ((callMsg e sender contract input value).bind (prepare e p m)) = some (act, m') ↔
      ∃ caller target data n, NamesAddr e contract target ∧ Writes input data ∧ Decimal value n ∧ n < 2 ^ 256 ∧
        convert m sender true = some (caller, m') ∧ ActsAs sender m m' caller ∧ act = .call caller target data n [] := by
  unfold callMsg
  simp only [Option.bind_eq_some_iff, Option.map_eq_some_iff, newInt_iff]
  constructor
  · rintro ⟨msg, ⟨t, h0, b, h1, v, h2, w, ⟨rfl, h3⟩, rfl⟩, h4⟩
    obtain ⟨n, rfl⟩ := parseInt_nat hs h2
    obtain ⟨raw, caller, target, data, n', g1, g2, g3, g4, g5, g6, g7, rfl⟩ :=
      (C79_call_partial e p m m' _ _ _ _ _ act (Int.natCast_nonneg n)).1 h4
    rw [hb] at g1
    cases g1
    have : n = n' := Int.ofNat.inj g6
    subst this
    exact ⟨caller, target, data, n, g4, g5, (parseInt_iff value hs n).1 h2, g7, g2, g3, rfl⟩
  · rintro ⟨caller, target, data, n, g4, g5, g6, g7, g2, g3, rfl⟩
    refine ⟨_, ⟨target, (contractAddr_iff e contract target).2 g4, data, (decode0x_iff input data).2 g5, n,
      (parseInt_iff value hs n).2 g6, n, ⟨rfl, by simpa using g7⟩, rfl⟩, ?_⟩
    exact (C79_call_partial e p m m' _ _ _ _ _ _ (Int.natCast_nonneg n)).2
      ⟨sender, caller, target, data, n, hb, g2, g3, g4, g5, rfl, g7, rfl⟩

/-- A plain argument list: hex file, hex argument, decimal value. -/
theorem C150_plain {K : Type} (e : Env K) (p : Params.Params) (m m' : Accts) (sender : Bytes)
    (hb : e.unbech (e.bech sender) = some sender) (code arg : Bytes) (n : Nat) (hn : n < 2 ^ 256) (caller : Addr)
    (hp : MayDeploy p (e.bech sender)) (hc : convert m sender true = some (caller, m')) :
    ((createMsg e sender (some (hexEnc code)) (encode0x arg) (natStr n)).bind (prepare e p m)) =
      some (.create caller (code ++ arg) n [], m') := by
  have h0 : parseInt (natStr n) = some (n : Int) := parseInt_intStr (n : Int)
  have hs : (natStr n).head? ≠ some '-' := by
    intro h
    cases hd : natStr n with
    | nil => rw [hd] at h; cases h
    | cons c r =>
      rw [hd] at h
      simp only [List.head?_cons, Option.some.injEq] at h
      obtain ⟨d, h1, h2⟩ := natStr_head n c (by rw [hd]; simp)
      exact (decDigit_ne d h1).1 (h2.symm.trans h)
  exact (C150_create_partial e p m m' sender hb _ _ _ hs _).2 ⟨caller, code, arg, n, ⟨_, rfl, rfl⟩, writes_encode arg,
    (parseInt_iff _ hs n).1 h0, hn, hp, hc, convert_actsAs hc, rfl⟩

/-- **C150 fails for negative values**: they are neither refused by the command nor by the chain, which then moves
another amount: `--value -1` asks for 2^256 - 1. -/
theorem C150_negative_violated : ((callMsg (Props.TxUtils.toyEnv 18) (List.replicate 20 7)
    "0x0000000000000000000000000000000000000003".toList "0x0a".toList "-1".toList).bind
      (prepare (Props.TxUtils.toyEnv 18) toyParams (fun _ => none))).map Prod.fst =
    some (.call ⟨List.replicate 20 7, rfl⟩ (Addr.ofNat 3) [10]
      115792089237316195423570985008687907853269984665640564039457584007913129639935 []) := by decide +kernel

theorem hexEnc_digits (b : Bytes) : ∀ c ∈ hexEnc b, hexVal c ≠ none := by
  induction b with
  | nil => intro c hc; simp [hexEnc] at hc
  | cons x b ih =>
    intro c hc
    simp only [hexEnc, List.mem_cons] at hc
    have hx := x.toNat_lt
    rcases hc with rfl | rfl | hc
    · rw [hexVal_hexDigit _ (by omega)]; simp
    · rw [hexVal_hexDigit _ (by omega)]; simp
    · exact ih c hc

/-- A text with any character that is no hex digit is not the hex text of anything. -/
theorem not_hex {t : Str} {c : Char} (h : c ∈ t) (hc : hexVal c = none) (b : Bytes) : ¬ SameDigits t (hexEnc b) := by
  intro hd
  have : none ∈ (hexEnc b).map hexVal := by
    have := List.mem_map.2 ⟨c, h, hc⟩
    rw [hd] at this
    exact this
  obtain ⟨d, h1, h2⟩ := List.mem_map.1 this
  exact hexEnc_digits b d h1 h2

/-- **C150 fails for files as editors and tools write them**: a line break at the end, or the `0x` that the argument must have, and
the command refuses the file. -/
theorem C150_file_violated {K : Type} (e : Env K) (sender code : Bytes) (input value : Str) :
    createMsg e sender (some (hexEnc code ++ ['\n'])) input value = none ∧
    createMsg e sender (some (encode0x code)) input value = none := by
  have key : ∀ t c, c ∈ t → hexVal c = none → createMsg e sender (some t) input value = none := by
    intro t c h1 h2
    have : hexDec t = none := by
      cases hd : hexDec t with
      | none => rfl
      | some b => exact absurd ((hexDec_iff t b).1 hd) (not_hex h1 h2 b)
    simp only [createMsg, prepareContractCreation, readContractBinFile, Option.bind_some, this, Option.bind_none, Option.map_none]
  exact ⟨key _ '\n' (by simp) (by decide), key _ 'x' (by simp [encode0x]) (by decide)⟩

/-- **C150 fails for the documented example**: `call 0x1 0x123456` is refused (as long as `0x1` is no bech32 address). -/
theorem C150_help_violated {K : Type} (e : Env K) (h : e.unbech "0x1".toList = none) (sender : Bytes) (value : Str) :
    callMsg e sender "0x1".toList "0x123456".toList value = none := by
  have : contractAddressFromString e "0x1".toList = none := by
    unfold contractAddressFromString
    rw [if_neg (by decide), h]; rfl
  simp only [callMsg, this, Option.bind_none]

/-- Hypotheses are met: a file, an argument and a value; a salt; a call with a plus sign and leading zeros. -/
example : ((createMsg (Props.TxUtils.toyEnv 18) (List.replicate 20 7) (some "60Ff".toList) "0x0a".toList "12".toList).bind
      (prepare (Props.TxUtils.toyEnv 18) toyParams (fun _ => none))).map Prod.fst =
    some (.create ⟨List.replicate 20 7, rfl⟩ [0x60, 0xff, 0x0a] 12 []) := by decide +kernel
example : ((create2Msg (Props.TxUtils.toyEnv 18) (List.replicate 20 7) "100".toList (some "60Ff".toList) "0x".toList "0".toList).bind
      (prepare (Props.TxUtils.toyEnv 18) toyParams (fun _ => none))).map Prod.fst =
    some (.create2 ⟨List.replicate 20 7, rfl⟩ [0x60, 0xff] 0 100 []) := by decide +kernel
example : ((callMsg (Props.TxUtils.toyEnv 18) (List.replicate 20 7) "0x0000000000000000000000000000000000000003".toList
      "0x0a".toList "+0012".toList).bind (prepare (Props.TxUtils.toyEnv 18) toyParams (fun _ => none))).map Prod.fst =
    some (.call ⟨List.replicate 20 7, rfl⟩ (Addr.ofNat 3) [10] 12 []) := by decide +kernel
example : (Props.TxUtils.toyEnv 18).unbech ((Props.TxUtils.toyEnv 18).bech (List.replicate 20 7)) = some (List.replicate 20 7) ∧
    (Props.TxUtils.toyEnv 18).unbech "0x1".toList = none := by decide +kernel
/-- What is refused: a salt of 65 bits or with a sign, a value of 257 bits or with a fraction. -/
example : (create2Msg (Props.TxUtils.toyEnv 18) [] "18446744073709551616".toList (some []) "0x".toList "0".toList).isNone = true ∧
    (create2Msg (Props.TxUtils.toyEnv 18) [] "+1".toList (some []) "0x".toList "0".toList).isNone = true ∧
    (createMsg (Props.TxUtils.toyEnv 18) [] (some []) "0x".toList (natStr (2 ^ 256))).isNone = true ∧
    (createMsg (Props.TxUtils.toyEnv 18) [] (some []) "0x".toList "1.5".toList).isNone = true ∧
    (createMsg (Props.TxUtils.toyEnv 18) [] none "0x".toList "1".toList).isNone = true := by decide +kernel

end Verif.Props.Cli
