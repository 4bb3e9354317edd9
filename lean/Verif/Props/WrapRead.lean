import Verif.Props.JsonText
import Verif.Props.WrapMsg
/-
C83 continued: exactly which texts the cosmos precompile takes for which transfer message.
-/
namespace Verif.WrapMsg
open Verif Verif.Text

/-! ### Specification -/

/-- `v` is the value of the last member named `k`. -/
def Last (ms : List (Str × Json)) (k : String) (v : Json) : Prop :=
  ∃ a b, ms = a ++ (k.toList, v) :: b ∧ ∀ m ∈ b, m.1 ≠ k.toList

/-- There is no member named `k`. -/
def Absent (ms : List (Str × Json)) (k : String) : Prop := ∀ m ∈ ms, m.1 ≠ k.toList

/-- A field that may be written under several names, the first being preferred. -/
inductive Reads (ms : List (Str × Json)) : List String → Option Json → Prop
  | nowhere : Reads ms [] none
  | here {k : String} {ks : List String} {v : Json} (h : Last ms k v) : Reads ms (k :: ks) (some v)
  | later {k : String} {ks : List String} {r : Option Json} (h : Absent ms k) (h' : Reads ms ks r) : Reads ms (k :: ks) r

/-- A text field: missing and `null` mean the empty text. -/
def TextOf (r : Option Json) (s : Str) : Prop :=
  r = some (.str s) ∨ ((r = none ∨ r = some (.lit "null".toList)) ∧ s = [])

/-- A number field, written plainly or in quotes, in decimal without leading zeros; missing and `null` mean zero. -/
def NumberOf (r : Option Json) (n : Nat) : Prop :=
  (r = none ∧ n = 0) ∨ ∃ w i j, (r = some (.str w) ∨ r = some (.lit w)) ∧
    ((w = List.replicate i ' ' ++ natStr n ++ List.replicate j ' ' ∧ n < 18446744073709551616) ∨
     (w = List.replicate i ' ' ++ "null".toList ++ List.replicate j ' ' ∧ n = 0))

/-- The members of an object are among the given names (or unknown ones are tolerated). -/
def Only (u : Bool) (ms : List (Str × Json)) (names : List String) : Prop := u = true ∨ ∀ m ∈ ms, ∃ k ∈ names, m.1 = k.toList

/-- A timeout height. -/
def IsHeight (u : Bool) (r : Option Json) : Prop :=
  r = none ∨ r = some (.lit "null".toList) ∨ ∃ hs, r = some (.obj hs) ∧
    Only u hs ["revision_number", "revisionNumber", "revision_height", "revisionHeight"] ∧
    (∃ x n, Reads hs ["revisionNumber", "revision_number"] x ∧ NumberOf x n) ∧
    (∃ x n, Reads hs ["revisionHeight", "revision_height"] x ∧ NumberOf x n)

/-- A coin. -/
def IsCoin (u : Bool) (r : Option Json) (denom : Str) (amount : Int) : Prop :=
  ∃ cs, r = some (.obj cs) ∧ Only u cs ["denom", "amount"] ∧ (∃ x, Reads cs ["denom"] x ∧ TextOf x denom) ∧
    ∃ x a, Reads cs ["amount"] x ∧ TextOf x a ∧ parseInt0 a = some amount

/-- The object `ms` is the transfer `t`. -/
structure IsTransfer (u : Bool) (ms : List (Str × Json)) (t : Transfer) : Prop where
  names : Only u ms ["@type", "source_port", "sourcePort", "source_channel", "sourceChannel", "token", "sender", "receiver",
    "timeout_height", "timeoutHeight", "timeout_timestamp", "timeoutTimestamp", "memo"]
  url : ∃ x, Reads ms ["@type"] x ∧ TextOf x "/ibc.applications.transfer.v1.MsgTransfer".toList
  port : ∃ x, Reads ms ["sourcePort", "source_port"] x ∧ TextOf x t.port
  channel : ∃ x, Reads ms ["sourceChannel", "source_channel"] x ∧ TextOf x t.channel
  token : ∃ x, Reads ms ["token"] x ∧ IsCoin u x t.denom t.amount
  sender : ∃ x, Reads ms ["sender"] x ∧ TextOf x t.sender
  receiver : ∃ x, Reads ms ["receiver"] x ∧ TextOf x t.receiver
  height : ∃ x, Reads ms ["timeoutHeight", "timeout_height"] x ∧ IsHeight u x
  timeout : ∃ x, Reads ms ["timeoutTimestamp", "timeout_timestamp"] x ∧ NumberOf x t.timeout
  memo : ∃ x, Reads ms ["memo"] x ∧ TextOf x t.memo

/-! ### Fields -/

theorem field_cases (ms : List (Str × Json)) (k : String) :
    (field ms k.toList = none ∧ Absent ms k) ∨ ∃ v, field ms k.toList = some v ∧ Last ms k v := by
  induction ms with
  | nil => exact .inl ⟨rfl, by simp [Absent]⟩
  | cons m ms ih =>
    have hcons : field (m :: ms) k.toList = match field ms k.toList with
        | some v => some v
        | none => if m.1 = k.toList then some m.2 else none := by
      unfold field
      rw [List.filter_cons]
      by_cases hm : m.1 = k.toList
      · simp only [hm, decide_true, if_true]
        rw [List.getLast?_cons]
        cases (ms.filter fun m => decide (m.1 = k.toList)).getLast? <;> simp
      · simp only [hm, decide_false, if_false, Bool.false_eq_true]
        cases (ms.filter fun m => decide (m.1 = k.toList)).getLast? <;> simp
    rcases ih with ⟨h1, h2⟩ | ⟨v, h1, a, b, h2, h3⟩
    · by_cases hm : m.1 = k.toList
      · exact .inr ⟨m.2, by rw [hcons, h1]; simp [hm], [], ms, by rw [← hm]; rfl, h2⟩
      · refine .inl ⟨by rw [hcons, h1]; simp [hm], ?_⟩
        intro x hx
        rcases List.mem_cons.1 hx with rfl | hx
        · exact hm
        · exact h2 x hx
    · exact .inr ⟨v, by rw [hcons, h1], m :: a, b, by rw [h2]; rfl, h3⟩

theorem last_unique {ms : List (Str × Json)} {k : String} {v w : Json} (h : Last ms k v) (g : field ms k.toList = some w) : v = w := by
  obtain ⟨a, b, rfl, hb⟩ := h
  unfold field at g
  have hf : b.filter (fun m => decide (m.1 = k.toList)) = [] := by
    rw [List.filter_eq_nil_iff]; intro m hm; simpa using hb m hm
  rw [List.filter_append, List.filter_cons] at g
  simp only [decide_true, if_true, hf, List.getLast?_append, List.getLast?_singleton, Option.some_or] at g
  exact Option.some.inj g

theorem reads_one (ms : List (Str × Json)) (k : String) (r : Option Json) : Reads ms [k] r ↔ field ms k.toList = r := by
  rcases field_cases ms k with ⟨h1, h2⟩ | ⟨v, h1, h2⟩
  · rw [h1]
    constructor
    · intro h
      cases h with
      | @here _ _ v h => obtain ⟨a, b, e, _⟩ := h; exact absurd rfl (h2 (k.toList, v) (by rw [e]; simp))
      | later _ h' => cases h'; rfl
    · rintro rfl; exact .later h2 .nowhere
  · rw [h1]
    constructor
    · intro h
      cases h with
      | here h => rw [last_unique h h1]
      | later h _ => obtain ⟨a, b, e, _⟩ := h2; exact absurd rfl (h (k.toList, v) (by rw [e]; simp))
    · rintro rfl; exact .here h2

theorem reads_two (ms : List (Str × Json)) (k camel : String) (r : Option Json) :
    Reads ms [camel, k] r ↔ field2 ms k camel = r := by
  unfold field2
  rcases field_cases ms camel with ⟨h1, h2⟩ | ⟨v, h1, h2⟩
  · rw [h1]
    simp only
    rw [← reads_one]
    constructor
    · intro h
      cases h with
      | @here _ _ v h => obtain ⟨a, b, e, _⟩ := h; exact absurd rfl (h2 (camel.toList, v) (by rw [e]; simp))
      | later _ h' => exact h'
    · exact .later h2
  · rw [h1]
    simp only
    constructor
    · intro h
      cases h with
      | here h => rw [last_unique h h1]
      | later h _ => obtain ⟨a, b, e, _⟩ := h2; exact absurd rfl (h (camel.toList, v) (by rw [e]; simp))
    · rintro rfl; exact .here h2

theorem strField_iff (r : Option Json) (s : Str) : strField r = some s ↔ TextOf r s := by
  unfold TextOf
  cases r with
  | none => simp [strField, eq_comm]
  | some v => cases v <;> simp [strField, eq_comm]

/-! ### Numbers -/

theorem decVal_some {c : Char} {d : Nat} (h : decVal c = some d) : d < 10 ∧ c = decDigit d := by
  unfold decVal at h
  split at h
  · next hc =>
    have h1 : '0'.toNat ≤ c.toNat := hc.1
    have h2 : c.toNat ≤ '9'.toNat := hc.2
    have e0 : '0'.toNat = 48 := rfl
    have e9 : '9'.toNat = 57 := rfl
    injection h with h
    have hcc : c = Char.ofNat c.toNat := (Char.ofNat_toNat c).symm
    refine ⟨by omega, ?_⟩
    have : c.toNat = 48 + d := by omega
    rw [hcc, this]
    have hd : d < 10 := by omega
    clear hcc this h h1 h2 hc
    revert d; decide
  · cases h

theorem natStr_canon : ∀ (k : Nat) (w : Str) (n : Nat), w.length = k → parseNat w = some n →
    ¬ (w.head? = some '0' ∧ w ≠ ['0']) → w = natStr n := by
  intro k
  induction k with
  | zero => intro w n hk h _; rw [List.length_eq_zero_iff.1 hk] at h; cases h
  | succ k ih =>
    intro w n hk h hz
    have hne : w ≠ [] := by intro e; rw [e] at hk; cases hk
    obtain ⟨w', c, rfl⟩ : ∃ w' c, w = w' ++ [c] := ⟨w.dropLast, w.getLast hne, (List.dropLast_concat_getLast hne).symm⟩
    simp only [parseNat, if_neg hne, digitsVal_append] at h
    obtain ⟨v, hv, h⟩ := Option.bind_eq_some_iff.1 h
    obtain ⟨d, hd, h⟩ := Option.map_eq_some_iff.1 h
    obtain ⟨hd10, hcd⟩ := decVal_some hd
    subst hcd
    by_cases hw : w' = []
    · subst hw
      simp only [digitsVal, Option.some.injEq] at hv
      have : n = d := by omega
      subst this
      rw [natStr, dif_pos hd10]; rfl
    · have hh : w'.head? = (w' ++ [decDigit d]).head? := by
        cases w' with
        | nil => exact absurd rfl hw
        | cons a as => rfl
      have hnz : ¬ w'.head? = some '0' := by
        intro e
        refine hz ⟨by rw [← hh]; exact e, ?_⟩
        intro e2
        cases w' with
        | nil => exact hw rfl
        | cons a as => simp at e2
      have ih' := ih w' v (by simpa using hk) (by simp [parseNat, hw, hv]) (fun h => hnz h.1)
      have hv0 : v ≠ 0 := by
        intro e
        rw [e] at ih'
        rw [ih'] at hnz
        exact hnz (by decide +kernel)
      rw [natStr, dif_neg (by omega), show n / 10 = v by omega, show n % 10 = d by omega, ← ih']

theorem dropSp (s : Str) : ∃ i, s = List.replicate i ' ' ++ s.dropWhile (· = ' ') := by
  induction s with
  | nil => exact ⟨0, rfl⟩
  | cons c s ih =>
    by_cases hc : c = ' '
    · obtain ⟨i, hi⟩ := ih
      refine ⟨i + 1, ?_⟩
      rw [List.dropWhile_cons]
      simp only [hc, decide_true, if_true, List.replicate_succ, List.cons_append]
      rw [← hi]
    · exact ⟨0, by simp [hc]⟩

theorem dropSp_rep (i : Nat) (s : Str) : (List.replicate i ' ' ++ s).dropWhile (· = ' ') = s.dropWhile (· = ' ') := by
  induction i with
  | zero => rfl
  | succ i ih => rw [List.replicate_succ, List.cons_append, List.dropWhile_cons]; simp only [decide_true, if_true]; exact ih

/-- what is left of a text without the spaces around it -/
theorem trim_rep (i j : Nat) (s : Str) (hs : ∀ c ∈ s, c ≠ ' ') :
    (((List.replicate i ' ' ++ s ++ List.replicate j ' ').dropWhile (· = ' ')).reverse.dropWhile (· = ' ')).reverse = s := by
  rw [List.append_assoc, dropSp_rep]
  cases s with
  | nil =>
    have : (List.replicate j ' ').dropWhile (· = ' ') = [] := by
      have := dropSp_rep j []
      simpa using this
    simp [this]
  | cons c cs =>
    have h1 : (c :: cs ++ List.replicate j ' ').dropWhile (· = ' ') = c :: cs ++ List.replicate j ' ' := by
      rw [List.cons_append, List.dropWhile_cons]; simp [hs c (by simp)]
    rw [h1, List.reverse_append, List.reverse_replicate, dropSp_rep,
      Props.WrapMsg.dropSpaces (fun x hx => hs x (List.mem_reverse.1 hx)), List.reverse_reverse]

theorem trim_ex (s : Str) : ∃ i j, s = List.replicate i ' ' ++ ((s.dropWhile (· = ' ')).reverse.dropWhile (· = ' ')).reverse ++
    List.replicate j ' ' := by
  obtain ⟨i, hi⟩ := dropSp s
  obtain ⟨j, hj⟩ := dropSp (s.dropWhile (· = ' ')).reverse
  refine ⟨i, j, ?_⟩
  rw [List.append_assoc]
  have : s.dropWhile (· = ' ') = ((s.dropWhile (· = ' ')).reverse.dropWhile (· = ' ')).reverse ++ List.replicate j ' ' := by
    conv => lhs; rw [← List.reverse_reverse (s.dropWhile (· = ' ')), hj]
    rw [List.reverse_append, List.reverse_replicate]
  rw [← this]; exact hi

theorem u64Text_iff (w : Str) (n : Nat) : u64Text w = some n ↔ ∃ i j,
    (w = List.replicate i ' ' ++ natStr n ++ List.replicate j ' ' ∧ n < 18446744073709551616) ∨
    (w = List.replicate i ' ' ++ "null".toList ++ List.replicate j ' ' ∧ n = 0) := by
  constructor
  · intro h
    unfold u64Text at h
    simp only at h
    obtain ⟨i, j, hw⟩ := trim_ex w
    generalize ((w.dropWhile (· = ' ')).reverse.dropWhile (· = ' ')).reverse = v at h hw
    refine ⟨i, j, ?_⟩
    split at h
    · next hv => exact .inr ⟨by rw [hw, hv], (Option.some.inj h).symm⟩
    · split at h
      · cases h
      · next hz =>
        obtain ⟨m, hm, h⟩ := Option.bind_eq_some_iff.1 h
        split at h
        · next hlt =>
          injection h with h
          subst h
          exact .inl ⟨by rw [hw, natStr_canon _ v m rfl hm hz], hlt⟩
        · cases h
  · rintro ⟨i, j, ⟨rfl, hn⟩ | ⟨rfl, rfl⟩⟩
    · have hs : ∀ c ∈ natStr n, c ≠ ' ' := by
        intro c hc
        obtain ⟨d, hd, e⟩ := natStr_head n c hc
        subst e; clear hc; revert d; decide
      have h0 := Props.WrapMsg.u64_of n hn
      have e0 := trim_rep 0 0 (natStr n) hs
      have e1 := trim_rep i j (natStr n) hs
      simp only [List.replicate_zero, List.nil_append, List.append_nil] at e0
      simp only [u64Field, u64Text, e0] at h0
      simp only [u64Text, e1]
      exact h0
    · have e1 := trim_rep i j "null".toList (by decide)
      simp only [u64Text, e1, if_true]

theorem u64Field_iff (r : Option Json) (n : Nat) : u64Field r = some n ↔ NumberOf r n := by
  unfold NumberOf
  cases r with
  | none => simp [u64Field, eq_comm]
  | some v =>
    cases v with
    | str w =>
      simp only [u64Field, u64Text_iff]
      constructor
      · rintro ⟨i, j, h⟩; exact .inr ⟨w, i, j, .inl rfl, h⟩
      · rintro (⟨h, _⟩ | ⟨w', i, j, h | h, h'⟩)
        · cases h
        · cases h; exact ⟨i, j, h'⟩
        · cases h
    | lit w =>
      simp only [u64Field, u64Text_iff]
      constructor
      · rintro ⟨i, j, h⟩; exact .inr ⟨w, i, j, .inr rfl, h⟩
      · rintro (⟨h, _⟩ | ⟨w', i, j, h | h, h'⟩)
        · cases h
        · cases h
        · cases h; exact ⟨i, j, h'⟩
    | obj _ => simp [u64Field]
    | arr _ => simp [u64Field]

/-! ### Messages -/

theorem known_iff (u : Bool) (ms : List (Str × Json)) (names : List String) : known u ms names = true ↔ Only u ms names := by
  simp only [known, Only, Bool.or_eq_true, List.all_eq_true, List.any_eq_true, decide_eq_true_eq, eq_comm (b := (_ : Str × Json).1)]

theorem coin_iff (u : Bool) (r : Option Json) (d : Str) (n : Int) : coin u r = some (d, n) ↔ IsCoin u r d n := by
  unfold IsCoin
  constructor
  · intro h
    unfold coin at h
    split at h
    · next cs =>
      split at h
      · next hk =>
        obtain ⟨d', h1, h⟩ := Option.bind_eq_some_iff.1 h
        obtain ⟨a, h2, h⟩ := Option.bind_eq_some_iff.1 h
        obtain ⟨n', h3, h⟩ := Option.map_eq_some_iff.1 h
        cases h
        exact ⟨cs, rfl, (known_iff _ _ _).1 hk, ⟨_, (reads_one _ _ _).2 rfl, (strField_iff _ _).1 h1⟩,
          _, a, (reads_one _ _ _).2 rfl, (strField_iff _ _).1 h2, h3⟩
      · cases h
    · cases h
  · rintro ⟨cs, rfl, hk, ⟨x, h1, h2⟩, y, a, h3, h4, h5⟩
    rw [reads_one] at h1 h3
    subst h1 h3
    unfold coin
    simp only
    rw [if_pos ((known_iff _ _ _).2 hk)]
    exact Option.bind_eq_some_iff.2 ⟨_, (strField_iff _ _).2 h2, Option.bind_eq_some_iff.2 ⟨_, (strField_iff _ _).2 h4,
      Option.map_eq_some_iff.2 ⟨_, h5, rfl⟩⟩⟩

theorem height_iff (u : Bool) (r : Option Json) : height u r = true ↔ IsHeight u r := by
  unfold IsHeight
  cases r with
  | none => simp [height]
  | some v =>
    cases v with
    | str w => simp [height]
    | arr w => simp [height]
    | lit w => simp [height]
    | obj hs =>
      simp only [height, Bool.and_eq_true, known_iff, List.all_cons, List.all_nil, Bool.and_true]
      constructor
      · rintro ⟨h1, h2, h3⟩
        obtain ⟨n, hn⟩ := Option.isSome_iff_exists.1 h2
        obtain ⟨m, hm⟩ := Option.isSome_iff_exists.1 h3
        exact .inr (.inr ⟨hs, rfl, h1, ⟨_, n, (reads_two _ _ _ _).2 rfl, (u64Field_iff _ _).1 hn⟩,
          ⟨_, m, (reads_two _ _ _ _).2 rfl, (u64Field_iff _ _).1 hm⟩⟩)
      · rintro (h | h | ⟨hs', h, h1, ⟨x, n, h2, h3⟩, y, m, h4, h5⟩)
        · cases h
        · cases h
        · cases h
          rw [reads_two] at h2 h4
          subst h2 h4
          exact ⟨h1, by rw [(u64Field_iff _ _).2 h3]; rfl, by rw [(u64Field_iff _ _).2 h5]; rfl⟩

/-- **C83 (which texts are which transfer).** The precompile takes a text for the transfer `t` exactly when the text begins with a
JSON object whose members say so: every field is the last member of that name (the camel-case name taking precedence over the other),
texts are texts, numbers are decimal numbers below 2^64, and — unless unknown names are tolerated — there is no other member. -/
theorem C83_message (u : Bool) (s : Str) (t : Transfer) :
    decode u s = some t ↔ ∃ a b ms, s = a ++ b ∧ JsonText (.obj ms) a ∧ IsTransfer u ms t := by
  constructor
  · intro h
    unfold decode at h
    split at h
    · next ms hf =>
      obtain ⟨a, b, e, hj⟩ := (C83_json s ms).1 hf
      refine ⟨a, b, ms, e, hj, ?_⟩
      split at h
      · next hc =>
        obtain ⟨port, h1, h⟩ := Option.bind_eq_some_iff.1 h
        obtain ⟨chan, h2, h⟩ := Option.bind_eq_some_iff.1 h
        obtain ⟨c, h3, h⟩ := Option.bind_eq_some_iff.1 h
        obtain ⟨se, h4, h⟩ := Option.bind_eq_some_iff.1 h
        obtain ⟨re, h5, h⟩ := Option.bind_eq_some_iff.1 h
        obtain ⟨ti, h6, h⟩ := Option.bind_eq_some_iff.1 h
        obtain ⟨me, h7, h⟩ := Option.map_eq_some_iff.1 h
        subst h
        exact {
          names := (known_iff _ _ _).1 hc.1
          url := ⟨_, (reads_one _ _ _).2 rfl, (strField_iff _ _).1 hc.2.1⟩
          port := ⟨_, (reads_two _ _ _ _).2 rfl, (strField_iff _ _).1 h1⟩
          channel := ⟨_, (reads_two _ _ _ _).2 rfl, (strField_iff _ _).1 h2⟩
          token := ⟨_, (reads_one _ _ _).2 rfl, (coin_iff _ _ _ _).1 h3⟩
          sender := ⟨_, (reads_one _ _ _).2 rfl, (strField_iff _ _).1 h4⟩
          receiver := ⟨_, (reads_one _ _ _).2 rfl, (strField_iff _ _).1 h5⟩
          height := ⟨_, (reads_two _ _ _ _).2 rfl, (height_iff _ _).1 hc.2.2⟩
          timeout := ⟨_, (reads_two _ _ _ _).2 rfl, (u64Field_iff _ _).1 h6⟩
          memo := ⟨_, (reads_one _ _ _).2 rfl, (strField_iff _ _).1 h7⟩ }
      · cases h
    · cases h
  · rintro ⟨a, b, ms, e, hj, hn, ⟨x0, r0, q0⟩, ⟨x1, r1, q1⟩, ⟨x2, r2, q2⟩, ⟨x3, r3, q3⟩, ⟨x4, r4, q4⟩, ⟨x5, r5, q5⟩, ⟨x6, r6, q6⟩,
      ⟨x7, r7, q7⟩, ⟨x8, r8, q8⟩⟩
    rw [reads_one] at r0 r3 r4 r5 r8
    rw [reads_two] at r1 r2 r6 r7
    subst r0 r1 r2 r3 r4 r5 r6 r7 r8
    exact Props.WrapMsg.decode_of ((C83_json s ms).2 ⟨a, b, e, hj⟩) ((known_iff _ _ _).2 hn) ((strField_iff _ _).2 q0)
      ((height_iff _ _).2 q6) ((strField_iff _ _).2 q1) ((strField_iff _ _).2 q2) ((coin_iff _ _ _ _).2 q3) ((strField_iff _ _).2 q4)
      ((strField_iff _ _).2 q5) ((u64Field_iff _ _).2 q7) ((strField_iff _ _).2 q8)

/-- **C83 (no ambiguity).** A text is at most one transfer. -/
theorem C83_message_unique (u : Bool) (s : Str) (t t' : Transfer)
    (h : ∃ a b ms, s = a ++ b ∧ JsonText (.obj ms) a ∧ IsTransfer u ms t)
    (h' : ∃ a b ms, s = a ++ b ∧ JsonText (.obj ms) a ∧ IsTransfer u ms t') : t = t' :=
  Option.some.inj (((C83_message u s t).2 h).symm.trans ((C83_message u s t').2 h'))

/-- Non-vacuity: the text of an honest wrap is a transfer to a tolerant reader; a number without quotes, a camel-case name. -/
example : ∃ a b ms, head Props.WrapMsg.toyArgs ['5'] ++ ("x".toList ++ tail ['7'] ['1'] ['2']) = a ++ b ∧ JsonText (.obj ms) a ∧
    IsTransfer true ms ⟨"transfer".toList, "channel-0".toList, "evm/01".toList, 5, "init1w".toList, "x".toList, 7, []⟩ :=
  (C83_message _ _ _).1 (by decide +kernel)

end Verif.WrapMsg
