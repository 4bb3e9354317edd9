import Verif.Props.Memo
/-
C86: exactly which hook instructions are accepted, and what they say; what re-encoding leaves alone.
-/
namespace Verif.Memo.Spec
open Verif Verif.Text Verif.WrapMsg Verif.Memo Verif.Hooks

/-- The JSON `null`. -/
def IsNull (v : Json) : Prop := v = .lit "null".toList

/-- A text, or `null`. -/
def IsText (v : Json) : Prop := IsNull v ∨ ∃ s, v = .str s

/-- A list of texts, or `null`. -/
def IsTexts (v : Json) : Prop := IsNull v ∨ ∃ vs, v = .arr vs ∧ ∀ x ∈ vs, IsText x

/-- The members of this name have values of a kind. -/
def Each (ms : List (Str × Json)) (name : String) (P : Json → Prop) : Prop := ∀ m ∈ ms, sameName m.1 name.toList = true → P m.2

/-- One entry of an access list. -/
def IsEntry (v : Json) : Prop := IsNull v ∨ ∃ ms, v = .obj ms ∧ Each ms "address" IsText ∧ Each ms "storage_keys" IsTexts

/-- An access list. -/
def IsAccess (v : Json) : Prop := IsNull v ∨ ∃ vs, v = .arr vs ∧ ∀ x ∈ vs, IsEntry x

/-- The text of an integer. -/
def IsInt (F : Floats) (v : Json) : Prop := ∃ s n, v = .str s ∧ F.int s = some n

/-- A natural number of 64 bits, or `null`. -/
def IsId (v : Json) : Prop := IsNull v ∨ ∃ w n, v = .lit w ∧ parseNat w = some n ∧ n < 2 ^ 64

/-- A message. -/
def IsMessage (F : Floats) (v : Json) : Prop := IsNull v ∨ ∃ ms, v = .obj ms ∧ Each ms "sender" IsText ∧ Each ms "contract_addr" IsText ∧
  Each ms "input" IsText ∧ Each ms "value" (IsInt F) ∧ Each ms "access_list" IsAccess

/-- A callback. -/
def IsCallback (v : Json) : Prop := IsNull v ∨ ∃ ms, v = .obj ms ∧ Each ms "id" IsId ∧ Each ms "contract_address" IsText

/-- The instructions for the hook. -/
def IsHook (F : Floats) (v : Json) : Prop := IsNull v ∨ ∃ ms, v = .obj ms ∧ Each ms "message" (IsMessage F) ∧
  Each ms "async_callback" IsCallback

/-- The values of the members of a name, in order. -/
def named (ms : List (Str × Json)) (name : String) : List Json := (ms.filter fun m => sameName m.1 name.toList).map (·.2)

/-- The last text among the members of a name, or the empty text. -/
def lastText (ms : List (Str × Json)) (name : String) : Str :=
  ((named ms name).filterMap fun v => match v with | .str s => some s | _ => none).getLast?.getD []

/-- The last integer among the members of a name, or 0. -/
def lastInt (F : Floats) (ms : List (Str × Json)) (name : String) : Int :=
  ((named ms name).filterMap fun v => match v with | .str s => F.int s | _ => none).getLast?.getD 0

/-- The last number of 64 bits among the members of a name, or 0. -/
def lastId (ms : List (Str × Json)) (name : String) : Nat :=
  ((named ms name).filterMap fun v => match v with
    | .lit w => (parseNat w).filter fun n => decide (n < 2 ^ 64)
    | _ => none).getLast?.getD 0

/-- The members of the objects since the last `null`. -/
def sinceNull (vs : List Json) : List (List (Str × Json)) :=
  vs.foldl (fun acc v => match v with | .obj ms => acc ++ [ms] | _ => []) []

/-- The order of names: by the first character at which they differ, a beginning before its continuation. -/
def Before (a b : Str) : Prop :=
  (∃ c t, b = a ++ c :: t) ∨ ∃ p x y s t, a = p ++ x :: s ∧ b = p ++ y :: t ∧ x.toNat < y.toNat

/-- Values in which all numbers are natural numbers up to 2^53 in plain decimal form, and the members of all objects have different
names and are ordered by name. -/
inductive Plain : Json → Prop
  | text (s : Str) : Plain (.str s)
  | word (w : Str) : w = "true".toList ∨ w = "false".toList ∨ w = "null".toList → Plain (.lit w)
  | number (n : Nat) : n ≤ 2 ^ 53 → Plain (.lit (natStr n))
  | list (vs : List Json) : (∀ v ∈ vs, Plain v) → Plain (.arr vs)
  | object (ms : List (Str × Json)) : (∀ m ∈ ms, Plain m.2) → ms.Pairwise (fun a b => Before a.1 b.1) → Plain (.obj ms)

end Verif.Memo.Spec

namespace Verif.Memo
open Verif Verif.Text Verif.WrapMsg Verif.Props.WrapMsg Verif.Hooks Verif.Hooks.Spec Verif.Memo.Spec

theorem sameName_isKey (k name : Str) : sameName k name = isKey k name := rfl

/-! ### Acceptance -/

theorem fold_all {S : Type} {f : S × Bool → Str × Json → S × Bool} {ok : Str × Json → Bool}
    (hf : ∀ r m, (f r m).2 = (r.2 && ok m)) : ∀ (l : List (Str × Json)) (r : S × Bool), (l.foldl f r).2 = (r.2 && l.all ok)
  | [], r => by simp
  | m :: l, r => by rw [List.foldl_cons, fold_all hf l, hf, List.all_cons, Bool.and_assoc]

theorem decStr_ok (old : Str) (v : Json) : (decStr old v).2 = true ↔ IsText v := by
  cases v with
  | str s => simp [decStr, IsText]
  | lit w => simp [decStr, IsText, IsNull]
  | obj ms => simp [decStr, IsText, IsNull]
  | arr vs => simp [decStr, IsText, IsNull]

theorem strsOk_iff (v : Json) : strsOk v = true ↔ IsTexts v := by
  cases v with
  | str s => simp [strsOk, IsTexts, IsNull]
  | lit w => simp [strsOk, IsTexts, IsNull]
  | obj ms => simp [strsOk, IsTexts, IsNull]
  | arr vs =>
    simp only [strsOk, List.all_eq_true, decStr_ok, IsTexts, IsNull]
    constructor
    · intro h; exact .inr ⟨vs, rfl, h⟩
    · rintro (h | ⟨vs', h, h'⟩)
      · cases h
      · cases h; exact h'

theorem each_all (ms : List (Str × Json)) (name : String) (ok : Json → Bool) (P : Json → Prop) (h : ∀ v, ok v = true ↔ P v) :
    (∀ m ∈ ms, (!isKey m.1 name.toList || ok m.2) = true) ↔ Each ms name P := by
  unfold Each
  refine ⟨fun hh m hm hk => ?_, fun hh m hm => ?_⟩
  · have := hh m hm
    rw [sameName_isKey] at hk
    rw [hk] at this
    exact (h _).1 (by simpa using this)
  · cases hk : isKey m.1 name.toList with
    | false => rfl
    | true => simp [(h _).2 (hh m hm hk)]

theorem tupleOk_iff (v : Json) : tupleOk v = true ↔ IsEntry v := by
  cases v with
  | str s => simp [tupleOk, IsEntry, IsNull]
  | lit w => simp [tupleOk, IsEntry, IsNull]
  | arr vs => simp [tupleOk, IsEntry, IsNull]
  | obj ms =>
    have h1 := each_all ms "address" (fun v => (decStr [] v).2) IsText (decStr_ok [])
    have h2 := each_all ms "storage_keys" strsOk IsTexts strsOk_iff
    simp only [tupleOk, List.all_eq_true, IsEntry, IsNull, Bool.and_eq_true]
    constructor
    · intro h; exact .inr ⟨ms, rfl, h1.1 fun m hm => (h m hm).1, h2.1 fun m hm => (h m hm).2⟩
    · rintro (h | ⟨ms', h, h', h''⟩)
      · cases h
      · cases h; exact fun m hm => ⟨h1.2 h' m hm, h2.2 h'' m hm⟩

theorem accessOk_iff (v : Json) : accessOk v = true ↔ IsAccess v := by
  cases v with
  | str s => simp [accessOk, IsAccess, IsNull]
  | lit w => simp [accessOk, IsAccess, IsNull]
  | obj ms => simp [accessOk, IsAccess, IsNull]
  | arr vs =>
    simp only [accessOk, List.all_eq_true, tupleOk_iff, IsAccess, IsNull]
    constructor
    · intro h; exact .inr ⟨vs, rfl, h⟩
    · rintro (h | ⟨vs', h, h'⟩)
      · cases h
      · cases h; exact h'

theorem decInt_ok (F : Floats) (old : Int) (v : Json) : (decInt F old v).2 = true ↔ IsInt F v := by
  cases v with
  | str s =>
    simp only [decInt, IsInt]
    cases h : F.int s with
    | none =>
      simp only [Bool.false_eq_true, false_iff]
      rintro ⟨s', n, e, e'⟩; cases e; rw [h] at e'; cases e'
    | some n => simp only [true_iff]; exact ⟨s, n, rfl, h⟩
  | lit w => simp [decInt, IsInt]
  | obj ms => simp [decInt, IsInt]
  | arr vs => simp [decInt, IsInt]

theorem decU64_ok (old : Nat) (v : Json) : (decU64 old v).2 = true ↔ IsId v := by
  cases v with
  | str s => simp [decU64, IsId, IsNull]
  | obj ms => simp [decU64, IsId, IsNull]
  | arr vs => simp [decU64, IsId, IsNull]
  | lit w =>
    simp only [decU64, IsId, IsNull]
    by_cases hw : w = "null".toList
    · rw [if_pos hw]; simp only [true_iff]; exact .inl (by rw [hw])
    · rw [if_neg hw]
      cases hp : parseNat w with
      | none =>
        simp only [Bool.false_eq_true, false_iff]
        rintro (h | ⟨w', n, h, h', _⟩)
        · cases h; exact hw rfl
        · cases h; rw [hp] at h'; cases h'
      | some n =>
        simp only
        by_cases hn : n < 18446744073709551616
        · rw [if_pos hn]; simp only [true_iff]; exact .inr ⟨w, n, rfl, hp, hn⟩
        · rw [if_neg hn]
          simp only [Bool.false_eq_true, false_iff]
          rintro (h | ⟨w', n', h, h', h''⟩)
          · cases h; exact hw rfl
          · cases h; rw [hp] at h'; cases h'; exact hn h''

theorem key_lits : "sender".toList ≠ "contract_addr".toList ∧ "sender".toList ≠ "input".toList ∧ "sender".toList ≠ "value".toList ∧
    "sender".toList ≠ "access_list".toList ∧ "contract_addr".toList ≠ "input".toList ∧ "contract_addr".toList ≠ "value".toList ∧
    "contract_addr".toList ≠ "access_list".toList ∧ "input".toList ≠ "value".toList ∧ "input".toList ≠ "access_list".toList ∧
    "value".toList ≠ "access_list".toList := by decide

/-- Whether a member of a message decodes. -/
def msgOk (F : Floats) (m : Str × Json) : Bool :=
  (!isKey m.1 "sender".toList || (decStr [] m.2).2) && (!isKey m.1 "contract_addr".toList || (decStr [] m.2).2) &&
  (!isKey m.1 "input".toList || (decStr [] m.2).2) && (!isKey m.1 "value".toList || (decInt F 0 m.2).2) &&
  (!isKey m.1 "access_list".toList || accessOk m.2)

theorem decStr_any (o o' : Str) (j : Json) : (decStr o j).2 = (decStr o' j).2 := by cases j <;> rfl
theorem decInt_any (F : Floats) (o o' : Int) (j : Json) : (decInt F o j).2 = (decInt F o' j).2 := by
  cases j with
  | str s => simp only [decInt]; cases F.int s <;> rfl
  | _ => rfl
theorem decU64_any (o o' : Nat) (j : Json) : (decU64 o j).2 = (decU64 o' j).2 := by
  have : ((decU64 o j).2 = true) ↔ ((decU64 o' j).2 = true) := by rw [decU64_ok, decU64_ok]
  exact Bool.eq_iff_iff.mpr this

theorem msgMember_ok (F : Floats) (r : MsgCall × Bool) (m : Str × Json) : (msgMember F r m).2 = (r.2 && msgOk F m) := by
  obtain ⟨d1, d2, d3, d4, d5, d6, d7, d8, d9, d10⟩ := key_lits
  unfold msgMember msgOk
  cases h1 : isKey m.1 "sender".toList with
  | true =>
    simp only [Bool.not_false, Bool.not_true, Bool.true_or, Bool.false_or, Bool.and_true, Bool.true_and, if_true, Bool.false_eq_true, if_false, isKey_ne h1 d1, isKey_ne h1 d2, isKey_ne h1 d3, isKey_ne h1 d4, decStr_any r.1.sender []]
  | false =>
    cases h2 : isKey m.1 "contract_addr".toList with
    | true => simp only [Bool.not_false, Bool.not_true, Bool.true_or, Bool.false_or, Bool.and_true, Bool.true_and, if_true, Bool.false_eq_true, if_false, isKey_ne h2 d5, isKey_ne h2 d6, isKey_ne h2 d7, decStr_any r.1.contractAddr []]
    | false =>
      cases h3 : isKey m.1 "input".toList with
      | true => simp only [Bool.not_false, Bool.not_true, Bool.true_or, Bool.false_or, Bool.and_true, Bool.true_and, if_true, Bool.false_eq_true, if_false, isKey_ne h3 d8, isKey_ne h3 d9, decStr_any r.1.input []]
      | false =>
        cases h4 : isKey m.1 "value".toList with
        | true => simp only [Bool.not_false, Bool.not_true, Bool.true_or, Bool.false_or, Bool.and_true, Bool.true_and, if_true, Bool.false_eq_true, if_false, isKey_ne h4 d10, decInt_any F r.1.value 0]
        | false =>
          cases h5 : isKey m.1 "access_list".toList <;> simp only [Bool.not_false, Bool.not_true, Bool.true_or, Bool.false_or, Bool.and_true, Bool.true_and, if_true, Bool.false_eq_true, if_false]

theorem decMsg_iff (F : Floats) (old : Option MsgCall) (v : Json) : (decMsg F old v).2 = true ↔ IsMessage F v := by
  cases v with
  | str s => simp [decMsg, IsMessage, IsNull]
  | arr vs => simp [decMsg, IsMessage, IsNull]
  | lit w =>
    by_cases hw : w = "null".toList
    · simp [decMsg, IsMessage, IsNull, hw]
    · simp only [decMsg, if_neg hw, IsMessage, IsNull, Bool.false_eq_true, false_iff]
      rintro (h | ⟨ms, h, _⟩)
      · cases h; exact hw rfl
      · cases h
  | obj ms =>
    have h1 := each_all ms "sender" (fun v => (decStr [] v).2) IsText (decStr_ok [])
    have h2 := each_all ms "contract_addr" (fun v => (decStr [] v).2) IsText (decStr_ok [])
    have h3 := each_all ms "input" (fun v => (decStr [] v).2) IsText (decStr_ok [])
    have h4 := each_all ms "value" (fun v => (decInt F 0 v).2) (IsInt F) (decInt_ok F 0)
    have h5 := each_all ms "access_list" accessOk IsAccess accessOk_iff
    simp only [decMsg, fold_all (msgMember_ok F), Bool.true_and, List.all_eq_true, msgOk, Bool.and_eq_true, IsMessage, IsNull]
    constructor
    · intro h
      exact .inr ⟨ms, rfl, h1.1 fun m hm => (h m hm).1.1.1.1, h2.1 fun m hm => (h m hm).1.1.1.2, h3.1 fun m hm => (h m hm).1.1.2,
        h4.1 fun m hm => (h m hm).1.2, h5.1 fun m hm => (h m hm).2⟩
    · rintro (h | ⟨ms', h, k1, k2, k3, k4, k5⟩)
      · cases h
      · cases h
        exact fun m hm => ⟨⟨⟨⟨h1.2 k1 m hm, h2.2 k2 m hm⟩, h3.2 k3 m hm⟩, h4.2 k4 m hm⟩, h5.2 k5 m hm⟩

/-- Whether a member of a callback decodes. -/
def cbOk (m : Str × Json) : Bool :=
  (!isKey m.1 "id".toList || (decU64 0 m.2).2) && (!isKey m.1 "contract_address".toList || (decStr [] m.2).2)

theorem cbMember_ok (r : AsyncCallback × Bool) (m : Str × Json) : (cbMember r m).2 = (r.2 && cbOk m) := by
  unfold cbMember cbOk
  cases h1 : isKey m.1 "id".toList with
  | true => simp only [Bool.not_false, Bool.not_true, Bool.true_or, Bool.false_or, Bool.and_true, Bool.true_and, if_true, Bool.false_eq_true, if_false, isKey_ne h1 id_ne_contract, decU64_any r.1.id 0]
  | false =>
    cases h2 : isKey m.1 "contract_address".toList with
    | true => simp only [Bool.not_false, Bool.not_true, Bool.true_or, Bool.false_or, Bool.and_true, Bool.true_and, if_true, Bool.false_eq_true, if_false, decStr_any r.1.contractAddress []]
    | false => simp only [Bool.not_false, Bool.not_true, Bool.true_or, Bool.false_or, Bool.and_true, Bool.true_and, if_true, Bool.false_eq_true, if_false]

theorem decCb_iff (old : Option AsyncCallback) (v : Json) : (decCb old v).2 = true ↔ IsCallback v := by
  cases v with
  | str s => simp [decCb, IsCallback, IsNull]
  | arr vs => simp [decCb, IsCallback, IsNull]
  | lit w =>
    by_cases hw : w = "null".toList
    · simp [decCb, IsCallback, IsNull, hw]
    · simp only [decCb, if_neg hw, IsCallback, IsNull, Bool.false_eq_true, false_iff]
      rintro (h | ⟨ms, h, _⟩)
      · cases h; exact hw rfl
      · cases h
  | obj ms =>
    have h1 := each_all ms "id" (fun v => (decU64 0 v).2) IsId (decU64_ok 0)
    have h2 := each_all ms "contract_address" (fun v => (decStr [] v).2) IsText (decStr_ok [])
    simp only [decCb, fold_all cbMember_ok, Bool.true_and, List.all_eq_true, cbOk, Bool.and_eq_true, IsCallback, IsNull]
    constructor
    · intro h; exact .inr ⟨ms, rfl, h1.1 fun m hm => (h m hm).1, h2.1 fun m hm => (h m hm).2⟩
    · rintro (h | ⟨ms', h, k1, k2⟩)
      · cases h
      · cases h; exact fun m hm => ⟨h1.2 k1 m hm, h2.2 k2 m hm⟩

/-- Whether a member of the instructions decodes. -/
def hookOk (F : Floats) (m : Str × Json) : Bool :=
  (!isKey m.1 "message".toList || (decMsg F none m.2).2) && (!isKey m.1 "async_callback".toList || (decCb none m.2).2)

theorem hookMember_ok (F : Floats) (r : HookData × Bool) (m : Str × Json) : (hookMember F r m).2 = (r.2 && hookOk F m) := by
  unfold hookMember hookOk
  cases h1 : isKey m.1 "message".toList with
  | true => simp only [Bool.not_false, Bool.not_true, Bool.true_or, Bool.false_or, Bool.and_true, Bool.true_and, if_true, Bool.false_eq_true, if_false, isKey_ne h1 message_ne_callback, decMsg_ok F r.1.message none]
  | false =>
    cases h2 : isKey m.1 "async_callback".toList with
    | true => simp only [Bool.not_false, Bool.not_true, Bool.true_or, Bool.false_or, Bool.and_true, Bool.true_and, if_true, Bool.false_eq_true, if_false, decCb_ok r.1.asyncCallback none]
    | false => simp only [Bool.not_false, Bool.not_true, Bool.true_or, Bool.false_or, Bool.and_true, Bool.true_and, if_true, Bool.false_eq_true, if_false]

/-- **C86** (which instructions are accepted): what a memo holds under `evm` (after re-encoding) is accepted as instructions for the
hook exactly if it is `null`, or an object whose members named `message` and `async_callback` — letter case aside, all of them — are
each `null` or an object with texts, numbers and lists where the hook expects them. Members of other names may be anything. -/
theorem C86_accepts (F : Floats) (v : Json) : (decodeHook F v).2 = true ↔ IsHook F v := by
  cases v with
  | str s => simp [decodeHook, IsHook, IsNull]
  | arr vs => simp [decodeHook, IsHook, IsNull]
  | lit w => simp [decodeHook, IsHook, IsNull]
  | obj ms =>
    have h1 := each_all ms "message" (fun v => (decMsg F none v).2) (IsMessage F) (decMsg_iff F none)
    have h2 := each_all ms "async_callback" (fun v => (decCb none v).2) IsCallback (decCb_iff none)
    simp only [decodeHook, fold_all (hookMember_ok F), Bool.true_and, List.all_eq_true, hookOk, Bool.and_eq_true, IsHook, IsNull]
    constructor
    · intro h; exact .inr ⟨ms, rfl, h1.1 fun m hm => (h m hm).1, h2.1 fun m hm => (h m hm).2⟩
    · rintro (h | ⟨ms', h, k1, k2⟩)
      · cases h
      · cases h; exact fun m hm => ⟨h1.2 k1 m hm, h2.2 k2 m hm⟩

/-! ### What it says -/

/-- The last of the values a reading finds among the members of a name, or an old one. -/
def lastOr {α : Type} (read : Json → Option α) (old : α) (ms : List (Str × Json)) (name : String) : α :=
  ((named ms name).filterMap read).getLast?.getD old

theorem getLast_cons_getD {α : Type} (x old : α) (l : List α) : (x :: l).getLast?.getD old = l.getLast?.getD x := by
  cases l with
  | nil => rfl
  | cons y l => rw [List.getLast?_cons_cons]; cases h : (y :: l).getLast? with
    | none => simp at h
    | some z => rfl

theorem lastOr_cons {α : Type} (read : Json → Option α) (old : α) (m : Str × Json) (ms : List (Str × Json)) (name : String) :
    lastOr read old (m :: ms) name =
      lastOr read (if isKey m.1 name.toList then (read m.2).getD old else old) ms name := by
  unfold lastOr named
  cases h : isKey m.1 name.toList with
  | false => rw [List.filter_cons_of_neg (by rw [sameName_isKey, h]; decide)]; rfl
  | true =>
    rw [List.filter_cons_of_pos (by rw [sameName_isKey, h]), List.map_cons]
    cases hr : read m.2 with
    | none => rw [List.filterMap_cons_none hr]; rfl
    | some x => rw [List.filterMap_cons_some hr, getLast_cons_getD]; rfl

theorem lastOr_append {α : Type} (read : Json → Option α) (name : String) : ∀ (a b : List (Str × Json)) (old : α),
    lastOr read old (a ++ b) name = lastOr read (lastOr read old a name) b name
  | [], b, old => rfl
  | m :: a, b, old => by rw [List.cons_append, lastOr_cons, lastOr_append read name a b, lastOr_cons]

def readStr : Json → Option Str := fun v => match v with | .str s => some s | _ => none
def readInt (F : Floats) : Json → Option Int := fun v => match v with | .str s => F.int s | _ => none
def readId : Json → Option Nat := fun v => match v with
  | .lit w => (parseNat w).filter fun n => decide (n < 2 ^ 64)
  | _ => none

theorem decStr_read (old : Str) (v : Json) : (decStr old v).1 = (readStr v).getD old := by cases v <;> rfl
theorem decInt_read (F : Floats) (old : Int) (v : Json) : (decInt F old v).1 = (readInt F v).getD old := by
  cases v with
  | str s => simp only [decInt, readInt]; cases F.int s <;> rfl
  | _ => rfl
theorem decU64_read (old : Nat) (v : Json) : (decU64 old v).1 = (readId v).getD old := by
  cases v with
  | lit w =>
    simp only [decU64, readId]
    by_cases hw : w = "null".toList
    · rw [if_pos hw, hw, show parseNat "null".toList = none by decide]; rfl
    · rw [if_neg hw]
      cases parseNat w with
      | none => rfl
      | some n =>
        simp only [Option.filter, show (2 : Nat) ^ 64 = 18446744073709551616 from rfl]
        by_cases hn : n < 18446744073709551616
        · rw [if_pos hn]; simp [hn]
        · rw [if_neg hn]; simp [hn]
  | _ => rfl

/-- The message the members give, over an old one. -/
def fillMsg (F : Floats) (o : MsgCall) (ms : List (Str × Json)) : MsgCall :=
  ⟨lastOr readStr o.sender ms "sender", lastOr readStr o.contractAddr ms "contract_addr", lastOr readStr o.input ms "input",
    lastOr (readInt F) o.value ms "value"⟩

theorem fold_msg (F : Floats) : ∀ (ms : List (Str × Json)) (r : MsgCall × Bool), (ms.foldl (msgMember F) r).1 = fillMsg F r.1 ms
  | [], r => rfl
  | m :: ms, r => by
    obtain ⟨d1, d2, d3, d4, d5, d6, d7, d8, d9, d10⟩ := key_lits
    rw [List.foldl_cons, fold_msg F ms]
    unfold fillMsg
    simp only [lastOr_cons]
    congr 1
    all_goals congr 1
    · unfold msgMember
      cases h1 : isKey m.1 "sender".toList with
      | true => simp only [Bool.not_false, Bool.not_true, Bool.true_or, Bool.false_or, Bool.and_true, Bool.true_and, if_true, Bool.false_eq_true, if_false, decStr_read]
      | false => simp only [Bool.false_eq_true, if_false]; (repeat' split) <;> rfl
    · cases h2 : isKey m.1 "contract_addr".toList with
      | true =>
        have h1 := isKey_ne h2 d1.symm
        unfold msgMember; simp only [Bool.not_false, Bool.not_true, Bool.true_or, Bool.false_or, Bool.and_true, Bool.true_and, if_true, Bool.false_eq_true, if_false, h1, h2, decStr_read]
      | false => unfold msgMember; simp only [h2, Bool.false_eq_true, if_false]; (repeat' split) <;> rfl
    · cases h3 : isKey m.1 "input".toList with
      | true =>
        have h1 := isKey_ne h3 d2.symm
        have h2 := isKey_ne h3 d5.symm
        unfold msgMember; simp only [Bool.not_false, Bool.not_true, Bool.true_or, Bool.false_or, Bool.and_true, Bool.true_and, if_true, Bool.false_eq_true, if_false, h1, h2, h3, decStr_read]
      | false => unfold msgMember; simp only [h3, Bool.false_eq_true, if_false]; (repeat' split) <;> rfl
    · cases h4 : isKey m.1 "value".toList with
      | true =>
        have h1 := isKey_ne h4 d3.symm
        have h2 := isKey_ne h4 d6.symm
        have h3 := isKey_ne h4 d8.symm
        unfold msgMember; simp only [Bool.not_false, Bool.not_true, Bool.true_or, Bool.false_or, Bool.and_true, Bool.true_and, if_true, Bool.false_eq_true, if_false, h1, h2, h3, h4, decInt_read]
      | false => unfold msgMember; simp only [h4, Bool.false_eq_true, if_false]; (repeat' split) <;> rfl

/-- The callback the members give, over an old one. -/
def fillCb (o : AsyncCallback) (ms : List (Str × Json)) : AsyncCallback :=
  ⟨lastOr readId o.id ms "id", lastOr readStr o.contractAddress ms "contract_address"⟩

theorem fold_cb : ∀ (ms : List (Str × Json)) (r : AsyncCallback × Bool), (ms.foldl cbMember r).1 = fillCb r.1 ms
  | [], r => rfl
  | m :: ms, r => by
    rw [List.foldl_cons, fold_cb ms]
    unfold fillCb
    simp only [lastOr_cons]
    congr 1
    all_goals congr 1
    · unfold cbMember
      cases h1 : isKey m.1 "id".toList with
      | true => simp only [Bool.not_false, Bool.not_true, Bool.true_or, Bool.false_or, Bool.and_true, Bool.true_and, if_true, Bool.false_eq_true, if_false, decU64_read]
      | false => simp only [Bool.false_eq_true, if_false]; (repeat' split) <;> rfl
    · cases h2 : isKey m.1 "contract_address".toList with
      | true =>
        have h1 := isKey_ne h2 id_ne_contract.symm
        unfold cbMember; simp only [Bool.not_false, Bool.not_true, Bool.true_or, Bool.false_or, Bool.and_true, Bool.true_and, if_true, Bool.false_eq_true, if_false, h1, h2, decStr_read]
      | false => unfold cbMember; simp only [h2, Bool.false_eq_true, if_false]; (repeat' split) <;> rfl

theorem fold_named {S B : Type} (f : S → Str × Json → S) (π : S → B) (g : B → Json → B) (name : String)
    (hit : ∀ s m, isKey m.1 name.toList = true → π (f s m) = g (π s) m.2)
    (miss : ∀ s m, isKey m.1 name.toList = false → π (f s m) = π s) : ∀ (ms : List (Str × Json)) (s : S),
    π (ms.foldl f s) = (named ms name).foldl g (π s)
  | [], s => rfl
  | m :: ms, s => by
    rw [List.foldl_cons, fold_named f π g name hit miss ms]
    unfold named
    cases h : isKey m.1 name.toList with
    | true => rw [List.filter_cons_of_pos (by rw [sameName_isKey, h]), List.map_cons, List.foldl_cons, hit s m h]
    | false => rw [List.filter_cons_of_neg (by rw [sameName_isKey, h]; decide), miss s m h]

/-- Pointers: `null` gives nil, objects fill what is there or a new struct. -/
theorem fold_pointer {B : Type} (dec : Option B → Json → Option B) (zero : B) (fill : B → List (Str × Json) → B)
    (hnull : ∀ o, dec o (.lit "null".toList) = none) (hobj : ∀ o ms, dec o (.obj ms) = some (fill (o.getD zero) ms))
    (happ : ∀ o a b, fill (fill o a) b = fill o (a ++ b)) (hnil : ∀ o, fill o [] = o) : ∀ (vs : List Json) (acc : List (List (Str × Json))),
    (∀ v ∈ vs, IsNull v ∨ ∃ ms, v = .obj ms) →
    vs.foldl dec (if acc = [] then none else some (fill zero acc.flatten)) =
      let M := vs.foldl (fun acc v => match v with | .obj ms => acc ++ [ms] | _ => []) acc
      if M = [] then none else some (fill zero M.flatten)
  | [], acc, _ => rfl
  | v :: vs, acc, h => by
    rw [List.foldl_cons, List.foldl_cons]
    rcases h v (by simp) with rfl | ⟨ms, rfl⟩
    · rw [hnull]
      exact fold_pointer dec zero fill hnull hobj happ hnil vs [] fun v hv => h v (by simp [hv])
    · rw [hobj]
      have := fold_pointer dec zero fill hnull hobj happ hnil vs (acc ++ [ms]) fun v hv => h v (by simp [hv])
      simp only at this
      rw [← this]
      have hne : acc ++ [ms] ≠ [] := by simp
      rw [if_neg hne, List.flatten_append, ← happ]
      by_cases ha : acc = []
      · subst ha; simp [hnil]
      · rw [if_neg ha]; simp

/-- **C86** (what accepted instructions say): the message has the last text given for the sender, the contract and the input and the last
integer given for the value, each empty or 0 if none is given; the callback likewise has the last id and contract. If a member of the
name is repeated in another letter case, the later fills up the earlier; a `null` takes back what came before it. -/
theorem C86_decodes (F : Floats) (ms : List (Str × Json)) (h : IsHook F (.obj ms)) :
    ((decodeHook F (.obj ms)).1.message =
      let M := sinceNull (named ms "message")
      if M = [] then none else some ⟨lastText M.flatten "sender", lastText M.flatten "contract_addr", lastText M.flatten "input",
        lastInt F M.flatten "value"⟩) ∧
    ((decodeHook F (.obj ms)).1.asyncCallback =
      let M := sinceNull (named ms "async_callback")
      if M = [] then none else some ⟨lastId M.flatten "id", lastText M.flatten "contract_address"⟩) := by
  rcases h with h | ⟨ms', h, h1, h2⟩
  · cases h
  cases h
  have vals : ∀ (name : String) (P : Json → Prop), Each ms name P → ∀ v ∈ named ms name, P v := by
    intro name P he v hv
    obtain ⟨m, hm, rfl⟩ := List.mem_map.1 hv
    obtain ⟨hm, hk⟩ := List.mem_filter.1 hm
    exact he m hm hk
  constructor
  · have e := fold_named (hookMember F) (fun r => r.1.message) (fun o v => (decMsg F o v).1) "message"
      (by intro s m hk; unfold hookMember; rw [if_pos hk])
      (by intro s m hk; unfold hookMember; rw [if_neg (by rw [hk]; decide)]; split <;> rfl) ms (⟨none, none⟩, true)
    have p := fold_pointer (fun o v => (decMsg F o v).1) zeroMsg (fillMsg F) (fun o => rfl)
      (fun o l => by simp only [decMsg]; rw [fold_msg])
      (fun o a b => by simp only [fillMsg, lastOr_append]) (fun o => rfl) (named ms "message") []
      (fun v hv => by
        rcases vals _ _ h1 v hv with hn | ⟨l, hl, _⟩
        · exact .inl hn
        · exact .inr ⟨l, hl⟩)
    exact e.trans p
  · have e := fold_named (hookMember F) (fun r => r.1.asyncCallback) (fun o v => (decCb o v).1) "async_callback"
      (by intro s m hk; unfold hookMember; rw [if_neg (by rw [isKey_ne hk message_ne_callback.symm]; decide), if_pos hk])
      (by intro s m hk; unfold hookMember
          split
          · rfl
          · rw [if_neg (by rw [hk]; decide)]) ms (⟨none, none⟩, true)
    have p := fold_pointer (fun o v => (decCb o v).1) ⟨0, []⟩ fillCb (fun o => rfl)
      (fun o l => by simp only [decCb]; rw [fold_cb])
      (fun o a b => by simp only [fillCb, lastOr_append]) (fun o => rfl) (named ms "async_callback") []
      (fun v hv => by
        rcases vals _ _ h2 v hv with hn | ⟨l, hl, _⟩
        · exact .inl hn
        · exact .inr ⟨l, hl⟩)
    exact e.trans p

/-! ### What re-encoding leaves alone -/

theorem keyLt_irrefl : ∀ a : Str, keyLt a a = false
  | [] => rfl
  | a :: as => by simp [keyLt, keyLt_irrefl as]

theorem keyLt_prefix : ∀ (p a b : Str), keyLt (p ++ a) (p ++ b) = keyLt a b
  | [], _, _ => rfl
  | c :: p, a, b => by simp [keyLt, keyLt_prefix p a b]

theorem keyLt_of_before {a b : Str} (h : Before a b) : a ≠ b ∧ keyLt b a = false := by
  rcases h with ⟨c, t, rfl⟩ | ⟨p, x, y, s, t, rfl, rfl, hxy⟩
  · refine ⟨?_, ?_⟩
    · intro e
      have := congrArg List.length e
      simp at this
    · have := keyLt_prefix a (c :: t) []
      rw [List.append_nil] at this
      rw [this]; rfl
  · refine ⟨?_, ?_⟩
    · intro e
      have := List.append_cancel_left e
      injection this with e1 _
      subst e1; omega
    · rw [keyLt_prefix]
      have : (y == x) = false := by
        apply Bool.eq_false_iff.2
        intro e
        have := eq_of_beq e
        subst this; omega
      simp only [keyLt, this, Bool.false_and, Bool.or_false, decide_eq_false_iff_not]
      omega

theorem put_last (k : Str) (v : Json) : ∀ acc : List (Str × Json), (∀ m ∈ acc, Before m.1 k) → put k v acc = acc ++ [(k, v)]
  | [], _ => rfl
  | m :: acc, h => by
    obtain ⟨h1, h2⟩ := keyLt_of_before (h m (by simp))
    rw [put, if_neg (Ne.symm h1), if_neg (by rw [h2]; decide), put_last k v acc fun m hm => h m (by simp [hm])]
    rfl

theorem ifaceList_same (F : Floats) : ∀ vs : List Json, (∀ v ∈ vs, iface F v = some v) → ifaceList F vs = some vs
  | [], _ => by rw [ifaceList]
  | v :: vs, h => by
    rw [ifaceList, h v (by simp), ifaceList_same F vs fun v hv => h v (by simp [hv])]
    rfl

theorem ifaceMembers_same (F : Floats) : ∀ (ms acc : List (Str × Json)), (∀ m ∈ ms, iface F m.2 = some m.2) →
    (acc ++ ms).Pairwise (fun a b => Before a.1 b.1) → ifaceMembers F ms acc = some (acc ++ ms)
  | [], acc, _, _ => by rw [ifaceMembers, List.append_nil]
  | (k, v) :: ms, acc, h, hp => by
    rw [ifaceMembers, h (k, v) (by simp), Option.bind_some, put_last k v acc, ifaceMembers_same F ms]
    · simp
    · exact fun m hm => h m (by simp [hm])
    · simpa using hp
    · intro m hm
      exact (List.pairwise_append.1 hp).2.2 m hm (k, v) (by simp)

/-- **C86** (re-encoding is faithful to plain values). What the hook reads from a memo whose numbers are natural numbers up to 2^53 and
whose objects have their members in order is what the memo says: lists keep their order and nothing is lost or added. -/
theorem C86_canonical (F : Floats) {v : Json} (h : Plain v) : iface F v = some v := by
  induction h with
  | text s => rw [iface]
  | word w hw =>
    rw [iface]
    rcases hw with rfl | rfl | rfl <;> rfl
  | number n hn => rw [iface_dec F n (by omega), shortest_small n hn]
  | list vs _ ih => rw [iface, ifaceList_same F vs ih]; rfl
  | object ms _ hp ih => rw [iface, ifaceMembers_same F ms [] ih (by simpa using hp)]; rfl

/-! ### Cases -/

/-- A callback and a message with an access list of one entry. -/
def toyHook : Json := .obj [
  ("async_callback".toList, .obj [("contract_address".toList, .str "0x5".toList), ("id".toList, .lit "7".toList)]),
  ("message".toList, .obj [
    ("access_list".toList, .arr [.obj [("address".toList, .str "0x6".toList), ("storage_keys".toList, .arr [.str "1".toList, .str "2".toList])]]),
    ("contract_addr".toList, .str "0x5".toList), ("input".toList, .str "0xab".toList), ("value".toList, .str "3".toList)])]

example : IsHook toyFloats toyHook := (C86_accepts toyFloats toyHook).1 (by decide +kernel)

example : (decodeHook toyFloats toyHook).1 =
    ⟨some ⟨[], "0x5".toList, "0xab".toList, 3⟩, some ⟨7, "0x5".toList⟩⟩ := by rfl

example : Plain (.obj [("a".toList, .arr [.lit (natStr 3), .str "x".toList]), ("b".toList, .lit "true".toList)]) := by
  refine .object _ ?_ ?_
  · intro m hm
    simp only [List.mem_cons, List.not_mem_nil, or_false] at hm
    rcases hm with rfl | rfl
    · refine .list _ fun v hv => ?_
      simp only [List.mem_cons, List.not_mem_nil, or_false] at hv
      rcases hv with rfl | rfl
      · exact .number 3 (by decide)
      · exact .text _
    · exact .word _ (.inl rfl)
  · refine List.Pairwise.cons ?_ (List.Pairwise.cons (by simp) .nil)
    intro m hm
    simp only [List.mem_cons, List.not_mem_nil, or_false] at hm
    subst hm
    exact .inr ⟨[], 'a', 'b', [], [], rfl, rfl, by decide⟩

end Verif.Memo
