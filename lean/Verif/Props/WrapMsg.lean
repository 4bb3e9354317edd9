import Verif.Model.WrapMsg
/-
C83: the IBC transfer sent by the ERC20 wrapper.
-/
namespace Verif.Props.WrapMsg
open Verif Verif.Text Verif.WrapMsg

/-! ### Numbers as text -/

theorem logStep_inv (k : Nat) (v0 : Nat) (p : Nat × Nat) (h1 : 10 ^ p.2 * p.1 ≤ v0) (h2 : v0 < 10 ^ p.2 * (p.1 + 1))
    (h3 : p.1 < 10 ^ (2 * k)) (h0 : 0 < p.1) :
    10 ^ (logStep k p).2 * (logStep k p).1 ≤ v0 ∧ v0 < 10 ^ (logStep k p).2 * ((logStep k p).1 + 1) ∧
      (logStep k p).1 < 10 ^ k ∧ 0 < (logStep k p).1 := by
  unfold logStep
  have hk : 0 < 10 ^ k := Nat.pow_pos (by omega)
  by_cases h : 10 ^ k ≤ p.1
  · rw [if_pos h]
    have e := Nat.div_add_mod p.1 (10 ^ k)
    have hl := Nat.mod_lt p.1 hk
    refine ⟨?_, ?_, ?_, Nat.div_pos h hk⟩
    · show 10 ^ (p.2 + k) * (p.1 / 10 ^ k) ≤ v0
      rw [Nat.pow_add, Nat.mul_assoc]
      exact Nat.le_trans (Nat.mul_le_mul_left _ (by omega)) h1
    · show v0 < 10 ^ (p.2 + k) * (p.1 / 10 ^ k + 1)
      rw [Nat.pow_add, Nat.mul_assoc]
      refine Nat.lt_of_lt_of_le h2 (Nat.mul_le_mul_left _ ?_)
      rw [Nat.mul_add, Nat.mul_one]
      omega
    · show p.1 / 10 ^ k < 10 ^ k
      rw [Nat.div_lt_iff_lt_mul hk, ← Nat.pow_add]
      have : k + k = 2 * k := by omega
      rw [this]; exact h3
  · rw [if_neg h]
    exact ⟨h1, h2, by omega, h0⟩

/-- `log10` is the integer logarithm, for every value below 10^128 (and so for every `uint256`). -/
theorem log10_spec (v : Nat) (h0 : 0 < v) (hv : v < 10 ^ 128) : 10 ^ log10 v ≤ v ∧ v < 10 ^ (log10 v + 1) := by
  have i0 := logStep_inv 64 v (v, 0) (by simp) (by simp) hv h0
  have i1 := logStep_inv 32 v _ i0.1 i0.2.1 i0.2.2.1 i0.2.2.2
  have i2 := logStep_inv 16 v _ i1.1 i1.2.1 i1.2.2.1 i1.2.2.2
  have i3 := logStep_inv 8 v _ i2.1 i2.2.1 i2.2.2.1 i2.2.2.2
  have i4 := logStep_inv 4 v _ i3.1 i3.2.1 i3.2.2.1 i3.2.2.2
  have i5 := logStep_inv 2 v _ i4.1 i4.2.1 i4.2.2.1 i4.2.2.2
  unfold log10
  revert i5
  generalize logStep 2 _ = p
  intro i5
  obtain ⟨a, b, c, d⟩ := i5
  have hp : 0 < 10 ^ p.2 := Nat.pow_pos (by omega)
  by_cases h : 10 ≤ p.1
  · simp only [if_pos h]
    constructor
    · rw [Nat.pow_succ]
      exact Nat.le_trans (Nat.mul_le_mul_left _ h) a
    · have e : 10 ^ (p.2 + 1 + 1) = 10 ^ p.2 * 100 := by rw [Nat.pow_succ, Nat.pow_succ, Nat.mul_assoc]
      rw [e]
      exact Nat.lt_of_lt_of_le b (Nat.mul_le_mul_left _ (by omega))
  · simp only [if_neg h]
    constructor
    · exact Nat.le_trans (by have := Nat.mul_le_mul_left (10 ^ p.2) d; omega) a
    · rw [Nat.pow_succ]
      exact Nat.lt_of_lt_of_le b (Nat.mul_le_mul_left _ (by omega))

theorem hexDigit_dec : ∀ n, n < 10 → hexDigit n = decDigit n := by decide

theorem digitLoop_spec : ∀ (d v : Nat) (tail : Str), v < 10 ^ (d + 1) → (d ≠ 0 → 10 ^ d ≤ v) →
    digitLoop (d + 1) v tail = some (natStr v ++ tail)
  | 0, v, tail, hv, _ => by
    have h : v < 10 := by simpa using hv
    have e : v / 10 = 0 := by omega
    have m : v % 10 = v := by omega
    rw [natStr, dif_pos h]
    simp [digitLoop, e, m, hexDigit_dec v h]
  | d + 1, v, tail, hv, hl => by
    have hl := hl (by omega)
    have hd : 0 < 10 ^ d := Nat.pow_pos (by omega)
    rw [Nat.pow_succ] at hl
    rw [Nat.pow_succ] at hv
    have h : ¬ v < 10 := by
      have : 10 ≤ 10 ^ d * 10 := by omega
      omega
    have e : v / 10 ≠ 0 := by omega
    have ih := digitLoop_spec d (v / 10) (hexDigit (v % 10) :: tail)
      ((Nat.div_lt_iff_lt_mul (by omega)).2 hv) (fun _ => (Nat.le_div_iff_mul_le (by omega)).2 hl)
    rw [natStr, dif_neg h]
    rw [digitLoop, if_neg e, ih, hexDigit_dec _ (by omega)]
    simp

/-- C83: `Strings.toString` of every 256-bit number is its decimal text: nothing is written before the buffer, no byte
of it is left over, and reading the text back gives the number. -/
theorem C83_decimal (v : Nat) (hv : v < 2 ^ 256) : decText v = some (natStr v) ∧ parseNat (natStr v) = some v := by
  refine ⟨?_, parseNat_natStr v⟩
  unfold decText
  by_cases h0 : v = 0
  · subst h0
    rw [natStr, dif_pos (by omega)]
    decide +kernel
  · have hb : v < 10 ^ 128 := Nat.lt_of_lt_of_le hv (by decide +kernel)
    have hs := log10_spec v (by omega) hb
    rw [digitLoop_spec _ _ _ hs.2 (fun _ => hs.1), List.append_nil]

theorem hexLoop_add (n v : Nat) (b : UInt8) (tail : Str) :
    hexLoop (n + 2) (v * 256 + b.toNat) tail = hexLoop n v (hexDigit (b.toNat / 16) :: hexDigit (b.toNat % 16) :: tail) := by
  have hb := b.toNat_lt
  have e1 : (v * 256 + b.toNat) % 16 = b.toNat % 16 := by omega
  have e2 : (v * 256 + b.toNat) / 16 % 16 = b.toNat / 16 := by omega
  have e3 : (v * 256 + b.toNat) / 16 / 16 = v := by omega
  rw [show n + 2 = (n + 1) + 1 from rfl, hexLoop, hexLoop, e1, e2, e3]

theorem hexEnc_append (a b : Bytes) : hexEnc (a ++ b) = hexEnc a ++ hexEnc b := by
  induction a with
  | nil => rfl
  | cons x xs ih => simp [hexEnc, ih]

theorem hexLoop_spec (b : Bytes) : ∀ tail, hexLoop (2 * b.length) (fromBE b) tail = (hexEnc b ++ tail, 0) := by
  rw [← List.reverse_reverse b]
  induction b.reverse with
  | nil => intro tail; rfl
  | cons x xs ih =>
    intro tail
    rw [List.reverse_cons, fromBE_append_singleton]
    rw [show 2 * (xs.reverse ++ [x]).length = 2 * xs.reverse.length + 2 by simp; omega]
    rw [hexLoop_add, ih, hexEnc_append]
    simp [hexEnc]

/-- C83: `Strings.toHexString` of every address is `0x` and the hex text of its 20 bytes, and never reverts. -/
theorem C83_hex (a : Addr) : addrToHexString a = some (encode0x a.bytes) := by
  have h := hexLoop_spec a.bytes []
  rw [a.len, List.append_nil] at h
  unfold addrToHexString toHexString
  rw [h]
  rfl

theorem hexLoop_rest : ∀ (n v : Nat) (tail : Str), (hexLoop n v tail).2 = v / 16 ^ n
  | 0, v, tail => by simp [hexLoop]
  | n + 1, v, tail => by
    rw [hexLoop, hexLoop_rest n, Nat.div_div_eq_div_mul, Nat.pow_succ, Nat.mul_comm]

/-- C83: `toHexString(value, length)` reverts exactly when the value does not fit. -/
theorem C83_hex_fits (v n : Nat) : (toHexString v n).isSome ↔ v < 256 ^ n := by
  unfold toHexString
  have e := hexLoop_rest (2 * n) v []
  have e2 : (16 : Nat) ^ (2 * n) = 256 ^ n := by rw [Nat.pow_mul]
  rw [e2] at e
  have hp : 0 < 256 ^ n := Nat.pow_pos (by omega)
  by_cases h : v < 256 ^ n
  · have z : (hexLoop (2 * n) v []).2 = 0 := by rw [e]; exact Nat.div_eq_of_lt h
    simp [z, h]
  · have z : (hexLoop (2 * n) v []).2 ≠ 0 := by
      rw [e]; have := Nat.div_pos (by omega : 256 ^ n ≤ v) hp; omega
    simp [z, h]

/-! ### Reading the text -/

/-- A text without quotes, backslashes and control characters. -/
def Plain (s : Str) : Prop := ∀ c ∈ s, c ≠ '"' ∧ c ≠ '\\' ∧ 32 ≤ c.toNat

/-- The scanner and parser over a piece of text that does not complete the value. -/
def eat : Mode → List Frame × Expect → Str → Option (Mode × List Frame × Expect)
  | m, p, [] => some (m, p)
  | m, p, c :: cs =>
    match scan m c with
    | none => none
    | some (m', ts) =>
      match steps p ts with
      | none => none
      | some (_, .done _) => none
      | some q => eat m' q cs

theorem firstFrom_eat : ∀ (s : Str) (m m' : Mode) (p p' : List Frame × Expect) (r : Str),
    eat m p s = some (m', p') → firstFrom m p (s ++ r) = firstFrom m' p' r
  | [], m, m', p, p', r, h => by
    simp only [eat, Option.some.injEq, Prod.mk.injEq] at h
    rw [h.1, h.2, List.nil_append]
  | c :: cs, m, m', p, p', r, h => by
    rw [eat] at h
    rw [List.cons_append, firstFrom]
    cases hs : scan m c with
    | none => rw [hs] at h; simp at h
    | some x =>
      obtain ⟨m1, ts⟩ := x
      rw [hs] at h
      simp only at h ⊢
      cases ht : steps p ts with
      | none => rw [ht] at h; simp at h
      | some q =>
        rw [ht] at h
        obtain ⟨st, ex⟩ := q
        cases ex <;> first | exact firstFrom_eat cs m1 m' _ p' r h | simp at h

theorem eat_plain (st : List Frame) (ex : Expect) (hx : ∀ v, ex ≠ .done v) : ∀ (s acc : Str), Plain s →
    eat (.str acc) (st, ex) s = some (.str (acc ++ s), st, ex)
  | [], acc, _ => by simp [eat]
  | c :: cs, acc, h => by
    obtain ⟨h1, h2, h3⟩ := h c (by simp)
    have ih := eat_plain st ex hx cs (acc ++ [c]) fun d hd => h d (by simp [hd])
    have hs : scan (.str acc) c = some (.str (acc ++ [c]), []) := by
      have : ¬ c.toNat < 32 := by omega
      simp [scan, h1, h2, this]
    rw [eat, hs]
    simp only [steps]
    cases ex with
    | done v => exact absurd rfl (hx v)
    | _ => simp only [ih]; simp

theorem natStr_plain (n : Nat) : Plain (natStr n) := by
  intro c hc
  obtain ⟨d, hd, e⟩ := natStr_head n c hc
  subst e
  clear hc
  revert d
  decide

theorem encode0x_plain (b : Bytes) : Plain (encode0x b) := by
  intro c hc
  simp only [encode0x, List.mem_cons] at hc
  rcases hc with e | e | e
  · subst e; decide
  · subst e; decide
  · obtain ⟨d, hd, rfl⟩ := hexEnc_digits b c e
    clear e
    revert d
    decide

theorem eat_append : ∀ (s : Str) {t : Str} {m m1 : Mode} {p p1 : List Frame × Expect}
    {r : Mode × List Frame × Expect}, eat m p s = some (m1, p1) → eat m1 p1 t = some r → eat m p (s ++ t) = some r
  | [], t, m, m1, p, p1, r, h, h2 => by
    simp only [eat, Option.some.injEq, Prod.mk.injEq] at h
    rw [List.nil_append, h.1, h.2]; exact h2
  | c :: cs, t, m, m1, p, p1, r, h, h2 => by
    rw [eat] at h
    rw [List.cons_append, eat]
    cases hs : scan m c with
    | none => rw [hs] at h; simp at h
    | some x =>
      obtain ⟨m2, ts⟩ := x
      rw [hs] at h
      simp only at h ⊢
      cases ht : steps p ts with
      | none => rw [ht] at h; simp at h
      | some q =>
        rw [ht] at h
        obtain ⟨st, ex⟩ := q
        cases ex <;> first | exact eat_append cs h h2 | simp at h

/-- The members up to the receiver. -/
def headMembers (a : Args) (am : Str) : List (Str × Json) :=
  [("@type".toList, .str "/ibc.applications.transfer.v1.MsgTransfer".toList), ("source_port".toList, .str "transfer".toList),
   ("source_channel".toList, .str a.channel),
   ("token".toList, .obj [("denom".toList, .str a.denom), ("amount".toList, .str am)]),
   ("sender".toList, .str a.selfText)]

set_option maxRecDepth 8000 in
theorem eat_head (a : Args) (am : Str) (h1 : Plain a.channel) (h2 : Plain a.denom) (h3 : Plain a.selfText)
    (h4 : Plain am) :
    eat .out ([], .value) (head a am) =
      some (.str [], [.obj (headMembers a am) "receiver".toList], .value) := by
  have pv : ∀ (s : Str) (st : List Frame), Plain s → eat (.str []) (st, .value) s = some (.str s, st, .value) :=
    fun s st h => eat_plain st .value (by simp) s [] h
  have c1 : eat .out ([], .value) "{\"@type\": \"/ibc.applications.transfer.v1.MsgTransfer\",\"source_port\": \"transfer\",\"source_channel\": \"".toList
      = some (.str [], [.obj [("@type".toList, .str "/ibc.applications.transfer.v1.MsgTransfer".toList),
        ("source_port".toList, .str "transfer".toList)] "source_channel".toList], .value) := rfl
  have c2 : ∀ ms, eat (.str a.channel) ([.obj ms "source_channel".toList], .value) "\",\"token\": { \"denom\": \"".toList
      = some (.str [], [.obj [] "denom".toList, .obj (ms ++ [("source_channel".toList, .str a.channel)]) "token".toList], .value) :=
    fun _ => rfl
  have c3 : ∀ r, eat (.str a.denom) (.obj [] "denom".toList :: r, .value) "\",\"amount\": \"".toList
      = some (.str [], .obj [("denom".toList, .str a.denom)] "amount".toList :: r, .value) :=
    fun _ => rfl
  have c4 : ∀ ms ns, eat (.str am) ([.obj ms "amount".toList, .obj ns "token".toList], .value) "\"},\"sender\": \"".toList
      = some (.str [], [.obj (ns ++ [("token".toList, .obj (ms ++ [("amount".toList, .str am)]))]) "sender".toList], .value) :=
    fun _ _ => rfl
  have c5 : ∀ ms, eat (.str a.selfText) ([.obj ms "sender".toList], .value) "\",\"receiver\": \"".toList
      = some (.str [], [.obj (ms ++ [("sender".toList, .str a.selfText)]) "receiver".toList], .value) :=
    fun _ => rfl
  unfold head
  exact eat_append _ (eat_append _ (eat_append _ (eat_append _ (eat_append _ (eat_append _ (eat_append _ (eat_append _
    c1 (pv _ _ h1)) (c2 _)) (pv _ _ h2)) (c3 _)) (pv _ _ h4)) (c4 _ _)) (pv _ _ h3)) (c5 _)

/-- The members behind the receiver. -/
def tailMembers (t i s : Str) : List (Str × Json) :=
  [("timeout_height".toList, .obj [("revision_number".toList, .str "0".toList), ("revision_height".toList, .str "0".toList)]),
   ("timeout_timestamp".toList, .str t), ("memo".toList, .str []),
   ("async_callback".toList, .obj [("id".toList, .str i), ("contract_address".toList, .str s)])]

set_option maxRecDepth 8000 in
theorem first_tail (ms : List (Str × Json)) (r t i s : Str) (h1 : Plain t) (h2 : Plain i) (h3 : Plain s) :
    firstFrom (.str r) ([.obj ms "receiver".toList], .value) (tail t i s) =
      some (.obj (ms ++ ("receiver".toList, .str r) :: tailMembers t i s)) := by
  have pv : ∀ (s : Str) (st : List Frame), Plain s → eat (.str []) (st, .value) s = some (.str s, st, .value) :=
    fun s st h => eat_plain st .value (by simp) s [] h
  have c1 : eat (.str r) ([.obj ms "receiver".toList], .value) "\",\"timeout_height\": {\"revision_number\": \"0\",\"revision_height\": \"0\"},\"timeout_timestamp\": \"".toList
      = some (.str [], [.obj (ms ++ [("receiver".toList, .str r)] ++ [("timeout_height".toList, .obj
        [("revision_number".toList, .str "0".toList), ("revision_height".toList, .str "0".toList)])])
        "timeout_timestamp".toList], .value) := rfl
  have c2 : ∀ ms, eat (.str t) ([.obj ms "timeout_timestamp".toList], .value) "\",\"memo\": \"\",\"async_callback\": {\"id\": \"".toList
      = some (.str [], [.obj [] "id".toList, .obj (ms ++ [("timeout_timestamp".toList, .str t)] ++ [("memo".toList, .str [])])
        "async_callback".toList], .value) := fun _ => rfl
  have c3 : ∀ x, eat (.str i) (.obj [] "id".toList :: x, .value) "\",\"contract_address\": \"".toList
      = some (.str [], .obj [("id".toList, .str i)] "contract_address".toList :: x, .value) := fun _ => rfl
  have c4 : ∀ ms ns, firstFrom (.str s) ([.obj ms "contract_address".toList, .obj ns "async_callback".toList], .value) "\"}}".toList
      = some (.obj (ns ++ [("async_callback".toList, .obj (ms ++ [("contract_address".toList, .str s)]))])) := fun _ _ => rfl
  unfold tail
  rw [firstFrom_eat _ _ _ _ _ _ (eat_append _ (eat_append _ (eat_append _ (eat_append _ (eat_append _ c1 (pv _ _ h1)) (c2 _))
    (pv _ _ h2)) (c3 _)) (pv _ _ h3)), c4]
  simp [tailMembers]

/-- The text of `_ibc_transfer` for plain arguments is a JSON object with exactly these members. -/
theorem first_message (a : Args) (h1 : Plain a.channel) (h2 : Plain a.denom) (h3 : Plain a.selfText) (h4 : Plain a.receiver)
    (am t i s : Str) (h5 : Plain am) (h6 : Plain t) (h7 : Plain i) (h8 : Plain s) :
    first (head a am ++ (a.receiver ++ tail t i s)) =
      some (.obj (headMembers a am ++ ("receiver".toList, .str a.receiver) :: tailMembers t i s)) := by
  unfold first
  rw [firstFrom_eat _ _ _ _ _ _ (eat_head a am h1 h2 h3 h5),
    firstFrom_eat _ _ _ _ _ _ (eat_plain _ _ (by simp) a.receiver [] h4)]
  exact first_tail _ _ _ _ _ h6 h7 h8

/-! ### The claims -/

/-- What a caller of `wrap` asks for: the wrapped amount, from the wrapper to the receiver, without a memo. -/
def Requested (a : Args) : Transfer where
  port := "transfer".toList
  channel := a.channel
  denom := a.denom
  amount := Int.ofNat a.amount
  sender := a.selfText
  receiver := a.receiver
  timeout := a.timeout
  memo := []

/-- Arguments in range and without special characters (the denom and the bech32 text never have any). -/
structure Honest (a : Args) : Prop where
  channel : Plain a.channel
  receiver : Plain a.receiver
  denom : Plain a.denom
  selfText : Plain a.selfText
  amount : a.amount < 2 ^ 256
  timeout : a.timeout < 2 ^ 64
  id : a.callBackId < 2 ^ 64

theorem ibcTransfer_eq (a : Args) (h1 : a.amount < 2 ^ 256) (h2 : a.timeout < 2 ^ 256) (h3 : a.callBackId < 2 ^ 256) :
    ibcTransfer a = some (head a (natStr a.amount) ++ (a.receiver ++
      tail (natStr a.timeout) (natStr a.callBackId) (encode0x a.self.bytes))) := by
  unfold ibcTransfer
  rw [(C83_decimal _ h1).1, (C83_decimal _ h2).1, (C83_decimal _ h3).1, C83_hex]
  rfl

theorem decode_of {u : Bool} {s : Str} {ms : List (Str × Json)} {port channel sender receiver memo : Str} {c : Str × Int}
    {timeout : Nat} (hf : first s = some (.obj ms))
    (hk : known u ms transferNames = true)
    (ht : strField (field ms "@type".toList) = some "/ibc.applications.transfer.v1.MsgTransfer".toList)
    (hh : height u (field2 ms "timeout_height" "timeoutHeight") = true)
    (h1 : strField (field2 ms "source_port" "sourcePort") = some port)
    (h2 : strField (field2 ms "source_channel" "sourceChannel") = some channel)
    (h3 : coin u (field ms "token".toList) = some c)
    (h4 : strField (field ms "sender".toList) = some sender)
    (h5 : strField (field ms "receiver".toList) = some receiver)
    (h6 : u64Field (field2 ms "timeout_timestamp" "timeoutTimestamp") = some timeout)
    (h7 : strField (field ms "memo".toList) = some memo) :
    decode u s = some { port := port, channel := channel, denom := c.1, amount := c.2, sender := sender,
                        receiver := receiver, timeout := timeout, memo := memo } := by
  unfold decode
  rw [hf]
  simp only
  rw [if_pos ⟨hk, ht, hh⟩]
  exact Option.bind_eq_some_iff.2 ⟨_, h1, Option.bind_eq_some_iff.2 ⟨_, h2, Option.bind_eq_some_iff.2 ⟨_, h3,
    Option.bind_eq_some_iff.2 ⟨_, h4, Option.bind_eq_some_iff.2 ⟨_, h5, Option.bind_eq_some_iff.2 ⟨_, h6,
    Option.map_eq_some_iff.2 ⟨_, h7, rfl⟩⟩⟩⟩⟩⟩⟩

theorem coin_of (u : Bool) (d : Str) (n : Nat) (hn : n < 2 ^ 256) :
    coin u (some (.obj [("denom".toList, .str d), ("amount".toList, .str (natStr n))])) = some (d, Int.ofNat n) := by
  have hk : known u [("denom".toList, Json.str d), ("amount".toList, .str (natStr n))] ["denom", "amount"] = true := by
    cases u <;> rfl
  have d1 : strField (field [("denom".toList, Json.str d), ("amount".toList, .str (natStr n))] "denom".toList) = some d := rfl
  have d2 : strField (field [("denom".toList, Json.str d), ("amount".toList, .str (natStr n))] "amount".toList) =
      some (natStr n) := rfl
  unfold coin
  simp only
  rw [if_pos hk]
  exact Option.bind_eq_some_iff.2 ⟨_, d1, Option.bind_eq_some_iff.2 ⟨_, d2, Option.map_eq_some_iff.2
    ⟨_, parseInt0_natStr n hn, rfl⟩⟩⟩

theorem dropSpaces {s : Str} (h : ∀ c ∈ s, c ≠ ' ') : s.dropWhile (· = ' ') = s := by
  cases s with
  | nil => rfl
  | cons c cs => simp [h c (by simp)]

theorem u64_of (n : Nat) (h : n < 18446744073709551616) : u64Field (some (.str (natStr n))) = some n := by
  have hs : ∀ c ∈ natStr n, c ≠ ' ' := by
    intro c hc
    obtain ⟨d, hd, e⟩ := natStr_head n c hc
    subst e; clear hc; revert d; decide
  have hw : (((natStr n).dropWhile (· = ' ')).reverse.dropWhile (· = ' ')).reverse = natStr n := by
    rw [dropSpaces hs, dropSpaces (by simpa using hs), List.reverse_reverse]
  have h1 : natStr n ≠ "null".toList := by
    intro e
    have : parseNat "null".toList = some n := by rw [← e]; exact parseNat_natStr n
    exact absurd this (by rw [show parseNat "null".toList = none by decide +kernel]; simp)
  have h2 : ¬ ((natStr n).head? = some '0' ∧ natStr n ≠ ['0']) := by
    rintro ⟨e1, e2⟩
    by_cases h0 : n = 0
    · subst h0; exact e2 (by decide +kernel)
    · cases e : natStr n with
      | nil => exact natStr_ne n e
      | cons c cs => rw [e] at e1; exact natStr_first n h0 c cs e (by simpa using e1)
  simp only [u64Field, u64Text, hw, if_neg h1, if_neg h2, parseNat_natStr, Option.bind_some, if_pos h]

theorem height_of (u : Bool) : height u (some (.obj [("revision_number".toList, .str "0".toList),
    ("revision_height".toList, .str "0".toList)])) = true := by
  cases u <;> decide +kernel

/-- C83 (partial: if the decoder ignored unknown fields, and for arguments without quotes, backslashes and control
characters): the dispatched transfer is the requested one. -/
theorem C83_request_partial (a : Args) (h : Honest a) : dispatched true a = some (Requested a) := by
  have e := ibcTransfer_eq a h.amount (Nat.lt_trans h.timeout (by decide +kernel)) (Nat.lt_trans h.id (by decide +kernel))
  have f := first_message a h.channel h.denom h.selfText h.receiver _ _ _ _ (natStr_plain a.amount)
    (natStr_plain a.timeout) (natStr_plain a.callBackId) (encode0x_plain a.self.bytes)
  have ht : a.timeout < 18446744073709551616 := Nat.lt_of_lt_of_le h.timeout (by decide +kernel)
  have d := decode_of (u := true) f rfl rfl (height_of true) rfl rfl (coin_of true a.denom a.amount h.amount) rfl rfl (u64_of _ ht) rfl
  rw [dispatched, e, Option.bind_some, d, Option.bind_some]
  exact if_pos rfl

/-- C83 is false of the code as it is: no honest call of `wrap` ever dispatches a transfer, because the text contains the
member `async_callback`, which `MsgTransfer` does not have, and the decoder rejects unknown members. -/
theorem C83_honest_violated (a : Args) (h : Honest a) : dispatched false a = none := by
  have e := ibcTransfer_eq a h.amount (Nat.lt_trans h.timeout (by decide +kernel)) (Nat.lt_trans h.id (by decide +kernel))
  have f := first_message a h.channel h.denom h.selfText h.receiver _ _ _ _ (natStr_plain a.amount)
    (natStr_plain a.timeout) (natStr_plain a.callBackId) (encode0x_plain a.self.bytes)
  have k : known false (headMembers a (natStr a.amount) ++ ("receiver".toList, Json.str a.receiver) ::
      tailMembers (natStr a.timeout) (natStr a.callBackId) (encode0x a.self.bytes)) transferNames = false := rfl
  have d : decode false (head a (natStr a.amount) ++ (a.receiver ++
      tail (natStr a.timeout) (natStr a.callBackId) (encode0x a.self.bytes))) = none := by
    unfold decode
    rw [f]
    simp only
    exact if_neg fun hc => by rw [k] at hc; exact Bool.noConfusion hc.1
  rw [dispatched, e, Option.bind_some, d]
  rfl

/-- The `receiver` argument of a caller who wants another transfer: it ends the string, repeats the members it wants to
replace, and closes the object. -/
def inject (r d : Str) (n t : Nat) (memo : Str) : Str :=
  r ++ ("\",\"token\":{\"denom\":\"".toList ++ (d ++ ("\",\"amount\":\"".toList ++ (natStr n ++
    ("\"},\"timeout_timestamp\":\"".toList ++ (natStr t ++ ("\",\"memo\":\"".toList ++ (memo ++ "\"}".toList))))))))

theorem first_inject (ms : List (Str × Json)) (r d : Str) (n t : Nat) (memo rest : Str) (h1 : Plain r) (h2 : Plain d)
    (h3 : Plain memo) :
    firstFrom (.str []) ([.obj ms "receiver".toList], .value) (inject r d n t memo ++ rest) =
      some (.obj (ms ++ [("receiver".toList, .str r),
        ("token".toList, .obj [("denom".toList, .str d), ("amount".toList, .str (natStr n))]),
        ("timeout_timestamp".toList, .str (natStr t)), ("memo".toList, .str memo)])) := by
  have pv : ∀ (s : Str) (st : List Frame), Plain s → eat (.str []) (st, .value) s = some (.str s, st, .value) :=
    fun s st h => eat_plain st .value (by simp) s [] h
  have c1 : eat (.str r) ([.obj ms "receiver".toList], .value) "\",\"token\":{\"denom\":\"".toList
      = some (.str [], [.obj [] "denom".toList, .obj (ms ++ [("receiver".toList, .str r)]) "token".toList], .value) := rfl
  have c2 : ∀ x, eat (.str d) (.obj [] "denom".toList :: x, .value) "\",\"amount\":\"".toList
      = some (.str [], .obj [("denom".toList, .str d)] "amount".toList :: x, .value) := fun _ => rfl
  have c3 : ∀ xs ys, eat (.str (natStr n)) ([.obj xs "amount".toList, .obj ys "token".toList], .value)
      "\"},\"timeout_timestamp\":\"".toList
      = some (.str [], [.obj (ys ++ [("token".toList, .obj (xs ++ [("amount".toList, .str (natStr n))]))])
        "timeout_timestamp".toList], .value) := fun _ _ => rfl
  have c4 : ∀ xs, eat (.str (natStr t)) ([.obj xs "timeout_timestamp".toList], .value) "\",\"memo\":\"".toList
      = some (.str [], [.obj (xs ++ [("timeout_timestamp".toList, .str (natStr t))]) "memo".toList], .value) := fun _ => rfl
  have c5 : ∀ xs, firstFrom (.str memo) ([.obj xs "memo".toList], .value) ("\"}".toList ++ rest)
      = some (.obj (xs ++ [("memo".toList, .str memo)])) := fun _ => rfl
  unfold inject
  simp only [List.append_assoc]
  rw [firstFrom_eat _ _ _ _ _ _ (pv _ _ h1), firstFrom_eat _ _ _ _ _ _ c1, firstFrom_eat _ _ _ _ _ _ (pv _ _ h2),
    firstFrom_eat _ _ _ _ _ _ (c2 _), firstFrom_eat _ _ _ _ _ _ (pv _ _ (natStr_plain n)),
    firstFrom_eat _ _ _ _ _ _ (c3 _ _), firstFrom_eat _ _ _ _ _ _ (pv _ _ (natStr_plain t)),
    firstFrom_eat _ _ _ _ _ _ (c4 _), firstFrom_eat _ _ _ _ _ _ (pv _ _ h3), c5]
  simp

/-- C83 is false of the code as it is: whoever calls `wrap` (for any token, any amount) with a suitable `receiver`
text makes the wrapper send any amount `n` of any denom `d` it holds - the locked origin tokens of everybody, say - to
any receiver `r`, with any timeout and memo. The decoder accepts this text, and its sender is the wrapper. -/
theorem C83_injection_violated (a : Args) (r d memo : Str) (n t : Nat) (hc : Plain a.channel) (hd : Plain a.denom)
    (hs : Plain a.selfText) (ha : a.amount < 2 ^ 256) (ht : a.timeout < 2 ^ 256) (hi : a.callBackId < 2 ^ 64)
    (hr : a.receiver = inject r d n t memo) (h1 : Plain r) (h2 : Plain d) (h3 : Plain memo) (h4 : t < 2 ^ 64)
    (hn : n < 2 ^ 256) :
    dispatched false a = some (Transfer.mk "transfer".toList a.channel d (Int.ofNat n) a.selfText r t memo) := by
  have e := ibcTransfer_eq a ha ht (Nat.lt_trans hi (by decide +kernel))
  have f : first (head a (natStr a.amount) ++ (a.receiver ++ tail (natStr a.timeout) (natStr a.callBackId)
      (encode0x a.self.bytes))) = some (.obj (headMembers a (natStr a.amount) ++ [("receiver".toList, .str r),
        ("token".toList, .obj [("denom".toList, .str d), ("amount".toList, .str (natStr n))]),
        ("timeout_timestamp".toList, .str (natStr t)), ("memo".toList, .str memo)])) := by
    unfold first
    rw [firstFrom_eat _ _ _ _ _ _ (eat_head a _ hc hd hs (natStr_plain _)), hr]
    exact first_inject _ _ _ _ _ _ _ h1 h2 h3
  have ht : t < 18446744073709551616 := Nat.lt_of_lt_of_le h4 (by decide +kernel)
  have dd := decode_of (u := false) f rfl rfl rfl rfl rfl (coin_of false d n hn) rfl rfl (u64_of _ ht) rfl
  rw [dispatched, e, Option.bind_some, dd, Option.bind_some]
  exact if_pos rfl

/-- C83: whatever texts are passed, and however lenient the decoder, a dispatched transfer is sent by the wrapper itself:
nobody else's account is touched. -/
theorem C83_sender (u : Bool) (a : Args) (t : Transfer) (h : dispatched u a = some t) : t.sender = a.selfText := by
  unfold dispatched at h
  obtain ⟨s, _, h⟩ := Option.bind_eq_some_iff.1 h
  obtain ⟨t', _, h⟩ := Option.bind_eq_some_iff.1 h
  by_cases e : t'.sender = a.selfText
  · rw [if_pos e] at h
    rw [← Option.some.inj h]; exact e
  · rw [if_neg e] at h; exact absurd h (by simp)

/-! ### Cases -/

/-- A wrap of 5 units, to `cosmos1x`. -/
def toyArgs : Args where
  channel := "channel-0".toList
  denom := "evm/01".toList
  amount := 5
  timeout := 1700000000000000000
  receiver := "cosmos1x".toList
  selfText := "init1w".toList
  callBackId := 1
  self := ⟨List.replicate 20 1, by decide⟩

theorem toyArgs_honest : Honest toyArgs where
  channel := by unfold Plain; decide +kernel
  receiver := by unfold Plain; decide +kernel
  denom := by unfold Plain; decide +kernel
  selfText := by unfold Plain; decide +kernel
  amount := by decide +kernel
  timeout := by decide +kernel
  id := by decide +kernel

/-- C83: the hypotheses of the theorems above hold for an ordinary wrap, which fails, and for one that takes a million
origin tokens out of the wrapper. -/
theorem C83_case : dispatched true toyArgs = some (Requested toyArgs) ∧ dispatched false toyArgs = none ∧
    dispatched false { toyArgs with receiver := inject "thief".toList "origin".toList 1000000 0 [] } =
      some (Transfer.mk "transfer".toList "channel-0".toList "origin".toList 1000000 "init1w".toList "thief".toList 0 []) :=
  ⟨C83_request_partial _ toyArgs_honest, C83_honest_violated _ toyArgs_honest,
    C83_injection_violated { toyArgs with receiver := inject "thief".toList "origin".toList 1000000 0 [] } _ _ [] _ _
      toyArgs_honest.channel toyArgs_honest.denom toyArgs_honest.selfText (by decide +kernel) (by decide +kernel)
      (by decide +kernel) rfl (by unfold Plain; decide +kernel) (by unfold Plain; decide +kernel)
      (by unfold Plain; decide +kernel) (by decide +kernel) (by decide +kernel)⟩

end Verif.Props.WrapMsg
