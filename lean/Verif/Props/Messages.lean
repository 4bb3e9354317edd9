import Verif.Model.Messages
import Verif.Props.TxUtils
import Verif.Props.Identity
/-
C78: events and contract addresses reach the index unchanged; C79: a message executes exactly the call it says, as its sender.
-/
namespace Verif.Messages
open Verif Verif.Text Verif.TxUtils Verif.Identity

/-! ### Text -/

/-- `t` is `b` written in hex, in lower or upper case, after `0x` or `0X`. -/
def Writes (t : Str) (b : Bytes) : Prop :=
  (∃ r, t = '0' :: 'x' :: r ∧ SameDigits r (hexEnc b)) ∨ (∃ r, t = '0' :: 'X' :: r ∧ SameDigits r (hexEnc b))

theorem hexDecPartial_ok : ∀ (s : Str) (b : Bytes), hexDecPartial s = (b, true) → SameDigits s (hexEnc b)
  | [], b, h => by
    simp only [hexDecPartial, Prod.mk.injEq, and_true] at h
    subst h; rfl
  | [c], b, h => by simp [hexDecPartial] at h
  | x :: y :: r, b, h => by
    unfold hexDecPartial at h
    split at h
    · next u v hu hv =>
      cases hr : hexDecPartial r with
      | mk b' ok =>
        rw [hr] at h
        simp only [Prod.mk.injEq] at h
        obtain ⟨rfl, rfl⟩ := h
        have ih := hexDecPartial_ok r b' hr
        have lu := hexVal_lt hu
        have lv := hexVal_lt hv
        have e : (UInt8.ofNat (u * 16 + v)).toNat = u * 16 + v := by
          rw [UInt8.toNat_ofNat']; exact Nat.mod_eq_of_lt (by omega)
        simp only [SameDigits, hexEnc, List.map_cons] at ih ⊢
        rw [ih, e, hu, hv, show (u * 16 + v) / 16 = u by omega, show (u * 16 + v) % 16 = v by omega,
          hexVal_hexDigit u lu, hexVal_hexDigit v lv]
    · simp at h

/-- `hexutil.Decode` accepts exactly the strings that write some bytes in hex, and gives those bytes. -/
theorem decode0x_iff (t : Str) (b : Bytes) : decode0x t = some b ↔ Writes t b := by
  have key : ∀ r, hexDec r = some b ↔ SameDigits r (hexEnc b) := by
    intro r
    constructor
    · intro h
      unfold hexDec at h
      cases hp : hexDecPartial r with
      | mk b' ok =>
        rw [hp] at h
        cases ok with
        | false => simp at h
        | true =>
          have h' : b' = b := by simpa using h
          subst h'
          exact hexDecPartial_ok r _ hp
    · intro h
      unfold hexDec
      rw [hexDecPartial_same b r h]
      simp
  unfold decode0x Writes
  constructor
  · intro h
    by_cases h0 : has0x t
    · rw [if_pos h0] at h
      unfold has0x at h0
      split at h0
      · next r => left; exact ⟨r, rfl, (key r).1 (by simpa [strip0x] using h)⟩
      · next r => right; exact ⟨r, rfl, (key r).1 (by simpa [strip0x] using h)⟩
      · simp at h0
    · rw [if_neg h0] at h; cases h
  · rintro (⟨r, rfl, h⟩ | ⟨r, rfl, h⟩)
    · simpa [has0x, strip0x] using (key r).2 h
    · simpa [has0x, strip0x] using (key r).2 h

/-! ### C78 -/

theorem toEthLog_newLog (mask : Str → List Bool) (l : Indexer.RawLog) : toEthLog (newLog mask l) = some l := by
  unfold toEthLog newLog
  dsimp only
  rw [decode0x_encode0x, hexToAddress_addrHex, List.map_map]
  have : (hexToHash ∘ hashHex) = id := by funext h; exact hexToHash_hashHex h
  rw [this, List.map_id]
  rfl

/-- C78: every list of logs survives being stored as text and read back. -/
theorem C78_logs (mask : Str → List Bool) (l : List Indexer.RawLog) : toEthLogs (newLogs mask l) = some l := by
  induction l with
  | nil => rfl
  | cons x xs ih =>
    simp only [newLogs, List.map_cons, toEthLogs] at ih ⊢
    rw [toEthLog_newLog, ih]; rfl

/-- What the index must say about a successful message: the execution's logs, and for a creation the new contract. -/
def owed : Act → Outcome → Option (Bool × List Indexer.RawLog × Option Addr)
  | .create .., o => some (true, o.logs, some o.contract)
  | .call .., o => some (false, o.logs, none)
  | .create2 .., _ => none

/-- C78: for every message that calls or creates (by address), executed successfully with whatever outcome, the indexer reads back
exactly the logs, in order, and the contract's address, out of the transaction's response; whatever responses follow. `parse` and `ser`:
the protobuf encoding of responses, which must round-trip. -/
theorem C78_index {K S T E : Type} (e : Env K) (p : Params.Params) (exec : Act → S → Option (Outcome × S)) (m m' : Accts) (s s' : S)
    (msg : Msg) (r : Resp) (ser : List Resp → Bytes) (parse : Bytes → Option (List Resp)) (env : Indexer.Env T E) (more : List Resp)
    (hu : env.unpack = unpack parse) (hser : ∀ l, parse (ser l) = some l)
    (h : handle e p exec m s msg = some (r, m', s')) :
    ∃ a o, prepare e p m msg = some (a, m') ∧ exec a s = some (o, s') ∧
      ∀ create logs contract, owed a o = some (create, logs, contract) →
        Indexer.extractLogs env true (ser (r :: more)) create = some (logs, contract) := by
  have hp := hser (r :: more)
  unfold handle at h
  cases ha : prepare e p m msg with
  | none => rw [ha] at h; cases h
  | some x =>
    obtain ⟨a, m1⟩ := x
    rw [ha] at h
    simp only [Option.bind_some] at h
    cases ho : exec a s with
    | none => rw [ho] at h; cases h
    | some y =>
      obtain ⟨o, s1⟩ := y
      rw [ho] at h
      simp only [Option.map_some, Option.some.injEq, Prod.mk.injEq] at h
      obtain ⟨rfl, rfl, rfl⟩ := h
      refine ⟨a, o, rfl, ho, ?_⟩
      intro create logs contract hw
      simp only [Indexer.extractLogs, if_true, hu, unpack, hp]
      cases a with
      | create c b v al =>
        simp only [owed, Option.some.injEq, Prod.mk.injEq] at hw
        obtain ⟨rfl, rfl, rfl⟩ := hw
        simp [respond, C78_logs, hexToAddress_addrHex]
      | create2 c b v sa al => simp [owed] at hw
      | call c b v al =>
        simp only [owed, Option.some.injEq, Prod.mk.injEq] at hw
        obtain ⟨rfl, rfl, rfl⟩ := hw
        simp [respond, C78_logs]

/-- The return data in the response is the execution's. -/
theorem C78_result (mask : Str → List Bool) (a : Act) (o : Outcome) (r : Resp) (h : respond mask a o = r) :
    ∃ t, Writes t o.ret ∧ ((∃ c l, r = .create t c l) ∨ (∃ c l, r = .create2 t c l) ∨ (∃ l, r = .call t l)) := by
  refine ⟨encode0x o.ret, (decode0x_iff _ _).1 (decode0x_encode0x _), ?_⟩
  subst h
  cases a
  · exact Or.inl ⟨_, _, rfl⟩
  · exact Or.inr (Or.inl ⟨_, _, rfl⟩)
  · exact Or.inr (Or.inr ⟨_, rfl⟩)

/-- C78, limits: a response of another type in the first place (whatever the transaction did) makes the block's indexing fail: an
Ethereum-signed transaction with a message other than a call or a creation, which `C18_violated_message` shows to be acceptable, has one. -/
theorem C78_other (parse : Bytes → Option (List Resp)) (data : Bytes) (ty : Str) (more : List Resp) (create : Bool)
    (h : parse data = some (.other ty :: more)) : unpack parse data create = none := by
  unfold unpack
  rw [h]
  cases create <;> rfl

/-! ### C79 -/

/-- An address written in a message: 40 hex digits with or without `0x`, or a Bech32 string of 20 bytes. -/
def NamesAddr {K : Type} (e : Env K) (t : Str) (a : Addr) : Prop :=
  SameDigits (strip0x t) (hexEnc a.bytes) ∨ (isHexAddress t = false ∧ ∃ b, e.unbech t = some b ∧ a = bytesToAddress b)

theorem contractAddr_iff {K : Type} (e : Env K) (t : Str) (a : Addr) : contractAddressFromString e t = some a ↔ NamesAddr e t a := by
  constructor
  · intro h
    unfold contractAddressFromString at h
    by_cases hx : isHexAddress t
    · rw [if_pos hx] at h
      cases h
      exact Or.inl (isHexAddress_digits t hx)
    · rw [if_neg hx] at h
      cases hb : e.unbech t with
      | none => rw [hb] at h; cases h
      | some b =>
        rw [hb] at h
        simp only [Option.map_some, Option.some.injEq] at h
        exact Or.inr ⟨by simpa using hx, b, hb, h.symm⟩
  · rintro (h | ⟨hx, b, hb, rfl⟩)
    · exact Props.TxUtils.C52_hex e a t h
    · simp [contractAddressFromString, hx, hb]

/-- May this sender deploy? -/
def MayDeploy (p : Params.Params) (sender : Str) : Prop := p.allowedPublishers = [] ∨ sender ∈ p.allowedPublishers

theorem publisher_iff (p : Params.Params) (sender : Str) : Params.publisherAllowed p sender = true ↔ MayDeploy p sender := by
  unfold Params.publisherAllowed MayDeploy
  simp only [Bool.or_eq_true, beq_iff_eq, List.length_eq_zero_iff, List.any_eq_true]
  constructor
  · rintro (h | ⟨x, hx, rfl⟩)
    · exact Or.inl h
    · exact Or.inr hx
  · rintro (h | h)
    · exact Or.inl h
    · exact Or.inr ⟨sender, h, rfl⟩

theorem fromBig_iff (v : Int) (n : Nat) (h : 0 ≤ v) : fromBig v = some n ↔ v = n ∧ n < 2 ^ 256 := by
  unfold fromBig
  constructor
  · intro hh
    split at hh
    · next hl =>
      simp only [Option.some.injEq] at hh
      have : v < 2 ^ 256 := by omega
      rw [Int.emod_eq_of_lt h this] at hh
      omega
    · cases hh
  · rintro ⟨rfl, hn⟩
    have h1 : ((n : Int)).natAbs < 2 ^ 256 := by simpa using hn
    rw [if_pos h1, Int.emod_eq_of_lt h (by omega)]
    simp

/-- The identity a sender acts under: its own address if it has 20 bytes; otherwise the last 20 bytes, where afterwards its own
shorthand account lies. -/
def ActsAs (raw : Bytes) (m m' : Accts) (a : Addr) : Prop :=
  (raw.length = 20 ∧ a.bytes = raw ∧ m' = m) ∨
  (raw.length ≠ 20 ∧ a = bytesToAddress raw ∧ (∃ n, m' a = some (.shorthand raw n)) ∧ ∀ b, b ≠ a → m' b = m b)

theorem convert_actsAs {m m' : Accts} {raw : Bytes} {a : Addr} (h : convert m raw true = some (a, m')) : ActsAs raw m m' a := by
  by_cases hl : raw.length = 20
  · left
    simp only [convert, if_pos hl, Option.some.injEq, Prod.mk.injEq] at h
    obtain ⟨rfl, rfl⟩ := h
    exact ⟨hl, fitBytes_eq 20 raw hl, rfl⟩
  · right
    obtain ⟨h1, h2, h3, _⟩ := Props.Identity.convert_signer hl h
    exact ⟨hl, h1, h2, h3⟩

/-- C79 (calls): a call message with a non-negative amount is executed exactly if its sender is a valid address with an EVM identity,
and its contract, input and amount are well formed; and then what runs is that call, with that input and amount, in the sender's name. -/
theorem C79_call_partial {K : Type} (e : Env K) (p : Params.Params) (m m' : Accts) (sender contract input : Str) (value : Int) (al : CosAccess)
    (act : Act) (hv : 0 ≤ value) :
    prepare e p m (.call sender contract input value al) = some (act, m') ↔
      ∃ raw caller target data n, e.unbech sender = some raw ∧ convert m raw true = some (caller, m') ∧ ActsAs raw m m' caller ∧
        NamesAddr e contract target ∧ Writes input data ∧ value = (n : Nat) ∧ n < 2 ^ 256 ∧ act = .call caller target data n [] := by
  unfold prepare
  simp only [Option.bind_eq_some_iff, decode0x_iff, contractAddr_iff, fromBig_iff _ _ hv]
  constructor
  · rintro ⟨raw, h1, t, h2, ⟨c, m1⟩, h3, b, h4, n, ⟨h5, h6⟩, h7⟩
    cases h7
    exact ⟨raw, c, t, b, n, h1, h3, convert_actsAs h3, h2, h4, h5, h6, rfl⟩
  · rintro ⟨raw, c, t, b, n, h1, h3, _, h2, h4, h5, h6, rfl⟩
    exact ⟨raw, h1, t, h2, (c, m'), h3, b, h4, n, ⟨h5, h6⟩, rfl⟩

theorem writes_ne {t : Str} {b : Bytes} (h : Writes t b) : t.length ≠ 0 := by
  rcases h with ⟨r, rfl, _⟩ | ⟨r, rfl, _⟩ <;> simp

/-- C79 (creations): likewise, for senders who may deploy. -/
theorem C79_create_partial {K : Type} (e : Env K) (p : Params.Params) (m m' : Accts) (sender code : Str) (value : Int) (al : CosAccess)
    (act : Act) (hv : 0 ≤ value) :
    prepare e p m (.create sender code value al) = some (act, m') ↔
      ∃ raw caller data n, e.unbech sender = some raw ∧ convert m raw true = some (caller, m') ∧ ActsAs raw m m' caller ∧
        Writes code data ∧ value = (n : Nat) ∧ n < 2 ^ 256 ∧ MayDeploy p sender ∧ act = .create caller data n (toEthAccess al) := by
  unfold prepare
  simp only [Option.bind_eq_some_iff]
  constructor
  · rintro ⟨raw, h1, ⟨c, m1⟩, h3, h⟩
    split at h
    · cases h
    · simp only [Option.bind_eq_some_iff, decode0x_iff, fromBig_iff _ _ hv] at h
      obtain ⟨b, h4, n, ⟨h5, h6⟩, h7⟩ := h
      split at h7
      · next hp =>
        cases h7
        exact ⟨raw, c, b, n, h1, h3, convert_actsAs h3, h4, h5, h6, (publisher_iff p sender).1 hp, rfl⟩
      · cases h7
  · rintro ⟨raw, c, b, n, h1, h3, _, h4, h5, h6, hp, rfl⟩
    refine ⟨raw, h1, (c, m'), h3, ?_⟩
    rw [if_neg (writes_ne h4)]
    simp only [Option.bind_eq_some_iff, decode0x_iff, fromBig_iff _ _ hv]
    exact ⟨b, h4, n, ⟨h5, h6⟩, by rw [if_pos ((publisher_iff p sender).2 hp)]⟩

/-- C79 (creations at a chosen address). -/
theorem C79_create2_partial {K : Type} (e : Env K) (p : Params.Params) (m m' : Accts) (sender code : Str) (salt : Nat) (value : Int)
    (al : CosAccess) (act : Act) (hv : 0 ≤ value) :
    prepare e p m (.create2 sender code salt value al) = some (act, m') ↔
      ∃ raw caller data n, e.unbech sender = some raw ∧ convert m raw true = some (caller, m') ∧ ActsAs raw m m' caller ∧
        Writes code data ∧ value = (n : Nat) ∧ n < 2 ^ 256 ∧ MayDeploy p sender ∧ act = .create2 caller data n salt (toEthAccess al) := by
  unfold prepare
  simp only [Option.bind_eq_some_iff]
  constructor
  · rintro ⟨raw, h1, ⟨c, m1⟩, h3, h⟩
    split at h
    · cases h
    · simp only [Option.bind_eq_some_iff, decode0x_iff, fromBig_iff _ _ hv] at h
      obtain ⟨b, h4, n, ⟨h5, h6⟩, h7⟩ := h
      split at h7
      · next hp =>
        cases h7
        exact ⟨raw, c, b, n, h1, h3, convert_actsAs h3, h4, h5, h6, (publisher_iff p sender).1 hp, rfl⟩
      · cases h7
  · rintro ⟨raw, c, b, n, h1, h3, _, h4, h5, h6, hp, rfl⟩
    refine ⟨raw, h1, (c, m'), h3, ?_⟩
    rw [if_neg (writes_ne h4)]
    simp only [Option.bind_eq_some_iff, decode0x_iff, fromBig_iff _ _ hv]
    exact ⟨b, h4, n, ⟨h5, h6⟩, by rw [if_pos ((publisher_iff p sender).2 hp)]⟩

/-- C79: only the three messages execute anything; and what they execute is of their own kind. -/
theorem C79_kind {K : Type} (e : Env K) (p : Params.Params) (m m' : Accts) (msg : Msg) (act : Act) (h : prepare e p m msg = some (act, m')) :
    (∃ s c i v al, msg = .call s c i v al ∧ ∃ x a b n, act = .call x a b n []) ∨
    (∃ s c v al, msg = .create s c v al ∧ ∃ x b n, act = .create x b n (toEthAccess al)) ∨
    (∃ s c salt v al, msg = .create2 s c salt v al ∧ ∃ x b n, act = .create2 x b n salt (toEthAccess al)) := by
  unfold prepare at h
  cases msg with
  | other t => cases h
  | call s c i v al =>
    simp only [Option.bind_eq_some_iff] at h
    obtain ⟨_, _, _, _, _, _, _, _, _, _, h⟩ := h
    cases h
    exact Or.inl ⟨s, c, i, v, al, rfl, _, _, _, _, rfl⟩
  | create s c v al =>
    simp only [Option.bind_eq_some_iff] at h
    obtain ⟨_, _, _, _, h⟩ := h
    split at h
    · cases h
    · simp only [Option.bind_eq_some_iff] at h
      obtain ⟨_, _, _, _, h⟩ := h
      split at h
      · cases h
        exact Or.inr (Or.inl ⟨s, c, v, al, rfl, _, _, _, rfl⟩)
      · cases h
  | create2 s c salt v al =>
    simp only [Option.bind_eq_some_iff] at h
    obtain ⟨_, _, _, _, h⟩ := h
    split at h
    · cases h
    · simp only [Option.bind_eq_some_iff] at h
      obtain ⟨_, _, _, _, h⟩ := h
      split at h
      · cases h
        exact Or.inr (Or.inr ⟨s, c, salt, v, al, rfl, _, _, _, rfl⟩)
      · cases h

/-- C79 fails for negative amounts: they are not refused. A call with the amount -(2^256 - 1) pays 1. -/
theorem C79_negative_violated : fromBig (-(2 ^ 256 - 1)) = some 1 ∧ fromBig (-1) = some (2 ^ 256 - 1) := by decide +kernel

/-- The general form: every negative amount down to -(2^256 - 1) becomes a positive one. -/
theorem C79_negative_all_violated (n : Nat) (h0 : 0 < n) (h : n < 2 ^ 256) : fromBig (-(n : Int)) = some (2 ^ 256 - n) := by
  unfold fromBig
  have h1 : (-(n : Int)).natAbs < 2 ^ 256 := by omega
  rw [if_pos h1]
  congr 1
  have : (-(n : Int)) % 2 ^ 256 = 2 ^ 256 - n := by
    rw [← Int.add_emod_right, Int.emod_eq_of_lt (by omega) (by omega)]
    omega
  rw [this]
  omega

/-- The amount of a transaction in units of the fee token is exact: `n` units of a token with `d` decimals are `v` wei. -/
theorem value_exact (d : Nat) (v : Int) (h : toEthersI d (fromEthersI d v) = v) : fromEthersI d v * 10 ^ 18 = v * 10 ^ d := by
  by_cases h18 : d = 18
  · simp [fromEthersI, h18]
  · by_cases hg : d > 18
    · have e : (10 : Int) ^ d = 10 ^ (d - 18) * 10 ^ 18 := by rw [← Int.pow_add]; congr 1; omega
      have c : ((10 ^ (d - 18) : Nat) : Int) = 10 ^ (d - 18) := by simp
      have hf : fromEthersI d v = v * 10 ^ (d - 18) := by unfold fromEthersI; rw [if_neg h18, if_pos hg, c]
      rw [hf, e]
      ac_rfl
    · have e : (10 : Int) ^ 18 = 10 ^ (18 - d) * 10 ^ d := by rw [← Int.pow_add]; congr 1; omega
      have c : ((10 ^ (18 - d) : Nat) : Int) = 10 ^ (18 - d) := by simp
      have ht : ∀ w, toEthersI d w = w * 10 ^ (18 - d) := by intro w; unfold toEthersI; rw [if_neg h18, if_neg hg, c]
      rw [ht] at h
      rw [e, ← Int.mul_assoc, h]

theorem fromEthersI_nonneg (d : Nat) (v : Int) (h : 0 ≤ v) : 0 ≤ fromEthersI d v := by
  unfold fromEthersI
  split
  · exact h
  · split
    · exact Int.mul_nonneg h (Int.natCast_nonneg _)
    · exact Int.ediv_nonneg h (Int.natCast_nonneg _)

/-- C79 (signed Ethereum transactions, from end to end): the message made from a signed transaction is executed as the call or the
creation that was signed: in the name of the signer, to the same contract with the same data, for the same value (`n` units of the fee
token, exactly); a creation needs the permission to deploy. Missing: the access list of calls (C47) and negative amounts, which an
Ethereum transaction cannot carry. -/
theorem C79_signed_partial {K : Type} (e : Env K) (he : e.Ok) (hb : ∀ b, b ≠ [] → e.unbech (e.bech b) = some b) (tx : EthTx)
    (hp : Props.TxUtils.Protected tx) (k : K) (p : Params.Params) (m : Accts) (t : CosmosTx K) (hk : senderKey e tx = some k)
    (hv : 0 ≤ tx.value) (ht : ethToCosmos e tx = some t) :
    ∃ msg, ∃ n : Nat, ∃ signer : Addr, t.msgs = [msg] ∧ (n : Int) * 10 ^ 18 = tx.value * 10 ^ e.decimals ∧ signer.bytes = e.keyAddr k ∧
      (∀ a, tx.to = some a → prepare e p m msg = some (.call signer a tx.data n [], m)) ∧
      (tx.to = none → MayDeploy p (e.bech signer.bytes) → prepare e p m msg = some (.create signer tx.data n tx.access, m)) ∧
      (tx.to = none → ¬ MayDeploy p (e.bech signer.bytes) → prepare e p m msg = none) := by
  unfold ethToCosmos at ht
  generalize hfee : (if tx.feeCap = 0 then (0 : Int) else fromEthersI e.decimals (tx.feeCap * tx.gas) + 1) = fee at ht
  simp only at ht
  split at ht
  · cases ht
  · split at ht
    · cases ht
    · rename_i hval
      have hval : toEthersI e.decimals (fromEthersI e.decimals tx.value) = tx.value := by
        by_cases g : toEthersI e.decimals (fromEthersI e.decimals tx.value) = tx.value
        · exact g
        · exact absurd g hval
      split at ht
      · rename_i sk vb pl hsk hvb hpl
        rw [hk] at hsk
        cases hsk
        obtain ⟨hrec, _⟩ := Props.TxUtils.sig_facts e tx hp k vb pl hk hvb hpl
        rw [hrec] at ht
        simp only at ht
        split at ht
        · cases ht
        · rename_i hbig
          have h20 := he.key20 _ _ _ _ _ hrec
          have hne : e.keyAddr k ≠ [] := by intro h; rw [h] at h20; simp at h20
          have hn := fromEthersI_nonneg e.decimals tx.value hv
          have hsig : (bytesToAddress (e.keyAddr k)).bytes = e.keyAddr k := fitBytes_eq 20 _ h20
          have hconv : convert m (e.keyAddr k) true = some (bytesToAddress (e.keyAddr k), m) := by
            simp [convert, h20]
          have hbig' : (fromEthersI e.decimals tx.value).toNat < 2 ^ 256 := by omega
          have hfb : fromBig (fromEthersI e.decimals tx.value) = some (fromEthersI e.decimals tx.value).toNat :=
            (fromBig_iff _ _ hn).2 ⟨by omega, hbig'⟩
          have hmsgs := (Option.some.inj ht)
          refine ⟨_, (fromEthersI e.decimals tx.value).toNat, bytesToAddress (e.keyAddr k), congrArg CosmosTx.msgs hmsgs.symm, ?_, hsig,
            ?_, ?_, ?_⟩
          · rw [Int.toNat_of_nonneg hn]; exact value_exact _ _ hval
          · intro a ha
            rw [ha]
            simp [prepare, hb _ hne, hconv, Props.TxUtils.contractAddress_hex, decode0x_encode0x, hfb]
          · intro ha hd
            rw [hsig] at hd
            rw [ha]
            simp [prepare, hb _ hne, hconv, hfb, (publisher_iff p _).2 hd, Props.TxUtils.access_roundtrip, encode0x]
            rw [← encode0x, decode0x_encode0x]; simp
          · intro ha hd
            rw [hsig] at hd
            rw [ha]
            have : Params.publisherAllowed p (e.bech (e.keyAddr k)) = false := by
              cases h : Params.publisherAllowed p (e.bech (e.keyAddr k)) with
              | false => rfl
              | true => exact absurd ((publisher_iff p _).1 h) hd
            simp [prepare, hb _ hne, decode0x_encode0x, hfb, this]
      · cases ht

/-! ### Cases -/

/-- A contract that emits one log with two topics. -/
def toyLog : Indexer.RawLog := ⟨Addr.ofNat 3, [Hash.ofNat 1, Hash.ofNat 2], [1, 2, 255]⟩
def toyExec : Act → Nat → Option (Outcome × Nat) := fun _ s => some (⟨[9], Addr.ofNat 5, [toyLog]⟩, s + 1)
def toyParams : Params.Params := ⟨[], true, [], ['f'], 5 * 10 ^ 17, 256, []⟩

/-- The hypotheses of `C78_index` for a call by a 20-byte sender. -/
example : (handle (Props.TxUtils.toyEnv 18) toyParams toyExec (fun _ => none) 0
    (.call ('i' :: hexEnc (List.replicate 20 7)) "0x0000000000000000000000000000000000000003".toList "0x0aFF".toList 12 [])).isSome = true ∧
  (prepare (Props.TxUtils.toyEnv 18) toyParams (fun _ => none)
    (.call ('i' :: hexEnc (List.replicate 20 7)) "0x0000000000000000000000000000000000000003".toList "0x0aFF".toList 12 [])).map Prod.fst =
    some (.call ⟨List.replicate 20 7, rfl⟩ (Addr.ofNat 3) [10, 255] 12 []) := by decide +kernel

/-- A creation by a sender that is not on the list of publishers, and one that is. -/
example : (prepare (Props.TxUtils.toyEnv 18) { toyParams with allowedPublishers := [['x']] } (fun _ => none)
    (.create ('i' :: hexEnc (List.replicate 20 7)) "0x6001".toList 0 [])).isSome = false ∧
  (prepare (Props.TxUtils.toyEnv 18) { toyParams with allowedPublishers := ['i' :: hexEnc (List.replicate 20 7)] } (fun _ => none)
    (.create ('i' :: hexEnc (List.replicate 20 7)) "0x6001".toList 0 [])).map Prod.fst =
    some (.create ⟨List.replicate 20 7, rfl⟩ [96, 1] 0 []) := by decide +kernel

/-- A sender of 32 bytes acts under the last 20, where its shorthand account is created. -/
example : (prepare (Props.TxUtils.toyEnv 18) toyParams (fun _ => none)
    (.create2 ('i' :: hexEnc (List.replicate 12 1 ++ List.replicate 20 7)) "0x6001".toList 4 5 [])).map (fun x => (x.1, x.2 ⟨List.replicate 20 7, rfl⟩)) =
    some (.create2 ⟨List.replicate 20 7, rfl⟩ [96, 1] 5 4 [], some (.shorthand (List.replicate 12 1 ++ List.replicate 20 7) 0)) := by decide +kernel

/-- `C79_signed_partial` for the transactions of Props/TxUtils. -/
example : (Props.TxUtils.toyEnv 9).Ok ∧ Props.TxUtils.Protected Props.TxUtils.toyTx ∧ senderKey (Props.TxUtils.toyEnv 9) Props.TxUtils.toyTx = some () ∧
    0 ≤ Props.TxUtils.toyTx.value ∧ (ethToCosmos (Props.TxUtils.toyEnv 9) Props.TxUtils.toyTx).isSome = true :=
  ⟨Props.TxUtils.toyEnv_ok 9, trivial, by decide +kernel, by decide +kernel, by decide +kernel⟩

end Verif.Messages
