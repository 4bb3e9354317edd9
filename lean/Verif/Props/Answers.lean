import Verif.Model.Answers
import Verif.Props.Denom
import Verif.Props.Identity
/-
C94: what the precompiles tell a contract is true, and can be used.
-/
namespace Verif.Answers
open Verif Verif.Identity Verif.Denom Verif.Exec
open Verif.Props.Identity Verif.Props.Denom

variable {M : Type}

/-! ### Addresses -/

theorem addr_len (a : Addr) : a.bytes.length = 20 := a.len

/-- C94: an EVM address turned into text and back is the same address, whoever asks when. -/
theorem C94_address_back (signers : M → List Bytes) (c c' : Ctx) (hc : c'.codec = c.codec) (hk : c.codec.Ok) (ro ro' : Bool) (x y a : Addr) :
    ∃ s, answer signers c ro x (.toCosmos a) = some (.text s, []) ∧
      answer signers c' ro' y (.toEvm s) = some (.addr a, []) := by
  refine ⟨_, rfl, ?_⟩
  simp only [answer, hc, hk.back a.bytes (by rw [addr_len]; omega) (by rw [addr_len]; omega), addr_len, if_true,
    bytesToAddress_bytes]

/-- C94: the answer for a text is the address of exactly those 20 bytes, so the text made from it denotes the same account. -/
theorem C94_text_back (signers : M → List Bytes) (c : Ctx) (hk : c.codec.Ok) (ro : Bool) (x a : Addr) (s : Str)
    (h : answer signers c ro x (.toEvm s) = some (.addr a, [])) :
    c.codec.dec s = some a.bytes ∧
      ∃ s', answer signers c ro x (.toCosmos a) = some (.text s', []) ∧ c.codec.dec s' = c.codec.dec s := by
  simp only [answer] at h
  cases hd : c.codec.dec s with
  | none => rw [hd] at h; cases h
  | some b =>
    rw [hd] at h
    simp only at h
    by_cases hl : b.length = 20
    · rw [if_pos hl] at h
      simp only [Option.some.injEq, Prod.mk.injEq, Ans.addr.injEq, and_true] at h
      have hb : a.bytes = b := by rw [← h]; exact fitBytes_eq 20 b hl
      refine ⟨by rw [hb], _, rfl, ?_⟩
      rw [hk.back a.bytes (by rw [addr_len]; omega) (by rw [addr_len]; omega), hb]
    · rw [if_neg hl] at h; cases h

/-- C94 does not hold for longer addresses: they have an EVM address, which is theirs from their first message on, but
`to_evm_address` fails for every one of them. -/
theorem C94_long_violated (signers : M → List Bytes) (c : Ctx) (hk : c.codec.Ok) (ro : Bool) (x : Addr) (b : Bytes)
    (h1 : 20 < b.length) (h2 : b.length ≤ 255) (m' : Accts) (a : Addr) (hm : convert c.accts b true = some (a, m')) :
    answer signers c ro x (.toEvm (c.codec.enc b)) = none ∧ origin m' a = b := by
  constructor
  · simp only [answer, hk.back b (by omega) h2]
    rw [if_neg (by omega)]
  · obtain ⟨_, ⟨n, hn⟩, _⟩ := convert_signer (by omega) hm
    unfold origin
    rw [hn]

/-! ### Messages -/

/-- Accounts in which every shorthand account belongs to the address it is made for. -/
def Good (m : Accts) : Prop := ∀ a o n, m a = some (.shorthand o n) → bytesToAddress o = a ∧ o.length ≠ 20

theorem put_good {m : Accts} (h : Good m) (a : Addr) (x : Acct) (hx : ∀ o n, x = .shorthand o n → bytesToAddress o = a ∧ o.length ≠ 20) :
    Good (put m a x) := by
  intro b o n hb
  unfold put at hb
  by_cases e : b = a
  · rw [if_pos e] at hb
    cases hb
    rw [e]
    exact hx o n rfl
  · rw [if_neg e] at hb
    exact h b o n hb

theorem reach_good (m0 m : Accts) (l : List (Bytes × Addr)) (h : Reach m0 m l) (h0 : Good m0) : Good m := by
  induction h with
  | start => exact h0
  | signer m m' l addr a _ hc ih =>
    by_cases hl : addr.length = 20
    · simp only [convert, if_pos hl, Option.some.injEq, Prod.mk.injEq] at hc
      rw [← hc.2]; exact ih
    · obtain ⟨h1, ⟨n, h2⟩, h3, _⟩ := convert_signer hl hc
      intro b o k hb
      by_cases e : b = a
      · rw [e, h2] at hb
        cases hb
        exact ⟨by rw [e, h1], hl⟩
      · rw [h3 b e] at hb
        exact ih b o k hb
  | reader m m' l addr a _ hc ih => rw [convert_reader hc]; exact ih
  | other m m' l _ ho ih =>
    cases ho with
    | create a x h hx => exact put_good ih a x fun o n e => absurd e (hx o n)
    | plain a pk pk' n n' h => exact put_good ih a _ fun o k e => by cases e
    | bump a o n n' h => exact put_good ih a _ fun o' k e => by cases e; exact ih a o n h
    | deploy a pk n h => exact put_good ih a _ fun o k e => by cases e

/-- C94: a message a contract gets scheduled acts as that contract and nobody else: whatever happened before, every signer of it
is an address whose EVM identity is the caller's own address. -/
theorem C94_message_identity (signers : M → List Bytes) (c : Ctx) (m0 : Accts) (l : List (Bytes × Addr))
    (hr : Reach m0 c.accts l) (h0 : Good m0) (ro : Bool) (caller : Addr) (msg : M)
    (h : answer signers c ro caller (.execute msg) = some (.bool true, [msg])) :
    ro = false ∧ ∀ s ∈ signers msg, convert c.accts s true = some (caller, c.accts) := by
  have hg := reach_good m0 c.accts l hr h0
  simp only [answer] at h
  by_cases ha : accepts signers (origin c.accts) ro caller msg = true
  · unfold accepts at ha
    rw [Bool.and_eq_true, List.all_eq_true] at ha
    refine ⟨by simpa using ha.1, ?_⟩
    intro s hs
    have e := ha.2 s hs
    simp only [decide_eq_true_eq] at e
    rw [← e]
    unfold origin
    cases hc : c.accts caller with
    | none => simp [convert, addr_len, bytesToAddress_bytes]
    | some x =>
      cases x with
      | shorthand o n =>
        obtain ⟨h1, h2⟩ := hg caller o n hc
        simp only [convert, if_neg h2, h1, hc, isEmpty]
        simp
      | plain pk n => simp [convert, addr_len, bytesToAddress_bytes]
      | module => simp [convert, addr_len, bytesToAddress_bytes]
      | contract => simp [convert, addr_len, bytesToAddress_bytes]
  · rw [if_neg ha] at h; cases h

/-- C94 (proved part): a caller without a longer address that names itself as `to_cosmos_address` says is accepted.
Missing: callers that stand for a longer address (`C94_self_violated`). -/
theorem C94_self_partial (signers : M → List Bytes) (c : Ctx) (hk : c.codec.Ok) (caller : Addr) (msg : M) (s : Str)
    (hs : ∀ o n, c.accts caller ≠ some (.shorthand o n))
    (h : answer signers c false caller (.toCosmos caller) = some (.text s, ([] : List M)))
    (hm : ∀ b ∈ signers msg, c.codec.dec s = some b) :
    answer signers c false caller (.execute msg) = some (.bool true, [msg]) := by
  have hse : c.codec.enc caller.bytes = s := by
    simpa [answer] using h
  have ho : origin c.accts caller = caller.bytes := by
    unfold origin
    split
    · rename_i o n heq; exact absurd heq (hs o n)
    · rfl
  have ha : accepts signers (origin c.accts) false caller msg = true := by
    unfold accepts
    rw [Bool.not_false, Bool.true_and, List.all_eq_true]
    intro b hb
    have := hm b hb
    rw [← hse, hk.back caller.bytes (by rw [addr_len]; omega) (by rw [addr_len]; omega)] at this
    cases this
    simp [ho]
  simp only [answer, if_pos ha]

/-- C94 does not hold for callers that stand for a longer address: the text `to_cosmos_address` gives for themselves is not an
address they may sign for. -/
theorem C94_self_violated (signers : M → List Bytes) (c : Ctx) (hk : c.codec.Ok) (hg : Good c.accts) (caller : Addr) (msg : M) (s : Str)
    (o : Bytes) (n : Nat) (hs : c.accts caller = some (.shorthand o n))
    (h : answer signers c false caller (.toCosmos caller) = some (.text s, ([] : List M)))
    (b : Bytes) (hb : b ∈ signers msg) (hd : c.codec.dec s = some b) :
    answer signers c false caller (.execute msg) = none := by
  have hse : c.codec.enc caller.bytes = s := by
    simpa [answer] using h
  rw [← hse, hk.back caller.bytes (by rw [addr_len]; omega) (by rw [addr_len]; omega)] at hd
  cases hd
  have ha : ¬ accepts signers (origin c.accts) false caller msg = true := by
    unfold accepts
    rw [Bool.not_false, Bool.true_and, List.all_eq_true]
    intro hall
    have := hall _ hb
    simp only [decide_eq_true_eq] at this
    unfold origin at this
    rw [hs] at this
    simp only at this
    exact (hg caller o n hs).2 (by rw [this]; exact addr_len caller)
  simp only [answer, if_neg ha]

/-! ### Accounts -/

/-- C94: once an address has signed a message, `is_blocked_address` asked about its EVM address answers for that address itself,
of whatever length it is. -/
theorem C94_blocked (signers : M → List Bytes) (c : Ctx) (ro : Bool) (x a : Addr) (b : Bytes)
    (m : Accts) (h : convert m b true = some (a, c.accts))
    (hs : b.length = 20 → ∀ o n, m a ≠ some (.shorthand o n)) :
    answer signers c ro x (.isBlocked a) = some (.bool (c.blocked b), []) := by
  have ho : origin c.accts a = b := by
    by_cases hl : b.length = 20
    · simp only [convert, if_pos hl, Option.some.injEq, Prod.mk.injEq] at h
      obtain ⟨h1, h2⟩ := h
      have hb : a.bytes = b := by rw [← h1]; exact fitBytes_eq 20 b hl
      unfold origin
      split
      · rename_i o n heq
        rw [← h2] at heq
        exact absurd heq (hs hl o n)
      · exact hb
    · obtain ⟨_, ⟨n, hn⟩, _⟩ := convert_signer hl h
      unfold origin
      rw [hn]
  simp only [answer, ho]

/-- C94 (proved part): where there is a module account, or an account of another kind, `is_module_address` says so. -/
theorem C94_module_partial (signers : M → List Bytes) (c : Ctx) (ro : Bool) (x a : Addr) (acc : Acct)
    (h : c.accts a = some acc) (hs : ∀ o n, acc ≠ .shorthand o n) :
    answer signers c ro x (.isModule a) = some (.bool (decide (acc = .module)), []) := by
  have ho : origin c.accts a = a.bytes := by
    unfold origin
    rw [h]
    cases acc with
    | shorthand o n => exact absurd rfl (hs o n)
    | _ => rfl
  simp only [answer, ho, isModuleAt, addr_len, if_true, bytesToAddress_bytes, h]
  cases acc <;> simp <;> rfl

/-- C94 (accounts with longer addresses): an EVM address that stands for a longer address is blocked, or a module's, as that address is. -/
theorem C94_longer (signers : M → List Bytes) (c : Ctx) (ro : Bool) (x a : Addr) (o : Bytes) (n : Nat)
    (h : c.accts a = some (.shorthand o n)) (hl : o.length ≠ 20) :
    answer signers c ro x (.isModule a) = some (.bool (c.longModule o), []) ∧
    answer signers c ro x (.isBlocked a) = some (.bool (c.blocked o), []) := by
  have ho : origin c.accts a = o := by
    unfold origin
    rw [h]
  constructor
  · simp only [answer, ho, isModuleAt, if_neg hl]
  · simp only [answer, ho]

/-- C94 does not hold: before a module's account exists (it is made when the module first uses it), `is_module_address` denies
that its address is a module's, also if the bank already blocks it. -/
theorem C94_module_violated (signers : M → List Bytes) (c : Ctx) (ro : Bool) (x a : Addr) (h : c.accts a = none)
    (hb : c.blocked a.bytes = true) :
    answer signers c ro x (.isModule a) = some (.bool false, []) ∧ answer signers c ro x (.isBlocked a) = some (.bool true, []) := by
  have ho : origin c.accts a = a.bytes := by
    unfold origin
    rw [h]
  constructor
  · simp only [answer, ho, isModuleAt, addr_len, if_true, bytesToAddress_bytes, h]
    rfl
  · simp only [answer, ho, hb]

/-! ### Tokens -/

/-- C94: the denom of a contract leads back to the contract, and a registered denom to itself. -/
theorem C94_denom_back (signers : M → List Bytes) (c : Ctx) (hr : Reachable c.maps) (ro : Bool) (x a : Addr) :
    (∃ d, answer signers c ro x (.toDenom a) = some (.text d, []) ∧ answer signers c ro x (.toErc20 d) = some (.addr a, [])) ∧
    (∀ d, c.maps.toAddr d = some a → answer signers c ro x (.toErc20 d) = some (.addr a, []) ∧
      answer signers c ro x (.toDenom a) = some (.text d, [])) := by
  obtain ⟨hb, hp⟩ := reachable_inv c.maps hr
  refine ⟨⟨_, rfl, ?_⟩, ?_⟩
  · simp only [answer, C22_name_resolves c.mask c.maps hr a, Option.map_some]
  · intro d hd
    have ht := (hb d a).mp hd
    constructor
    · simp only [answer, denomToContract, hp d a hd, hd, Bool.false_eq_true, if_false, Option.map_some]
    · simp only [answer, contractToDenom, ht]

/-- C94 does not hold: `to_erc20` also names a contract for denoms of which there is no token: any text `evm/` with 40
hexadecimal digits, whether or not there is anything at that address. -/
theorem C94_erc20_violated (signers : M → List Bytes) (c : Ctx) (ro : Bool) (x a : Addr) :
    ∃ d, answer signers c ro x (.toErc20 d) = some (.addr a, []) := by
  refine ⟨evmPrefix ++ trimHex c.mask a, ?_⟩
  simp only [answer]
  rw [evm_resolves c.maps _ a (by rw [strip_trimHex]; exact trimHex_digits c.mask a)]
  rfl

/-- C94: after a registered token registers an account's store, it is registered; no other store changes. -/
theorem C94_store_partial (w : Tokens.World) (caller account : Addr) (h : w.erc20s caller = true) :
    (registerStoreCall w caller account).1 = true ∧
    isStoreRegistered (registerStoreCall w caller account).2 caller account = true ∧
    ∀ k b, k ≠ caller ∨ b ≠ account →
      isStoreRegistered (registerStoreCall w caller account).2 k b = isStoreRegistered w k b := by
  refine ⟨rfl, ?_, ?_⟩
  · unfold isStoreRegistered registerStoreCall Tokens.registerStore
    simp only [h, if_true]
    split
    · simp_all
    · simp
  · intro k b hkb
    unfold isStoreRegistered registerStoreCall Tokens.registerStore
    simp only [h, if_true]
    split
    · rfl
    · by_cases e : b = account
      · subst e
        have hk : k ≠ caller := by
          rcases hkb with h | h
          · exact h
          · exact absurd rfl h
        simp [hk]
      · simp [e]

/-- C94 does not hold: `register_erc20_store` answers `true` to a contract that is not a registered token, and registers
nothing. -/
theorem C94_store_violated (w : Tokens.World) (caller account : Addr) (h : w.erc20s caller = false) :
    (registerStoreCall w caller account).1 = true ∧ (registerStoreCall w caller account).2 = w := by
  refine ⟨rfl, ?_⟩
  unfold registerStoreCall Tokens.registerStore
  simp [h]

/-! ### Concrete cases -/

/-- A codec: one character per byte. -/
def toyCodec : Codec :=
  ⟨fun b => b.map fun x => Char.ofNat x.toNat, fun s => some (s.map fun ch => UInt8.ofNat ch.toNat)⟩

theorem char_back : ∀ n : Fin 256, (Char.ofNat n.val).toNat = n.val := by decide +kernel

theorem toyCodec_ok : toyCodec.Ok := by
  constructor
  intro b _ _
  simp only [toyCodec, List.map_map, Option.some.injEq]
  rw [show ((fun ch : Char => UInt8.ofNat ch.toNat) ∘ fun x : UInt8 => Char.ofNat x.toNat) = id from ?_]
  · simp
  · funext x
    have h := char_back ⟨x.toNat, x.toNat_lt⟩
    simp only at h
    simp [Function.comp, h]

def long32 : Bytes := List.replicate 12 1 ++ List.replicate 20 7
def sevens : Addr := bytesToAddress (List.replicate 20 7)
def nines : Addr := bytesToAddress (List.replicate 20 9)

def toyCtx (m : Accts) : Ctx :=
  ⟨toyCodec, m, fun _ => false, fun b => decide (b = List.replicate 20 5), Maps.empty, fun _ => []⟩

/-- A signer with a longer address and a module have been there. -/
def toyM : Accts := put (put (fun _ => none) sevens (.shorthand long32 1)) nines .module

example : (convert (fun _ => none) long32 true).map (·.1) = some sevens := by decide +kernel
example : ∃ l, Reach (fun _ => none) toyM l ∧ Good (fun _ => none) := by
  refine ⟨_, .other _ _ _ (.other _ _ _ (.signer _ _ _ long32 sevens .start rfl) (.bump sevens long32 0 1 rfl)) ?_, ?_⟩
  · have : toyM = put (put (put (fun _ => none) sevens (.shorthand long32 0)) sevens (.shorthand long32 1)) nines .module := by
      funext b
      simp only [toyM, put]
      split
      · rfl
      · split <;> rfl
    rw [this]
    exact .create nines .module (by decide +kernel) (fun o n h => by cases h)
  · intro a o n h; cases h

-- messages with one signer; the long signer is accepted under its own name only
example : answer (fun b : Bytes => [b]) (toyCtx toyM) false sevens (.execute long32) = some (.bool true, [long32]) ∧
    answer (fun b : Bytes => [b]) (toyCtx toyM) false sevens (.execute sevens.bytes) = none ∧
    answer (fun b : Bytes => [b]) (toyCtx toyM) false nines (.execute nines.bytes) = some (.bool true, [nines.bytes]) ∧
    answer (fun b : Bytes => [b]) (toyCtx toyM) true nines (.execute nines.bytes) = none ∧
    answer (fun b : Bytes => [b]) (toyCtx toyM) false nines (.isModule nines) = some (.bool true, []) ∧
    answer (fun b : Bytes => [b]) (toyCtx toyM) false nines (.toEvm (toyCodec.enc long32)) = none := by decide +kernel

end Verif.Answers
