import Verif.Model.SigGas
/-
C84: signature checks are paid for.
-/
namespace Verif.Props.SigGas
open Verif.SigGas

theorem andThen_ok {a b : Bill} (h : (a.andThen b).ok = true) :
    a.ok = true ∧ b.ok = true ∧ (a.andThen b).charged = a.charged ++ b.charged := by
  unfold Bill.andThen at h ⊢
  by_cases e : a.ok = true
  · rw [if_pos e] at h ⊢; exact ⟨e, h, rfl⟩
  · rw [if_neg e] at h; exact absurd h e

mutual
theorem member_paid (u : Bool) (valid : Key → Nat → Bool) (k : Key) : ∀ d : Data, (consume u k d).ok = true →
    (verifyMember valid k d).checks ≤ (consume u k d).charged.length ∧
    ((verifyMember valid k d).ok = true → (verifyMember valid k d).checks = (consume u k d).charged.length)
  | .single id eth, h => by
    cases k <;> cases eth <;> cases u <;> simp_all [consume, verifyMember]
  | .multi bits sigs, h => by
    cases k with
    | multi t keys =>
      rw [verifyMember]
      by_cases c : keys.length ≠ bits.length ∨ sigs.length < t ∨ bits.length < sigs.length ∨ (bits.filter id).length < t
      · rw [if_pos c]; simp
      · rw [if_neg c]
        rw [consume] at h ⊢
        exact sigs_paid u valid bits keys sigs h
    | _ => simp [verifyMember]

theorem sigs_paid (u : Bool) (valid : Key → Nat → Bool) (bits : List Bool) (keys : List Key) : ∀ sigs : List Data,
    (consumeSigs u bits keys sigs).ok = true →
    (verifySigs valid bits keys sigs).checks ≤ (consumeSigs u bits keys sigs).charged.length ∧
    ((verifySigs valid bits keys sigs).ok = true →
      (verifySigs valid bits keys sigs).checks = (consumeSigs u bits keys sigs).charged.length)
  | [], h => by simp [verifySigs, consumeSigs]
  | s :: ss, h => by
    rw [consumeSigs] at h ⊢
    rw [verifySigs]
    cases hb : bits.dropWhile (fun b => !b) with
    | nil => simp
    | cons b bs =>
      cases hk : keys.drop (bits.takeWhile (fun b => !b)).length with
      | nil => simp
      | cons k ks =>
        rw [hb, hk] at h
        simp only at h ⊢
        obtain ⟨h1, h2, h3⟩ := andThen_ok h
        rw [h3, List.length_append]
        have m := member_paid u valid k s h1
        have r := sigs_paid u valid bs ks ss h2
        by_cases e : (verifyMember valid k s).ok = true
        · rw [if_pos e]
          have me := m.2 e
          refine ⟨?_, fun o => ?_⟩
          · show _ + _ ≤ _
            omega
          · show _ + _ = _
            have := r.2 o
            omega
        · rw [if_neg e]
          exact ⟨by omega, fun o => absurd o e⟩
end

/-- C84: whatever the key, the shape of the signature and the outcome: no signature is checked that was not charged for,
and if the signature is good exactly the charged ones were checked. -/
theorem C84_paid (u : Bool) (valid : Key → Nat → Bool) (ethOk : Bool) (k : Key) (d : Data)
    (h : (consume u k d).ok = true) :
    (verifySignature valid ethOk k d).checks ≤ (consume u k d).charged.length ∧
    ((verifySignature valid ethOk k d).ok = true →
      (verifySignature valid ethOk k d).checks = (consume u k d).charged.length) := by
  cases d with
  | single id eth => cases k <;> cases eth <;> cases u <;> simp_all [consume, verifySignature]
  | multi bits sigs => exact member_paid u valid k _ h

mutual
theorem consume_types (u : Bool) (k : Key) : ∀ d : Data, (consume u k d).ok = true →
    ∀ x ∈ (consume u k d).charged, x = .secp256k1 ∨ x = .secp256r1 ∨ (x = .ethsecp256k1 ∧ u = true)
  | .single id eth, h => by cases k <;> cases u <;> simp_all [consume]
  | .multi bits sigs, h => by
    cases k with
    | multi t keys => rw [consume] at h ⊢; exact sigs_types u bits keys sigs h
    | _ => cases u <;> simp_all [consume]

theorem sigs_types (u : Bool) (bits : List Bool) (keys : List Key) : ∀ sigs : List Data,
    (consumeSigs u bits keys sigs).ok = true →
    ∀ x ∈ (consumeSigs u bits keys sigs).charged, x = .secp256k1 ∨ x = .secp256r1 ∨ (x = .ethsecp256k1 ∧ u = true)
  | [], h => by simp [consumeSigs]
  | s :: ss, h => by
    rw [consumeSigs] at h ⊢
    cases hb : bits.dropWhile (fun b => !b) with
    | nil => simp
    | cons b bs =>
      cases hk : keys.drop (bits.takeWhile (fun b => !b)).length with
      | nil => simp
      | cons k ks =>
        rw [hb, hk] at h
        simp only at h ⊢
        obtain ⟨h1, h2, h3⟩ := andThen_ok h
        intro x hx
        rw [h3, List.mem_append] at hx
        rcases hx with hx | hx
        · exact consume_types u k s h1 x hx
        · exact sigs_types u bs ks ss h2 x hx
end

mutual
theorem consume_sdk (k : Key) : ∀ d : Data, ((consume false k d).ok = true ↔
      (consume true k d).ok = true ∧ ∀ x ∈ (consume true k d).charged, x ≠ .ethsecp256k1) ∧
    ((consume false k d).ok = true → (consume false k d).charged = (consume true k d).charged)
  | .single id eth => by cases k <;> simp [consume]
  | .multi bits sigs => by
    cases k with
    | multi t keys => rw [consume, consume]; exact sigs_sdk bits keys sigs
    | _ => simp [consume]

theorem sigs_sdk (bits : List Bool) (keys : List Key) : ∀ sigs : List Data, ((consumeSigs false bits keys sigs).ok = true ↔
      (consumeSigs true bits keys sigs).ok = true ∧ ∀ x ∈ (consumeSigs true bits keys sigs).charged, x ≠ .ethsecp256k1) ∧
    ((consumeSigs false bits keys sigs).ok = true →
      (consumeSigs false bits keys sigs).charged = (consumeSigs true bits keys sigs).charged)
  | [] => by simp [consumeSigs]
  | s :: ss => by
    rw [consumeSigs, consumeSigs]
    cases hb : bits.dropWhile (fun b => !b) with
    | nil => simp
    | cons b bs =>
      cases hk : keys.drop (bits.takeWhile (fun b => !b)).length with
      | nil => simp
      | cons k ks =>
        simp only
        have m := consume_sdk k s
        have r := sigs_sdk bs ks ss
        refine ⟨⟨fun h => ?_, fun h => ?_⟩, fun h => ?_⟩
        · obtain ⟨h1, h2, _⟩ := andThen_ok h
          obtain ⟨a1, a2⟩ := m.1.1 h1
          obtain ⟨b1, b2⟩ := r.1.1 h2
          rw [Bill.andThen, if_pos a1]
          refine ⟨b1, fun x hx => ?_⟩
          rcases List.mem_append.1 hx with hx | hx
          · exact a2 x hx
          · exact b2 x hx
        · obtain ⟨h, hn⟩ := h
          obtain ⟨h1, h2, h3⟩ := andThen_ok h
          rw [h3] at hn
          rw [Bill.andThen, if_pos (m.1.2 ⟨h1, fun x hx => hn x (List.mem_append_left _ hx)⟩)]
          exact r.1.2 ⟨h2, fun x hx => hn x (List.mem_append_right _ hx)⟩
        · obtain ⟨h1, h2, h3⟩ := andThen_ok h
          rw [h3, m.2 h1, r.2 h2, Bill.andThen, if_pos (m.1.1 h1).1]
end

/-- C84: every signature that is charged and accepted is of a supported type; ed25519 and unknown keys, however deep in a
multisig, are refused. -/
theorem C84_types (u : Bool) (k : Key) (d : Data) (h : (consume u k d).ok = true) :
    ∀ x ∈ (consume u k d).charged, x = .secp256k1 ∨ x = .secp256r1 ∨ x = .ethsecp256k1 := by
  intro x hx
  rcases consume_types u k d h x hx with e | e | e
  · exact .inl e
  · exact .inr (.inl e)
  · exact .inr (.inr e.1)

/-- C84: the deposit-hook handler accepts (and charges) exactly what the transaction handler does, except keys of
Ethereum wallets. -/
theorem C84_hook_partial (k : Key) (d : Data) :
    ((consume false k d).ok = true ↔ (consume true k d).ok = true ∧ ∀ x ∈ (consume true k d).charged, x ≠ .ethsecp256k1) ∧
    ((consume false k d).ok = true → (consume false k d).charged = (consume true k d).charged) := consume_sdk k d

theorem billAll_paid (u : Bool) (valid : Key → Nat → Bool) (ethOk : Bool) : ∀ sigs, (billAll u sigs).ok = true →
    (checkAll valid ethOk sigs).checks ≤ (billAll u sigs).charged.length ∧
    ((checkAll valid ethOk sigs).ok = true → (checkAll valid ethOk sigs).checks = (billAll u sigs).charged.length)
  | [], h => by simp [checkAll, billAll]
  | s :: ss, h => by
    rw [billAll] at h ⊢
    rw [checkAll]
    obtain ⟨h1, h2, h3⟩ := andThen_ok h
    rw [h3, List.length_append]
    have m := C84_paid u valid ethOk s.1 s.2 h1
    have r := billAll_paid u valid ethOk ss h2
    simp only
    by_cases e : (verifySignature valid ethOk s.1 s.2).ok = true
    · rw [if_pos e]
      have me := m.2 e
      refine ⟨?_, fun o => ?_⟩
      · show _ + _ ≤ _
        omega
      · show _ + _ = _
        have := r.2 o
        omega
    · rw [if_neg e]
      exact ⟨by omega, fun o => absurd o e⟩

theorem billAll_types (u : Bool) : ∀ sigs, (billAll u sigs).ok = true →
    ∀ x ∈ (billAll u sigs).charged, x = .secp256k1 ∨ x = .secp256r1 ∨ x = .ethsecp256k1
  | [], h => by simp [billAll]
  | s :: ss, h => by
    rw [billAll] at h ⊢
    obtain ⟨h1, h2, h3⟩ := andThen_ok h
    intro x hx
    rw [h3, List.mem_append] at hx
    rcases hx with hx | hx
    · exact C84_types u _ _ h1 x hx
    · exact billAll_types u ss h2 x hx

theorem sum_min (p : Prices) (c : Nat) (h1 : c ≤ p.secp256k1) (h2 : c ≤ p.secp256r1) : ∀ l : List Key,
    (∀ x ∈ l, x = .secp256k1 ∨ x = .secp256r1 ∨ x = .ethsecp256k1) → l.length * c ≤ (l.map p.of).sum
  | [], _ => by simp
  | x :: xs, h => by
    have ih := sum_min p c h1 h2 xs fun y hy => h y (by simp [hy])
    have hx : c ≤ p.of x := by
      rcases h x (by simp) with e | e | e <;> subst e <;> assumption
    simp only [List.length_cons, List.map_cons, List.sum_cons, Nat.add_mul, Nat.one_mul]
    omega

/-- C84: for every transaction, however many signers and however deep its multisigs: the signature checks a node makes
for it, accepted or not, at the price `c` of the cheapest, are covered by its gas limit; and a transaction whose
signatures all pass was charged for each of them. -/
theorem C84_limit (p : Prices) (u : Bool) (limit : Nat) (valid : Key → Nat → Bool) (ethOk : Bool)
    (sigs : List (Key × Data)) (c : Nat) (h1 : c ≤ p.secp256k1) (h2 : c ≤ p.secp256r1) :
    (anteSigs p u limit valid ethOk sigs).checks * c ≤ limit ∧
    ((anteSigs p u limit valid ethOk sigs).ok = true →
      (anteSigs p u limit valid ethOk sigs).checks = (billAll u sigs).charged.length ∧ (billAll u sigs).gas p ≤ limit) := by
  unfold anteSigs
  simp only
  by_cases h : (billAll u sigs).ok = false ∨ limit < (billAll u sigs).gas p
  · rw [if_pos h]; simp
  · rw [if_neg h]
    have hb : (billAll u sigs).ok = true := by
      cases e : (billAll u sigs).ok with
      | true => rfl
      | false => exact absurd (.inl e) h
    have hg : (billAll u sigs).gas p ≤ limit := by
      have := fun x => h (.inr x)
      omega
    have m := billAll_paid u valid ethOk sigs hb
    have s := sum_min p c h1 h2 _ (billAll_types u sigs hb)
    refine ⟨?_, fun o => ⟨m.2 o, hg⟩⟩
    refine Nat.le_trans (Nat.mul_le_mul_right c m.1) (Nat.le_trans s hg)

/-- C84: a transaction that cannot pay for its signatures is refused before any of them is checked. -/
theorem C84_underpaid (p : Prices) (u : Bool) (limit : Nat) (valid : Key → Nat → Bool) (ethOk : Bool)
    (sigs : List (Key × Data)) (h : limit < (billAll u sigs).gas p) :
    anteSigs p u limit valid ethOk sigs = ⟨0, false⟩ := by
  unfold anteSigs
  simp only
  rw [if_pos (.inr h)]

/-- C84: one ordinary signature (of an Ethereum wallet or a Cosmos one) costs one `secp256k1` check, and passes if it is
good. -/
theorem C84_wallet (p : Prices) (limit : Nat) (valid : Key → Nat → Bool) (ethOk eth : Bool) (id : Nat) (k : Key)
    (hk : k = .secp256k1 ∨ k = .ethsecp256k1) (hl : p.secp256k1 ≤ limit) :
    anteSigs p true limit valid ethOk [(k, .single id eth)] = ⟨1, if eth then ethOk else valid k id⟩ := by
  have : ¬ limit < p.secp256k1 := by omega
  rcases hk with e | e <;> subst e <;> cases eth <;> cases ethOk <;>
    simp [anteSigs, billAll, consume, Bill.andThen, Bill.gas, Prices.of, checkAll, verifySignature, this] <;>
    split <;> simp_all

theorem billAll_false : ∀ (sigs : List (Key × Data)) (d : Data), (Key.ethsecp256k1, d) ∈ sigs →
    (billAll false sigs).ok = false
  | [], _, h => by simp at h
  | s :: ss, d, h => by
    cases e : (billAll false (s :: ss)).ok with
    | false => rfl
    | true =>
      rw [billAll] at e
      obtain ⟨h1, h2, _⟩ := andThen_ok e
      rcases List.mem_cons.1 h with h | h
      · subst h
        cases d <;> simp [consume] at h1
      · rw [billAll_false ss d h] at h2; simp at h2

/-- C84 is false of the code as it is: a transaction in the hook of a deposit is refused whenever an Ethereum wallet is
among its signers, whatever gas is left: app/ante/ante.go:112 uses cosmos-sdk's gas consumer, which does not know the
key type. -/
theorem C84_hook_violated (p : Prices) (limit : Nat) (valid : Key → Nat → Bool) (ethOk : Bool) (sigs : List (Key × Data))
    (d : Data) (h : (Key.ethsecp256k1, d) ∈ sigs) : anteSigs p false limit valid ethOk sigs = ⟨0, false⟩ := by
  unfold anteSigs
  simp only
  rw [if_pos (.inl (billAll_false sigs d h))]

/-! ### Cases -/

/-- A 2-of-3 multisig with a nested 1-of-2. -/
def toyKey : Key := .multi 2 [.secp256k1, .ethsecp256k1, .multi 1 [.secp256r1, .ed25519]]

/-- Signed by the first and the nested key. -/
def toyData : Data := .multi [true, false, true] [.single 1 false, .multi [true, false] [.single 2 false]]

example : (consume true toyKey toyData).ok = true ∧ (consume true toyKey toyData).charged = [.secp256k1, .secp256r1] ∧
    (verifySignature (fun _ _ => true) false toyKey toyData).ok = true ∧
    (verifySignature (fun _ _ => true) false toyKey toyData).checks = 2 := by
  refine ⟨rfl, rfl, rfl, rfl⟩

example : (consume true toyKey (.multi [true, false, true] [.single 1 false, .multi [false, true] [.single 2 false]])).ok = false :=
  rfl

/-- The signatures of an accepted list belong, in order, to members of the key, one for every set bit. -/
theorem sigs_members (valid : Key → Nat → Bool) : ∀ (sigs : List Data) (bits : List Bool) (keys : List Key),
    (verifySigs valid bits keys sigs).ok = true → ∃ l : List (Key × Data), (l.map Prod.fst).Sublist keys ∧
      (l.map Prod.snd).Sublist sigs ∧ l.length = (bits.filter id).length ∧ ∀ x ∈ l, (verifyMember valid x.1 x.2).ok = true
  | [], bits, keys, h => by
    rw [verifySigs] at h
    refine ⟨[], List.nil_sublist _, List.nil_sublist _, ?_, fun x hx => by cases hx⟩
    have : bits.filter id = [] := by
      rw [List.filter_eq_nil_iff]
      intro b hb hid
      have : bits.any id = true := List.any_eq_true.mpr ⟨b, hb, hid⟩
      rw [this] at h; cases h
    rw [this]; rfl
  | s :: ss, bits, keys, h => by
    rw [verifySigs] at h
    have hb : bits = bits.takeWhile (fun b => !b) ++ bits.dropWhile (fun b => !b) := (List.takeWhile_append_dropWhile).symm
    have hz : (bits.takeWhile (fun b => !b)).filter id = [] := by
      rw [List.filter_eq_nil_iff]
      intro b hb hid
      have := List.all_takeWhile (l := bits) (p := fun b => !b)
      have := List.all_eq_true.mp this b hb
      simp only [id] at hid
      rw [hid] at this; cases this
    have hhead : ∀ x xs, bits.dropWhile (fun b => !b) = x :: xs → x = true := by
      intro x xs hx
      have := List.head?_dropWhile_not (fun b => !b) bits
      rw [hx] at this
      simpa using this
    have hlen : (bits.filter id).length = ((bits.dropWhile (fun b => !b)).filter id).length := by
      conv => lhs; rw [hb]
      rw [List.filter_append, hz, List.nil_append]
    rw [hlen]
    generalize hd : bits.dropWhile (fun b => !b) = dw at h hhead ⊢
    generalize hk : keys.drop (bits.takeWhile (fun b => !b)).length = dk at h
    have hsub : dk.Sublist keys := by rw [← hk]; exact List.drop_sublist _ _
    cases dw with
    | nil => exact ⟨[], List.nil_sublist _, List.nil_sublist _, rfl, fun x hx => by cases hx⟩
    | cons x bs =>
      cases dk with
      | nil => cases h
      | cons k ks =>
        simp only at h
        by_cases hr : (verifyMember valid k s).ok = true
        · rw [if_pos hr] at h
          obtain ⟨l, h1, h2, h3, h4⟩ := sigs_members valid ss bs ks h
          refine ⟨(k, s) :: l, ?_, ?_, ?_, ?_⟩
          · exact (List.Sublist.cons₂ k h1).trans hsub
          · exact List.Sublist.cons₂ s h2
          · have := hhead x bs rfl
            subst this
            simp [h3]
          · intro y hy
            rcases List.mem_cons.mp hy with rfl | hy
            · exact hr
            · exact h4 y hy
        · rw [if_neg hr] at h; exact absurd h hr

/-- **C84 (thresholds).** A multisignature is accepted only with valid signatures of at least as many different members of
the key as its threshold says, whatever bits and signatures it carries. -/
theorem C84_threshold (valid : Key → Nat → Bool) (t : Nat) (keys : List Key) (d : Data)
    (h : (verifyMember valid (.multi t keys) d).ok = true) : ∃ l : List (Key × Data), (l.map Prod.fst).Sublist keys ∧
      t ≤ l.length ∧ ∀ x ∈ l, (verifyMember valid x.1 x.2).ok = true := by
  cases d with
  | single i eth => rw [verifyMember] at h; cases h
  | multi bits sigs =>
    rw [verifyMember] at h
    split at h
    · cases h
    · rename_i hc
      obtain ⟨l, h1, _, h3, h4⟩ := sigs_members valid sigs bits keys h
      exact ⟨l, h1, by omega, h4⟩

/-- **C84 (thresholds).** Such a member's signature is a good signature of that key itself: one in Ethereum mode is not
taken inside a multisignature, and a single signature does not stand for a nested multisig key. -/
theorem C84_member (valid : Key → Nat → Bool) (k : Key) (i : Nat) (eth : Bool) :
    (verifyMember valid k (.single i eth)).ok = true ↔
      eth = false ∧ (∀ t ks, k ≠ .multi t ks) ∧ valid k i = true := by
  cases k <;> cases eth <;> simp [verifyMember]

/-- The same two signatures, the first made in Ethereum mode. -/
example : (verifyMember (fun _ i => decide (i < 10)) (.multi 2 [.secp256k1, .ethsecp256k1, .secp256r1])
    (.multi [true, false, true] [.single 1 true, .single 2 false])).ok = false := by decide

/-- Two of three members sign. -/
example : (verifyMember (fun _ i => decide (i < 10)) (.multi 2 [.secp256k1, .ethsecp256k1, .secp256r1])
    (.multi [true, false, true] [.single 1 false, .single 2 false])).ok = true := by decide

theorem dropWhile_unset : ∀ bits : List Bool, bits.any id = false → bits.dropWhile (fun b => !b) = []
  | [], _ => rfl
  | b :: bs, h => by
    cases b
    · exact dropWhile_unset bs (by simpa using h)
    · simp at h

/-- Signatures after the last set bit are not looked at. -/
theorem sigs_extra (valid : Key → Nat → Bool) (extra : List Data) : ∀ (sigs : List Data) (bits : List Bool)
    (keys : List Key), (verifySigs valid bits keys sigs).ok = true →
      verifySigs valid bits keys (sigs ++ extra) = verifySigs valid bits keys sigs
  | [], bits, keys, h => by
    rw [verifySigs] at h
    have hn : bits.any id = false := by simpa using h
    have hd : bits.dropWhile (fun b => !b) = [] := dropWhile_unset bits hn
    cases extra with
    | nil => rfl
    | cons x xs => rw [List.nil_append, verifySigs, verifySigs, hd, hn]; rfl
  | s :: ss, bits, keys, h => by
    rw [verifySigs] at h
    rw [List.cons_append, verifySigs, verifySigs]
    generalize bits.dropWhile (fun b => !b) = dw at h ⊢
    generalize keys.drop (bits.takeWhile (fun b => !b)).length = dk at h ⊢
    cases dw with
    | nil => rfl
    | cons x bs =>
      cases dk with
      | nil => rfl
      | cons k ks =>
        simp only at h ⊢
        by_cases hr : (verifyMember valid k s).ok = true
        · rw [if_pos hr] at h ⊢
          rw [if_pos hr, sigs_extra valid extra ss bs ks h]
        · rw [if_neg hr] at h; exact absurd h hr

/-- The same for what is charged. -/
theorem bill_extra (u : Bool) (extra : List Data) : ∀ (sigs : List Data) (bits : List Bool)
    (keys : List Key), (consumeSigs u bits keys sigs).ok = true →
      consumeSigs u bits keys (sigs ++ extra) = consumeSigs u bits keys sigs
  | [], bits, keys, h => by
    rw [consumeSigs] at h
    have hn : bits.any id = false := by simpa using h
    have hd : bits.dropWhile (fun b => !b) = [] := dropWhile_unset bits hn
    cases extra with
    | nil => rfl
    | cons x xs => rw [List.nil_append, consumeSigs, consumeSigs, hd, hn]; rfl
  | s :: ss, bits, keys, h => by
    rw [consumeSigs] at h
    rw [List.cons_append, consumeSigs, consumeSigs]
    generalize bits.dropWhile (fun b => !b) = dw at h ⊢
    generalize keys.drop (bits.takeWhile (fun b => !b)).length = dk at h ⊢
    cases dw with
    | nil => rfl
    | cons x bs =>
      cases dk with
      | nil => rfl
      | cons k ks =>
        simp only at h ⊢
        rw [bill_extra u extra ss bs ks (andThen_ok h).2.1]

/-- **C84 (spare signatures).** Signatures that no bit stands for, as long as there are no more of them than members, are
neither charged nor checked and do not change the verdict: whoever relays a multisigned transaction can add them, so the
bytes (and the hash) of an accepted transaction are not fixed by its signers. -/
theorem C84_spare (u : Bool) (valid : Key → Nat → Bool) (ethOk : Bool) (t : Nat) (keys : List Key) (bits : List Bool)
    (sigs extra : List Data) (hl : (sigs ++ extra).length ≤ bits.length)
    (hc : (consume u (.multi t keys) (.multi bits sigs)).ok = true)
    (hv : (verifySignature valid ethOk (.multi t keys) (.multi bits sigs)).ok = true) :
    verifySignature valid ethOk (.multi t keys) (.multi bits (sigs ++ extra)) =
        verifySignature valid ethOk (.multi t keys) (.multi bits sigs) ∧
      consume u (.multi t keys) (.multi bits (sigs ++ extra)) = consume u (.multi t keys) (.multi bits sigs) := by
  rw [consume] at hc
  rw [consume, consume, bill_extra u extra sigs bits keys hc]
  refine ⟨?_, rfl⟩
  rw [verifySignature, verifyMember] at hv
  rw [verifySignature, verifySignature, verifyMember, verifyMember]
  split at hv
  · cases hv
  · rename_i g
    rw [if_neg g, if_neg (by rw [List.length_append] at hl ⊢; omega), sigs_extra valid extra sigs bits keys hv]

/-- A spare signature rides along. -/
example : (verifySignature (fun _ i => decide (i < 10)) true (.multi 2 [.secp256k1, .ethsecp256k1, .secp256r1])
    (.multi [true, false, true] [.single 1 false, .single 2 false, .single 77 false])).ok = true := by decide

/-- **C84 (plain keys).** What a key that is not a multisig is charged, and whether it is supported, does not depend on
the signature that is attached to it. -/
theorem C84_plain (u : Bool) (k : Key) (hk : ∀ t keys, k ≠ .multi t keys) (d d' : Data) :
    consume u k d = consume u k d' := by
  cases d <;> cases d' <;> cases k <;> simp_all [consume]

end Verif.Props.SigGas
