import Verif.Model.SigAnte
import Verif.Props.TxUtils
/-
C19 (signature verification) and C20 (replay protection).
-/
namespace Verif.Props.SigAnte
open Verif Verif.TxUtils Verif.SigAnte

/-! ### C19 -/

theorem checkSig_sound {K : Type} {e : Env K} {other : ATx K → K → Nat → Nat → SigData → Bool} {m : Mode}
    {t : ATx K} {accs : Bytes → Option (Acc K)} {sig : ASig K} {signer : Bytes}
    (h : checkSig e other m t accs sig signer = true) (hs : m.simulate = false) :
    ∃ acc pk, accs signer = some acc ∧ acc.pubKey = some pk ∧ sig.sequence = acc.seq ∧
      (m.recheck = false →
        verifySignature e other t pk (if m.genesis then 0 else acc.num) acc.seq sig.data = true) := by
  unfold checkSig at h
  split at h
  · cases h
  · rename_i acc ha
    cases hp : acc.pubKey with
    | none => simp [hs, hp] at h
    | some pk =>
      simp only [hs, hp] at h
      refine ⟨acc, pk, ha, hp, ?_, ?_⟩
      · by_cases g : sig.sequence = acc.seq
        · exact g
        · simp [g] at h
      · intro hr
        by_cases g : sig.sequence = acc.seq
        · simpa [g, hr] using h
        · simp [g] at h

theorem mapM_keys {K : Type} (sg : List (ASig K)) (l : List (Sig K))
    (hm : (sg.mapM fun s : ASig K => s.pubKey.map fun k => (⟨k, s.data, s.sequence⟩ : Sig K)) = some l) :
    sg.map (·.pubKey) = l.map (fun s => some s.pubKey) := by
  induction sg generalizing l with
  | nil => cases l with
    | nil => rfl
    | cons => simp at hm
  | cons y ys ih =>
    rw [List.mapM_cons] at hm
    cases hy : y.pubKey with
    | none => simp [hy] at hm
    | some k =>
      simp only [hy, Option.map_some, Option.bind_eq_bind, Option.bind_some] at hm
      cases hz : (ys.mapM fun s : ASig K =>
          s.pubKey.map fun k => (⟨k, s.data, s.sequence⟩ : Sig K)) with
      | none => rw [hz] at hm; cases hm
      | some l' =>
        rw [hz] at hm
        simp at hm
        rw [← hm]
        simp [hy, ih l' hz]

/-- **C19.** Outside simulation a transaction passes the signature check only if it carries exactly one signature
per signer, and each signature is for an existing account that has a public key, with that account's current
sequence, and (outside re-check) verifies: a non-Ethereum signature under the account's own key, for the
account's number and sequence; an Ethereum signature by recovering, from the rebuilt Ethereum transaction, the
address of the attached key. -/
theorem C19_sound {K : Type} (e : Env K) (other : ATx K → K → Nat → Nat → SigData → Bool) (m : Mode)
    (t : ATx K) (accs : Bytes → Option (Acc K)) (hs : m.simulate = false)
    (h : sigVerify e other m t accs = true) :
    t.sigs.length = t.signers.length ∧
    ∀ i (hi : i < t.sigs.length) (hj : i < t.signers.length),
      ∃ acc pk, accs t.signers[i] = some acc ∧ acc.pubKey = some pk ∧ t.sigs[i].sequence = acc.seq ∧
        (m.recheck = false →
          match t.sigs[i].data with
          | .single 9999 _ => ∃ c x k, t.toCosmos = some c ∧
              cosmosToEth e c = some (some (x, bytesToAddress (e.keyAddr k))) ∧
              t.sigs.map (·.pubKey) = [some k] ∧ (e.keyAddr k).length = 20 ∧
              ∃ k', senderKey e x = some k' ∧ bytesToAddress (e.keyAddr k') = bytesToAddress (e.keyAddr k)
          | d => other t pk (if m.genesis then 0 else acc.num) acc.seq d = true) := by
  simp only [sigVerify, Bool.and_eq_true, beq_iff_eq, List.all_eq_true] at h
  refine ⟨h.1, ?_⟩
  intro i hi hj
  have hmem : (t.sigs[i], t.signers[i]) ∈ t.sigs.zip t.signers := by
    rw [List.mem_iff_getElem]
    exact ⟨i, by simp; omega, by simp⟩
  obtain ⟨acc, pk, h1, h2, h3, h4⟩ := checkSig_sound (h.2 _ hmem) hs
  refine ⟨acc, pk, h1, h2, h3, ?_⟩
  intro hr
  have hv := h4 hr
  split
  · rename_i bz hd
    simp only [hd] at hv
    unfold verifySignature at hv
    simp only [ethMode, if_true] at hv
    split at hv
    · rename_i c hc
      unfold verifyEth at hv
      split at hv
      · rename_i x ex hx
        obtain ⟨msg, md, sg, b, v, r, s, cap, tip, to, input, value, al, q1, q2, q3, q4, q5, q6, q7, q8, q9, q10,
          q11, q12, q13⟩ := Verif.Props.TxUtils.cosmosToEth_inv hx
        have hpk : t.sigs.map (·.pubKey) = c.sigs.map (fun s => some s.pubKey) := by
          unfold ATx.toCosmos at hc
          cases hm : (t.sigs.mapM fun s : ASig K =>
              s.pubKey.map fun k => (⟨k, s.data, s.sequence⟩ : Sig K)) with
          | none => rw [hm] at hc; cases hc
          | some l =>
            rw [hm] at hc
            simp only [Option.map_some, Option.some.injEq] at hc
            rw [← hc]
            show t.sigs.map (·.pubKey) = l.map (fun s => some s.pubKey)
            exact mapM_keys t.sigs l hm
        refine ⟨c, x, sg.pubKey, hc, by rw [hx, q13], by rw [hpk, q4]; rfl, q6, ?_⟩
        split at hv
        · rename_i k' hk'
          exact ⟨k', hk', by rw [← q13]; exact eq_of_beq hv⟩
        · cases hv
      · cases hv
    · cases hv
  · rename_i d hne
    unfold verifySignature at hv
    split at hv
    · rename_i mode bz hd
      by_cases g : mode = ethMode
      · exact absurd (by rw [hd, g]; rfl) (hne bz)
      · rw [if_neg g] at hv; exact hv
    · exact hv

/-- **C19 (simulation and re-check).** When a transaction is simulated or re-checked no signature is verified: it passes
exactly if there is one signature per signer and each carries the current sequence of an existing account (which, on
re-check, has a public key), whatever the signatures' contents. -/
theorem C19_unverified {K : Type} (e : Env K) (other : ATx K → K → Nat → Nat → SigData → Bool) (m : Mode)
    (t : ATx K) (accs : Bytes → Option (Acc K)) (hm : m.simulate = true ∨ m.recheck = true) :
    sigVerify e other m t accs = true ↔
      t.sigs.length = t.signers.length ∧ ∀ p ∈ t.sigs.zip t.signers, ∃ acc, accs p.2 = some acc ∧
        p.1.sequence = acc.seq ∧ (m.simulate = false → acc.pubKey.isSome = true) := by
  simp only [sigVerify, Bool.and_eq_true, beq_iff_eq, List.all_eq_true]
  refine and_congr Iff.rfl (forall_congr' fun p => imp_congr Iff.rfl ?_)
  unfold checkSig
  cases accs p.2 with
  | none => simp
  | some acc =>
    obtain ⟨sim, rec, g⟩ := m
    cases sim <;> cases rec <;> simp at hm <;> cases hp : acc.pubKey <;>
      by_cases q : p.1.sequence = acc.seq <;> simp [q, hp]

theorem setPubKeys_addr {K : Type} (e : Env K) (m : Mode) (hs : m.simulate = false) :
    ∀ (l : List (ASig K × Bytes)) (accs accs' : Bytes → Option (Acc K)),
      setPubKeys e m l accs = some accs' →
      ∀ p ∈ l, ∀ pk, p.1.pubKey = some pk → e.keyAddr pk = p.2
  | [], _, _, _, p, hp, _, _ => by cases hp
  | (s, signer) :: rest, accs, accs', h, p, hp, pk, hpk => by
    simp only [setPubKeys] at h
    cases hk : s.pubKey with
    | none =>
      rw [hk] at h
      rcases List.mem_cons.mp hp with rfl | hp
      · rw [hk] at hpk; cases hpk
      · exact setPubKeys_addr e m hs rest _ _ h p hp pk hpk
    | some k =>
      rw [hk] at h
      simp only [hs, Bool.not_false, Bool.true_and] at h
      split at h
      · cases h
      · rename_i g
        split at h
        · cases h
        · rcases List.mem_cons.mp hp with rfl | hp
          · rw [hk] at hpk; cases hpk
            simpa using g
          · exact setPubKeys_addr e m hs rest _ _ h p hp pk hpk

/-- **C19 (keys are bound once).** Checking a transaction's keys never creates or removes an account, never replaces a key
an account already has, changes nothing else of an account, and gives a key only to an account that signs, one that
is attached for it. -/
theorem C19_keys {K : Type} (e : Env K) (m : Mode) : ∀ (l : List (ASig K × Bytes)) (accs accs' : Bytes → Option (Acc K)),
    setPubKeys e m l accs = some accs' → ∀ a,
      (accs a = none → accs' a = none) ∧
      (∀ acc, accs a = some acc → accs' a = some acc ∨
        (acc.pubKey = none ∧ ∃ p ∈ l, p.2 = a ∧ ∃ k, p.1.pubKey = some k ∧ accs' a = some { acc with pubKey := some k }))
  | [], accs, accs', h, a => by cases h; exact ⟨id, fun _ h => .inl h⟩
  | (s, signer) :: rest, accs, accs', h, a => by
    simp only [setPubKeys] at h
    cases hk : s.pubKey with
    | none =>
      rw [hk] at h
      obtain ⟨h1, h2⟩ := C19_keys e m rest accs accs' h a
      refine ⟨h1, fun acc ha => ?_⟩
      rcases h2 acc ha with g | ⟨g1, p, g2, g3⟩
      · exact .inl g
      · exact .inr ⟨g1, p, List.mem_cons_of_mem _ g2, g3⟩
    | some k =>
      rw [hk] at h
      simp only at h
      split at h
      · cases h
      · split at h
        · cases h
        · rename_i acc0 hacc0
          obtain ⟨h1, h2⟩ := C19_keys e m rest _ accs' h a
          by_cases hs : a = signer
          · subst hs
            simp only [if_true] at h1 h2
            refine ⟨(fun hn => by rw [hn] at hacc0; cases hacc0), fun acc ha => ?_⟩
            rw [hacc0] at ha; cases ha
            cases hp : acc0.pubKey with
            | some k0 =>
              rw [if_pos (by rw [hp]; rfl)] at h2
              rcases h2 acc0 rfl with g | ⟨g1, _⟩
              · exact .inl g
              · rw [hp] at g1; cases g1
            | none =>
              rw [if_neg (by rw [hp]; simp)] at h2
              rcases h2 _ rfl with g | ⟨g1, _⟩
              · exact .inr ⟨rfl, _, List.mem_cons_self .., rfl, k, hk, g⟩
              · cases g1
          · simp only [if_neg hs] at h1 h2
            refine ⟨h1, fun acc ha => ?_⟩
            rcases h2 acc ha with g | ⟨g1, p, g2, g3⟩
            · exact .inl g
            · exact .inr ⟨g1, p, List.mem_cons_of_mem _ g2, g3⟩

/-- **C19 (Ethereum signatures bind the signer).** In normal execution, a transaction accepted with an Ethereum
signature has a single signer, and that signer is the address recovered from the signed Ethereum transaction. -/
theorem C19_eth_signer {K : Type} (e : Env K) (he : e.Ok)
    (other : ATx K → K → Nat → Nat → SigData → Bool) (m : Mode)
    (t : ATx K) (accs : Bytes → Option (Acc K)) (hs : m.simulate = false) (hr : m.recheck = false)
    (h : anteSig e other m t accs = true) (i : Nat) (hi : i < t.sigs.length) (bz : Bytes)
    (hd : t.sigs[i].data = .single 9999 bz) :
    ∃ signer c x a k', t.signers = [signer] ∧ t.toCosmos = some c ∧ cosmosToEth e c = some (some (x, a)) ∧
      senderKey e x = some k' ∧ e.keyAddr k' = signer := by
  unfold anteSig at h
  split at h
  · cases h
  · rename_i accs' hset
    obtain ⟨hl, hall⟩ := C19_sound e other m t accs' hs h
    obtain ⟨acc, pk, _, _, _, h4⟩ := hall i hi (hl ▸ hi)
    have h5 := h4 hr
    rw [hd] at h5
    obtain ⟨c, x, k, hc, hx, hk, h20, k', hk', heq⟩ := h5
    have hl1 : t.sigs.length = 1 := by
      have := congrArg List.length hk; simpa using this
    obtain ⟨sg, hsg⟩ := List.length_eq_one_iff.mp hl1
    obtain ⟨signer, hsn⟩ := List.length_eq_one_iff.mp (hl ▸ hl1 : t.signers.length = 1)
    have hkk : sg.pubKey = some k := by rw [hsg] at hk; simpa using hk
    have haddr := setPubKeys_addr e m hs _ _ _ hset (sg, signer) (by rw [hsg, hsn]; simp) k hkk
    have hk'20 : (e.keyAddr k').length = 20 := by
      cases x with
      | legacy =>
        simp only [senderKey] at hk'
        split at hk'
        · split at hk'
          · cases hk'
          · exact he.key20 _ _ _ _ _ (Verif.Props.TxUtils.recoverPlain_some hk').1
        · exact he.key20 _ _ _ _ _ (Verif.Props.TxUtils.recoverPlain_some hk').1
      | accessList =>
        simp only [senderKey] at hk'
        split at hk'
        · cases hk'
        · exact he.key20 _ _ _ _ _ (Verif.Props.TxUtils.recoverPlain_some hk').1
      | dynamic =>
        simp only [senderKey] at hk'
        split at hk'
        · cases hk'
        · exact he.key20 _ _ _ _ _ (Verif.Props.TxUtils.recoverPlain_some hk').1
      | other => simp [senderKey] at hk'
    refine ⟨signer, c, x, _, k', hsn, hc, hx, hk', ?_⟩
    have hb := congrArg Addr.bytes heq
    simp only [bytesToAddress, fitBytes_eq 20 _ h20, fitBytes_eq 20 _ hk'20] at hb
    rw [hb]; exact haddr

/-- A toy transaction accepted with an Ethereum signature. -/
def toyATx : ATx Unit :=
  { msgs := [.create [] ['0', 'x'] 0 []], memo := (Verif.Props.TxUtils.toyEnv 18).memoEnc ⟨0, ['0'], ['0']⟩,
    fee := [], gas := 9, sigs := [⟨some (), .single 9999 (toBE 32 5 ++ toBE 32 6 ++ [0]), 4⟩],
    signers := [List.replicate 20 7] }

example : anteSig (Verif.Props.TxUtils.toyEnv 18) (fun _ _ _ _ _ => false) ⟨false, false, false⟩ toyATx
    (fun a => if a = List.replicate 20 7 then some ⟨none, 4, 1⟩ else none) = true := by decide +kernel

/-- … and refused with a stale sequence. -/
example : anteSig (Verif.Props.TxUtils.toyEnv 18) (fun _ _ _ _ _ => false) ⟨false, false, false⟩ toyATx
    (fun a => if a = List.replicate 20 7 then some ⟨none, 5, 1⟩ else none) = false := by decide +kernel

/-! ### C20 -/

section
variable {A : Type} [DecidableEq A]

/-- Number of EVM messages sent by account `a`. -/
def sent (dec : Str → Option A) (a : A) (msgs : List (SMsg A)) : Nat :=
  msgs.countP fun m => match m.evmSender with
    | some c => dec c = some a
    | none => false

/-- Number of distinct sender strings (not in `seen`) that name account `a`. -/
def names (dec : Str → Option A) (a : A) : List (SMsg A) → List Str → Nat
  | [], _ => 0
  | m :: ms, seen => match m.evmSender with
    | none => names dec a ms seen
    | some c => if c ∈ seen then names dec a ms seen
      else (if dec c = some a then 1 else 0) + names dec a ms (c :: seen)

theorem perSender_eq (dec : Str → Option A) (d : Int) (msgs : List (SMsg A)) :
    ∀ (seen : List Str) (s s' : A → Int), perSender dec d msgs seen s = some s' →
      ∀ a, s' a = s a + d * names dec a msgs seen := by
  induction msgs with
  | nil => intro seen s s' h a; simp [perSender] at h; simp [h, names]
  | cons m ms ih =>
    intro seen s s' h a
    simp only [perSender] at h
    simp only [names]
    cases hm : m.evmSender with
    | none => rw [hm] at h; exact ih _ _ _ h a
    | some c =>
      rw [hm] at h
      simp only at h ⊢
      by_cases g : c ∈ seen
      · rw [if_pos g] at h ⊢; exact ih _ _ _ h a
      · rw [if_neg g] at h ⊢
        cases hd : dec c with
        | none => rw [hd] at h; cases h
        | some b =>
          rw [hd] at h
          rw [ih _ _ _ h a]
          unfold bump
          by_cases hab : a = b
          · subst hab; simp; rw [Int.mul_add]; omega
          · have : ¬ (some b = some a) := by intro g; cases g; exact hab rfl
            simp [hab, Ne.symm hab]

theorem perSender_some_iff (dec : Str → Option A) (d d' : Int) (msgs : List (SMsg A)) :
    ∀ (seen : List Str) (s t : A → Int), (perSender dec d msgs seen s).isSome = true →
      (perSender dec d' msgs seen t).isSome = true := by
  induction msgs with
  | nil => intro seen s t _; rfl
  | cons m ms ih =>
    intro seen s t h
    simp only [perSender] at h ⊢
    cases hm : m.evmSender with
    | none => rw [hm] at h; exact ih _ _ _ h
    | some c =>
      rw [hm] at h
      simp only at h ⊢
      by_cases g : c ∈ seen
      · rw [if_pos g] at h ⊢; exact ih _ _ _ h
      · rw [if_neg g] at h ⊢
        cases hd : dec c with
        | none => rw [hd] at h; cases h
        | some b => rw [hd] at h; exact ih _ _ _ h

theorem names_le_sent (dec : Str → Option A) (a : A) (msgs : List (SMsg A)) :
    ∀ seen, names dec a msgs seen ≤ sent dec a msgs := by
  induction msgs with
  | nil => intro seen; simp [names]
  | cons m ms ih =>
    intro seen
    simp only [names, sent, List.countP_cons]
    cases hm : m.evmSender with
    | none => simp; exact ih seen
    | some c =>
      simp only
      by_cases g : c ∈ seen
      · rw [if_pos g]; exact Nat.le_trans (ih seen) (Nat.le_add_right _ _)
      · rw [if_neg g]
        have := ih (c :: seen)
        unfold sent at this
        by_cases hd : dec c = some a <;> simp [hd] at this ⊢ <;> omega

/-- If every EVM message of `a` names it by the same string, it is counted once. -/
theorem names_one (dec : Str → Option A) (a : A) (msgs : List (SMsg A)) (c0 : Str)
    (hc : ∀ m ∈ msgs, ∀ c, m.evmSender = some c → dec c = some a → c = c0) :
    ∀ seen, (c0 ∈ seen → names dec a msgs seen = 0) ∧
      (c0 ∉ seen → names dec a msgs seen = if sent dec a msgs = 0 then 0 else 1) := by
  induction msgs with
  | nil => intro seen; simp [names, sent]
  | cons m ms ih =>
    intro seen
    have ih' := ih (fun m' hm' => hc m' (List.mem_cons_of_mem _ hm'))
    simp only [names, sent, List.countP_cons]
    cases hm : m.evmSender with
    | none =>
      simp only [Bool.false_eq_true, if_false, Nat.add_zero]
      exact ih' seen
    | some c =>
      simp only
      by_cases hd : dec c = some a
      · have he := hc m List.mem_cons_self c hm hd
        subst he
        constructor
        · intro g; rw [if_pos g]; exact (ih' seen).1 g
        · intro g
          rw [if_neg g, (ih' (c :: seen)).1 (by simp)]
          simp [hd]
      · by_cases g : c ∈ seen
        · rw [if_pos g]; simp only [hd, decide_false, Bool.false_eq_true, if_false, Nat.add_zero]
          exact ih' seen
        · rw [if_neg g]
          simp only [hd, decide_false, Bool.false_eq_true, if_false, Nat.add_zero, Nat.zero_add]
          constructor
          · intro h0; exact (ih' (c :: seen)).1 (List.mem_cons_of_mem _ h0)
          · intro h0
            by_cases hcc : c0 = c
            · subst hcc
              rw [(ih' (c0 :: seen)).1 (by simp)]
              -- no message of `a` at all: its name would be `c0`, which does not name `a`
              have hz : sent dec a ms = 0 := by
                unfold sent
                rw [List.countP_eq_zero]
                intro m' hm' hcnt
                cases hm2 : m'.evmSender with
                | none => simp [hm2] at hcnt
                | some c' =>
                  simp only [hm2, decide_eq_true_eq] at hcnt
                  have := hc m' (List.mem_cons_of_mem _ hm') c' hm2 hcnt
                  subst this
                  exact hd hcnt
              unfold sent at hz
              simp [hz]
            · have : c0 ∉ c :: seen := by simp [hcc, h0]
              exact (ih' (c :: seen)).2 this

theorem foldl_bump_notin (l : List A) (s : A → Int) (a : A) (h : a ∉ l) :
    (l.foldl (fun s a => bump s a 1) s) a = s a := by
  induction l generalizing s with
  | nil => rfl
  | cons x xs ih =>
    simp only [List.mem_cons, not_or] at h
    simp only [List.foldl_cons]
    rw [ih _ h.2]
    simp [bump, h.1]

theorem foldl_bump_mem (l : List A) (hn : l.Nodup) (s : A → Int) (a : A) (h : a ∈ l) :
    (l.foldl (fun s a => bump s a 1) s) a = s a + 1 := by
  induction l generalizing s with
  | nil => cases h
  | cons x xs ih =>
    simp only [List.nodup_cons] at hn
    simp only [List.foldl_cons]
    by_cases hx : a = x
    · subst hx
      rw [foldl_bump_notin xs _ _ hn.1]; simp [bump]
    · have hxs : a ∈ xs := by
        rcases List.mem_cons.mp h with h | h
        · exact absurd h hx
        · exact h
      rw [ih hn.2 _ hxs]
      simp [bump, hx]

theorem foldl_bump_ge (l : List A) (s : A → Int) (a : A) :
    s a ≤ (l.foldl (fun s a => bump s a 1) s) a := by
  induction l generalizing s with
  | nil => exact Int.le_refl _
  | cons x xs ih =>
    simp only [List.foldl_cons]
    refine Int.le_trans ?_ (ih _)
    unfold bump; split <;> omega

theorem foldl_bump_count (l : List A) (s : A → Int) (a : A) :
    (l.foldl (fun s a => bump s a 1) s) a = s a + l.count a := by
  induction l generalizing s with
  | nil => simp
  | cons x xs ih =>
    simp only [List.foldl_cons]
    rw [ih, List.count_cons]
    unfold bump
    by_cases h : a = x
    · subst h; simp; omega
    · simp [h, Ne.symm h]

/-- EVM calls made for `a` inside other messages (authz and the like). -/
def nested (a : A) : List (SMsg A) → Nat
  | [] => 0
  | .other bs :: ms => bs.count a + nested a ms
  | _ :: ms => nested a ms

/-- A successful run bumps `a` once per EVM message it sent (at least; exactly, when no other account's EVM
identity is `a`), plus nested calls. -/
theorem runMsgs_eq (dec : Str → Option A) (evmId : A → A) (a : A) (msgs : List (SMsg A)) :
    ∀ s s' : A → Int, runMsgs dec evmId msgs s = some s' →
      (∀ m ∈ msgs, ∀ c b, m.evmSender = some c → dec c = some b → (evmId b = a ↔ b = a)) →
      s' a = s a + sent dec a msgs + nested a msgs := by
  induction msgs with
  | nil => intro s s' h _; simp [runMsgs] at h; simp [h, sent, nested]
  | cons m ms ih =>
    intro s s' h hid
    have hid' := fun m' hm' => hid m' (List.mem_cons_of_mem _ hm')
    simp only [runMsgs] at h
    cases hr : runMsg dec evmId m s with
    | none => rw [hr] at h; cases h
    | some s1 =>
      rw [hr] at h
      rw [ih s1 s' h hid']
      cases m with
      | call c =>
        simp only [runMsg] at hr
        cases hd : dec c with
        | none => rw [hd] at hr; cases hr
        | some b =>
          rw [hd] at hr
          simp only [Option.map_some, Option.some.injEq] at hr
          subst hr
          simp only [sent, nested, List.countP_cons, SMsg.evmSender, hd, Option.some.injEq]
          by_cases hab : b = a
          · subst hab; simp [bump]; omega
          · simp [bump, hab, Ne.symm hab]
      | create c =>
        simp only [runMsg] at hr
        cases hd : dec c with
        | none => rw [hd] at hr; cases hr
        | some b =>
          rw [hd] at hr
          simp only [Option.map_some, Option.some.injEq] at hr
          subst hr
          have hb := hid (.create c) List.mem_cons_self c b rfl hd
          simp only [sent, nested, List.countP_cons, SMsg.evmSender, hd, Option.some.injEq]
          by_cases hab : b = a
          · subst hab; simp [bump, hb.mpr rfl]; omega
          · have : ¬ evmId b = a := fun g => hab (hb.mp g)
            simp [bump, hab, Ne.symm this]
      | other bs =>
        simp only [runMsg, Option.some.injEq] at hr
        subst hr
        simp only [sent, nested, List.countP_cons, SMsg.evmSender, Bool.false_eq_true, if_false]
        rw [foldl_bump_count]
        omega

/-- **C20 (success).** A successful transaction in block execution advances each signer's sequence by exactly the
number of EVM messages it sent — by 1 if it sent none — when each account is written the same way in all messages
and its EVM identity is its own address. Missing for the full claim: senders whose EVM identity is another
account (long addresses), and failed transactions under a BaseApp that drops post-handler writes. -/
theorem C20_success_partial (dec : Str → Option A) (evmId : A → A) (keepPost : Bool) (signers : List A)
    (hn : signers.Nodup) (msgs : List (SMsg A)) (s s' : A → Int) (a : A) (ha : a ∈ signers)
    (s1 s2 : A → Int) (hante : incrementSequences dec true signers msgs s = some s1)
    (hok : runMsgs dec evmId msgs s1 = some s2)
    (hid : ∀ m ∈ msgs, ∀ c b, m.evmSender = some c → dec c = some b → (evmId b = a ↔ b = a))
    (hname : ∃ c0, ∀ m ∈ msgs, ∀ c, m.evmSender = some c → dec c = some a → c = c0)
    (hnest : nested a msgs = 0)
    (h : deliver dec evmId keepPost false signers msgs s = some s') :
    s' a = s a + (if sent dec a msgs = 0 then 1 else sent dec a msgs : Nat) := by
  unfold deliver at h
  rw [hante] at h
  simp only [Bool.false_eq_true, if_false, hok, Option.some.injEq] at h
  subst h
  rw [runMsgs_eq dec evmId a msgs s1 s2 hok hid, hnest]
  unfold incrementSequences at hante
  rw [if_pos rfl] at hante
  rw [perSender_eq dec (-1) msgs _ _ _ hante a, foldl_bump_mem signers hn s a ha]
  obtain ⟨c0, hc0⟩ := hname
  rw [(names_one dec a msgs c0 hc0 []).2 (by simp)]
  split <;> omega

/-- **C20 (success, however accounts are written).** Without the assumption on spelling, and with nested calls,
the sequence of every signer whose EVM identity is its own strictly increases. -/
theorem C20_strict_partial (dec : Str → Option A) (evmId : A → A) (keepPost : Bool) (signers : List A)
    (hn : signers.Nodup) (msgs : List (SMsg A)) (s s' : A → Int) (a : A) (ha : a ∈ signers)
    (s1 s2 : A → Int) (hante : incrementSequences dec true signers msgs s = some s1)
    (hok : runMsgs dec evmId msgs s1 = some s2)
    (hid : ∀ m ∈ msgs, ∀ c b, m.evmSender = some c → dec c = some b → (evmId b = a ↔ b = a))
    (h : deliver dec evmId keepPost false signers msgs s = some s') : s a < s' a := by
  unfold deliver at h
  rw [hante] at h
  simp only [Bool.false_eq_true, if_false, hok, Option.some.injEq] at h
  subst h
  rw [runMsgs_eq dec evmId a msgs s1 s2 hok hid]
  unfold incrementSequences at hante
  rw [if_pos rfl] at hante
  rw [perSender_eq dec (-1) msgs _ _ _ hante a, foldl_bump_mem signers hn s a ha]
  have := names_le_sent dec a msgs []
  omega

/-- **C20 (failure, if BaseApp keeps post-handler writes).** A failed transaction advances each signer's sequence by
exactly 1, for every failure point and however accounts are written. -/
theorem C20_failure_partial (dec : Str → Option A) (evmId : A → A) (signers : List A) (hn : signers.Nodup)
    (msgs : List (SMsg A)) (s s' : A → Int) (a : A) (ha : a ∈ signers)
    (h : deliver dec evmId true true signers msgs s = some s') : s' a = s a + 1 := by
  unfold deliver at h
  cases hante : incrementSequences dec true signers msgs s with
  | none => rw [hante] at h; cases h
  | some s1 =>
    rw [hante] at h
    simp only [if_true] at h
    unfold incrementSequences at hante
    rw [if_pos rfl] at hante
    rw [perSender_eq dec 1 msgs _ _ _ h a, perSender_eq dec (-1) msgs _ _ _ hante a,
      foldl_bump_mem signers hn s a ha]
    omega

/-- **C20 is violated for failed transactions if BaseApp drops post-handler writes** (as cosmos-sdk does): the
sequence of every EVM sender of a failed transaction is unchanged, so the same signed transaction is valid
again — for every transaction in which each account is written one way. -/
theorem C20_violated_failed (dec : Str → Option A) (evmId : A → A) (signers : List A) (hn : signers.Nodup)
    (msgs : List (SMsg A)) (s s' : A → Int) (a : A) (ha : a ∈ signers)
    (hname : ∃ c0, ∀ m ∈ msgs, ∀ c, m.evmSender = some c → dec c = some a → c = c0)
    (hs : sent dec a msgs ≠ 0)
    (h : deliver dec evmId false true signers msgs s = some s') : s' a = s a := by
  unfold deliver at h
  cases hante : incrementSequences dec true signers msgs s with
  | none => rw [hante] at h; cases h
  | some s1 =>
    rw [hante] at h
    simp only [if_true, Bool.false_eq_true, if_false, Option.some.injEq] at h
    subst h
    unfold incrementSequences at hante
    rw [if_pos rfl] at hante
    rw [perSender_eq dec (-1) msgs _ _ _ hante a, foldl_bump_mem signers hn s a ha]
    obtain ⟨c0, hc0⟩ := hname
    rw [(names_one dec a msgs c0 hc0 []).2 (by simp), if_neg hs]
    omega

/-- **C20 is violated for senders with long addresses:** a successful contract creation by an account whose EVM
identity is a different (shorthand) account leaves the signer's sequence unchanged, whatever BaseApp does: the
transaction can be replayed. -/
theorem C20_violated_long (dec : Str → Option A) (evmId : A → A) (keepPost : Bool) (c : Str) (a : A)
    (hd : dec c = some a) (hlong : evmId a ≠ a) (s : A → Int) :
    ∃ s', deliver dec evmId keepPost false [a] [.create c] s = some s' ∧ s' a = s a ∧
      s' (evmId a) = s (evmId a) + 1 := by
  have key : deliver dec evmId keepPost false [a] [.create c] s =
      some (bump (bump (bump s a 1) a (-1)) (evmId a) 1) := by
    simp [deliver, incrementSequences, perSender, SMsg.evmSender, hd, runMsgs, runMsg]
  refine ⟨_, key, ?_, ?_⟩
  · simp [bump, Ne.symm hlong]; omega
  · simp [bump, hlong]

theorem deliver_two (dec : Str → Option A) (evmId : A → A) (c c' : Str) (a : A) (hc : c ≠ c') (hd : dec c = some a)
    (hd' : dec c' = some a) (s : A → Int) :
    deliver dec evmId false true [a] [.call c, .call c'] s = some (bump (bump (bump s a 1) a (-1)) a (-1)) := by
  simp [deliver, incrementSequences, perSender, SMsg.evmSender, hd, hd', Ne.symm hc]

/-- **C20 is violated: sequences can be wound back** (BaseApp dropping post-handler writes, as cosmos-sdk does). An account that can be
written in two ways (bech32 has an upper-case and a lower-case form) goes back by one with every failed transaction whose two calls
name their sender in the two ways — each of them signed by it alone and let through — as far as it likes, and nobody else's sequence
moves. Every transaction it ever signed is then valid again, one after another. -/
theorem C20_violated_rewind (dec : Str → Option A) (evmId : A → A) (c c' : Str) (a : A) (hc : c ≠ c')
    (hd : dec c = some a) (hd' : dec c' = some a) (k : Nat) :
    ∃ txs : List (Bool × List A × List (SMsg A)), txs.length = k ∧
      (∀ tx ∈ txs, tx.1 = true ∧ tx.2.1 = [a] ∧ ∀ s, (deliver dec evmId false tx.1 tx.2.1 tx.2.2 s).isSome) ∧
      ∀ s, deliverAll dec evmId false txs s a = s a - k ∧ ∀ b, b ≠ a → deliverAll dec evmId false txs s b = s b := by
  refine ⟨List.replicate k (true, [a], [.call c, .call c']), List.length_replicate .., ?_, ?_⟩
  · intro tx h
    rw [List.eq_of_mem_replicate h]
    exact ⟨rfl, rfl, fun s => by rw [deliver_two dec evmId c c' a hc hd hd']; rfl⟩
  · induction k with
    | zero => intro s; exact ⟨by simp [deliverAll], fun b _ => rfl⟩
    | succ k ih =>
      intro s
      simp only [List.replicate_succ, deliverAll]
      rw [deliver_two dec evmId c c' a hc hd hd' s, Option.getD_some]
      refine ⟨?_, fun b hb => ?_⟩
      · rw [(ih _).1]; simp [bump]; omega
      · rw [(ih _).2 b hb]; simp [bump, hb]

/-- **C20 is violated in the hook of a deposit, whatever BaseApp does**: there is no post handler, so the sequence of every EVM sender
of a failed hook is unchanged, and the signed hook is valid again: anybody can deposit with it once more. -/
theorem C20_violated_hook (dec : Str → Option A) (evmId : A → A) (signers : List A) (hn : signers.Nodup)
    (msgs : List (SMsg A)) (s s' : A → Int) (a : A) (ha : a ∈ signers)
    (hname : ∃ c0, ∀ m ∈ msgs, ∀ c, m.evmSender = some c → dec c = some a → c = c0)
    (hs : sent dec a msgs ≠ 0)
    (h : deliverHook dec evmId true signers msgs s = some s') : s' a = s a := by
  refine C20_violated_failed dec evmId signers hn msgs s s' a ha hname hs ?_
  rw [← h]; rfl

/-- **C20 (hooks of deposits):** a hook whose messages all succeed advances the sequence of every signer whose EVM identity is its own;
a failed one advances by exactly 1 that of every signer in whose name it has no EVM message. Missing: failed EVM messages
(`C20_violated_hook`). -/
theorem C20_hook_partial (dec : Str → Option A) (evmId : A → A) (signers : List A) (hn : signers.Nodup)
    (msgs : List (SMsg A)) (s s' : A → Int) (a : A) (ha : a ∈ signers) :
    ((∀ m ∈ msgs, ∀ c b, m.evmSender = some c → dec c = some b → (evmId b = a ↔ b = a)) →
      (∀ s1, incrementSequences dec true signers msgs s = some s1 → (runMsgs dec evmId msgs s1).isSome) →
      deliverHook dec evmId false signers msgs s = some s' → s a < s' a) ∧
    (sent dec a msgs = 0 → deliverHook dec evmId true signers msgs s = some s' → s' a = s a + 1) := by
  constructor
  · intro hid hall h
    cases hante : incrementSequences dec true signers msgs s with
    | none => rw [deliverHook, hante] at h; cases h
    | some s1 =>
      obtain ⟨s2, hok⟩ := Option.isSome_iff_exists.1 (hall s1 hante)
      exact C20_strict_partial dec evmId false signers hn msgs s s' a ha s1 s2 hante hok hid h
  · intro hs h
    rw [deliverHook] at h
    cases hante : incrementSequences dec true signers msgs s with
    | none => rw [hante] at h; cases h
    | some s1 =>
      rw [hante] at h
      simp only [if_true, Option.some.injEq] at h
      subst h
      unfold incrementSequences at hante
      rw [if_pos rfl] at hante
      rw [perSender_eq dec (-1) msgs _ _ _ hante a, foldl_bump_mem signers hn s a ha]
      have := names_le_sent dec a msgs []
      omega

end

/-- An account at sequence 7 that can be written as `i` and as `I` is back at 4 after three failed transactions. -/
example : ∃ txs : List (Bool × List Nat × List (SMsg Nat)), txs.length = 3 ∧
    deliverAll (fun c => if c = ['i'] ∨ c = ['I'] then some 1 else none) id false txs (fun _ => 7) 1 = 4 := by
  obtain ⟨txs, h1, _, h2⟩ := C20_violated_rewind (fun c => if c = ['i'] ∨ c = ['I'] then some 1 else none) id ['i'] ['I'] 1
    (by decide) rfl rfl 3
  exact ⟨txs, h1, (h2 (fun _ => 7)).1⟩

/-- Two accounts (`false` long, `true` its shorthand); strings name the long one. -/
example : ∃ (dec : Str → Option Bool) (evmId : Bool → Bool), dec [] = some false ∧ evmId false ≠ false :=
  ⟨fun _ => some false, fun _ => true, rfl, by decide⟩

/-- A two-call transaction: sequence 5 goes to 7 on success, 6 on failure (post-handler writes kept), and stays
5 on failure when they are dropped. -/
example :
    (deliver (fun c => if c = ['a'] then some 1 else none) id false false [1] [.call ['a'], .create ['a']]
      (fun _ : Nat => (5 : Int))).map (· 1) = some 7 ∧
    (deliver (fun c => if c = ['a'] then some 1 else none) id true true [1] [.call ['a'], .create ['a']]
      (fun _ : Nat => (5 : Int))).map (· 1) = some 6 ∧
    (deliver (fun c => if c = ['a'] then some 1 else none) id false true [1] [.call ['a'], .create ['a']]
      (fun _ : Nat => (5 : Int))).map (· 1) = some 5 := by decide +kernel

end Verif.Props.SigAnte
