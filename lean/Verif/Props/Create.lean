import Verif.Model.Create
import Verif.Model.SigAnte
import Verif.Props.Eth
/-
C82: a contract is only ever created at an address nobody uses, the constructor finds it blank, and the address is the
one a wallet computes.
-/
namespace Verif.Props.Create
open Verif Verif.World Verif.Create

/-! ### Specification vocabulary: only accounts, stored words and balances -/

/-- Somebody uses the address: a contract (finished or not), a module, the shorthand of a longer address, an account
whose key is on record or which has a sequence, or any stored word. -/
def InUse (w : World) (a : Addr) : Prop :=
  (∃ acc, w.acct a = some acc ∧
    ((∃ h, acc.kind = .contract h) ∨ acc.kind = .module ∨ (∃ o, acc.kind = .shorthand o) ∨
      acc.pubKey ≠ none ∨ acc.seq ≠ 0)) ∨
  (∃ s b, w.vm (stateKey a s) = some b)

/-- The two states agree on everything a contract or a user can learn about an address except its nonce. -/
structure SameBut (w w' : World) (b : Addr) : Prop where
  bal : w'.bal b = w.bal b
  acct : w'.acct b = w.acct b
  slots : ∀ s, w'.vm (stateKey b s) = w.vm (stateKey b s)
  code : ∀ h, w'.vm (codeKey b h) = w.vm (codeKey b h)

/-- Every storage record of an address is the record of some word: holds in every reachable state
(`C82_records`). -/
def Records (w : World) : Prop :=
  ∀ a k, (w.vm (stateKeyPrefix a ++ k)).isSome = true → ∃ s : Hash, k = s.bytes

variable {keccak : Bytes → Hash} {eh : Hash} {f : Bool} {w w' u : World} {e : Nat} {caller a : Addr} {v : Nat}

theorem stateKey_prefix (a : Addr) (s : Hash) : stateKey a s = stateKeyPrefix a ++ s.bytes := by
  simp [stateKey, stateKeyPrefix, List.append_assoc]

theorem storageRoot_false : storageRoot w a = false ↔ occupied w a = false ∧ ¬ HasRecord w a := by
  unfold storageRoot
  by_cases h : occupied w a = true <;> simp [h]

theorem storageRoot_of_inUse (h : InUse w a) : storageRoot w a = true := by
  cases hs : storageRoot w a with
  | true => rfl
  | false =>
    obtain ⟨h1, h2⟩ := storageRoot_false.mp hs
    rcases h with ⟨acc, h, hk⟩ | ⟨s, b, h⟩
    · obtain ⟨kd, n, q, pk⟩ := acc
      simp only [occupied, h, Account.isEmpty] at h1
      cases kd <;> simp_all
    · exact absurd ⟨s.bytes, by rw [← stateKey_prefix, h]; rfl⟩ h2

theorem storageRoot_acct (h : storageRoot w a = false) :
    w.acct a = none ∨ ∃ n, w.acct a = some ⟨.base, n, 0, none⟩ := by
  have h1 := (storageRoot_false.mp h).1
  cases hw : w.acct a with
  | none => exact Or.inl rfl
  | some acc =>
    right
    obtain ⟨kd, n, q, pk⟩ := acc
    simp only [occupied, hw, Account.isEmpty] at h1
    cases kd <;> simp_all

theorem storageRoot_slots (h : storageRoot w a = false) (k : Bytes) : w.vm (stateKeyPrefix a ++ k) = none := by
  have h2 := (storageRoot_false.mp h).2
  cases hk : w.vm (stateKeyPrefix a ++ k) with
  | none => rfl
  | some b => exact absurd ⟨k, by simp [hk]⟩ h2

theorem collides_storageRoot (h : collides eh w a = false) : storageRoot w a = false := by
  unfold collides at h
  simp only [Bool.or_eq_false_iff] at h
  exact h.2

theorem not_collides (h : storageRoot w a = false) : collides eh w a = false := by
  unfold collides
  rcases storageRoot_acct h with ha | ⟨n, ha⟩ <;>
    simp [World.getNonce, World.getCodeHash, ha, h]

theorem setNonce_other {n : Nat} {b : Addr} (h : b ≠ a) : (w.setNonce a n).acct b = w.acct b := by
  simp only [World.setNonce, upd]
  rw [if_neg h, World.getOrNew]
  cases w.acct a <;> rfl

theorem setNonce_vm {n : Nat} : (w.setNonce a n).vm = w.vm := by
  simp only [World.setNonce, World.getOrNew]; cases w.acct a <;> rfl

theorem setNonce_bal {n : Nat} : (w.setNonce a n).bal = w.bal := by
  simp only [World.setNonce, World.getOrNew]; cases w.acct a <;> rfl

theorem setNonce_nonce {n : Nat} : (w.setNonce a n).getNonce a = n := by
  simp [World.setNonce, World.getNonce, upd]

theorem begun_acct (b : Addr) : (begun f w e caller a).acct b = (w.setNonce caller (w.getNonce caller + 1)).acct b := by
  cases f <;> rfl
theorem begun_vm : (begun f w e caller a).vm = w.vm := by
  cases f <;> exact setNonce_vm (n := w.getNonce caller + 1)
theorem begun_bal : (begun f w e caller a).bal = w.bal := by
  cases f <;> exact setNonce_bal (n := w.getNonce caller + 1)

theorem begun_other {b : Addr} (h : b ≠ caller) : SameBut w (begun f w e caller a) b :=
  ⟨by rw [begun_bal], by rw [begun_acct, setNonce_other h], fun s => by rw [begun_vm], fun s => by rw [begun_vm]⟩

theorem inUse_begun (hne : a ≠ caller) (h : InUse w a) : InUse (begun f w e caller a) a := by
  rcases h with ⟨acc, h, hk⟩ | ⟨s, b, h⟩
  · exact Or.inl ⟨acc, by rw [begun_acct, setNonce_other hne, h], hk⟩
  · exact Or.inr ⟨s, b, by rw [begun_vm, h]⟩

/-! ### C82 -/

/-- C82: a creation at an address in use does not start: it is refused, or it is a collision that changes nothing but
the caller's nonce and the set of warm addresses — whatever the caller, value and execution. -/
theorem C82_taken (hne : a ≠ caller) (h : InUse w a) :
    enter eh f w e caller a v = .refused ∨
    ∃ w1, enter eh f w e caller a v = .collision w1 ∧ w1.vm = w.vm ∧ w1.bal = w.bal ∧
      (∀ b, b ≠ caller → w1.acct b = w.acct b) ∧ w1.getNonce caller = w.getNonce caller + 1 := by
  simp only [enter]
  by_cases h1 : w.getBalance caller < v
  · exact Or.inl (if_pos h1)
  rw [if_neg h1]
  by_cases h2 : w.getNonce caller + 1 = 18446744073709551616
  · exact Or.inl (if_pos h2)
  rw [if_neg h2, if_pos]
  · refine Or.inr ⟨_, rfl, begun_vm, begun_bal, fun b hb => (begun_other hb).acct, ?_⟩
    have : (begun f w e caller a).getNonce caller = (w.setNonce caller (w.getNonce caller + 1)).getNonce caller := by
      cases f <;> rfl
    rw [this, setNonce_nonce]
  · have := storageRoot_of_inUse (inUse_begun (f := f) (e := e) hne h)
    simp [collides, this]

/-- The state in which the constructor runs, when the address is free. -/
theorem createContract_free (hf : storageRoot w a = false) :
    ∃ w3, (if w.exist a then w else w.createAccount a).createContract e a = some w3 ∧
      (∃ n, w3.acct a = some (newContractAccount n)) ∧ (∀ b, b ≠ a → w3.acct b = w.acct b) ∧
      w3.vm = w.vm ∧ w3.bal = w.bal := by
  rcases storageRoot_acct hf with ha | ⟨n, ha⟩
  · have hx : w.exist a = false := by simp [World.exist, ha]
    simp only [hx, Bool.false_eq_true, if_false]
    have hc : (w.createAccount a).acct a = some ⟨.base, w.nextNum, 0, none⟩ := by
      simp [World.createAccount, World.newAccount, upd]
    simp only [World.createContract, hc, Account.isEmpty]
    refine ⟨_, rfl, ⟨w.nextNum, by simp [upd]⟩, ?_, rfl, rfl⟩
    intro b hb
    simp [upd, hb, World.createAccount, World.newAccount]
  · have hx : w.exist a = true := by simp [World.exist, ha]
    simp only [hx, if_true]
    simp only [World.createContract, ha, Account.isEmpty]
    refine ⟨_, rfl, ⟨n, by simp [upd]⟩, ?_, rfl, rfl⟩
    intro b hb
    simp [upd, hb]

theorem free_of_not_inUse (hr : Records w) (h : ¬ InUse w a) : storageRoot w a = false := by
  rw [storageRoot_false]
  constructor
  · cases hw : w.acct a with
    | none => simp [occupied, hw]
    | some acc =>
      obtain ⟨kd, n, q, pk⟩ := acc
      cases ho : occupied w a with
      | false => rfl
      | true =>
        refine absurd (Or.inl ⟨_, hw, ?_⟩) h
        simp only [occupied, hw, Account.isEmpty] at ho
        cases kd with
        | base =>
          cases pk with
          | none => right; right; right; right; simpa using ho
          | some k => right; right; right; left; simp
        | module => exact Or.inr (Or.inl rfl)
        | shorthand o => exact Or.inr (Or.inr (Or.inl ⟨o, rfl⟩))
        | contract x => exact Or.inl ⟨x, rfl⟩
  · rintro ⟨k, hk⟩
    obtain ⟨s, rfl⟩ := hr a k hk
    rw [← stateKey_prefix] at hk
    obtain ⟨b, hb⟩ := Option.isSome_iff_exists.mp hk
    exact h (Or.inr ⟨s, b, hb⟩)

/-- C82: at an address nobody uses, a creation starts exactly when the caller has the value and its nonce is not
exhausted; it never collides, and never aborts while the sum of the two balances is a 256-bit number. -/
theorem C82_free (hr : Records w) (hne : a ≠ caller) (hu : ¬ InUse w a)
    (hsum : w.bal caller + w.bal a < 2 ^ 256) :
    (∃ w1 w0, enter eh f w e caller a v = .entered w1 w0) ↔
      v ≤ w.bal caller ∧ w.getNonce caller + 1 ≠ 18446744073709551616 := by
  have hfree := free_of_not_inUse hr hu
  simp only [enter]
  by_cases h1 : w.getBalance caller < v
  · rw [if_pos h1]
    constructor
    · rintro ⟨_, _, h⟩; cases h
    · rintro ⟨h, _⟩; exact absurd h1 (by simpa [World.getBalance] using h)
  rw [if_neg h1]
  by_cases h2 : w.getNonce caller + 1 = 18446744073709551616
  · rw [if_pos h2]
    constructor
    · rintro ⟨_, _, h⟩; cases h
    · rintro ⟨_, h⟩; exact absurd h2 h
  rw [if_neg h2]
  have hv : v ≤ w.bal caller := Nat.le_of_not_lt h1
  have hf' : storageRoot (begun f w e caller a) a = false := by
    rw [storageRoot_false] at hfree ⊢
    unfold occupied HasRecord at hfree ⊢
    rw [begun_vm, begun_acct, setNonce_other hne]
    exact hfree
  rw [if_neg (by simp [not_collides hf'])]
  obtain ⟨w3, h3, ⟨n, hn⟩, ho, hvm, hb⟩ := createContract_free (e := e) hf'
  rw [h3]
  have hbal : (w3.setNonce a 1).bal = w.bal := by rw [setNonce_bal, hb, begun_bal]
  have : ∃ w4, pay (w3.setNonce a 1) caller a v = some w4 := by
    simp only [pay, World.subBalance, World.addBalance]
    by_cases h0 : v = 0
    · simp [h0]
    · simp only [h0, if_false, hbal, if_pos hv, Option.bind_some]
      rw [if_pos]
      · exact ⟨_, rfl⟩
      · simp only [upd, if_neg hne]; omega
  obtain ⟨w4, h4⟩ := this
  simp only [h4]
  exact ⟨fun _ => ⟨hv, h2⟩, fun _ => ⟨_, _, rfl⟩⟩

theorem pay_eq {x y : Addr} (hxy : y ≠ x) (h : pay w x y v = some w') :
    w'.acct = w.acct ∧ w'.vm = w.vm ∧ v ≤ w.bal x ∧ w'.bal x = w.bal x - v ∧ w'.bal y = w.bal y + v ∧
      ∀ b, b ≠ x → b ≠ y → w'.bal b = w.bal b := by
  simp only [pay, World.subBalance, World.addBalance] at h
  by_cases h0 : v = 0
  · simp only [h0, if_true, Option.bind_some, Option.some.injEq] at h
    subst h
    refine ⟨rfl, rfl, by omega, by omega, by omega, fun _ _ _ => rfl⟩
  · simp only [h0, if_false] at h
    by_cases h1 : v ≤ w.bal x
    · rw [if_pos h1, Option.bind_some] at h
      split at h
      · simp only [Option.some.injEq] at h
        subst h
        refine ⟨rfl, rfl, h1, ?_, ?_, ?_⟩
        · simp [upd, hxy.symm]
        · simp [upd, hxy]
        · intro b hb hb'; simp [upd, hb, hb']
      · cases h
    · rw [if_neg h1] at h; cases h

/-- C82: a constructor only ever runs at an address that nobody used, and it finds it blank — nonce 1, no code, every
storage word zero, the old balance plus the value; the caller has paid the value and its nonce advanced by one; nothing
else changed. This holds in every state, not only in reachable ones. -/
theorem C82_blank (hne : a ≠ caller) (h : enter eh f w e caller a v = .entered w' u) :
    ¬ InUse w a ∧
    w'.getNonce a = 1 ∧ (w.vm (codeKey a []) = none → w'.getCode a = []) ∧ (∀ s, w'.getState a s = Hash.zero) ∧
    w'.bal a = w.bal a + v ∧ w'.bal caller = w.bal caller - v ∧ v ≤ w.bal caller ∧
    w'.getNonce caller = w.getNonce caller + 1 ∧
    ∀ b, b ≠ a → b ≠ caller → SameBut w w' b := by
  simp only [enter] at h
  split at h
  · cases h
  split at h
  · cases h
  split at h
  · cases h
  rename_i hcol
  have hf' : storageRoot (begun f w e caller a) a = false := collides_storageRoot (by simpa using hcol)
  obtain ⟨w3, h3, ⟨n, hn⟩, ho, hvm, hb⟩ := createContract_free (e := e) hf'
  rw [h3] at h
  simp only at h
  split at h
  · cases h
  rename_i w4 h4
  simp only [Entry.entered.injEq] at h
  obtain ⟨rfl, rfl⟩ := h
  obtain ⟨pa, pvm, pv, pc, pb, po⟩ := pay_eq hne h4
  have hvm4 : w4.vm = w.vm := by rw [pvm, setNonce_vm, hvm, begun_vm]
  have hacc : w4.acct a = some { newContractAccount n with seq := 1 } := by
    rw [pa]; simp [World.setNonce, upd, World.getOrNew, hn]
  have hother : ∀ b, b ≠ a → w4.acct b = (begun f w e caller a).acct b := by
    intro b hb
    rw [pa, setNonce_other hb, ho b hb]
  have hbal3 : (w3.setNonce a 1).bal = w.bal := by rw [setNonce_bal, hb, begun_bal]
  rw [hbal3] at pc pb po pv
  refine ⟨?_, ?_, ?_, ?_, pb, pc, pv, ?_, ?_⟩
  · intro hu
    have := storageRoot_of_inUse (inUse_begun (f := f) (e := e) hne hu)
    rw [hf'] at this; cases this
  · simp [World.getNonce, hacc]
  · intro hz; simp [World.getCode, hacc, newContractAccount, hvm4, hz]
  · intro s
    have hz := storageRoot_slots hf' s.bytes
    rw [begun_vm, ← stateKey_prefix] at hz
    simp [World.getState, hacc, hvm4, hz]
  · have : w4.acct caller = (w.setNonce caller (w.getNonce caller + 1)).acct caller := by
      rw [hother caller (fun h => hne h.symm), begun_acct]
    have h2 := setNonce_nonce (w := w) (a := caller) (n := w.getNonce caller + 1)
    unfold World.getNonce at h2 ⊢
    rw [this]; exact h2
  · intro b hb hb'
    exact ⟨po b hb' hb, by rw [hother b hb, (begun_other hb').acct], fun s => by rw [hvm4], fun s => by rw [hvm4]⟩

/-! ### Reachable states -/

open Verif.Eth Verif.Props.Eth

theorem records_step {op : StateOp} (hr : Records w) (h : w.step keccak e op = some w') : Records w' := by
  intro a k hk
  rcases step_vm keccak h with ⟨b, s, x, _, hv⟩ | ⟨b, c, _, hv⟩ | hv
  · rw [hv] at hk
    simp only [upd] at hk
    split at hk
    · rename_i heq
      rw [stateKey_prefix] at heq
      simp only [stateKeyPrefix, List.append_assoc] at heq
      have := (append_inj_addr heq).2
      exact ⟨s, List.append_cancel_left this⟩
    · exact hr a k hk
  · rw [hv] at hk
    simp only [upd] at hk
    split at hk
    · rename_i heq
      simp only [stateKeyPrefix, codeSizeKey, List.append_assoc] at heq
      have := (append_inj_addr heq).2
      simp [statePrefix, codeSizePrefix] at this
    · split at hk
      · rename_i heq
        simp only [stateKeyPrefix, codeKey, List.append_assoc] at heq
        have := (append_inj_addr heq).2
        simp [statePrefix, codePrefix] at this
      · exact hr a k hk
  · rw [hv] at hk; exact hr a k hk

theorem records_run (l : List Event) (hr : Records w) (h : runDB keccak w l = some w') : Records w' := by
  induction l generalizing w with
  | nil => simp only [runDB, Option.some.injEq] at h; exact h ▸ hr
  | cons x l ih =>
    cases x with
    | start e => exact ih (w := w.newStateDB e) hr h
    | commit e =>
      refine ih (w := w.commitDestructs e) ?_ h
      intro a k hk
      rw [stateKeyPrefix, List.append_assoc, commit_vm] at hk
      split at hk
      · cases hk
      · exact hr a k (by rw [stateKeyPrefix, List.append_assoc]; exact hk)
    | perform e op =>
      simp only [runDB, Option.bind_eq_some_iff] at h
      obtain ⟨w1, h1, h2⟩ := h
      exact ih (records_step hr h1) h2

/-- C82: in every reachable state the storage records of an address are records of words. -/
theorem C82_records (l : List Event) (h : runDB keccak Spec.emptyWorld l = some w) : Records w :=
  records_run l (fun a k hk => by cases hk) h

/-- Everything `Good` says about a state reached by a history. -/
theorem good_run (l : List Event) (hg : Good keccak w) (h : runDB keccak w l = some w') : Good keccak w' := by
  induction l generalizing w with
  | nil => simp only [runDB, Option.some.injEq] at h; exact h ▸ hg
  | cons x l ih =>
    cases x with
    | start e => exact ih (newStateDB_Good keccak hg e) h
    | commit e => exact ih (commit_Good keccak hg e) h
    | perform e op =>
      simp only [runDB, Option.bind_eq_some_iff] at h
      obtain ⟨w1, h1, h2⟩ := h
      exact ih (step_Good keccak hg h1) h2

/-- A history that neither aborts the creation of an account over an existing one (go-ethereum asks `Exist` first) nor
commits the destruction of `a`. -/
def Keeps (keccak : Bytes → Hash) (a : Addr) (w : World) : List Event → Prop
  | [] => True
  | .start e :: l => Keeps keccak a (w.newStateDB e) l
  | .commit e :: l => w.destructed e a = false ∧ Keeps keccak a (w.commitDestructs e) l
  | .perform e op :: l => op ≠ .createAccount a ∧ ∀ w', w.step keccak e op = some w' → Keeps keccak a w' l

theorem contract_step {op : StateOp} (hop : op ≠ .createAccount a) (hc : ∃ acc x, w.acct a = some acc ∧ acc.kind = .contract x)
    (h : w.step keccak e op = some w') : ∃ acc x, w'.acct a = some acc ∧ acc.kind = .contract x := by
  obtain ⟨acc, x, ha, hk⟩ := hc
  have hf := step_frame keccak h
  cases op with
  | createAccount b =>
    simp only [World.step, World.createAccount, World.newAccount, Option.some.injEq] at h; subst h
    by_cases hb : a = b
    · subst hb; exact absurd rfl hop
    · exact ⟨acc, x, by simp [upd, hb, ha], hk⟩
  | createContract b =>
    simp only [World.step, World.createContract] at h
    split at h
    · split at h
      · rename_i acc' hacc' hem
        simp only [Option.some.injEq] at h; subst h
        by_cases hb : a = b
        · exact ⟨newContractAccount acc'.num, [], by simp [upd, hb], rfl⟩
        · exact ⟨acc, x, by simp [upd, hb, ha], hk⟩
      · cases h
    · simp only [Option.some.injEq] at h; subst h
      by_cases hb : a = b
      · exact ⟨newContractAccount w.nextNum, [], by simp [upd, hb], rfl⟩
      · exact ⟨acc, x, by simp [upd, hb, ha], hk⟩
  | setCode b c =>
    simp only [World.step, World.setCode] at h
    have hga := getOrNew_acct w b
    split at h
    · simp only [Option.some.injEq] at h; subst h
      by_cases hb : a = b
      · subst hb
        exact ⟨_, _, by simp [upd]; rfl, rfl⟩
      · exact ⟨acc, x, by simp [upd, hb, hga, ha], hk⟩
    · cases h
  | setNonce b n =>
    simp only [World.step, World.setNonce, Option.some.injEq] at h; subst h
    have hga := getOrNew_acct w b
    by_cases hb : a = b
    · subst hb
      exact ⟨{ acc with seq := n }, x, by simp [upd, World.getOrNew, ha], hk⟩
    · exact ⟨acc, x, by simp [upd, hb, hga, ha], hk⟩
  | addBalance b n =>
    simp only [World.step, World.addBalance] at h
    split at h
    · simp only [Option.some.injEq] at h; subst h; exact ⟨acc, x, ha, hk⟩
    · split at h
      · simp only [Option.some.injEq] at h; subst h; exact ⟨acc, x, ha, hk⟩
      · cases h
  | subBalance b n =>
    simp only [World.step, World.subBalance] at h
    split at h
    · simp only [Option.some.injEq] at h; subst h; exact ⟨acc, x, ha, hk⟩
    · split at h
      · simp only [Option.some.injEq] at h; subst h; exact ⟨acc, x, ha, hk⟩
      · cases h
  | addRefund g =>
    simp only [World.step, World.addRefund] at h
    split at h
    · cases h
    · simp only [Option.some.injEq] at h; subst h; exact ⟨acc, x, ha, hk⟩
  | subRefund g =>
    simp only [World.step, World.subRefund] at h
    split at h
    · cases h
    · split at h
      · cases h
      · simp only [Option.some.injEq] at h; subst h; exact ⟨acc, x, ha, hk⟩
  | addAddress b => simp only [World.step, Option.some.injEq] at h; subst h; exact ⟨acc, x, ha, hk⟩
  | addSlot b s =>
    simp only [World.step, World.addSlot, Option.some.injEq] at h
    subst h
    refine ⟨acc, x, ?_, hk⟩
    split <;> exact ha
  | setState b s y => simp only [World.step, World.setState, Option.some.injEq] at h; subst h; exact ⟨acc, x, ha, hk⟩
  | setTransientState b s y =>
    simp only [World.step, World.setTransientState, Option.some.injEq] at h
    split at h <;> subst h <;> exact ⟨acc, x, ha, hk⟩
  | selfDestruct b =>
    simp only [World.step] at h
    obtain ⟨_, _, rfl, _⟩ := selfDestruct_eq h; exact ⟨acc, x, ha, hk⟩
  | selfDestruct6780 b =>
    simp only [World.step] at h
    obtain ⟨_, _, rfl, _⟩ := selfDestruct6780_eq h; exact ⟨acc, x, ha, hk⟩
  | addLog l =>
    simp only [World.step, World.addLog] at h
    split at h
    · cases h
    · simp only [Option.some.injEq] at h; subst h; exact ⟨acc, x, ha, hk⟩

theorem contract_run (l : List Event) (hk : Keeps keccak a w l)
    (hc : ∃ acc x, w.acct a = some acc ∧ acc.kind = .contract x) (h : runDB keccak w l = some w') :
    ∃ acc x, w'.acct a = some acc ∧ acc.kind = .contract x := by
  induction l generalizing w with
  | nil => simp only [runDB, Option.some.injEq] at h; exact h ▸ hc
  | cons y l ih =>
    cases y with
    | start e => exact ih hk hc h
    | commit e =>
      refine ih hk.2 ?_ h
      obtain ⟨acc, x, h1, h2⟩ := hc
      exact ⟨acc, x, by simp [World.commitDestructs, hk.1, h1], h2⟩
    | perform e op =>
      simp only [runDB, Option.bind_eq_some_iff] at h
      obtain ⟨w1, h1, h2⟩ := h
      exact ih (hk.2 w1 h1) (contract_step hk.1 hc h1) h2

/-- C82: once a contract was created at an address, no later creation starts there — after any history of executions,
by any caller, through nonce or salt — until the contract's destruction is committed. -/
theorem C82_once {init : Constructor} {caller' : Addr} {v' e' : Nat} {f' : Bool} (l : List Event) (hne' : a ≠ caller')
    (h : create keccak f w e caller a v init = .created w') (hk : Keeps keccak a w' l)
    {w'' : World} (hl : runDB keccak w' l = some w'') (w1 w0 : World) :
    enter (keccak []) f' w'' e' caller' a v' ≠ .entered w1 w0 := by
  have hc : ∃ acc x, w'.acct a = some acc ∧ acc.kind = .contract x := by
    simp only [create] at h
    split at h <;> try cases h
    split at h
    · cases h
    split at h
    · cases h
    rename_i w2 code _ w3 h3
    simp only [Outcome.created.injEq] at h
    subst h
    simp only [World.setCode] at h3
    split at h3
    · simp only [Option.some.injEq] at h3; subst h3
      exact ⟨_, _, by simp [upd]; rfl, rfl⟩
    · cases h3
  obtain ⟨acc, x, h1, h2⟩ := contract_run l hk hc hl
  have hu : InUse w'' a := Or.inl ⟨acc, h1, Or.inl ⟨x, h2⟩⟩
  rcases C82_taken (eh := keccak []) (f := f') (e := e') (v := v') hne' hu with h | ⟨y, h, _⟩ <;> rw [h] <;> simp

/-- C82: a creation that does not succeed leaves the target address exactly as it was: its account, its words, its
code and its balance. -/
theorem C82_failed {init : Constructor} (hne : a ≠ caller)
    (h : create keccak f w e caller a v init = .refused w' ∨ create keccak f w e caller a v init = .collision w' ∨
      create keccak f w e caller a v init = .failed w') :
    SameBut w w' a ∧ w'.bal = w.bal ∧ w'.vm = w.vm := by
  have key : w' = w ∨ w' = begun f w e caller a := by
    simp only [create, enter] at h
    split at h
    · rename_i h1
      split at h1
      · left; simpa [eq_comm] using h
      · split at h1
        · left; simpa [eq_comm] using h
        · split at h1
          · cases h1
          · split at h1
            · cases h1
            · split at h1 <;> cases h1
    · rename_i h1
      split at h1
      · cases h1
      · split at h1
        · cases h1
        · split at h1
          · simp only [Entry.collision.injEq] at h1
            subst h1
            right; simpa [eq_comm] using h
          · split at h1
            · cases h1
            · split at h1 <;> cases h1
    · simp at h
    · rename_i h1
      split at h1
      · cases h1
      · split at h1
        · cases h1
        · split at h1
          · cases h1
          · split at h1
            · cases h1
            · split at h1
              · cases h1
              · simp only [Entry.entered.injEq] at h1
                obtain ⟨_, rfl⟩ := h1
                split at h
                · right; simpa [eq_comm] using h
                · split at h <;> simp at h
  rcases key with rfl | rfl
  · exact ⟨⟨rfl, rfl, fun _ => rfl, fun _ => rfl⟩, rfl, rfl⟩
  · exact ⟨begun_other hne, begun_bal, begun_vm⟩

/-- C82: in every reachable state the constructor of a new contract sees no code at its address (with `C82_blank`). -/
theorem C82_blank_code (l : List Event) (h : runDB keccak Spec.emptyWorld l = some w) (hne : a ≠ caller)
    (he : enter eh f w e caller a v = .entered w' u) : w'.getCode a = [] := by
  have hg : Good keccak w := good_run l ⟨(by intro a x h hx; cases hx), fun a => ⟨rfl, rfl⟩, (by intro e a k h; cases h)⟩ h
  exact (C82_blank hne he).2.2.1 (hg.nohash a).1

/-! ### The address -/

/-- C82: a creation that starts, or collides, uses up exactly one nonce of the caller — also when the constructor later
fails — so the next address announced for the caller is a new one. -/
theorem C82_next (derive : Addr → Nat → Addr) (hinj : ∀ x n m, derive x n = derive x m → n = m) (hne : a ≠ caller)
    (h : enter eh f w e caller a v = .collision w' ∨ enter eh f w e caller a v = .entered w' u ∨
      enter eh f w e caller a v = .entered u w') :
    w'.getNonce caller = w.getNonce caller + 1 ∧
    nextContractAddress derive w' caller ≠ nextContractAddress derive w caller := by
  have hb : (begun f w e caller a).getNonce caller = w.getNonce caller + 1 := by
    have : (begun f w e caller a).getNonce caller = (w.setNonce caller (w.getNonce caller + 1)).getNonce caller := by
      cases f <;> rfl
    rw [this, setNonce_nonce]
  have key : w'.getNonce caller = w.getNonce caller + 1 := by
    rcases h with h | h | h
    · simp only [enter] at h
      split at h
      · cases h
      split at h
      · cases h
      split at h
      · simp only [Entry.collision.injEq] at h; rw [← h, hb]
      split at h
      · cases h
      split at h <;> cases h
    · exact (C82_blank hne h).2.2.2.2.2.2.2.1
    · simp only [enter] at h
      split at h
      · cases h
      split at h
      · cases h
      split at h
      · cases h
      split at h
      · cases h
      split at h
      · cases h
      · simp only [Entry.entered.injEq] at h; rw [← h.2, hb]
  refine ⟨key, fun hc => ?_⟩
  have := hinj _ _ _ hc
  omega

/-- C82: the address announced beforehand is the one used. -/
theorem C82_announced (derive : Addr → Nat → Addr) (init : Constructor) :
    createByNonce keccak f derive w e caller v init =
      (nextContractAddress derive w caller,
       create keccak f w e caller (nextContractAddress derive w caller) v init) := rfl

open Verif.SigAnte in
/-- C82: the contract of an Ethereum creation transaction is where wallets expect it: at the address derived from the
sender and the nonce it signed. `s` are the sequences when the transaction arrives, `s1` after the ante handler in
block execution; the signature check (C19) has compared the signed nonce with `s`; the state database reads nonces from
the same sequences. -/
theorem C82_wallet (dec : Str → Option Addr) (derive : Addr → Nat → Addr) (init : Constructor) (sender : Addr)
    (c : Str) (n : Nat) (s s1 : Addr → Int) (hdec : dec c = some sender) (hsig : s sender = n)
    (hante : incrementSequences dec true [sender] [SMsg.create c] s = some s1)
    (hw : ∀ b, (w.getNonce b : Int) = s1 b) :
    (createByNonce keccak f derive w e sender v init).1 = derive sender n := by
  simp only [incrementSequences, List.foldl_cons, List.foldl_nil, if_true, perSender, SMsg.evmSender,
    List.not_mem_nil, if_false, hdec, Option.some.injEq] at hante
  have : (w.getNonce sender : Int) = n := by
    rw [hw, ← hante]; simp [bump, hsig]; omega
  have hn : w.getNonce sender = n := by omega
  simp [createByNonce, hn]

/-! ### The hypotheses are met -/

/-- A caller with 50 units, a contract at 9, a funded user account at 8, nothing at 7. -/
def toyWorld : World :=
  { Spec.emptyWorld with
    bal := fun b => if b = Addr.ofNat 5 then 50 else 0
    acct := fun b => if b = Addr.ofNat 9 then some ⟨.contract [1], 3, 1, none⟩
      else if b = Addr.ofNat 8 then some ⟨.base, 4, 0, none⟩ else none }

example : InUse toyWorld (Addr.ofNat 9) :=
  Or.inl ⟨⟨.contract [1], 3, 1, none⟩, by simp [toyWorld], Or.inl ⟨[1], rfl⟩⟩

theorem toy_free7 : ¬ InUse toyWorld (Addr.ofNat 7) := by
  rintro (⟨acc, h, _⟩ | ⟨s, b, h⟩)
  · have : toyWorld.acct (Addr.ofNat 7) = none := by decide
    rw [this] at h; cases h
  · cases h

theorem toy_records : Records toyWorld := fun a k hk => by cases hk

/-- A creation with value at a free address starts. -/
theorem toy_enters : ∃ w1 w0, enter (Props.World.toyKeccak []) true toyWorld 1 (Addr.ofNat 5) (Addr.ofNat 7) 20 =
    .entered w1 w0 :=
  (C82_free toy_records (by decide) toy_free7 (by decide)).mpr (by decide)

/-- … and at an account that only has coins (8). -/
example : ∃ w1 w0, enter (Props.World.toyKeccak []) true toyWorld 1 (Addr.ofNat 5) (Addr.ofNat 8) 20 = .entered w1 w0 := by
  refine (C82_free toy_records (by decide) ?_ (by decide)).mpr (by decide)
  rintro (⟨acc, h, hk⟩ | ⟨s, b, h⟩)
  · have : toyWorld.acct (Addr.ofNat 8) = some ⟨.base, 4, 0, none⟩ := by decide
    rw [this] at h; cases h
    simp at hk
  · cases h

/-- A constructor that deploys one byte of code: the contract is created. -/
theorem toy_created : ∃ w', create Props.World.toyKeccak true toyWorld 1 (Addr.ofNat 5) (Addr.ofNat 7) 20
    (fun w => some (w, [0])) = .created w' := by
  obtain ⟨w1, w0, h⟩ := toy_enters
  have hb := C82_blank (by decide) h
  have hacc : ∃ acc x, w1.acct (Addr.ofNat 7) = some acc ∧ acc.kind = .contract x := by
    simp only [enter] at h
    split at h
    · cases h
    split at h
    · cases h
    split at h
    · cases h
    rename_i hcol
    have hf' := collides_storageRoot (by simpa using hcol)
    obtain ⟨w3, h3, ⟨n, hn⟩, ho, hvm, hb⟩ := createContract_free (e := 1) hf'
    rw [h3] at h
    simp only at h
    split at h
    · cases h
    rename_i w4 h4
    simp only [Entry.entered.injEq] at h
    obtain ⟨rfl, rfl⟩ := h
    obtain ⟨pa, _⟩ := pay_eq (by decide) h4
    exact ⟨{ newContractAccount n with seq := 1 }, [], by rw [pa]; simp [World.setNonce, upd, World.getOrNew, hn], rfl⟩
  obtain ⟨acc, x, h1, h2⟩ := hacc
  simp only [create, h, World.setCode, World.getOrNew, h1]
  have : acc.isEmpty = false := by simp [Account.isEmpty, h2]
  simp only [this, Bool.false_eq_true, if_false, h2]
  exact ⟨_, rfl⟩

/-- A history that keeps the contract. -/
example (w : World) : Keeps Props.World.toyKeccak (Addr.ofNat 7) w
    [.start 2, .perform 2 (.setState (Addr.ofNat 7) (Hash.ofNat 1) (Hash.ofNat 2))] :=
  ⟨by simp, fun _ _ => trivial⟩

end Verif.Props.Create
